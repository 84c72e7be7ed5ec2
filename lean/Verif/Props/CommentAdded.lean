import Verif.Props.Reordered
import Verif.Props.TestPredicts

/-!
# C142: writing a comment into a file takes exactly the violations it silences away
-/

namespace Spec
open Py Fixit Cst

/-- The comment is written in a free place of the node: at the end of its line, at the end of the line that opens its block (or of a block on the same line), behind its comma,
before its closing bracket, on a line of its own behind its opening bracket, under its decorators or above it. -/
inductive CommentIn (c : PStr) : NodeInfo → NodeInfo → Prop
  | endOfLine (n : NodeInfo) : n.trailing = some none → CommentIn c n { n with trailing := some (some c) }
  | blockHeader (n : NodeInfo) : n.trailing = none → n.body = .indented none → CommentIn c n { n with body := .indented (some c) }
  | sameLine (n : NodeInfo) : n.trailing = none → n.body = .simpleSuite none → CommentIn c n { n with body := .simpleSuite (some c) }
  | afterComma (n : NodeInfo) (ls : List OptComment) : n.comma = some (.paren none ls) ∨ (n.comma = some .simple ∧ ls = []) → CommentIn c n { n with comma := some (.paren (some c) ls) }
  | beforeBracket (n : NodeInfo) (ls : List OptComment) : n.rbracket = some (.paren none ls) ∨ (n.rbracket = some .simple ∧ ls = []) →
      CommentIn c n { n with rbracket := some (.paren (some c) ls) }
  | afterBracket (n : NodeInfo) (fl : OptComment) (before after : List OptComment) : n.lbracket = some (.paren fl (before ++ after)) ∨ (n.lbracket = some .simple ∧ before = [] ∧ after = []) →
      CommentIn c n { n with lbracket := some (.paren fl (before ++ some c :: after)) }
  | underDecorators (n : NodeInfo) (before after : List OptComment) : n.linesAfterDecorators = some (before ++ after) →
      CommentIn c n { n with linesAfterDecorators := some (before ++ some c :: after) }
  | above (n : NodeInfo) (before after : List OptComment) : n.leadingLines = some (before ++ after) → CommentIn c n { n with leadingLines := some (before ++ some c :: after) }

/-- The `k`-th node of the chain (the node itself, its parent, …) is the one with the comment; the others are as before. -/
def WrittenAt (c : PStr) (ch ch' : List NodeInfo) (k : Nat) : Prop :=
  ∃ n n', ch[k]? = some n ∧ CommentIn c n n' ∧ ch' = ch.set k n'

section
variable {V M : Type} (o : Outside V M)

/-- `m'` is `m` with the comment in one more place: seen from any node there is, either nothing has changed, or one of the nodes around it has the comment. -/
structure CommentWritten (m m' : Node) (c : PStr) : Prop where
  header : (o.tree m').header = (o.tree m).header
  first : ∀ i, (∃ q, o.pos m' i = .inBody 0 q) ↔ ∃ q, o.pos m i = .inBody 0 q
  chains : ∀ i, ((o.tree m).chain (o.pos m i) = none ∧ (o.tree m').chain (o.pos m' i) = none) ∨
    ∃ ch ch', (o.tree m).chain (o.pos m i) = some ch ∧ (o.tree m').chain (o.pos m' i) = some ch' ∧ (ch' = ch ∨ ∃ k, WrittenAt c ch ch' k)

/-- The new comment is in the statement of the node: at the node or at a node around it, up to the nearest that owns lines. -/
def InStatement (m m' : Node) (c : PStr) (i : Nat) : Prop :=
  ∃ ch ch' k, (o.tree m).chain (o.pos m i) = some ch ∧ (o.tree m').chain (o.pos m' i) = some ch' ∧ WrittenAt c ch ch' k ∧ ∀ j < k, ∀ n, ch[j]? = some n → ¬ OwnsLines n

/-- `m'` is `m` with the comment on one more of the lines above the first statement of the file (the header of the module). -/
structure HeaderWritten (m m' : Node) (c : PStr) : Prop where
  header : ∃ before after, (o.tree m).header = before ++ after ∧ (o.tree m').header = before ++ some c :: after
  first : ∀ i, (∃ q, o.pos m' i = .inBody 0 q) ↔ ∃ q, o.pos m i = .inBody 0 q
  chains : ∀ i, (o.tree m').chain (o.pos m' i) = (o.tree m).chain (o.pos m i)

/-- The node is in the first statement of the module (not inside a statement in it), or in no statement. -/
def InFirstStatement (m : Node) (i : Nat) : Prop :=
  ∃ ch, (o.tree m).chain (o.pos m i) = some ch ∧ ((∀ n ∈ ch, ¬ OwnsLines n) ∨
    ((∃ q, o.pos m i = .inBody 0 q) ∧ ∀ (j : Nat) (n : NodeInfo), j + 1 < ch.length → ch[j]? = some n → ¬ OwnsLines n))

/-- The first directive of the comment names no rule, or this one. -/
def SaysIgnore (c name : PStr) : Prop :=
  ∃ kw names, FirstDirective o.unicode c kw names ∧ (names = none ∨ ∃ ns n, names = some ns ∧ n ∈ ns ∧ Names o.unicode n name)

/-- Each selected rule makes the same reports, about the same nodes with the same messages, in the same order (their fixes may differ: a fix may contain the comment). -/
def SameReports (v : Visits) (files files' : Path → Option Bytes) (cfg : Config V) (m m' : Node) : Prop :=
  ∀ k, Active o files cfg k → ∀ reps reps', (v.rule files cfg.root cfg.path m k).alone (v.names files cfg.root cfg.path m) (v.syn m) = .ok reps →
    (v.rule files' cfg.root cfg.path m' k).alone (v.names files' cfg.root cfg.path m') (v.syn m') = .ok reps' →
    reps'.map (fun r => (r.node, r.message)) = reps.map (fun r => (r.node, r.message))

end
end Spec

namespace Fixit
open Py Spec Gen Cst

/-! ## Which comments belong to a node -/

theorem commentIn_owns {c : PStr} {n n' : NodeInfo} (h : CommentIn c n n') : OwnsLines n' ↔ OwnsLines n := by
  cases h with
  | endOfLine h => exact Iff.rfl
  | blockHeader h h' => exact Iff.rfl
  | sameLine h h' => exact Iff.rfl
  | afterComma ls h => exact Iff.rfl
  | beforeBracket ls h => exact Iff.rfl
  | afterBracket fl before after h => exact Iff.rfl
  | underDecorators before after h => exact Iff.rfl
  | above before after h => simp [OwnsLines, h]

theorem commentIn_attached {c : PStr} {n n' : NodeInfo} (h : CommentIn c n n') (d : PStr) : Attached n' d ↔ Attached n d ∨ d = c := by
  cases h with
  | endOfLine h =>
    simp only [Attached, h, reduceCtorEq, false_and, false_or, Option.some.injEq]
    constructor
    · rintro (h | h)
      · exact .inr h.symm
      · exact .inl h
    · rintro (h | h)
      · exact .inr h
      · exact .inl h.symm
  | blockHeader h h' =>
    simp only [Attached, h, h', reduceCtorEq, false_or, true_and, Body.indented.injEq, Option.some.injEq]
    constructor
    · rintro (h | h)
      · exact .inr h.symm
      · exact .inl h
    · rintro (h | h)
      · exact .inr h
      · exact .inl h.symm
  | sameLine h h' =>
    simp only [Attached, h, h', reduceCtorEq, false_or, or_false, true_and, Body.simpleSuite.injEq, Option.some.injEq]
    constructor
    · rintro (h | h)
      · exact .inr h.symm
      · exact .inl h
    · rintro (h | h)
      · exact .inr h
      · exact .inl h.symm
  | afterComma ls h =>
    unfold Attached
    have key : (∃ l, some (Ws.paren (some c) ls) = some (Ws.paren (some d) l)) ↔ (∃ l, n.comma = some (.paren (some d) l)) ∨ d = c := by
      rcases h with h | ⟨h, rfl⟩ <;> simp [h, eq_comm]
    rw [key, or_right_comm (b := d = c)]
    simp only [or_assoc]
  | beforeBracket ls h =>
    unfold Attached
    have key : (∃ l, some (Ws.paren (some c) ls) = some (Ws.paren (some d) l)) ↔ (∃ l, n.rbracket = some (.paren (some d) l)) ∨ d = c := by
      rcases h with h | ⟨h, rfl⟩ <;> simp [h, eq_comm]
    rw [key, or_right_comm (b := d = c)]
    simp only [or_assoc]
  | afterBracket fl before after h =>
    unfold Attached
    have key : (∃ f l, some (Ws.paren fl (before ++ some c :: after)) = some (Ws.paren f l) ∧ some d ∈ l) ↔ (∃ f l, n.lbracket = some (.paren f l) ∧ some d ∈ l) ∨ d = c := by
      have out : ∀ (g : OptComment) (x : List OptComment), (∃ f l, some (Ws.paren g x) = some (Ws.paren f l) ∧ some d ∈ l) ↔ some d ∈ x := by
        intro g x
        constructor
        · rintro ⟨f, l, hfl, hd⟩
          cases hfl
          exact hd
        · exact fun hd => ⟨g, x, rfl, hd⟩
      rw [out]
      rcases h with h | ⟨h, rfl, rfl⟩
      · rw [h, out]
        simp [or_left_comm, or_comm]
      · simp [h]
    rw [key, or_right_comm (b := d = c)]
    simp only [or_assoc]
  | underDecorators before after h =>
    unfold Attached
    have key : (∃ ls, some (before ++ some c :: after) = some ls ∧ some d ∈ ls) ↔ (∃ ls, n.linesAfterDecorators = some ls ∧ some d ∈ ls) ∨ d = c := by
      rw [h]
      simp [or_assoc, or_left_comm, or_comm]
    rw [key, or_right_comm (b := d = c)]
    simp only [or_assoc]
  | above before after h =>
    unfold Attached
    have key : (∃ ls, some (before ++ some c :: after) = some ls ∧ some d ∈ ls) ↔ (∃ ls, n.leadingLines = some ls ∧ some d ∈ ls) ∨ d = c := by
      rw [h]
      simp only [Option.some.injEq, exists_eq_left', List.mem_append, List.mem_cons]
      constructor
      · rintro (h | h | h)
        · exact .inl (.inl h)
        · exact .inr h
        · exact .inl (.inr h)
      · rintro ((h | h) | h)
        · exact .inl h
        · exact .inr (.inr h)
        · exact .inr (.inl h)
    simp only [key, or_assoc]

variable {V M : Type} (o : Outside V M)

/-- C142: after writing the comment a comment belongs to a node exactly if it did before, or it is the new one and it is in the statement of the node. -/
theorem C142_associated {m m' : Node} {c : PStr} (h : CommentWritten o m m' c) (i : Nat) (d : PStr) :
    Associated (o.tree m') (o.pos m' i) d ↔ Associated (o.tree m) (o.pos m i) d ∨ (d = c ∧ InStatement o m m' c i) := by
  rcases h.chains i with ⟨h1, h2⟩ | ⟨ch, ch', h1, h2, h3⟩
  · simp [Associated, InStatement, h1, h2]
  have hfirst : ∀ P : Prop, (∃ q, o.pos m' i = .inBody 0 q ∧ P) ↔ ∃ q, o.pos m i = .inBody 0 q ∧ P := by
    intro P
    constructor
    · rintro ⟨q, a, b⟩
      obtain ⟨q', a'⟩ := (h.first i).mp ⟨q, a⟩
      exact ⟨q', a', b⟩
    · rintro ⟨q, a, b⟩
      obtain ⟨q', a'⟩ := (h.first i).mpr ⟨q, a⟩
      exact ⟨q', a', b⟩
  unfold Associated InStatement
  simp only [h1, h2, Option.some.injEq, exists_eq_left', h.header, hfirst]
  have hown : (∀ (j : Nat) (n' : NodeInfo), ch'[j]? = some n' → ∃ n, ch[j]? = some n ∧ (OwnsLines n' ↔ OwnsLines n)) ∧
      (∀ (j : Nat) (n : NodeInfo), ch[j]? = some n → ∃ n', ch'[j]? = some n' ∧ (OwnsLines n' ↔ OwnsLines n)) ∧ ch'.length = ch.length := by
    rcases h3 with rfl | ⟨k, n0, n0', e1, e2, rfl⟩
    · exact ⟨fun j n hn => ⟨n, hn, Iff.rfl⟩, fun j n hn => ⟨n, hn, Iff.rfl⟩, rfl⟩
    · have hk : k < ch.length := (List.getElem?_eq_some_iff.mp e1).1
      refine ⟨fun j n hn => ?_, fun j n hn => ?_, List.length_set⟩
      · rw [List.getElem?_set] at hn
        by_cases hjk : k = j
        · subst hjk
          rw [if_pos rfl, if_pos hk] at hn
          cases hn
          exact ⟨n0, e1, commentIn_owns e2⟩
        · rw [if_neg hjk] at hn
          exact ⟨n, hn, Iff.rfl⟩
      · rw [List.getElem?_set]
        by_cases hjk : k = j
        · subst hjk
          rw [e1] at hn
          cases hn
          exact ⟨n0', by rw [if_pos rfl, if_pos hk], commentIn_owns e2⟩
        · exact ⟨n, by rw [if_neg hjk]; exact hn, Iff.rfl⟩
  obtain ⟨o1, o2, o3⟩ := hown
  have hbelow : ∀ (P : Nat → Prop), (∀ (j : Nat), P j → ∀ n', ch'[j]? = some n' → ¬ OwnsLines n') ↔ ∀ (j : Nat), P j → ∀ n, ch[j]? = some n → ¬ OwnsLines n := by
    intro P
    constructor
    · intro hP j hj n hn ho
      obtain ⟨n', a, b⟩ := o2 j n hn
      exact hP j hj n' a (b.mpr ho)
    · intro hP j hj n' hn ho
      obtain ⟨n, a, b⟩ := o1 j n' hn
      exact hP j hj n a (b.mp ho)
  have hall : (∀ n ∈ ch', ¬ OwnsLines n) ↔ ∀ n ∈ ch, ¬ OwnsLines n := by
    have := hbelow (fun _ => True)
    simp only [true_imp_iff] at this
    constructor
    · intro hP n hn
      obtain ⟨j, hj⟩ := List.mem_iff_getElem?.mp hn
      exact this.mp (fun j n hn => hP n (List.mem_iff_getElem?.mpr ⟨j, hn⟩)) j n hj
    · intro hP n hn
      obtain ⟨j, hj⟩ := List.mem_iff_getElem?.mp hn
      exact this.mpr (fun j n hn => hP n (List.mem_iff_getElem?.mpr ⟨j, hn⟩)) j n hj
  have hlast : (∀ (j : Nat) (n : NodeInfo), j + 1 < ch'.length → ch'[j]? = some n → ¬ OwnsLines n) ↔ ∀ (j : Nat) (n : NodeInfo), j + 1 < ch.length → ch[j]? = some n → ¬ OwnsLines n := by
    rw [o3]
    have := hbelow (fun j => j + 1 < ch.length)
    exact ⟨fun hP j n hj hn => this.mp (fun j hj n hn => hP j n hj hn) j hj n hn, fun hP j n hj hn => this.mpr (fun j hj n hn => hP j n hj hn) j hj n hn⟩
  rw [hall, hlast]
  have hatt : (∃ (k : Nat) (n : NodeInfo), ch'[k]? = some n ∧ Attached n d ∧ ∀ j < k, ∀ n', ch'[j]? = some n' → ¬ OwnsLines n') ↔
      (∃ (k : Nat) (n : NodeInfo), ch[k]? = some n ∧ Attached n d ∧ ∀ j < k, ∀ n', ch[j]? = some n' → ¬ OwnsLines n') ∨
      (d = c ∧ ∃ k, WrittenAt c ch ch' k ∧ ∀ j < k, ∀ n, ch[j]? = some n → ¬ OwnsLines n) := by
    constructor
    · rintro ⟨k, n, e1, e2, e3⟩
      have e4 := (hbelow (fun j => j < k)).mp e3
      rcases h3 with rfl | ⟨k0, n0, n0', f1, f2, rfl⟩
      · exact .inl ⟨k, n, e1, e2, e4⟩
      · have hk : k0 < ch.length := (List.getElem?_eq_some_iff.mp f1).1
        rw [List.getElem?_set] at e1
        by_cases hjk : k0 = k
        · subst hjk
          rw [if_pos rfl, if_pos hk] at e1
          cases e1
          rcases (commentIn_attached f2 d).mp e2 with e2 | e2
          · exact .inl ⟨k0, n0, f1, e2, e4⟩
          · exact .inr ⟨e2, k0, ⟨n0, _, f1, f2, rfl⟩, e4⟩
        · rw [if_neg hjk] at e1
          exact .inl ⟨k, n, e1, e2, e4⟩
    · rintro (⟨k, n, e1, e2, e3⟩ | ⟨rfl, k, ⟨n0, n0', f1, f2, f3⟩, e3⟩)
      · have e3 := (hbelow (fun j => j < k)).mpr e3
        rcases h3 with rfl | ⟨k0, n0, n0', f1, f2, rfl⟩
        · exact ⟨k, n, e1, e2, e3⟩
        · have hk : k0 < ch.length := (List.getElem?_eq_some_iff.mp f1).1
          by_cases hjk : k0 = k
          · subst hjk
            rw [f1] at e1
            cases e1
            exact ⟨k0, n0', by rw [List.getElem?_set, if_pos rfl, if_pos hk], (commentIn_attached f2 d).mpr (.inl e2), e3⟩
          · exact ⟨k, n, by rw [List.getElem?_set, if_neg hjk]; exact e1, e2, e3⟩
      · have hk : k < ch.length := (List.getElem?_eq_some_iff.mp f1).1
        exact ⟨k, n0', by rw [f3, List.getElem?_set, if_pos rfl, if_pos hk], (commentIn_attached f2 d).mpr (.inr rfl), (hbelow (fun j => j < k)).mpr e3⟩
  rw [hatt]
  have hex : (∃ ch_1 ch'_1 k, ch = ch_1 ∧ ch' = ch'_1 ∧ WrittenAt c ch_1 ch'_1 k ∧ ∀ j < k, ∀ n, ch_1[j]? = some n → ¬ OwnsLines n) ↔
      ∃ k, WrittenAt c ch ch' k ∧ ∀ j < k, ∀ n, ch[j]? = some n → ¬ OwnsLines n :=
    ⟨fun ⟨_, _, k, a, b, e⟩ => by subst a; subst b; exact ⟨k, e⟩, fun ⟨k, e⟩ => ⟨ch, ch', k, rfl, rfl, e⟩⟩
  rw [hex]
  constructor
  · rintro ((a | a) | a)
    · exact .inl (.inl a)
    · exact .inr a
    · exact .inl (.inr a)
  · rintro ((a | a) | a)
    · exact .inl (.inl a)
    · exact .inr a
    · exact .inl (.inr a)

/-- C142: exactly the nodes whose statement the comment is in are silenced by it, for the rules its directive is about; what was silenced stays silenced. -/
theorem C142_silenced {m m' : Node} {c : PStr} (h : CommentWritten o m m' c) (i : Nat) (name : PStr) :
    Silenced o m' i name ↔ Silenced o m i name ∨ (InStatement o m m' c i ∧ SaysIgnore o c name) := by
  unfold Silenced
  simp only [C142_associated o h i]
  constructor
  · rintro ⟨d, hd | ⟨rfl, hd⟩, hs⟩
    · exact .inl ⟨d, hd, hs⟩
    · exact .inr ⟨hd, hs⟩
  · rintro (⟨d, hd, hs⟩ | ⟨hd, hs⟩)
    · exact ⟨d, .inl hd, hs⟩
    · exact ⟨c, .inr ⟨rfl, hd⟩, hs⟩

/-- C142: a comment in the header of the module silences its first statement, and what is in no statement. -/
theorem C142_header_silenced {m m' : Node} {c : PStr} (h : HeaderWritten o m m' c) (i : Nat) (name : PStr) :
    Silenced o m' i name ↔ Silenced o m i name ∨ (InFirstStatement o m i ∧ SaysIgnore o c name) := by
  obtain ⟨before, after, e1, e2⟩ := h.header
  have h1 := h.chains i
  have hassoc : ∀ d, Associated (o.tree m') (o.pos m' i) d ↔ Associated (o.tree m) (o.pos m i) d ∨ (d = c ∧ InFirstStatement o m i) := by
    intro d
    have hmem : some d ∈ (o.tree m').header ↔ some d ∈ (o.tree m).header ∨ d = c := by
      rw [e1, e2]
      simp only [List.mem_append, List.mem_cons, Option.some.injEq]
      constructor
      · rintro (h | h | h)
        · exact .inl (.inl h)
        · exact .inr h
        · exact .inl (.inr h)
      · rintro ((h | h) | h)
        · exact .inl h
        · exact .inr (.inr h)
        · exact .inr (.inl h)
    have hex : ∀ (pos : Pos) (P : Prop), (∃ path, pos = .inBody 0 path ∧ P) ↔ (∃ path, pos = .inBody 0 path) ∧ P :=
      fun pos P => ⟨fun ⟨q, a, b⟩ => ⟨⟨q, a⟩, b⟩, fun ⟨⟨q, a⟩, b⟩ => ⟨q, a, b⟩⟩
    unfold Associated InFirstStatement
    rw [h1]
    cases hch : (o.tree m).chain (o.pos m i) with
    | none => simp
    | some ch =>
    simp only [Option.some.injEq, exists_eq_left', hmem, hex, h.first i]
    constructor
    · rintro (a | ⟨a | a, b⟩)
      · exact .inl (.inl a)
      · exact .inl (.inr ⟨a, b⟩)
      · exact .inr ⟨a, b⟩
    · rintro ((a | ⟨a, b⟩) | ⟨a, b⟩)
      · exact .inl a
      · exact .inr ⟨.inl a, b⟩
      · exact .inr ⟨.inr a, b⟩
  unfold Silenced
  simp only [hassoc]
  constructor
  · rintro ⟨d, hd | ⟨rfl, hd⟩, hs⟩
    · exact .inl ⟨d, hd, hs⟩
    · exact .inr ⟨hd, hs⟩
  · rintro (⟨d, hd, hs⟩ | ⟨hd, hs⟩)
    · exact ⟨d, .inl hd, hs⟩
    · exact ⟨c, .inr ⟨rfl, hd⟩, hs⟩

/-! ## The violations -/

/-- What is recorded of the same reports, before and after. -/
theorem recorded_filtered (v : Visits) {m m' : Node} {c : PStr} {cov : Nat → Prop}
    (h : ∀ i name, Silenced o m' i name ↔ Silenced o m i name ∨ (cov i ∧ SaysIgnore o c name)) (move : CodeRange → CodeRange) (hmove : ∀ i, o.range m' i = move (o.range m i)) (k : Nat)
    (gone : Nat → PStr → Bool) (hgone : ∀ i name, gone i name = true ↔ cov i ∧ SaysIgnore o c name) :
    ∀ (reps reps' : List Rep) (vs vs' : List (Violation Nat Repl)), reps'.map (fun r => (r.node, r.message)) = reps.map (fun r => (r.node, r.message)) →
      Recorded o m k (reps.map (v.call m)) vs → Recorded o m' k (reps'.map (v.call m')) vs' →
      vs'.map (fun x => (x.ruleName, x.message, x.node, x.range)) =
        (vs.filter (fun x => !gone x.node x.ruleName)).map (fun x => (x.ruleName, x.message, x.node, move x.range)) := by
  intro reps
  induction reps with
  | nil =>
    intro reps' vs vs' he hr hr'
    cases reps' with
    | cons r rs => cases he
    | nil => cases hr; cases hr'; rfl
  | cons r rs ih =>
    intro reps' vs vs' he hr hr'
    cases reps' with
    | nil => cases he
    | cons r' rs' =>
      simp only [List.map_cons, List.cons.injEq, Prod.mk.injEq] at he
      obtain ⟨⟨hn, hm⟩, he⟩ := he
      have hsil := h r.node (ruleName (o.className k))
      rw [List.map_cons] at hr hr'
      generalize hcs : rs.map (v.call m) = cs at hr
      generalize hcs' : rs'.map (v.call m') = cs' at hr'
      generalize hc : v.call m r = call at hr
      generalize hc' : v.call m' r' = call' at hr'
      have hcn : call.node = r.node := by rw [← hc]; rfl
      have hcn' : call'.node = r.node := by rw [← hc', ← hn]; rfl
      cases hr with
      | silenced _ _ _ hs rest =>
        rw [hcn] at hs
        cases hr' with
        | silenced _ _ _ hs' rest' => exact ih rs' _ _ he (hcs ▸ rest) (hcs' ▸ rest')
        | says _ _ x' xs' hs' hsay' rest' =>
          rw [hcn'] at hs'
          exact absurd (hsil.mpr (.inl hs)) hs'
      | says _ _ x xs hs hsay rest =>
        rw [hcn] at hs
        have hxn : x.node = r.node := hsay.node.trans hcn
        cases hr' with
        | silenced _ _ _ hs' rest' =>
          rw [hcn'] at hs'
          have hg : gone x.node x.ruleName = true := by
            rw [hgone, hxn, hsay.rule]
            exact (hsil.mp hs').resolve_left hs
          rw [List.filter_cons_of_neg (by simp [hg])]
          exact ih rs' _ _ he (hcs ▸ rest) (hcs' ▸ rest')
        | says _ _ x' xs' hs' hsay' rest' =>
          rw [hcn'] at hs'
          have hxn' : x'.node = r.node := hsay'.node.trans hcn'
          have hg : gone x.node x.ruleName = false := by
            rw [← Bool.not_eq_true, hgone, hxn, hsay.rule]
            exact fun hh => hs' (hsil.mpr (.inr hh))
          rw [List.filter_cons_of_pos (by simp [hg]), List.map_cons, List.map_cons, ih rs' _ _ he (hcs ▸ rest) (hcs' ▸ rest')]
          congr 1
          have hmsg : x'.message = x.message := by
            obtain ⟨a1, a2⟩ := hsay.message
            obtain ⟨b1, b2⟩ := hsay'.message
            have e1 : call.message = r.message := by rw [← hc]; rfl
            have e2 : call'.message = r.message := by rw [← hc', ← hm]; rfl
            rw [e1] at a2
            rw [e2] at b2
            rcases a2 with a2 | ⟨a2, a3⟩ <;> rcases b2 with b2 | ⟨b2, b3⟩
            · exact Option.some.inj (b2.symm.trans a2)
            · rcases b2 with b2 | b2
              · rw [b2] at a2; cases a2
              · exact absurd (Option.some.inj (b2.symm.trans a2)).symm a1
            · rcases a2 with a2 | a2
              · rw [a2] at b2; cases b2
              · exact absurd (Option.some.inj (a2.symm.trans b2)).symm b1
            · exact Option.some.inj (b3.symm.trans a3)
          have hrange : x'.range = move x.range := by
            rw [hsay'.own (by rw [← hc']; rfl), hsay.own (by rw [← hc]; rfl), hcn', hcn, hmove]
          simp only [hsay'.rule, hsay.rule, hmsg, hxn, hxn', hrange]

theorem recorded_walking (v : Visits) {m : Node} {k : Nat} {calls : List ReportCall} {vs : List (Violation Nat Repl)} (h : Recorded (o.walking v) m k calls vs) : Recorded o m k calls vs := by
  induction h with
  | nil => exact .nil
  | silenced call calls vs h _ ih => exact .silenced call calls vs h ih
  | says call calls v vs h hs _ ih => exact .says call calls v vs h ⟨hs.rule, hs.node, hs.fix, hs.message, hs.own, hs.range, hs.point⟩ ih

/-- The same, for any way of saying which nodes the comment belongs to. -/
theorem found_commented (v : Visits) (horder : ∀ l, (o.ruleOrder l).Perm l) {options : Option Options} {files files' : Path → Option Bytes} {path : Path} {content content' : Bytes}
    {cfg : Config V} {m m' : Node} {c : PStr} {cov : Nat → Prop} (h : Lints (o.walking v) options files path content cfg m) (h' : Lints (o.walking v) options files' path content' cfg m')
    (hrules : o.rules files' = o.rules files)
    (hk : ∀ k, Active o files cfg k → KeepsMetadata (v.rule files cfg.root cfg.path m k) ∧ KeepsMetadata (v.rule files' cfg.root cfg.path m' k))
    (hreps : SameReports o v files files' cfg m m') (hc : ∀ i name, Silenced o m' i name ↔ Silenced o m i name ∨ (cov i ∧ SaysIgnore o c name)) (move : CodeRange → CodeRange) (hmove : ∀ i, o.range m' i = move (o.range m i))
    (gone : LintViolation → Bool) (hgone : ∀ lv, gone lv = true ↔ cov lv.base.node ∧ SaysIgnore o c lv.base.ruleName) :
    (foundIn ((o.walking v).env options) files' path).map (fun lv => (lv.base.ruleName, lv.base.message, lv.base.node, lv.base.range)) =
      ((foundIn ((o.walking v).env options) files path).filter (fun lv => !gone lv)).map (fun lv => (lv.base.ruleName, lv.base.message, lv.base.node, move lv.base.range)) := by
  have hact' : ∀ k, Active o files' cfg k → Active o files cfg k := fun k ha => ⟨hrules ▸ ha.enabled, hrules ▸ ha.notDisabled, hrules ▸ ha.tags, hrules ▸ ha.version⟩
  obtain ⟨cl, F, hcl, hf, hb⟩ := found_blocks o v horder options files path content cfg m h (fun k ha => (hk k ha).1)
  obtain ⟨cl', F', hcl', hf', hb'⟩ := found_blocks o v horder options files' path content' cfg m' h' (fun k ha => (hk k (hact' k ha)).2)
  rw [hrules, hcl] at hcl'
  cases hcl'
  obtain ⟨-, hact⟩ := selected_iff o horder files cfg cl hcl
  rw [hf, hf']
  have hgone' : ∀ i name, (gone ⟨⟨name, ⟨⟨0, 0⟩, ⟨0, 0⟩⟩, [], i, none⟩, []⟩) = true ↔ cov i ∧ SaysIgnore o c name := fun i name => hgone _
  have hsame : ∀ lv : LintViolation, gone lv = gone ⟨⟨lv.base.ruleName, ⟨⟨0, 0⟩, ⟨0, 0⟩⟩, [], lv.base.node, none⟩, []⟩ := by
    intro lv
    rw [Bool.eq_iff_iff, hgone, hgone]
  have hblock : ∀ k ∈ cl.rules, (F' k).map (fun lv => (lv.base.ruleName, lv.base.message, lv.base.node, lv.base.range)) =
      ((F k).filter (fun lv => !gone lv)).map (fun lv => (lv.base.ruleName, lv.base.message, lv.base.node, move lv.base.range)) := by
    intro k hm
    obtain ⟨reps, vs, a1, a2, a3⟩ := hb k hm
    obtain ⟨reps', vs', b1, b2, b3⟩ := hb' k hm
    have hr := recorded_filtered o v hc move hmove k _ hgone' reps reps' vs vs' (hreps k ((hact k).mp hm) reps reps' a1 b1) (recorded_walking o v a2) (recorded_walking o v b2)
    rw [← shown_base a3, ← shown_base b3, List.filter_map, List.map_map, List.map_map] at hr
    refine hr.trans ?_
    have : (F k).filter ((fun x : Violation Nat Repl => !gone ⟨⟨x.ruleName, ⟨⟨0, 0⟩, ⟨0, 0⟩⟩, [], x.node, none⟩, []⟩) ∘ LintViolation.base) = (F k).filter (fun lv => !gone lv) := by
      refine List.filter_congr (fun lv _ => ?_)
      simp only [Function.comp_apply]
      rw [← hsame lv]
    rw [this]
    rfl
  have hgen : ∀ ks : List Nat, (∀ k ∈ ks, k ∈ cl.rules) → (ks.flatMap F').map (fun lv => (lv.base.ruleName, lv.base.message, lv.base.node, lv.base.range)) =
      ((ks.flatMap F).filter (fun lv => !gone lv)).map (fun lv => (lv.base.ruleName, lv.base.message, lv.base.node, move lv.base.range)) := by
    intro ks
    induction ks with
    | nil => intro _; rfl
    | cons k ks ih =>
      intro hin
      rw [List.flatMap_cons, List.flatMap_cons, List.filter_append, List.map_append, List.map_append, hblock k (hin k List.mem_cons_self),
        ih (fun k' hk' => hin k' (List.mem_cons_of_mem _ hk'))]
  exact hgen cl.rules (fun _ h => h)

/-- **C142** Writing a comment into a file takes exactly the violations away that are about a node in whose statement the comment is, of the rules its first directive is about;
all others stay, in the same order, with the same message, about the same node. (`move` is what the comment does to positions: nothing, at the end of a line; one line down, for
what is below, if it is on a line of its own.) -/
theorem C142_comment (v : Visits) (horder : ∀ l, (o.ruleOrder l).Perm l) {options : Option Options} {files files' : Path → Option Bytes} {path : Path} {content content' : Bytes}
    {cfg : Config V} {m m' : Node} {c : PStr} (h : Lints (o.walking v) options files path content cfg m) (h' : Lints (o.walking v) options files' path content' cfg m')
    (hrules : o.rules files' = o.rules files)
    (hk : ∀ k, Active o files cfg k → KeepsMetadata (v.rule files cfg.root cfg.path m k) ∧ KeepsMetadata (v.rule files' cfg.root cfg.path m' k))
    (hreps : SameReports o v files files' cfg m m') (hc : CommentWritten o m m' c) (move : CodeRange → CodeRange) (hmove : ∀ i, o.range m' i = move (o.range m i))
    (gone : LintViolation → Bool) (hgone : ∀ lv, gone lv = true ↔ InStatement o m m' c lv.base.node ∧ SaysIgnore o c lv.base.ruleName) :
    (foundIn ((o.walking v).env options) files' path).map (fun lv => (lv.base.ruleName, lv.base.message, lv.base.node, lv.base.range)) =
      ((foundIn ((o.walking v).env options) files path).filter (fun lv => !gone lv)).map (fun lv => (lv.base.ruleName, lv.base.message, lv.base.node, move lv.base.range)) :=
  found_commented o v horder h h' hrules hk hreps (C142_silenced o hc) move hmove gone hgone

/-- **C142** A comment above the first statement of the file takes exactly the violations about nodes of that statement away (or about nodes in no statement), of the rules its first
directive is about. -/
theorem C142_header (v : Visits) (horder : ∀ l, (o.ruleOrder l).Perm l) {options : Option Options} {files files' : Path → Option Bytes} {path : Path} {content content' : Bytes}
    {cfg : Config V} {m m' : Node} {c : PStr} (h : Lints (o.walking v) options files path content cfg m) (h' : Lints (o.walking v) options files' path content' cfg m')
    (hrules : o.rules files' = o.rules files)
    (hk : ∀ k, Active o files cfg k → KeepsMetadata (v.rule files cfg.root cfg.path m k) ∧ KeepsMetadata (v.rule files' cfg.root cfg.path m' k))
    (hreps : SameReports o v files files' cfg m m') (hc : HeaderWritten o m m' c) (move : CodeRange → CodeRange) (hmove : ∀ i, o.range m' i = move (o.range m i))
    (gone : LintViolation → Bool) (hgone : ∀ lv, gone lv = true ↔ InFirstStatement o m lv.base.node ∧ SaysIgnore o c lv.base.ruleName) :
    (foundIn ((o.walking v).env options) files' path).map (fun lv => (lv.base.ruleName, lv.base.message, lv.base.node, lv.base.range)) =
      ((foundIn ((o.walking v).env options) files path).filter (fun lv => !gone lv)).map (fun lv => (lv.base.ruleName, lv.base.message, lv.base.node, move lv.base.range)) :=
  found_commented o v horder h h' hrules hk hreps (C142_header_silenced o hc) move hmove gone hgone

/-- **C142** A comment without a directive changes nothing. -/
theorem C142_ordinary (v : Visits) (horder : ∀ l, (o.ruleOrder l).Perm l) {options : Option Options} {files files' : Path → Option Bytes} {path : Path} {content content' : Bytes}
    {cfg : Config V} {m m' : Node} {c : PStr} (h : Lints (o.walking v) options files path content cfg m) (h' : Lints (o.walking v) options files' path content' cfg m')
    (hrules : o.rules files' = o.rules files)
    (hk : ∀ k, Active o files cfg k → KeepsMetadata (v.rule files cfg.root cfg.path m k) ∧ KeepsMetadata (v.rule files' cfg.root cfg.path m' k))
    (hreps : SameReports o v files files' cfg m m') (hc : CommentWritten o m m' c) (move : CodeRange → CodeRange) (hmove : ∀ i, o.range m' i = move (o.range m i))
    (hord : ¬ HasDirective c) :
    (foundIn ((o.walking v).env options) files' path).map (fun lv => (lv.base.ruleName, lv.base.message, lv.base.node, lv.base.range)) =
      (foundIn ((o.walking v).env options) files path).map (fun lv => (lv.base.ruleName, lv.base.message, lv.base.node, move lv.base.range)) := by
  have := C142_comment o v horder h h' hrules hk hreps hc move hmove (fun _ => false) (fun lv => by
    simp only [Bool.false_eq_true, false_iff]
    rintro ⟨-, kw, names, ⟨pre, rest, tail, e1, e2, -⟩, -⟩
    exact hord ⟨pre, rest, kw, tail, e1, e2⟩)
  rw [this]
  congr 1
  exact List.filter_eq_self.mpr (fun _ _ => rfl)

end Fixit
