import Verif.Props.LspApart

/-!
# C67: the reply to a format request
-/

namespace Fixit
open Py Py.Gen Spec

/-! ## The range of the edit -/

theorem plain_break {c : Char} (h : c ∉ ['\x0b', '\x0c', '\x1c', '\x1d', '\x1e', '\u0085', '\u2028', '\u2029']) :
    isLineBreak c = true ↔ c = '\n' ∨ c = '\r' := by
  simp only [List.mem_cons, List.not_mem_nil, or_false, not_or] at h
  unfold isLineBreak
  simp [h]

theorem finalBreak_cons (c : Char) (rest : PStr) (h : rest ≠ []) (h2 : ¬ (c = '\r' ∧ rest = ['\n'])) : finalBreak (c :: rest) = finalBreak rest := by
  have h1 : (['\r', '\n'] <:+ c :: rest) ↔ (['\r', '\n'] <:+ rest) := by
    rw [List.suffix_cons_iff]
    constructor
    · rintro (h | h)
      · cases h; exact absurd ⟨rfl, rfl⟩ h2
      · exact h
    · exact Or.inr
  have h3 : ∀ x : Char, ([x] <:+ c :: rest) ↔ ([x] <:+ rest) := by
    intro x
    rw [List.suffix_cons_iff]
    constructor
    · rintro (h' | h')
      · cases h'; exact absurd rfl h
      · exact h'
    · exact Or.inr
  unfold finalBreak
  simp only [h1, h3]

theorem finalBreak_suffix (text : PStr) : finalBreak text <:+ text := by
  unfold finalBreak
  split
  · assumption
  · split
    · assumption
    · split
      · assumption
      · exact List.nil_suffix

theorem splitLines_ne_nil (c : Char) (cs : PStr) : splitLines (c :: cs) ≠ [] := by
  cases cs with
  | nil => simp [splitLines]
  | cons d ds =>
    rw [splitLines]
    split
    · simp
    · split
      · simp
      · cases splitLines (d :: ds) <;> simp [consLine]

/-- A position after the first line, one character on. -/
theorem offset_cons (c d : Char) (cs : PStr) (n k : Nat) (h : ¬ (c = '\n' ∨ c = '\r')) : offset (c :: d :: cs) (n + 1) k = 1 + offset (d :: cs) (n + 1) k := by
  have h1 : ¬ (c = '\r' ∧ d = '\n') := fun x => h (Or.inr x.1)
  unfold offset
  rw [afterLine, if_neg h1, if_neg h]
  cases afterLine (d :: cs) with
  | none => simp [Nat.add_comm]
  | some x => simp; omega

theorem offset_whole : ∀ (text : PStr), PlainText text → text ≠ [] → ∃ l, (splitLines text).getLast? = some l ∧
    offset text ((splitLines text).length - 1) l.length + (finalBreak text).length = text.length
  | [], _, h => absurd rfl h
  | [c], hp, _ => by
    refine ⟨[c], rfl, ?_⟩
    have hb := hp.bmp c (by simp)
    simp only [splitLines, List.length_cons, List.length_nil, Nat.zero_add, Nat.sub_self, offset, inLine]
    by_cases hn : c = '\n'
    · subst hn; rfl
    · by_cases hr : c = '\r'
      · subst hr; rfl
      · have h1 : finalBreak [c] = [] := by
          unfold finalBreak
          rw [if_neg, if_neg, if_neg]
          · rintro ⟨t, ht⟩; cases t <;> simp at ht; exact hr ht.symm
          · rintro ⟨t, ht⟩; cases t <;> simp at ht; exact hn ht.symm
          · intro h; have := h.length_le; simp at this
        rw [h1, if_neg (by simp [hn, hr])]
        simp [utf16Units, hb]
  | c :: d :: cs, hp, _ => by
    have hp' : PlainText (d :: cs) := ⟨fun x hx => hp.breaks x (List.mem_cons_of_mem _ hx), fun x hx => hp.bmp x (List.mem_cons_of_mem _ hx)⟩
    have hp'' : PlainText cs := ⟨fun x hx => hp'.breaks x (List.mem_cons_of_mem _ hx), fun x hx => hp'.bmp x (List.mem_cons_of_mem _ hx)⟩
    by_cases hcr : c = '\r' ∧ d = '\n'
    · obtain ⟨rfl, rfl⟩ := hcr
      cases cs with
      | nil => exact ⟨['\r', '\n'], by decide, by decide⟩
      | cons e es =>
        obtain ⟨l, hl, ho⟩ := offset_whole (e :: es) hp'' (by simp)
        have hsplit : splitLines ('\r' :: '\n' :: e :: es) = ['\r', '\n'] :: splitLines (e :: es) := by rw [splitLines]; rfl
        have hne := splitLines_ne_nil e es
        refine ⟨l, by rw [hsplit, List.getLast?_cons, hl]; simp, ?_⟩
        rw [finalBreak_cons _ _ (by simp) (by simp), finalBreak_cons _ _ (by simp) (by simp), hsplit]
        have hn : (['\r', '\n'] :: splitLines (e :: es)).length - 1 = ((splitLines (e :: es)).length - 1) + 1 := by
          cases hs : splitLines (e :: es) with
          | nil => exact absurd hs hne
          | cons a b => simp
        rw [hn]
        unfold offset
        rw [afterLine, if_pos ⟨rfl, rfl⟩]
        simp only [List.length_cons] at ho ⊢
        omega
    · obtain ⟨l, hl, ho⟩ := offset_whole (d :: cs) hp' (by simp)
      have hne := splitLines_ne_nil d cs
      have hcr' : (c == '\r' && d == '\n') = false := by simpa using hcr
      by_cases hbr : isLineBreak c = true
      · have hc := (plain_break (hp.breaks c (by simp))).mp hbr
        have hsplit : splitLines (c :: d :: cs) = [c] :: splitLines (d :: cs) := by rw [splitLines, hcr', hbr]; rfl
        have hfb : finalBreak (c :: d :: cs) = finalBreak (d :: cs) := finalBreak_cons _ _ (by simp) (by
          rintro ⟨h1, h2⟩; exact hcr ⟨h1, by simpa using (List.cons.inj h2).1⟩)
        refine ⟨l, by rw [hsplit, List.getLast?_cons, hl]; simp, ?_⟩
        rw [hfb, hsplit]
        have hn : ([c] :: splitLines (d :: cs)).length - 1 = ((splitLines (d :: cs)).length - 1) + 1 := by
          cases hs : splitLines (d :: cs) with
          | nil => exact absurd hs hne
          | cons a b => simp
        rw [hn]
        unfold offset
        rw [afterLine, if_neg hcr, if_pos hc]
        simp only [List.length_cons] at ho ⊢
        omega
      · have hc : ¬ (c = '\n' ∨ c = '\r') := fun h => hbr ((plain_break (hp.breaks c (by simp))).mpr h)
        have hsplit : splitLines (c :: d :: cs) = consLine c (splitLines (d :: cs)) := by rw [splitLines, hcr']; simp [hbr]
        have hfb : finalBreak (c :: d :: cs) = finalBreak (d :: cs) := finalBreak_cons _ _ (by simp) (by
          rintro ⟨h1, h2⟩; exact hc (Or.inr h1))
        have hb := hp.bmp c (by simp)
        rw [hfb, hsplit]
        cases hs : splitLines (d :: cs) with
        | nil => exact absurd hs hne
        | cons a b =>
          rw [hs] at hl ho
          cases b with
          | nil =>
            simp only [List.getLast?_singleton, Option.some.injEq] at hl
            subst hl
            refine ⟨c :: a, rfl, ?_⟩
            simp only [consLine, List.length_cons, List.length_nil, Nat.zero_add, Nat.sub_self, offset] at ho ⊢
            rw [inLine, if_neg hc, if_pos (by simp [utf16Units, hb])]
            simp only [utf16Units, hb, if_true, Nat.add_sub_cancel]
            omega
          | cons a' b' =>
            refine ⟨l, by rw [← hl]; simp [consLine, List.getLast?_cons], ?_⟩
            simp only [consLine, List.length_cons, Nat.add_sub_cancel] at ho ⊢
            rw [offset_cons c d cs _ _ hc]
            omega

/-- What replacing the range the server asks for does: the final line terminator is left over. -/
theorem whole_edit (text new : PStr) (line char : Nat) (hp : PlainText text) (h : wholeEnd text = .ok (line, char)) :
    applyEdit text ⟨0, 0, line, char, new⟩ = new ++ finalBreak text := by
  unfold wholeEnd at h
  have hne : text ≠ [] := by rintro rfl; simp [splitLines] at h
  obtain ⟨l, hl, ho⟩ := offset_whole text hp hne
  rw [hl] at h
  simp only [Except.ok.injEq, Prod.mk.injEq] at h
  obtain ⟨rfl, rfl⟩ := h
  unfold applyEdit
  have h0 : offset text 0 0 = 0 := by
    unfold offset
    cases text with
    | nil => rfl
    | cons c cs =>
      unfold inLine
      split
      · rfl
      · rw [if_neg]; unfold utf16Units; split <;> simp
  simp only [h0, List.take_zero, List.nil_append]
  congr 1
  obtain ⟨t, ht⟩ := finalBreak_suffix text
  have hlen : t.length = offset text ((splitLines text).length - 1) l.length := by
    have := congrArg List.length ht
    rw [List.length_append] at this
    omega
  rw [← hlen]
  conv => lhs; rw [← ht]
  exact List.drop_left

/-! ## The reply -/

variable {C : Type} (env : Env C) (client : Client)

/-- The configuration the server uses for a path now. -/
def usesConfig (s : Server C) (path : Path) (cfg : C) : Prop := s.cache path = some cfg ∨ (s.cache path = none ∧ env.config s.files path = .ok cfg)

/-- The results of fixing everything in a document. -/
def autofixResults (s : Server C) (path : Path) (content : Bytes) (cfg : C) : List Result :=
  (Gen.drain none (fixitBytes env path content cfg true false) ⟨s.files, []⟩).1

theorem replyOf_open (s : Server C) (u : Uri) (path : Path) (content : Bytes) (cfg : C) (hp : client.fsPath u = some path)
    (hs : s.source client u = .ok content) (hc : usesConfig env s path cfg) :
    replyOf env client s u = editFor client s u (returnedValue (Gen.drain none (fixitBytes env path content cfg true false) ⟨s.files, []⟩).2.1) := by
  unfold replyOf
  rcases hc with hc | ⟨hc, hcf⟩
  · simp only [hp, hs, hc]
  · simp only [hp, hs, hc, hcf]

theorem editFor_some (s : Server C) (u : Uri) (b : Bytes) (hb : b ≠ []) : editFor client s u (some b) = do
    let text ← s.text client u
    let (line, char) ← wholeEnd text
    let new ← client.decode b
    return some ⟨0, 0, line, char, new⟩ := by
  cases b with
  | nil => exact absurd rfl hb
  | cons x xs => rfl

/-- **C67** A format request for an open document: nothing is edited when nothing was found or something failed. -/
theorem C67_no_edit (s : Server C) (u : Uri) (path : Path) (text : PStr) (content : Bytes) (cfg : C) (hp : client.fsPath u = some path)
    (ht : s.docs u = some text) (henc : client.encode text = .ok content) (hc : usesConfig env s path cfg)
    (h : found env s.files path content cfg = [] ∨ ∃ r ∈ autofixResults env s path content cfg, r.error ≠ none) :
    (s.next env client (.format u)).edits = s.edits ++ [(u, .ok none)] := by
  have hs : s.source client u = .ok content := by simp only [Server.source, ht, henc]
  show (s.format env client u).edits = _
  rw [format_edits, replyOf_open env client s u path content cfg hp hs hc]
  obtain ⟨n, hn, h1, h2⟩ := drain_fixitBytes env path content cfg true false ⟨s.files, []⟩
  rw [h2]
  unfold autofixResults at h
  rw [h1] at h
  have : (bytesFinish env s.files path content cfg true false (List.replicate n none)).ret = none := by
    cases hl : (bytesFinish env s.files path content cfg true false (List.replicate n none)).last with
    | some r => exact bytesFinish_ret env _ _ _ _ _ _ _ r hl
    | none =>
      have h3 := bytesFinish_last env s.files path content cfg true false (List.replicate n none)
      rw [hl] at h3
      rcases h with h | ⟨r, hr, he⟩
      · exact absurd h h3
      · rw [hl] at hr
        simp only [Option.toList_none, List.append_nil] at hr
        obtain ⟨v, -, rfl⟩ := List.mem_map.mp hr
        exact absurd rfl he
  simp only [returnedValue, this, editFor]

/-- Fixing everything, when something is found and nothing fails. -/
theorem autofix_returns (s : Server C) (path : Path) (content : Bytes) (cfg : C)
    (hfound : found env s.files path content cfg ≠ []) (herr : ∀ r ∈ autofixResults env s path content cfg, r.error = none) :
    ∃ b, fixedContent env path content cfg (found env s.files path content cfg) = .ok b ∧
      returnedValue (Gen.drain none (fixitBytes env path content cfg true false) ⟨s.files, []⟩).2.1 = some b := by
  obtain ⟨n, hn, h1, h2⟩ := drain_fixitBytes env path content cfg true false ⟨s.files, []⟩
  rw [h2]
  unfold autofixResults at herr
  rw [h1] at herr
  have hl : (bytesFinish env s.files path content cfg true false (List.replicate n none)).last = none := by
    have h3 := bytesFinish_last env s.files path content cfg true false (List.replicate n none)
    cases hl : (bytesFinish env s.files path content cfg true false (List.replicate n none)).last with
    | none => rfl
    | some r =>
      rw [hl] at h3 herr
      rcases h3 with ⟨-, h3⟩ | ⟨e, rfl⟩
      · exact absurd h3 hfound
      · have := herr (errorResult path e) (by simp)
        cases this
  have hacc : accepted true (found env s.files path content cfg) (List.replicate n none) = found env s.files path content cfg := accepted_all _ _ (by simpa using hn)
  obtain ⟨b, hb⟩ := bytesFinish_ret_some env s.files path content cfg true false (List.replicate n none) hl (by rw [hacc]; exact hfound)
  have hfix := (bytesFinish_some env s.files path content cfg true false (List.replicate n none) b hb).2
  rw [hacc] at hfix
  exact ⟨b, hfix, by simp only [returnedValue, hb]⟩

/-- **C67** Otherwise all fixes are applied, and (unless that leaves nothing at all) the reply replaces the document's text by the result – and the
document's final line terminator, which the range leaves out. -/
theorem C67_edit (s : Server C) (u : Uri) (path : Path) (text : PStr) (content : Bytes) (cfg : C) (hp : client.fsPath u = some path)
    (ht : s.docs u = some text) (henc : client.encode text = .ok content) (hc : usesConfig env s path cfg)
    (hfound : found env s.files path content cfg ≠ []) (herr : ∀ r ∈ autofixResults env s path content cfg, r.error = none) :
    ∃ b, fixedContent env path content cfg (found env s.files path content cfg) = .ok b ∧
      (b = [] → (s.next env client (.format u)).edits = s.edits ++ [(u, .ok none)]) ∧
      ∀ new, b ≠ [] → client.decode b = .ok new → text ≠ [] → PlainText text → ∃ e : TextEdit,
        (s.next env client (.format u)).edits = s.edits ++ [(u, .ok (some e))] ∧ e.newText = new ∧ applyEdit text e = new ++ finalBreak text := by
  have hs : s.source client u = .ok content := by simp only [Server.source, ht, henc]
  have hshow : (s.next env client (.format u)).edits = s.edits ++ [(u, replyOf env client s u)] := format_edits env client s u
  obtain ⟨b, hfix, hret⟩ := autofix_returns env s path content cfg hfound herr
  rw [hshow, replyOf_open env client s u path content cfg hp hs hc, hret]
  refine ⟨b, hfix, ?_, ?_⟩
  · rintro rfl
    simp only [editFor]
  · intro new hne hdec htext hplain
    obtain ⟨l, hl, -⟩ := offset_whole text hplain htext
    have hwe : wholeEnd text = .ok ((splitLines text).length - 1, l.length) := by simp only [wholeEnd, hl]
    refine ⟨⟨0, 0, (splitLines text).length - 1, l.length, new⟩, ?_, rfl, whole_edit text new _ _ hplain hwe⟩
    rw [editFor_some client s u b hne]
    have htxt : s.text client u = .ok text := by simp only [Server.text, ht]
    rw [htxt]
    simp only [Bind.bind, Except.bind, hwe, hdec]
    rfl

/-- **C67** In an empty document fixes are lost: the request fails with an `IndexError`. -/
theorem C67_empty (s : Server C) (u : Uri) (path : Path) (content : Bytes) (cfg : C) (hp : client.fsPath u = some path)
    (ht : s.docs u = some []) (henc : client.encode [] = .ok content) (hc : usesConfig env s path cfg)
    (hfound : found env s.files path content cfg ≠ []) (herr : ∀ r ∈ autofixResults env s path content cfg, r.error = none) :
    ∃ b, fixedContent env path content cfg (found env s.files path content cfg) = .ok b ∧
      (b ≠ [] → (s.next env client (.format u)).edits = s.edits ++ [(u, .error .index)]) := by
  obtain ⟨b, hfix, hret⟩ := autofix_returns env s path content cfg hfound herr
  refine ⟨b, hfix, fun hb => ?_⟩
  have hs : s.source client u = .ok content := by simp only [Server.source, ht, henc]
  have hshow : (s.next env client (.format u)).edits = s.edits ++ [(u, replyOf env client s u)] := format_edits env client s u
  rw [hshow, replyOf_open env client s u path content cfg hp hs hc, hret, editFor_some client s u b hb]
  have : s.text client u = .ok [] := by simp only [Server.text, ht]
  rw [this]; rfl

end Fixit
