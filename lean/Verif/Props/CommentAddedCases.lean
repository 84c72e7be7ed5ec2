import Verif.Props.CommentAdded
import Verif.Props.WalkCases

/-!
# Concrete runs for C142

The toy language with `d`, which stands for a `b` with the comment `# lint-ignore: toy` at the end of its line.
-/

namespace Fixit
open Py Spec Gen Cst

def ignoreToy : PStr := py "# lint-ignore: toy"

def notedOutside : Outside Nat Nat :=
  { toyOutside with tree := fun m => ⟨[], (toyBytes m).map (fun b => toyTree (if b = 99 ∨ b = 100 then some ignoreToy else none)), []⟩ }

def notedVisits : Visits :=
  { toyVisits raisingRule with rule := fun _ _ _ _ k => if k = 0 then nameRule [py "b", py "c", py "d"] none false else nameRule [py "a", py "b", py "d"] (some (py "see")) false }

/-- The module with this code. -/
def notedNode (b : Bytes) : Node := .mk 0 false false (.seq [] true [] [] (.ofList (toyStmts 1 b)) .nil)

def ab : Bytes := [97, 98, 97]
def ad : Bytes := [97, 100, 97]

/-- `Toy` reports the `b`, `Other` all three statements; with the comment only `Other` does. -/
def notedFound (b : Bytes) : List (PStr × PStr × Nat) :=
  (foundIn ((notedOutside.walking notedVisits).env (some bothOptions)) (systemWorld b).files [py "root", py "f"]).map (fun v => (v.base.ruleName, v.base.message, v.base.node))

example : notedFound ab = [(py "Toy", py "found", 2), (py "Other", py "see", 1), (py "Other", py "see", 2), (py "Other", py "see", 3)] ∧
    notedFound ad = [(py "Other", py "see", 1), (py "Other", py "see", 2), (py "Other", py "see", 3)] := by decide +kernel

theorem noted_config (b : Bytes) (hb : b = ab ∨ b = ad) : notedOutside.config (some bothOptions) (systemWorld b).files [py "root", py "f"] = .ok bothConfig := by
  have hl : locateConfigs (notedOutside.fs (systemWorld b).files) [py "root", py "f"] none = .ok [[py "root", py "fixit.toml"]] := by
    rcases hb with rfl | rfl <;> decide +kernel
  unfold Outside.config generateConfig
  show (locateConfigs (notedOutside.fs (systemWorld b).files) [py "root", py "f"] none >>= _) = _
  rw [hl]
  rfl

theorem noted_active (b : Bytes) (k : Nat) : Active notedOutside (systemWorld b).files bothConfig k ↔ k = 0 ∨ k = 1 := by
  have h := (selected_iff notedOutside (fun l => .refl l) (systemWorld b).files bothConfig _ rfl).2 k
  rw [← h]
  show k ∈ [0, 1] ↔ _
  simp

theorem noted_keeps (files : Path → Option Bytes) (root path : Path) (m : Node) (k : Nat) : KeepsMetadata (notedVisits.rule files root path m k) := by
  simp only [notedVisits]
  split
  · exact nameRule_keeps _ _ _
  · exact nameRule_keeps _ _ _

theorem noted_shows (m : Node) (w : Violation Nat Repl) (hr : w.replacement = none) : ∃ lv, display (notedOutside.env (some bothOptions)) [py "root", py "f"] m w = .ok lv := by
  obtain ⟨rn, rg, ms, nd, rp⟩ := w
  simp only at hr
  subst hr
  exact ⟨_, rfl⟩

theorem noted_lints (b : Bytes) (hb : b = ab ∨ b = ad) : Lints (notedOutside.walking notedVisits) (some bothOptions) (systemWorld b).files [py "root", py "f"] b bothConfig (notedNode b) := by
  refine C116_lints notedOutside notedVisits (fun l => .refl l) (some bothOptions) _ _ b _ _ (notedNode b) rfl rfl (noted_config b hb) rfl
    (by rcases hb with rfl | rfl <;> rfl) (fun k _ => noted_keeps _ _ _ _ k) (fun _ => rfl) (fun _ => rfl) (fun k hk => ?_)
  have hgen : ∀ reps : List Rep, (∀ rep ∈ reps, rep.change = none) → ∀ rep ∈ reps, ¬ Silenced notedOutside (notedNode b) rep.node (ruleName (notedOutside.className k)) →
      (∃ s, s ≠ [] ∧ (rep.message = some s ∨ notedOutside.classMessage k = some s)) ∧ ∀ w : Violation Nat Repl, w.node = rep.node →
        w.replacement = rep.change.map (notedVisits.replacement (notedNode b) rep.node) → ∃ lv, display (notedOutside.env (some bothOptions)) [py "root", py "f"] (notedNode b) w = .ok lv := by
    intro reps hch rep hrep _
    exact ⟨⟨py "found", by decide, .inr rfl⟩, fun w _ hr => noted_shows _ w (by rw [hr, hch rep hrep]; rfl)⟩
  rcases (noted_active b k).mp hk with rfl | rfl <;> rcases hb with rfl | rfl
  · exact ⟨[⟨2, none, none⟩], rfl, hgen _ (by simp)⟩
  · exact ⟨[⟨2, none, none⟩], rfl, hgen _ (by simp)⟩
  · exact ⟨[⟨1, some (py "see"), none⟩, ⟨2, some (py "see"), none⟩, ⟨3, some (py "see"), none⟩], rfl, hgen _ (by simp)⟩
  · exact ⟨[⟨1, some (py "see"), none⟩, ⟨2, some (py "see"), none⟩, ⟨3, some (py "see"), none⟩], rfl, hgen _ (by simp)⟩

theorem noted_same : SameReports notedOutside notedVisits (systemWorld ab).files (systemWorld ad).files bothConfig (notedNode ab) (notedNode ad) := by
  intro k hk reps reps' h h'
  rcases (noted_active ab k).mp hk with rfl | rfl
  · have e : Except.ok (ε := Err) [⟨2, none, none⟩] = .ok reps := h
    have e' : Except.ok (ε := Err) [⟨2, none, none⟩] = .ok reps' := h'
    cases e; cases e'; rfl
  · have e : Except.ok (ε := Err) [⟨1, some (py "see"), none⟩, ⟨2, some (py "see"), none⟩, ⟨3, some (py "see"), none⟩] = .ok reps := h
    have e' : Except.ok (ε := Err) [⟨1, some (py "see"), none⟩, ⟨2, some (py "see"), none⟩, ⟨3, some (py "see"), none⟩] = .ok reps' := h'
    cases e; cases e'; rfl

def plainInfo (c : OptComment) : NodeInfo := ⟨false, some c, .other, none, none, none, none, none⟩

theorem noted_chain (b : Bytes) (i : Nat) : (notedOutside.tree (notedNode b)).chain (notedOutside.pos (notedNode b) i) =
    ((toyBytes (notedNode b))[i - 1]?).map (fun b => [plainInfo (if b = 99 ∨ b = 100 then some ignoreToy else none)]) := by
  show ((((toyBytes (notedNode b)).map (fun b => toyTree (if b = 99 ∨ b = 100 then some ignoreToy else none)))[i - 1]?).bind fun t => (t.along []).map List.reverse) = _
  rw [List.getElem?_map]
  cases (toyBytes (notedNode b))[i - 1]? with
  | none => rfl
  | some x => rfl

/-- C142: the comment was written at the end of the second line. -/
theorem noted_written : CommentWritten notedOutside (notedNode ab) (notedNode ad) ignoreToy := by
  refine ⟨rfl, fun _ => Iff.rfl, fun i => ?_⟩
  rw [noted_chain, noted_chain]
  have e1 : toyBytes (notedNode ab) = ab := by decide
  have e2 : toyBytes (notedNode ad) = ad := by decide
  rw [e1, e2]
  match hi : i - 1 with
  | 0 => exact .inr ⟨_, _, rfl, rfl, .inl rfl⟩
  | 1 => exact .inr ⟨_, _, rfl, rfl, .inr ⟨0, _, _, rfl, .endOfLine _ rfl, rfl⟩⟩
  | 2 => exact .inr ⟨_, _, rfl, rfl, .inl rfl⟩
  | n + 3 => exact .inl ⟨rfl, rfl⟩

theorem commentIn_ne {c : PStr} {n n' : NodeInfo} (h : CommentIn c n n') : n' ≠ n := by
  cases h with
  | endOfLine h => intro he; have := congrArg NodeInfo.trailing he; simp [h] at this
  | blockHeader h h' => intro he; have := congrArg NodeInfo.body he; simp [h'] at this
  | sameLine h h' => intro he; have := congrArg NodeInfo.body he; simp [h'] at this
  | afterComma ls h => intro he; have := congrArg NodeInfo.comma he; rcases h with h | ⟨h, -⟩ <;> simp [h] at this
  | beforeBracket ls h => intro he; have := congrArg NodeInfo.rbracket he; rcases h with h | ⟨h, -⟩ <;> simp [h] at this
  | afterBracket fl before after h =>
    intro he; have := congrArg NodeInfo.lbracket he
    rcases h with h | ⟨h, -⟩
    · simp only [h, Option.some.injEq, Ws.paren.injEq, true_and] at this
      have := congrArg List.length this
      simp at this
    · simp [h] at this
  | underDecorators before after h => intro he; have := congrArg (fun n => (n.linesAfterDecorators.map List.length)) he; simp [h] at this
  | above before after h => intro he; have := congrArg (fun n => (n.leadingLines.map List.length)) he; simp [h] at this

theorem noted_inStatement (i : Nat) : InStatement notedOutside (notedNode ab) (notedNode ad) ignoreToy i ↔ i = 2 := by
  have e1 : toyBytes (notedNode ab) = ab := by decide
  have e2 : toyBytes (notedNode ad) = ad := by decide
  unfold InStatement
  rw [noted_chain, noted_chain, e1, e2]
  constructor
  · rintro ⟨ch, ch', k, h1, h2, ⟨n, n', a1, a2, a3⟩, -⟩
    have hne : ch' ≠ ch := by
      intro he
      rw [he] at a3
      have : ch[k]? = some n' := by
        rw [a3, List.getElem?_set, if_pos rfl, if_pos (List.getElem?_eq_some_iff.mp a1).1]
      rw [a1] at this
      exact commentIn_ne a2 (Option.some.inj this).symm
    match hi : i - 1, h1, h2 with
    | 0, h1, h2 => cases h1; cases h2; exact absurd rfl hne
    | 1, h1, h2 => omega
    | 2, h1, h2 => cases h1; cases h2; exact absurd rfl hne
    | n + 3, h1, h2 => cases h1
  · rintro rfl
    exact ⟨_, _, 0, rfl, rfl, ⟨_, _, rfl, .endOfLine _ rfl, rfl⟩, fun j hj => absurd hj (Nat.not_lt_zero j)⟩

theorem noted_gone (name : PStr) : SaysIgnore notedOutside ignoreToy name ↔ Silenced notedOutside (notedNode ad) 2 name := by
  have h := C142_silenced notedOutside noted_written 2 name
  rw [h, noted_inStatement]
  constructor
  · exact fun h => .inr ⟨rfl, h⟩
  · rintro (h | ⟨-, h⟩)
    · exact absurd ((silenced_iff notedOutside (notedNode ab) 2 name).mp h) (by rw [show nodeComments (notedOutside.tree (notedNode ab)) (notedOutside.pos (notedNode ab) 2) = [] by decide]; exact Bool.false_ne_true)
    · exact h

/-- C142: the hypotheses of `C142_comment` are met: the violation of `Toy` at the second statement is gone, that of `Other` there is not. -/
example : (foundIn ((notedOutside.walking notedVisits).env (some bothOptions)) (systemWorld ad).files [py "root", py "f"]).map (fun lv => (lv.base.ruleName, lv.base.message, lv.base.node, lv.base.range)) =
    ((foundIn ((notedOutside.walking notedVisits).env (some bothOptions)) (systemWorld ab).files [py "root", py "f"]).filter (fun lv =>
      !(lv.base.node = 2 && ignoreLint notedOutside.unicode lv.base.ruleName [ignoreToy]))).map (fun lv => (lv.base.ruleName, lv.base.message, lv.base.node, id lv.base.range)) :=
  C142_comment notedOutside notedVisits (fun l => .refl l) (noted_lints ab (.inl rfl)) (noted_lints ad (.inr rfl)) rfl (fun k _ => ⟨noted_keeps _ _ _ _ k, noted_keeps _ _ _ _ k⟩) noted_same
    noted_written id (fun _ => rfl) _ (fun lv => by
      rw [noted_inStatement, noted_gone, silenced_iff,
        show nodeComments (notedOutside.tree (notedNode ad)) (notedOutside.pos (notedNode ad) 2) = [ignoreToy] by decide]
      simp)

/-! A comment above the first statement. -/

/-- A statement, which owns the lines above it. -/
def headedTree : Tree := .node ⟨false, some none, .other, none, none, none, none, some []⟩ []

/-- `h` in the source stands for the comment above the first statement, and is not a statement. -/
def headedOutside : Outside Nat Nat :=
  { toyOutside with
    tree := fun m => ⟨if (toyBytes m).head? = some 104 then [some ignoreToy] else [], ((toyBytes m).filter (· ≠ 104)).map (fun _ => headedTree), []⟩ }

/-- C142: the hypothesis of `C142_header` is met: the first statement is silenced by the comment in the header, and only that one. -/
theorem headed_written : HeaderWritten headedOutside (notedNode [98, 98]) (notedNode [104, 98, 98]) ignoreToy := by
  refine ⟨⟨[], [], by decide, by decide⟩, fun _ => Iff.rfl, fun i => ?_⟩
  have e1 : ((toyBytes (notedNode [98, 98])).filter (· ≠ 104)) = [98, 98] := by decide
  have e2 : ((toyBytes (notedNode [104, 98, 98])).filter (· ≠ 104)) = [98, 98] := by decide
  show ((((toyBytes (notedNode [104, 98, 98])).filter (· ≠ 104)).map (fun _ => headedTree))[i - 1]?).bind (fun t => (t.along []).map List.reverse) =
    ((((toyBytes (notedNode [98, 98])).filter (· ≠ 104)).map (fun _ => headedTree))[i - 1]?).bind (fun t => (t.along []).map List.reverse)
  rw [e1, e2]

example : ignoreLint headedOutside.unicode (py "Toy") (nodeComments (headedOutside.tree (notedNode [104, 98, 98])) (headedOutside.pos (notedNode [104, 98, 98]) 1)) = true ∧
    ignoreLint headedOutside.unicode (py "Toy") (nodeComments (headedOutside.tree (notedNode [104, 98, 98])) (headedOutside.pos (notedNode [104, 98, 98]) 2)) = false ∧
    ignoreLint headedOutside.unicode (py "Toy") (nodeComments (headedOutside.tree (notedNode [98, 98])) (headedOutside.pos (notedNode [98, 98]) 1)) = false := by decide +kernel

end Fixit
