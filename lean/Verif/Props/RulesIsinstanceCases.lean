import Verif.Props.RulesIsinstanceShape
import Verif.Props.RulesDemo
import Verif.Spec.PyText

/-! # C82: a chain that meets the hypotheses, and the two ways in which the rewrite goes wrong -/

namespace Cst
open Py

/-- Names compare as names; nothing else is taken to be equal. -/
def nameOracle : IsinstanceOracle where
  deepEquals := fun a b => match a, b with | .name s, .name t => s == t | _, _ => false
  isBuiltin := fun e => match e.core with | .call (.name s) _ => s == py "isinstance" | _ => false

def nm (s : PStr) : Expr := .name s

/-- `isinstance(x, t)` -/
def chk (t : PStr) : Expr := .call (nm (py "isinstance")) [.pos (nm (py "x")), .pos (nm t)]

/-- `isinstance(x, A) or z or isinstance(x, B)` -/
def chain : Expr := .bool .or (.bool .or (chk (py "A")) (nm (py "z"))) (chk (py "B"))

/-- `isinstance(x, (A, B)) or z` -/
def chainFixed : Expr :=
  .bool .or (.call (nm (py "isinstance")) [.pos (nm (py "x")), .pos (.paren (.tuple [.plain (nm (py "A")), .plain (nm (py "B"))]))]) (nm (py "z"))

theorem chain_fix : collapseIsinstance nameOracle chain = .fix chainFixed := rfl

theorem chain_operands : Operands chain [chk (py "A"), nm (py "z"), chk (py "B")] :=
  .or (es := [chk (py "A"), nm (py "z")]) rfl (.or (es := [chk (py "A")]) rfl (.leaf (by intro l r h; cases h)))

theorem nameOracle_sound : ∀ a b, nameOracle.deepEquals a b = true → a = b := by
  intro a b h
  unfold nameOracle at h
  simp only [] at h
  split at h
  · simp at h; rw [h]
  · cases h

/-- The hypotheses of `C82_truth` hold for this chain in the demo program. -/
example : evalCond (demo xB) [] chainFixed = evalCond (demo xB) [] chain := by
  refine C82_truth nameOracle chain chainFixed _ chain_fix chain_operands (demo xB) [] _ _ _ (demo_const xB) (demo_isinstance xB) rfl
    nameOracle_sound ?_ (fun e => match e with | .name _ => true | .call _ [_, .mk _ _ (.name t)] => t == py "B" | _ => false) ?_ ?_
  · intro e he _ f args hc
    simp only [List.mem_cons, List.not_mem_nil, or_false] at he
    rcases he with rfl | rfl | rfl <;> simp [chk, nm, Expr.core] at hc
    · obtain ⟨rfl, _⟩ := hc; rfl
    · obtain ⟨rfl, _⟩ := hc; rfl
  · intro e he
    simp only [List.mem_cons, List.not_mem_nil, or_false] at he
    rcases he with rfl | rfl | rfl
    · funext s; rfl
    · funext s; rfl
    · funext s; rfl
  · intro e he f a b hc _
    simp only [List.mem_cons, List.not_mem_nil, or_false] at he
    rcases he with rfl | rfl | rfl <;> simp [chk, nm, Expr.core] at hc
    · obtain ⟨rfl, rfl, rfl⟩ := hc
      exact ⟨⟨_, _, rfl, rfl⟩, ⟨_, rfl⟩, ⟨_, rfl⟩⟩
    · obtain ⟨rfl, rfl, rfl⟩ := hc
      exact ⟨⟨_, _, rfl, rfl⟩, ⟨_, rfl⟩, ⟨_, rfl⟩⟩

/-- The shape, on a chain that is rewritten. -/
example : ∃ e', collapseIsinstance nameOracle chain = .fix e' ∧ collapseIsinstance nameOracle e' = .silent := ⟨chainFixed, rfl, rfl⟩

open Classical in
/-- An oracle as in `C82_shape` exists, and a chain with a repeated target is rewritten under it. -/
example : ∃ o : IsinstanceOracle, (∀ a b, o.deepEquals a b = true ↔ a = b) ∧ ∃ e', collapseIsinstance o chain = .fix e' := by
  let o : IsinstanceOracle := ⟨fun a b => decide (a = b), fun _ => true⟩
  have hd : ∀ a b, o.deepEquals a b = true ↔ a = b := by intro a b; simp [o]
  refine ⟨o, hd, ?_⟩
  obtain ⟨-, h⟩ := C82_shape hd chain _ ⟨_, _, _, rfl⟩ chain_operands
  obtain ⟨e', he, -⟩ := h (by
    have : targetsOf (isinstanceCall o) [chk (py "A"), nm (py "z"), chk (py "B")] = [nm (py "x"), nm (py "x")] := rfl
    rw [this]
    simp)
  exact ⟨e', he⟩

/-- **Finding.** Only the truth value is kept: with an operand between the checks, the value of the expression changes. Here `x` is an
instance of `B` only, and `isinstance(x, A) or z or isinstance(x, B)` is `z` while `isinstance(x, (A, B)) or z` is `True`. -/
theorem C82_value_changes : ∃ e', collapseIsinstance nameOracle chain = .fix e' ∧ ∃ (v w : DVal),
    eval (demo xB) [] chain () = (.ok v, ()) ∧ eval (demo xB) [] e' () = (.ok w, ()) ∧ v.1 = py "z" ∧ w.1 = py "True" :=
  ⟨chainFixed, rfl, _, _, rfl, rfl, rfl, rfl⟩

/-- `(isinstance(x, A) or isinstance(x, B) or z)`, with its parentheses -/
def grouped : Expr := .paren (.bool .or (.bool .or (chk (py "A")) (chk (py "B"))) (nm (py "z")))

/-- **Finding.** The replacement loses the parentheses of the expression it replaces. In `(isinstance(x, A) or isinstance(x, B) or z) and False`
the rule puts `isinstance(x, (A, B)) or z` for the parenthesised part, and the new text `isinstance(x, (A, B)) or z and False` is read as
`isinstance(x, (A, B)) or (z and False)`: it is true where the old condition was false. -/
theorem C82_parentheses_lost : ∃ (new read : Expr),
    collapseIsinstance nameOracle grouped = .fix new ∧
    Reads .disjunction (render (.bool .and grouped (nm (py "False")))) (.bool .and grouped (nm (py "False"))) ∧
    Reads .disjunction (render (.bool .and new (nm (py "False")))) read ∧
    evalCond (demo xAB) [] (.bool .and grouped (nm (py "False"))) () = (.ok false, ()) ∧
    evalCond (demo xAB) [] read () = (.ok true, ()) := by
  have hchk : ∀ t, Reads .primary (render (chk t)) (chk t) := fun t =>
    .call (tf := [.name (py "isinstance")]) .name (.cons (ts := [.name (py "x")]) (.conjunction (.inversion (.primary .name))) (by simp)
      (.last (.conjunction (.inversion (.primary .name)))))
  refine ⟨chainFixed, .bool .or (.call (nm (py "isinstance")) [.pos (nm (py "x")),
    .pos (.paren (.tuple [.plain (nm (py "A")), .plain (nm (py "B"))]))]) (.bool .and (nm (py "z")) (nm (py "False"))), rfl, ?_, ?_, rfl, rfl⟩
  · refine .conjunction (.and (tl := render grouped) (tr := [.name (py "False")]) (.inversion (.primary ?_)) (.primary .name))
    refine .paren (ts := render (.bool .or (.bool .or (chk (py "A")) (chk (py "B"))) (nm (py "z")))) ?_
    refine .or (tl := render (.bool .or (chk (py "A")) (chk (py "B")))) (tr := [.name (py "z")]) ?_ (.inversion (.primary .name))
    exact .or (tl := render (chk (py "A"))) (tr := render (chk (py "B"))) (.conjunction (.inversion (.primary (hchk _)))) (.inversion (.primary (hchk _)))
  · refine .or (tl := render (.call (nm (py "isinstance")) [.pos (nm (py "x")),
      .pos (.paren (.tuple [.plain (nm (py "A")), .plain (nm (py "B"))]))])) (tr := [.name (py "z"), .and, .name (py "False")]) ?_ ?_
    · refine .conjunction (.inversion (.primary (.call (tf := [.name (py "isinstance")]) .name ?_)))
      refine .cons (ts := [.name (py "x")]) (.conjunction (.inversion (.primary .name))) (by simp) (.last (.conjunction (.inversion (.primary ?_))))
      refine .tuple (ts := [.name (py "A"), .comma, .name (py "B"), .comma]) ?_
      exact .cons (ts := [.name (py "A")]) (.conjunction (.inversion (.primary .name)))
        (.cons (ts := [.name (py "B")]) (us := []) (.conjunction (.inversion (.primary .name))) .nil)
    · exact .and (tl := [.name (py "z")]) (tr := [.name (py "False")]) (.inversion (.primary .name)) (.primary .name)

end Cst
