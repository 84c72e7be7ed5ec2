import Verif.Model.Pickle

/-!
# C119: errors of rule collection and configuration survive the way between processes
-/

namespace Fixit
open Py

/-- C119: a `ConfigError` or `CollectionError` that was made in the process that lints a file arrives as the same error: same class, message, rule and configuration. -/
theorem C119_arrives (cls : ErrorClass) (args : List Item) (e : ErrorObject) (h : construct cls args = .ok e) : (reduce e).bind rebuild = .ok e := by
  unfold construct at h
  split at h <;> cases h <;> rfl

/-- C119: so the message shown is the first argument given, and the attribute the second. -/
theorem C119_rule (msg : PStr) (q : QualifiedRule) : ∃ e, (construct .collectionError [.text msg, .rule q]).bind (fun e => (reduce e).bind rebuild) = .ok e ∧
    e.args = [.text msg] ∧ e.attr (py "rule") = .ok (.rule q) := ⟨_, rfl, rfl, rfl⟩

/-- C119: the only argument left is the message, so that `str(error)` is the message for both classes; what was given besides is the attribute. -/
theorem C119_message (cls : ErrorClass) (msg : Item) (rest : List Item) (e : ErrorObject) (h : construct cls (msg :: rest) = .ok e) :
    e.cls = cls ∧ e.args = [msg] ∧ (∀ x, rest = [x] → e.attrs.map Prod.snd = [x]) := by
  unfold construct at h
  split at h <;> simp_all <;> cases h <;> simp

/-- C119: without its own `__reduce__`, no `CollectionError` would arrive. -/
theorem C119_inherited_fails (args : List Item) (e : ErrorObject) (h : construct .collectionError args = .ok e) : rebuild (baseReduce e) = .error .type := by
  unfold construct at h
  split at h
  · rename_i he; cases he
  · rename_i he; cases he
  · cases h; rfl
  · cases h

/-- C119: the hypothesis is met. -/
example : ∃ e, construct .configError [.text (py "bad"), .config 3] = .ok e ∧ e.attrs.length = 1 := ⟨_, rfl, rfl⟩

end Fixit
