import Verif.Py.Str

/-!
# Specification of rule references

`[.]module[.sub…][:Name]`
-/

namespace Spec
open Py

/-- ASCII letter, digit or underscore. -/
def IdentChar (c : Char) : Prop := (c.isAlphanum || c == '_') = true
/-- The same, or a dash. -/
def SegChar (c : Char) : Prop := IdentChar c ∨ c = '-'

/-- The parts of a rule reference. -/
structure RuleRef where
  /-- starts with a dot -/
  isLocal : Bool
  /-- first module component -/
  head : PStr
  /-- further components -/
  segs : List PStr
  /-- the name after the colon -/
  name : Option PStr

/-- Every part is non-empty and made of allowed characters. -/
structure RuleRef.WF (r : RuleRef) : Prop where
  head_ne : r.head ≠ []
  head_ok : ∀ c ∈ r.head, IdentChar c
  segs_ok : ∀ s ∈ r.segs, s ≠ [] ∧ ∀ c ∈ s, SegChar c
  name_ok : ∀ n, r.name = some n → n ≠ [] ∧ ∀ c ∈ n, SegChar c

/-- The module part as written. -/
def RuleRef.module (r : RuleRef) : PStr :=
  (if r.isLocal then ['.'] else []) ++ r.head ++ (r.segs.map (fun s => '.' :: s)).flatten

/-- `:Name`, if there is a name. -/
def nameSuffix : Option PStr → PStr
  | some n => ':' :: n
  | none => []

/-- The reference as written. -/
def RuleRef.render (r : RuleRef) : PStr := r.module ++ nameSuffix r.name

end Spec
