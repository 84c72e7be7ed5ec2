import Verif.Model.Testing

/-!
# Making rule classes: `LintRule.__init_subclass__`

Classes are looked at through their method resolution order. After a class is made its attributes are not assigned any more.
-/

namespace Fixit
open Py

/-- The attributes in `vars(cls)` that `__init_subclass__` reads, rule.py:64-91. Metadata providers are named by numbers. -/
structure ClassDict where
  metadata : Option (List Nat) := none
  invalid : Option (List Entry) := none
  autofix : Option Bool := none

/-- A class in a method resolution order; `rule`: it is `LintRule` or derived from it (rule.py:55, 104). -/
structure MroEntry where
  dict : ClassDict
  rule : Bool

/-- `PositionProvider`, rule.py:64. -/
def positionProvider : Nat := 0
/-- `ParentNodeProvider`, rule.py:105. -/
def parentProvider : Nat := 1

/-- `LintRule`, rule.py:64-85. -/
def lintRuleClass : MroEntry := ⟨{ metadata := some [positionProvider], autofix := some false }, true⟩

/-- `getattr(cls, name)`: the first class of the method resolution order that has it (rule.py:105, 108, 111). -/
def classAttr {α : Type} (f : ClassDict → Option α) : List MroEntry → Option α
  | [] => none
  | c :: cs => match f c.dict with
    | some x => some x
    | none => classAttr f cs

/-- `isinstance(case, Invalid) and case.expected_replacement`, rule.py:110. -/
def Entry.hasReplacement : Entry → Bool
  | .full (.invalid i) => match i.replacement with
    | some (_ :: _) => true
    | _ => false
  | _ => false

/-- rule.py:105-106; `deps` is `cls.METADATA_DEPENDENCIES`. -/
def addParent (body : ClassDict) (deps : List Nat) : ClassDict :=
  if parentProvider ∈ deps then body else { body with metadata := some (deps ++ [parentProvider]) }

/-- rule.py:109-112; `invalid` is `cls.INVALID`. -/
def setAutofix (body : ClassDict) (invalid : List Entry) : ClassDict :=
  if invalid.any Entry.hasReplacement then { body with autofix := some true } else body

/-- `__init_subclass__`, rule.py:104-112, on the class with this body and these ancestors; all of them have `METADATA_DEPENDENCIES` through `LintRule`. -/
def initSubclass (body : ClassDict) (ancestors : List MroEntry) : ClassDict :=
  setAutofix (addParent body ((classAttr ClassDict.metadata (⟨body, true⟩ :: ancestors)).getD []))
    ((classAttr ClassDict.invalid (⟨addParent body ((classAttr ClassDict.metadata (⟨body, true⟩ :: ancestors)).getD []), true⟩ :: ancestors)).getD [])

/-- `class C(…): body`: the method resolution order of the new class (rule.py:104-112). -/
def subclass (body : ClassDict) (ancestors : List MroEntry) : List MroEntry := ⟨initSubclass body ancestors, true⟩ :: ancestors

/-- libCST's `get_inherited_dependencies` (engine.py:84): the dependencies of all rule classes of the method resolution order. -/
def inheritedDependencies : List MroEntry → List Nat
  | [] => []
  | c :: cs => (if c.rule then (classAttr ClassDict.metadata (c :: cs)).getD [] else []) ++ inheritedDependencies cs

end Fixit
