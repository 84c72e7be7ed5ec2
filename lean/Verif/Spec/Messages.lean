import Verif.Spec.Config
import Verif.Spec.StrLit
import Verif.Spec.Refs

/-!
# What a configuration error says

`Complaint` lists, in terms of the tables as written by the user, what can be wrong with one config file, and the text for it.
-/

namespace Spec
open Py
open Fixit (Toml Path)

/-- What the interpreter writes for values other than strings, integers and truth values. -/
structure Notation where
  float : Int → PStr
  date : Nat → PStr
  dateType : Nat → PStr

/-- The text shows the value: as a string literal with this value, a decimal number, `True` or `False`. -/
def Shows (N : Notation) : Toml → PStr → Prop
  | .str s, t => ∀ names, StringLiteral names t (s.map Char.toNat)
  | .int n, t => t = (toString n).toList
  | .bool true, t => t = py "True"
  | .bool false, t => t = py "False"
  | .float n, t => t = N.float n
  | .date n, t => t = N.date n
  | _, _ => False

/-- The type of a value that is no scalar. -/
def typeText (N : Notation) : Toml → PStr
  | .arr _ => py "<class 'list'>"
  | .tbl _ => py "<class 'dict'>"
  | .date n => N.dateType n
  | _ => []

/-- The settings that can be chosen from: versions and formatters. -/
structure Choices where
  version : PStr → Prop
  formatter : PStr → Prop

/-- A string that names a rule or a module with rules. -/
def NamesRule (s : PStr) : Prop := ∃ r : RuleRef, r.WF ∧ (s = r.render ∨ s = r.render ++ ['\n'])

/-- What can be wrong with a section, and what is said. -/
inductive SectionComplaint (N : Notation) (C : Choices) (target : Path) (sec : Section) : PStr → Prop where
  /-- the type in the text is not the one of the value -/
  | array (key : PStr) (v : Toml) : key ∈ [py "enable", py "disable"] → field key sec.table = some v → (∀ l, v ≠ .arr l) →
      SectionComplaint N C target sec (py "'" ++ key ++ py "' must be array of values, got <class 'str'>")
  | mapping (v : Toml) : field (py "options") sec.table = some v → (∀ d, v ≠ .tbl d) →
      SectionComplaint N C target sec (py "'options' must be mapping of values, got <class 'str'>")
  | option (opts : List (PStr × Toml)) (rule : PStr) (t : List (PStr × Toml)) (key : PStr) (v : Toml) (text : PStr) :
      field (py "options") sec.table = some (.tbl opts) → (rule, Toml.tbl t) ∈ opts → (key, v) ∈ t → ¬ Scalar v → Shows N (.str key) text →
      SectionComplaint N C target sec (text ++ py " must be one of (<class 'str'>, <class 'int'>, <class 'float'>), got " ++ typeText N v)
  | rule (s text : PStr) : Toml.str s ∈ elems (field (py "enable") sec.table) ++ elems (field (py "disable") sec.table) → sec.scope <+: target → ¬ NamesRule s →
      Shows N (.str s) text → SectionComplaint N C target sec (py "invalid rule name " ++ text)
  | version (s text : PStr) : truthyField (py "python-version") sec.table = some (.str s) → sec.scope <+: target → ¬ C.version s →
      Shows N (.str s) text → SectionComplaint N C target sec (py "'python-version' " ++ text ++ py " is not valid")
  | formatter (v : Toml) (text : PStr) : truthyField (py "formatter") sec.table = some v → sec.scope <+: target → (∀ s, v = .str s → ¬ C.formatter s) →
      Shows N v text → SectionComplaint N C target sec (py "'formatter' " ++ text ++ py " not supported")

/-- What can be wrong with a file, and what is said. `root` is the project root in force for it. -/
inductive Complaint (N : Notation) (C : Choices) (target root : Path) (f : File) : PStr → Prop where
  | notRoot (v : Toml) : truthyField (py "enable-root-import") f.table = some v → f.dir ≠ root →
      Complaint N C target root f (py "enable-root-import not allowed in non-root configs")
  | absolute (s : PStr) : truthyField (py "enable-root-import") f.table = some (.str s) → s.head? = some '/' →
      Complaint N C target root f (py "enable-root-import: absolute paths not allowed")
  | parentDir (s : PStr) : truthyField (py "enable-root-import") f.table = some (.str s) → py ".." ∈ splitOn '/' s →
      Complaint N C target root f (py "enable-root-import: '..' components not allowed")
  /-- the text does not say which value -/
  | outputFormat (v : Toml) : truthyField (py "output-format") f.table = some v → (∀ s ∈ [py "custom", py "fixit", py "vscode"], v ≠ .str s) →
      Complaint N C target root f (py "output-format: unknown value {value!r}")
  | overrides (v : Toml) : field (py "overrides") f.table = some v → (∀ l, v ≠ .arr l) →
      Complaint N C target root f (py "'overrides' must be array of values, got <class 'str'>")
  | noTable (o : Toml) : o ∈ elems (field (py "overrides") f.table) → (∀ d, o ≠ .tbl d) →
      Complaint N C target root f (py "'overrides' requires array of tables")
  | noPath (d : List (PStr × Toml)) : Toml.tbl d ∈ elems (field (py "overrides") f.table) → truthyField (py "path") d = none →
      Complaint N C target root f (py "'overrides' table requires 'path' value")
  | inSection (sec : Section) (text : PStr) : sec ∈ sections f → SectionComplaint N C target sec text → Complaint N C target root f text

end Spec
