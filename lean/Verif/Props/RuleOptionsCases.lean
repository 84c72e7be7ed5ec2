import Verif.Props.RuleOptions
import Verif.Props.WalkCases

/-!
# C133 and C23: options in configuration files, concretely
-/

namespace Fixit
open Py Spec Gen Cst

/-- An override whose options are given with double brackets, as in the configuration guide (docs/guide/configuration.rst:240-242), is an array of tables in TOML. -/
def documentedOverrides : Toml :=
  .arr [.tbl [(py "path", .str (py "foo/bar")), (py "disable", .arr [.str (py "fixit.rules:ExampleRule")]),
    (py "options", .arr [.tbl [(py "fixit.rules:Story", .tbl [(py "closing", .str (py "goodnight moon"))])]])],
    .tbl [(py "path", .str (py "fizz/buzz")), (py "enable", .arr [.str (py "plugin:SomethingNeat")])]]

/-- **C23** A file in which the options of an override are an array of tables is refused, whatever else is in it and whichever file is linted. -/
theorem C23_options_array {V : Type} (env : CfgEnv V) (path : Path) (order : List QualifiedRule → List QualifiedRule) (raw : List RawConfig) (root : Option Path) (f : File) (hf : f ∈ files raw)
    (d : Dict) (l : List Toml) (ho : Toml.tbl d ∈ elems (field (py "overrides") f.table)) (hl : field (py "options") d = some (.arr l)) :
    ∃ e, mergeConfigs env order path raw root = .error e := by
  cases h : mergeConfigs env order path raw root with
  | error e => exact ⟨e, rfl⟩
  | ok r =>
    obtain ⟨hv, -⟩ := (C23_accepts_iff_valid env path order raw root).1 ⟨r, h⟩
    obtain ⟨d', s, hd, -, -, hw, -⟩ := (hv f hf).entries _ ho
    cases hd
    have := hw.options
    rw [hl] at this
    exact absurd this (by simp [ValidOptions])

/-- **C23** The example of an override with options in the configuration guide is such a file: reading it ends with ConfigError. -/
theorem C23_documented_override :
    mergeConfigs exEnv id [py "a", py "x.py"] [⟨[py "a", py "pyproject.toml"], [(py "overrides", documentedOverrides)]⟩] none =
      .error (.config [.str (py "options"), .text (py " must be mapping of values, got <class 'str'>")]) := rfl

/-- What `/root/fixit.toml` says, with options for the rule that reports and in an override. -/
def optionsConfig : Dict :=
  [(py "tool", .tbl [(py "fixit", .tbl [(py "disable", .arr [.str (py "fixit.rules:OtherRule")]),
    (py "options", .tbl [(py "fixit.rules:ToyRule", .tbl [(py "greeting", .str (py "hello")), (py "answer", .int 42)])]),
    (py "overrides", .arr [.tbl [(py "path", .str (py "f")), (py "options", .tbl [(py "fixit.rules:ToyRule", .tbl [(py "level", .float 2)])])]])])])]

def optionsOutside : Outside Nat Nat := { toyOutside with toml := fun _ => .ok optionsConfig }

/-- The hypothesis of C133 is met, and the options are in the merged configuration. -/
theorem options_good : ∀ b d, optionsOutside.toml b = .ok d → GoodFile d := by
  intro b d hd
  cases hd
  intro t d ht hd
  cases ht
  cases hd
  refine ⟨?_, ?_⟩
  · intro v hv
    cases hv
    refine ⟨_, rfl, ?_⟩
    intro e he
    simp only [List.mem_singleton] at he
    subst he
    refine ⟨_, rfl, ?_⟩
    intro x hx
    simp only [List.mem_cons, List.not_mem_nil, or_false] at hx
    rcases hx with rfl | rfl
    · exact .inl ⟨_, rfl⟩
    · exact .inr (.inl ⟨_, rfl⟩)
  · intro o ho
    have ho : Toml.tbl o ∈ [Toml.tbl [(py "path", .str (py "f")), (py "options", .tbl [(py "fixit.rules:ToyRule", .tbl [(py "level", .float 2)])])]] := ho
    simp only [List.mem_singleton, Toml.tbl.injEq] at ho
    subst ho
    intro v hv
    cases hv
    refine ⟨_, rfl, ?_⟩
    intro e he
    simp only [List.mem_singleton] at he
    subst he
    refine ⟨_, rfl, ?_⟩
    intro x hx
    simp only [List.mem_singleton] at hx
    subst hx
    exact .inr (.inr (.inl ⟨_, rfl⟩))

example : (optionsOutside.config (some {}) (systemWorld abcu).files [py "root", py "f"]).toOption.map (fun c => c.options) =
    some [(py "fixit.rules:ToyRule", [(py "level", .float 2)])] := by decide +kernel

/-- And what is found is the same as without them. -/
example : ((foundIn ((optionsOutside.walking (toyVisits raisingRule)).env (some {})) (systemWorld abcu).files [py "root", py "f"]).map (fun v => (v.base.ruleName, v.base.range.start.column))) =
    [(py "Toy", 2)] ∧
  ((foundIn (((withoutOptions optionsOutside).walking (toyVisits raisingRule)).env (some {})) (systemWorld abcu).files [py "root", py "f"]).map (fun v => (v.base.ruleName, v.base.range.start.column))) =
    [(py "Toy", 2)] := by decide +kernel

/-- A file of which only the options are left still marks its directory as the root of the configuration: emptying the table is not the same as removing the file. -/
example : (mergeConfigs exEnv id [py "a", py "b", py "x.py"] [⟨[py "a", py "fixit.toml"], [(py "options", .tbl [])]⟩] none).toOption.map (fun r => r.1.root) = some [py "a"] ∧
    (mergeConfigs exEnv id [py "a", py "b", py "x.py"] [] none).toOption.map (fun r => r.1.root) = some [] := ⟨rfl, rfl⟩

end Fixit
