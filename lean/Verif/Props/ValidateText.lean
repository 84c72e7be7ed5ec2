import Verif.Model.ValidateText
import Verif.Props.Validate
import Verif.Props.Messages

/-!
# C125: what `validate_config` says
-/

namespace Spec
open Py
open Fixit (Toml Path Err QualifiedRule)

/-- What validation comes across: a value where a rule is expected, and the place it is at; or something that stops it, with the class of the exception. -/
inductive Glance where
  | ref (value : Toml) (place : PStr)
  | broken (cls : PStr) (e : Err)

/-- The settings that should be lists of rules: strings are looked at letter by letter, tables key by key. -/
def listed (place : PStr) : Option Toml → List Glance
  | none => []
  | some (.arr l) => l.map (fun t => .ref t place)
  | some (.str s) => s.map (fun c => .ref (.str [c]) place)
  | some (.tbl t) => t.map (fun e => .ref (.str e.1) place)
  | some _ => [.broken (py "TypeError") .type]

/-- `enable` and `disable` of an override. -/
def listedIn (path : PStr) (t : List (PStr × Toml)) : List Glance :=
  listed (py "override enable: `" ++ path ++ py "`") (field (py "enable") t) ++ listed (py "override disable: `" ++ path ++ py "`") (field (py "disable") t)

/-- One override. Its path is shown as `shown` says; without one, the path of the file. -/
def overrideGlances (shown : PStr → PStr) (file : PStr) : Toml → List Glance
  | .tbl t => match field (py "path") t with
    | none => listedIn file t
    | some (.str s) => listedIn (shown s) t
    | some _ => [.broken (py "TypeError") .type]
  | _ => [.broken (py "AttributeError") .attribute]

/-- The overrides: an array; of a string or a table, the letters or the keys are taken for overrides, and they are none. -/
def overridesGlances (shown : PStr → PStr) (file : PStr) : Option Toml → List Glance
  | none => []
  | some (.arr l) => l.flatMap (overrideGlances shown file)
  | some (.str s) => s.map (fun _ => .broken (py "AttributeError") .attribute)
  | some (.tbl t) => t.map (fun _ => .broken (py "AttributeError") .attribute)
  | some _ => [.broken (py "TypeError") .type]

/-- All that validation would come across in a table, in order. -/
def glances (shown : PStr → PStr) (file : PStr) (d : List (PStr × Toml)) : List Glance :=
  listed (py "global enable") (field (py "enable") d) ++ listed (py "global disable") (field (py "disable") d) ++ overridesGlances shown file (field (py "overrides") d)

/-- How exceptions and other values than strings are described. -/
structure Describes where
  /-- class and text of an exception, other than CollectionError, raised when a rule is loaded -/
  failure : Err → PStr
  /-- a value that is no string -/
  value : Toml → PStr
  /-- the text of a TypeError or AttributeError of the interpreter, or of a CollectionError -/
  reason : Err → PStr

/-- What is said about a value where a rule is expected: nothing if it names a rule or module that loads; one that cannot be imported or found gives a CollectionError. `refers s q` is "`s` is a reference, to `q`". -/
inductive Remark (D : Describes) (N : Notation) (refers : PStr → QualifiedRule → Prop) (verdict : QualifiedRule → Option Err) : Toml → PStr → List PStr → Prop where
  | loads {s place q} : NamesRule s → refers s q → verdict q = none → Remark D N refers verdict (.str s) place []
  | notFound {s place q} : NamesRule s → refers s q → verdict q = some .collection →
      Remark D N refers verdict (.str s) place [py "Failed to import rule `" ++ s ++ py "` for " ++ place ++ py ": CollectionError: " ++ D.reason .collection]
  | fails {s place q e} : NamesRule s → refers s q → verdict q = some e → e ≠ .collection →
      Remark D N refers verdict (.str s) place [py "Failed to import rule `" ++ s ++ py "` for " ++ place ++ py ": " ++ D.failure e]
  | noReference {s place lit} : ¬ NamesRule s → Shows N (.str s) lit →
      Remark D N refers verdict (.str s) place [py "Failed to parse rule `" ++ s ++ py "` for " ++ place ++ py ": ConfigError: invalid rule name " ++ lit]
  | noString {t place} : (∀ s, t ≠ .str s) →
      Remark D N refers verdict t place [py "Failed to parse rule `" ++ D.value t ++ py "` for " ++ place ++ py ": TypeError: " ++ D.reason .type]

/-- What is said about values that do not stop validation: one after the other. -/
inductive Remarks (A : Toml → PStr → List PStr → Prop) : List Glance → List PStr → Prop where
  | nil : Remarks A [] []
  | cons {t place a gs rest} : A t place a → Remarks A gs rest → Remarks A (.ref t place :: gs) (a ++ rest)

/-- The whole list of messages: everything is answered; or what comes before the first thing that stops validation is, and one message says what that was. -/
inductive Transcript (D : Describes) (A : Toml → PStr → List PStr → Prop) (gs : List Glance) : List PStr → Prop where
  | whole {said} : Remarks A gs said → Transcript D A gs said
  | stopped {before cls e after said} : gs = before ++ .broken cls e :: after → Remarks A before said →
      Transcript D A gs (said ++ [py "Invalid config: " ++ cls ++ py ": " ++ D.reason e])

end Spec

namespace Fixit
open Py Spec

/-- The words, as the specification sees them. -/
def Words.describes (W : Words) : Describes := ⟨W.error, W.value, W.errText⟩

theorem _root_.Spec.Remarks.append {A : Toml → PStr → List PStr → Prop} {gs gs' : List Glance} {s s' : List PStr} (h : Remarks A gs s) (h' : Remarks A gs' s') :
    Remarks A (gs ++ gs') (s ++ s') := by
  induction h with
  | nil => exact h'
  | cons ha _ ih => rw [List.append_assoc]; exact .cons ha ih

section
variable {K M : Type} {find : M → QualifiedRule → Except Err (List K) × M} {verdict : QualifiedRule → Option Err} (hv : LoadsLike find verdict) (W : Words)

/-- The references below a directory. -/
def refersIn (root : Path) (s : PStr) (q : QualifiedRule) : Prop := parseRule s root = .ok q

variable (root : Path)

/-- The answers, below a directory. -/
abbrev answerIn (verdict : QualifiedRule → Option Err) (W : Words) (root : Path) := Remark W.describes W.reprs.asNotation (refersIn root) verdict

theorem remark_noString (ctx : PStr) (t : Toml) (h : ∀ s, t ≠ .str s) : answerIn verdict W root t ctx [(Report.parse t ctx .type).text W] := by
  have := Remark.noString (D := W.describes) (N := W.reprs.asNotation) (refers := refersIn root) (verdict := verdict) (place := ctx) h
  have ht : (Report.parse t ctx .type).text W = py "Failed to parse rule `" ++ W.value t ++ py "` for " ++ ctx ++ py ": TypeError: " ++ W.errText .type := by
    have hr : W.rule t = W.value t := by
      cases t with
      | str s => exact absurd rfl (h s)
      | _ => rfl
    simp only [Report.text, Words.error, hr]
    simp only [List.append_assoc, List.cons_append, List.nil_append]
  rw [ht]
  exact this

include hv in
theorem validateOne_answer (ctx : PStr) (t : Toml) (m : M) : answerIn verdict W root t ctx ((validateOne find root ctx t m).1.map (Report.text W)) := by
  unfold validateOne
  cases t with
  | str s =>
    simp only [parseRuleToml]
    cases hp : parseRule s root with
    | error e =>
      obtain ⟨msg, rfl⟩ := parseRule_oce s root e hp
      obtain ⟨h1, h2⟩ := parseRule_says W.reprs s root msg hp
      have := Remark.noReference (D := W.describes) (N := W.reprs.asNotation) (refers := refersIn root) (verdict := verdict) (place := ctx) h1 (shows_str W.reprs s)
      have ht : (Report.parse (.str s) ctx (.config msg)).text W =
          py "Failed to parse rule `" ++ s ++ py "` for " ++ ctx ++ py ": ConfigError: invalid rule name " ++ Py.reprStr W.reprs.printable s := by
        simp only [Report.text, Words.rule, Words.error, h2]
        simp only [List.append_assoc, List.cons_append, List.nil_append]
      rw [List.map_cons, List.map_nil, ht]
      exact this
    | ok q =>
      have hn : NamesRule s := by
        have hx := (parseRuleToml_iff root (.str s)).1 ⟨q, hp⟩
        obtain ⟨s', hs, hr⟩ := hx
        cases hs
        exact hr
      rcases hf : find m q with ⟨r, m'⟩
      · cases r with
        | ok _ =>
          have hr : refersIn root s q := hp
          simp only [hf]
          refine Remark.loads hn hr ?_
          cases hq : verdict q with
          | none => rfl
          | some e => have := (hv m q e).2 hq; rw [hf] at this; cases this
        | error e =>
          have hr : refersIn root s q := hp
          simp only [hf]
          have hq := (hv m q e).1 (by rw [hf])
          by_cases he : e = .collection
          · subst he
            have := Remark.notFound (D := W.describes) (N := W.reprs.asNotation) (refers := refersIn root) (verdict := verdict) (place := ctx) hn hr hq
            have ht : (Report.imp (.str s) ctx .collection).text W =
                py "Failed to import rule `" ++ s ++ py "` for " ++ ctx ++ py ": CollectionError: " ++ W.errText .collection := by
              simp only [Report.text, Words.rule, Words.error]
              simp only [List.append_assoc, List.cons_append, List.nil_append]
            rw [List.map_cons, List.map_nil, ht]
            exact this
          · exact Remark.fails hn hr hq he
  | int n => exact remark_noString W root ctx (.int n) (by simp)
  | float n => exact remark_noString W root ctx (.float n) (by simp)
  | bool n => exact remark_noString W root ctx (.bool n) (by simp)
  | date n => exact remark_noString W root ctx (.date n) (by simp)
  | arr n => exact remark_noString W root ctx (.arr n) (by simp)
  | tbl n => exact remark_noString W root ctx (.tbl n) (by simp)

include hv in
theorem validateRules_answer (ctx : PStr) : ∀ (l : List Toml) (m : M),
    Remarks (answerIn verdict W root) (l.map (fun t => .ref t ctx)) ((validateRules find root ctx l m).1.map (Report.text W))
  | [], m => .nil
  | t :: ts, m => by
    simp only [validateRules, List.map_append, List.map_cons]
    exact .cons (validateOne_answer hv W root ctx t m) (validateRules_answer ctx ts _)

/-- How a step of validation goes. -/
def Goes (verdict : QualifiedRule → Option Err) (W : Words) (root : Path) (gs : List Glance) (before : List Report) (after : List Report × M × Option Err) : Prop :=
  ∃ added, after.1 = before ++ added ∧
    ((after.2.2 = none ∧ Remarks (answerIn verdict W root) gs (added.map (Report.text W))) ∨
     ∃ e pre cls post, after.2.2 = some e ∧ gs = pre ++ .broken cls e :: post ∧ Remarks (answerIn verdict W root) pre (added.map (Report.text W)) ∧
       W.error e = cls ++ py ": " ++ W.errText e)

theorem Goes.more {gs gs' : List Glance} {before : List Report} {after : List Report × M × Option Err} (h : Goes verdict W root gs before after) (e : Err) (he : after.2.2 = some e) :
    Goes verdict W root (gs ++ gs') before after := by
  obtain ⟨added, h1, h2⟩ := h
  refine ⟨added, h1, ?_⟩
  rcases h2 with ⟨h2, _⟩ | ⟨e', pre, cls, post, h2, h3, h4, h5⟩
  · rw [he] at h2; cases h2
  · exact .inr ⟨e', pre, cls, post ++ gs', h2, by rw [h3]; simp, h4, h5⟩

theorem Goes.andThen {gs gs' : List Glance} {before : List Report} {r1 : List Report} {m1 : M} {after : List Report × M × Option Err}
    (h : Goes verdict W root gs before (r1, m1, none)) (h' : Goes verdict W root gs' r1 after) : Goes verdict W root (gs ++ gs') before after := by
  obtain ⟨added, h1, h2⟩ := h
  obtain ⟨added', h1', h2'⟩ := h'
  simp only at h1
  rcases h2 with ⟨_, h2⟩ | ⟨e', _, _, _, h2, _⟩
  · refine ⟨added ++ added', by rw [h1', h1, List.append_assoc], ?_⟩
    rw [List.map_append]
    rcases h2' with ⟨h3, h4⟩ | ⟨e, pre, cls, post, h3, h4, h5, h6⟩
    · exact .inl ⟨h3, h2.append h4⟩
    · exact .inr ⟨e, gs ++ pre, cls, post, h3, by rw [h4]; simp, h2.append h5, h6⟩
  · cases h2

include hv in
theorem validateField_goes (key ctx : PStr) (d : Dict) (s : List Report × M) : Goes verdict W root (listed ctx (field key d)) s.1 (validateField find root key ctx d s) := by
  unfold validateField iterField
  rw [dget_eq_field]
  cases field key d with
  | none => exact ⟨[], by simp [validateRules], .inl ⟨rfl, .nil⟩⟩
  | some v =>
    cases v with
    | arr l => exact ⟨_, rfl, .inl ⟨rfl, validateRules_answer hv W root ctx l s.2⟩⟩
    | str t =>
      refine ⟨_, rfl, .inl ⟨rfl, ?_⟩⟩
      have := validateRules_answer hv W root ctx (t.map (fun c => .str [c])) s.2
      rw [List.map_map] at this
      exact this
    | tbl t =>
      refine ⟨_, rfl, .inl ⟨rfl, ?_⟩⟩
      have := validateRules_answer hv W root ctx (t.map (fun e => .str e.1)) s.2
      rw [List.map_map] at this
      exact this
    | _ => exact ⟨[], by simp [iterToml], .inr ⟨.type, [], py "TypeError", [], rfl, rfl, .nil, rfl⟩⟩

include hv in
theorem validateListed_goes (path : Path) (t : Dict) (c : PStr) (s : List Report × M) :
    Goes verdict W path.parent (listedIn c t) s.1
      (match validateField find path.parent (py "enable") (overrideContext (py "override enable") c) t s with
      | (r, m, some e) => (r, m, some e)
      | (r, m, none) => validateField find path.parent (py "disable") (overrideContext (py "override disable") c) t (r, m)) := by
  have h1 := validateField_goes hv W path.parent (py "enable") (overrideContext (py "override enable") c) t s
  rcases hf : validateField find path.parent (py "enable") (overrideContext (py "override enable") c) t s with ⟨r, m, e⟩
  rw [hf] at h1
  cases e with
  | some e => exact h1.more W path.parent e rfl
  | none => exact h1.andThen W path.parent (validateField_goes hv W path.parent (py "disable") (overrideContext (py "override disable") c) t (r, m))

include hv in
theorem validateOverride_goes (path : Path) (o : Toml) (s : List Report × M) :
    Goes verdict W path.parent (overrideGlances pathText (asPosix path) o) s.1 (validateOverride find path o s) := by
  unfold validateOverride
  cases o with
  | tbl t =>
    simp only [overrideCtx, overrideGlances]
    rw [dget_eq_field]
    cases field (py "path") t with
    | none => exact validateListed_goes hv W path t _ s
    | some v =>
      cases v with
      | str p => exact validateListed_goes hv W path t _ s
      | _ => exact ⟨[], by simp, .inr ⟨.type, [], py "TypeError", [], rfl, rfl, .nil, rfl⟩⟩
  | _ => exact ⟨[], by simp, .inr ⟨.attribute, [], py "AttributeError", [], rfl, rfl, .nil, rfl⟩⟩

include hv in
theorem validateOverrides_goes (path : Path) : ∀ (os : List Toml) (s : List Report × M),
    Goes verdict W path.parent (os.flatMap (overrideGlances pathText (asPosix path))) s.1 (validateOverrides find path os s)
  | [], s => ⟨[], by simp [validateOverrides], .inl ⟨rfl, .nil⟩⟩
  | o :: os, s => by
    have h1 := validateOverride_goes hv W path o s
    rw [validateOverrides, List.flatMap_cons]
    rcases hf : validateOverride find path o s with ⟨r, m, e⟩
    rw [hf] at h1
    cases e with
    | some e => exact h1.more W path.parent e rfl
    | none => exact h1.andThen W path.parent (validateOverrides_goes path os (r, m))

theorem flatMap_letters {α : Type} (f : α → PStr) (shown : PStr → PStr) (file : PStr) (l : List α) :
    (l.map (fun c => Toml.str (f c))).flatMap (overrideGlances shown file) = l.map (fun _ => .broken (py "AttributeError") .attribute) := by
  induction l with
  | nil => rfl
  | cons c l ih => rw [List.map_cons, List.flatMap_cons, ih]; rfl

include hv in
theorem validateData_goes (path : Path) (d : Dict) (m : M) :
    Goes verdict W path.parent (glances pathText (asPosix path) d) [] (validateData find path d m) := by
  unfold validateData glances
  have h1 := validateField_goes hv W path.parent (py "enable") (py "global enable") d ([], m)
  rcases hf : validateField find path.parent (py "enable") (py "global enable") d ([], m) with ⟨r, m1, e⟩
  rw [hf] at h1
  rw [List.append_assoc]
  cases e with
  | some e => exact h1.more W path.parent e rfl
  | none =>
    refine h1.andThen W path.parent ?_
    have h2 := validateField_goes hv W path.parent (py "disable") (py "global disable") d (r, m1)
    simp only
    rcases hf2 : validateField find path.parent (py "disable") (py "global disable") d (r, m1) with ⟨r2, m2, e2⟩
    rw [hf2] at h2
    cases e2 with
    | some e => exact h2.more W path.parent e rfl
    | none =>
      refine h2.andThen W path.parent ?_
      simp only [validateOverridesField, iterField]
      rw [dget_eq_field]
      cases field (py "overrides") d with
      | none => exact validateOverrides_goes hv W path [] (r2, m2)
      | some v =>
        cases v with
        | arr l => exact validateOverrides_goes hv W path l (r2, m2)
        | str t =>
          have := validateOverrides_goes hv W path (t.map (fun c => .str [c])) (r2, m2)
          rw [flatMap_letters (fun c => [c])] at this
          exact this
        | tbl t =>
          have := validateOverrides_goes hv W path (t.map (fun e => .str e.1)) (r2, m2)
          rw [flatMap_letters (fun e : PStr × Toml => e.1)] at this
          exact this
        | _ => exact ⟨[], by simp [iterToml], .inr ⟨.type, [], py "TypeError", [], rfl, rfl, .nil, rfl⟩⟩

include hv in
/-- **C125** Whatever the settings table is like, the messages of `validate_config` are a transcript of what there is to come across in it. -/
theorem C125_transcript (load : Path → Except Err Dict) (path : Path) (data d : Dict) (m : M) (hl : load path = .ok data) (ht : ToolTables data)
    (hd : contribution data = some d) :
    Transcript W.describes (Remark W.describes W.reprs.asNotation (fun s q => parseRule s path.parent = .ok q) verdict) (glances pathText (asPosix path) d)
      (validateTexts W find load path m) := by
  have hread : (readConfigs load [path]).1 = .ok [⟨path, d⟩] := by
    rw [readConfigs, readOne_spec hl ht, hd]
    simp only [Option.map_some, readConfigs]
    cases decide (MarksRoot d) <;> rfl
  unfold validateTexts validateConfig
  rw [hread]
  obtain ⟨added, h1, h2⟩ := validateData_goes hv W path d m
  simp only
  rcases hf : validateData find path d m with ⟨r, m', e⟩
  rw [hf] at h1 h2
  simp only [List.nil_append] at h1
  subst h1
  rcases h2 with ⟨h2, h3⟩ | ⟨e', pre, cls, post, h2, h3, h4, h5⟩
  · simp only at h2
    subst h2
    exact .whole h3
  · simp only at h2
    subst h2
    simp only [List.map_append, List.map_cons, List.map_nil, Report.text, h5]
    rw [← List.append_assoc, ← List.append_assoc]
    exact .stopped h3 h4

end

/-! ## The path shown -/

theorem mem_splitOn_sep (c : Char) : ∀ (s x : PStr), x ∈ splitOn c s → c ∉ x
  | [], x, h => by simp only [splitOn, List.mem_singleton] at h; subst h; simp
  | a :: s, x, h => by
    rw [splitOn] at h
    by_cases ha : a = c
    · rw [if_pos ha, List.mem_cons] at h
      rcases h with rfl | h
      · simp
      · exact mem_splitOn_sep c s x h
    · rw [if_neg ha] at h
      have ih := mem_splitOn_sep c s
      cases hs : splitOn c s with
      | nil =>
        rw [hs] at h
        simp only [List.mem_singleton] at h
        subst h
        simp only [List.mem_singleton]
        exact fun e => ha e.symm
      | cons f fs =>
        rw [hs] at h ih
        simp only [List.mem_cons] at h
        rcases h with rfl | h
        · rw [List.mem_cons]
          rintro (h | h)
          · exact ha h.symm
          · exact ih f List.mem_cons_self h
        · exact ih x (List.mem_cons_of_mem _ h)

theorem resolve_filter : ∀ (l : List PStr) (acc : Path), l.foldl resolveStep acc = (l.filter (fun c => c ≠ [] ∧ c ≠ py ".")).foldl resolveStep acc
  | [], _ => rfl
  | c :: l, acc => by
    by_cases h : c = [] ∨ c = py "."
    · rw [List.filter_cons_of_neg (by rcases h with rfl | rfl <;> simp), List.foldl_cons, resolveStep, if_pos h]
      exact resolve_filter l acc
    · rw [not_or] at h
      rw [List.filter_cons_of_pos (by simpa using h), List.foldl_cons, List.foldl_cons]
      exact resolve_filter l _

theorem relParts_join (l : List PStr) (h : ∀ x ∈ l, '/' ∉ x ∧ x ≠ [] ∧ x ≠ py ".") : relParts (join ['/'] l) = l := by
  unfold relParts
  cases l with
  | nil => rfl
  | cons a l =>
    rw [splitOn_join '/' (a :: l) (by simp) (fun x hx => (h x hx).1), List.filter_eq_self.2]
    intro x hx
    have := h x hx
    simpa using this.2

theorem relParts_slash (s : PStr) : relParts ('/' :: s) = relParts s := by
  unfold relParts
  rw [splitOn, if_pos rfl, List.filter_cons_of_neg (by simp)]

theorem relParts_ok (s x : PStr) (h : x ∈ relParts s) : '/' ∉ x ∧ x ≠ [] ∧ x ≠ py "." := by
  unfold relParts at h
  rw [List.mem_filter] at h
  exact ⟨mem_splitOn_sep '/' s x h.1, by simpa using h.2⟩

theorem relParts_pathText (s : PStr) : relParts (pathText s) = relParts s := by
  unfold pathText
  by_cases h : pathAnchor s = [] ∧ relParts s = []
  · rw [if_pos h, h.2]; rfl
  · rw [if_neg h]
    have hj := relParts_join (relParts s) (fun x hx => relParts_ok s x hx)
    unfold pathAnchor
    split
    · rw [show py "/" ++ join ['/'] (relParts _) = '/' :: join ['/'] (relParts _) from rfl, relParts_slash, hj]
    · rw [show py "//" ++ join ['/'] (relParts _) = '/' :: '/' :: join ['/'] (relParts _) from rfl, relParts_slash, relParts_slash, hj]
    · rw [show py "/" ++ join ['/'] (relParts _) = '/' :: join ['/'] (relParts _) from rfl, relParts_slash, hj]
    · exact hj

theorem pathAnchor_nil_iff (s : PStr) : pathAnchor s = [] ↔ startsWith s ['/'] = false := by
  unfold pathAnchor
  split
  · simp [startsWith]
  · simp [startsWith]
  · simp [startsWith]
  · rename_i h _ _
    cases s with
    | nil => simp [startsWith]
    | cons c s =>
      have hc : c ≠ '/' := by rintro rfl; simp_all
      have : ('/' == c) = false := beq_eq_false_iff_ne.2 (fun e => hc e.symm)
      simp [startsWith, List.isPrefixOf, this]

theorem startsWith_pathText (s : PStr) : startsWith (pathText s) ['/'] = startsWith s ['/'] := by
  by_cases ha : pathAnchor s = []
  · rw [(pathAnchor_nil_iff s).1 ha]
    unfold pathText
    by_cases h : pathAnchor s = [] ∧ relParts s = []
    · rw [if_pos h]; rfl
    · rw [if_neg h, ha, List.nil_append]
      cases hp : relParts s with
      | nil => exact absurd ⟨ha, hp⟩ h
      | cons x xs =>
        obtain ⟨h1, h2, _⟩ := relParts_ok s x (by rw [hp]; exact List.mem_cons_self)
        cases x with
        | nil => exact absurd rfl h2
        | cons c cs =>
          have hc : ('/' == c) = false := beq_eq_false_iff_ne.2 (fun e => h1 (by rw [e]; exact List.mem_cons_self))
          cases xs with
          | nil => simp [join, startsWith, List.isPrefixOf, hc]
          | cons y ys => simp [join, startsWith, List.isPrefixOf, hc]
  · have h1 : startsWith s ['/'] = true := by
      cases hs : startsWith s ['/'] with
      | true => rfl
      | false => exact absurd ((pathAnchor_nil_iff s).2 hs) ha
    rw [h1]
    unfold pathText
    rw [if_neg (fun h => ha h.1)]
    unfold pathAnchor at ha ⊢
    split
    · simp [startsWith]
    · simp [startsWith]
    · simp [startsWith]
    · simp_all

/-- **C125** The path of an override in a message leads where the path in the file leads, from any directory. -/
theorem C125_path_shown (dir : Path) (s : PStr) : resolveFrom dir (pathText s) = resolveFrom dir s := by
  unfold resolveFrom
  rw [startsWith_pathText, resolve_filter, resolve_filter (splitOn '/' s)]
  have := relParts_pathText s
  unfold relParts at this
  rw [this]

/-- **C125** Written the usual way, it is shown as it is written. -/
theorem C125_path_as_written (l : List PStr) (hne : l ≠ []) (h : ∀ x ∈ l, '/' ∉ x ∧ x ≠ [] ∧ x ≠ py ".") : pathText (join ['/'] l) = join ['/'] l := by
  have ha : pathAnchor (join ['/'] l) = [] := by
    rw [pathAnchor_nil_iff]
    cases l with
    | nil => exact absurd rfl hne
    | cons x xs =>
      obtain ⟨h1, h2, _⟩ := h x List.mem_cons_self
      cases x with
      | nil => exact absurd rfl h2
      | cons c cs =>
        have hc : ('/' == c) = false := beq_eq_false_iff_ne.2 (fun e => h1 (by rw [e]; exact List.mem_cons_self))
        cases xs with
        | nil => simp [join, startsWith, List.isPrefixOf, hc]
        | cons y ys => simp [join, startsWith, List.isPrefixOf, hc]
  unfold pathText
  rw [relParts_join l h, ha, if_neg (fun hh => hne hh.2)]
  rfl

/-! ## Cases -/

/-- Words for the examples. -/
def exWords : Words := ⟨⟨fun _ => false, fun _ => [], fun _ => [], fun _ => []⟩, fun _ => py "7", fun _ => py "E", fun _ => py "no"⟩

/-- A table with all kinds of mistakes. -/
def exMistakes : Dict :=
  [(py "enable", .arr [.str (py "it's"), .int 7, .str (py "nowhere")]),
   (py "overrides", .arr [.tbl [(py "path", .str (py "./a//b")), (py "disable", .str (py "x?"))], .tbl [(py "path", .int 1)], .tbl [(py "enable", .arr [.str (py "?")])]])]

/-- **C125**, **finding** shown on a table: all that comes after the first thing of the wrong type is not looked at, here a bad reference in the third override; and a string in
place of a list is taken letter by letter. -/
theorem C125_hides_the_rest :
    validateTexts exWords (fun (m : Unit) q => if q.module = py "nowhere" then ((.error .importError : Except Err (List Nat)), m) else (.ok [], m))
      (fun _ => .ok [(py "tool", .tbl [(py "fixit", .tbl exMistakes)])]) [py "p", py "fixit.toml"] () =
    [py "Failed to parse rule `it's` for global enable: ConfigError: invalid rule name \"it's\"",
     py "Failed to parse rule `7` for global enable: TypeError: no",
     py "Failed to import rule `nowhere` for global enable: E: no",
     py "Failed to parse rule `?` for override disable: `a/b`: ConfigError: invalid rule name '?'",
     py "Invalid config: TypeError: no"] := by decide +kernel

example : pathText (py "./a//b/.") = py "a/b" ∧ pathText (py "///a") = py "/a" ∧ pathText (py "//a/") = py "//a" ∧ pathText (py "./") = py "." := by decide +kernel

example : LoadsLike (fun (m : Unit) q => if q.module = py "nowhere" then ((.error .importError : Except Err (List Nat)), m) else (.ok [], m))
    (fun q => if q.module = py "nowhere" then some .importError else none) := by
  intro m q e
  by_cases h : q.module = py "nowhere"
  · simp [h]
  · simp [h]

end Fixit
