import Verif.Props.Collect
import Verif.Proof.Refs

/-!
# C31: what a reference resolves to; C75: local rules are loaded afresh by every reference
-/

set_option linter.unusedSectionVars false

namespace Fixit
open Py Spec

/-! ## C31 -/

mutual
/-- Importing succeeds, and these are the attributes of the module and, for a package, of each direct submodule that is not itself a
package, in the order they are listed. Submodules are plain modules. -/
inductive Sources : Import → List (List (PStr × Member)) → Prop
  | plain (ms) : Sources (.ok (.mk ms .plain)) [ms]
  | package (ms l rest) : SubSources l rest → Sources (.ok (.mk ms (.package l))) (ms :: rest)
/-- The same for the entries of a package directory: sub-packages are skipped without being imported. -/
inductive SubSources : Subs → List (List (PStr × Member)) → Prop
  | nil : SubSources .nil []
  | subpackage (n imp l rest) : SubSources l rest → SubSources (.cons n true imp l) rest
  | submodule (n ms l rest) : SubSources l rest → SubSources (.cons n false (.ok (.mk ms .plain)) l) (ms :: rest)
end

mutual
/-- Importing, or importing one of the direct submodules, raises `e` first. -/
inductive Fails : Import → Err → Prop
  | here (e) : Fails (.fail e) e
  | sub (ms l e) : SubFails l e → Fails (.ok (.mk ms (.package l))) e
/-- The first submodule that is not a package and fails to import raises `e`. -/
inductive SubFails : Subs → Err → Prop
  | subpackage (n imp l e) : SubFails l e → SubFails (.cons n true imp l) e
  | submodule (n ms l e) : SubFails l e → SubFails (.cons n false (.ok (.mk ms .plain)) l) e
  | fails (n l e) : SubFails (.cons n false (.fail e) l) e
end

/-- The rule classes among the attributes of modules, with the names they are bound to, in order. -/
def ruleBindings (srcs : List (List (PStr × Member))) : List (PStr × ClassDef) :=
  srcs.flatten.filterMap (fun e => match e.2 with | .rule c => some (e.1, c) | _ => none)

/-- The last rule class bound to a name. -/
def lastBinding (srcs : List (List (PStr × Member))) (n : PStr) : Option ClassDef :=
  (((ruleBindings srcs).filter (fun e => e.1 = n)).getLast?).map (·.2)

theorem ruleMembers_eq (ms : List (PStr × Member)) :
    ruleMembers ms = ms.filterMap (fun e => match e.2 with | .rule c => some (e.1, c) | _ => none) := by
  induction ms with
  | nil => rfl
  | cons e es ih =>
    obtain ⟨n, m⟩ := e
    cases m <;> simp [ruleMembers, ih]

theorem ruleBindings_cons (ms : List (PStr × Member)) (rest : List (List (PStr × Member))) :
    ruleBindings (ms :: rest) = ruleMembers ms ++ ruleBindings rest := by
  simp [ruleBindings, ruleMembers_eq]

theorem dictUpdate_append {κ α : Type} [DecidableEq κ] (d a b : List (κ × α)) : dictUpdate d (a ++ b) = dictUpdate (dictUpdate d a) b := by
  simp [dictUpdate]

/-- A dictionary holding the last binding of each key. -/
def IsLastDict {κ α : Type} [DecidableEq κ] (d : List (κ × α)) (l : List (κ × α)) : Prop :=
  (d.map (·.1)).Nodup ∧ ∀ k, (d.find? (fun e => e.1 = k)).map (·.2) = ((l.filter (fun e => e.1 = k)).getLast?).map (·.2)

theorem find_dictSet {κ α : Type} [DecidableEq κ] (k k' : κ) (v : α) (d : List (κ × α)) :
    ((dictSet k' v d).find? (fun e => e.1 = k)).map (·.2) = if k' = k then some v else (d.find? (fun e => e.1 = k)).map (·.2) := by
  induction d with
  | nil => by_cases h : k' = k <;> simp [dictSet, h]
  | cons e es ih =>
    obtain ⟨a, b⟩ := e
    simp only [dictSet]
    by_cases h : a = k'
    · subst h
      by_cases hk : a = k <;> simp [hk]
    · rw [if_neg h]
      by_cases hk : a = k
      · subst hk
        have : ¬ k' = a := fun e => h e.symm
        simp [this]
      · simp only [List.find?_cons, hk, decide_false]
        exact ih

theorem isLastDict_update {κ α : Type} [DecidableEq κ] (o : List (κ × α)) : ∀ (d l : List (κ × α)), IsLastDict d l → IsLastDict (dictUpdate d o) (l ++ o) := by
  induction o with
  | nil => intro d l h; simpa [dictUpdate] using h
  | cons e es ih =>
    intro d l h
    have : IsLastDict (dictSet e.1 e.2 d) (l ++ [e]) := by
      refine ⟨dictSet_nodup _ _ _ h.1, ?_⟩
      intro k
      rw [find_dictSet, h.2, List.filter_append]
      by_cases hk : e.1 = k
      · rw [if_pos hk, List.filter_cons_of_pos (by simp [hk]), List.filter_nil, List.getLast?_append]; simp
      · rw [if_neg hk, List.filter_cons_of_neg (by simp [hk]), List.filter_nil, List.append_nil]
    have := ih _ _ this
    rw [dictUpdate_cons]
    simpa using this

/-- A dictionary is determined by lookups for updating another. -/
theorem isLastDict_mem {κ α : Type} [DecidableEq κ] {d l : List (κ × α)} (h : IsLastDict d l) (k : κ) (v : α) :
    (k, v) ∈ d ↔ ((l.filter (fun e => e.1 = k)).getLast?).map (·.2) = some v := by
  rw [← h.2]
  obtain ⟨hn, -⟩ := h
  induction d with
  | nil => simp
  | cons e es ih =>
    obtain ⟨a, b⟩ := e
    simp only [List.map_cons, List.nodup_cons] at hn
    simp only [List.mem_cons, Prod.mk.injEq, List.find?_cons]
    by_cases hk : a = k
    · subst hk
      simp only [decide_true, Option.map_some, Option.some.injEq]
      constructor
      · rintro (⟨-, rfl⟩ | h)
        · rfl
        · exact absurd (List.mem_map_of_mem (f := Prod.fst) h) hn.1
      · rintro rfl; exact Or.inl ⟨trivial, rfl⟩
    · simp only [hk, decide_false]
      rw [← ih hn.2]
      constructor
      · rintro (⟨rfl, -⟩ | h)
        · exact absurd rfl hk
        · exact h
      · exact Or.inr

/-- Updating with a last-binding dictionary has the same lookups as updating with all bindings. -/
theorem isLastDict_update' {κ α : Type} [DecidableEq κ] (o o' d l : List (κ × α)) (h : IsLastDict d l) (ho : IsLastDict o o') :
    IsLastDict (dictUpdate d o) (l ++ o') := by
  have h1 := isLastDict_update o d l h
  refine ⟨h1.1, ?_⟩
  intro k
  rw [h1.2, List.filter_append, List.filter_append, List.getLast?_append, List.getLast?_append]
  have : ((o.filter (fun e => e.1 = k)).getLast?).map (·.2) = ((o'.filter (fun e => e.1 = k)).getLast?).map (·.2) := by
    rw [← ho.2]
    have hn := ho.1
    clear ho h1 h
    induction o with
    | nil => rfl
    | cons e es ih =>
      obtain ⟨a, b⟩ := e
      simp only [List.map_cons, List.nodup_cons] at hn
      by_cases hk : a = k
      · subst hk
        have : es.filter (fun e => e.1 = a) = [] := by
          rw [List.filter_eq_nil_iff]
          rintro ⟨x, y⟩ hx
          simp only [decide_eq_true_eq]
          rintro rfl
          exact hn.1 (List.mem_map_of_mem (f := Prod.fst) hx)
        simp [this]
      · rw [List.filter_cons_of_neg (by simp [hk]), List.find?_cons_of_neg (by simp [hk])]
        exact ih hn.2
  cases ha : (o.filter (fun e => e.1 = k)).getLast? with
  | none =>
    cases hb : (o'.filter (fun e => e.1 = k)).getLast? with
    | none => simp
    | some y => rw [ha, hb] at this; simp at this
  | some x =>
    cases hb : (o'.filter (fun e => e.1 = k)).getLast? with
    | none => rw [ha, hb] at this; simp at this
    | some y => rw [ha, hb] at this; simpa using this

theorem isLastDict_nil {κ α : Type} [DecidableEq κ] : IsLastDict ([] : List (κ × α)) [] := by simp [IsLastDict]

theorem walk_plain (ms : List (PStr × Member)) : walkImport (.ok (.mk ms .plain)) = .ok (dictUpdate [] (ruleMembers ms)) := by
  simp [walkImport, walkModule, walkPath]

theorem isLastDict_members (ms : List (PStr × Member)) : IsLastDict (dictUpdate [] (ruleMembers ms)) (ruleMembers ms) := by
  have := isLastDict_update (ruleMembers ms) [] [] isLastDict_nil
  simpa using this

theorem walkSubs_spec : ∀ (l : Subs) (rest : List (List (PStr × Member))), SubSources l rest → ∀ d b, IsLastDict d b →
    ∃ d', walkSubs l d = .ok d' ∧ IsLastDict d' (b ++ ruleBindings rest) := by
  intro l rest h
  induction h using SubSources.rec (motive_1 := fun _ _ _ => True) with
  | plain => trivial
  | package => trivial
  | nil => intro d b h; exact ⟨d, by simp [walkSubs], by simpa [ruleBindings] using h⟩
  | subpackage n imp l rest _ ih =>
    intro d b h
    obtain ⟨d', h1, h2⟩ := ih d b h
    exact ⟨d', by simp [walkSubs, h1], h2⟩
  | submodule n ms l rest _ ih =>
    intro d b h
    obtain ⟨d', h1, h2⟩ := ih (dictUpdate d (dictUpdate [] (ruleMembers ms))) (b ++ ruleMembers ms)
      (isLastDict_update' _ _ _ _ h (isLastDict_members ms))
    refine ⟨d', ?_, ?_⟩
    · rw [walkSubs, walk_plain]; exact h1
    · rw [ruleBindings_cons, ← List.append_assoc]; exact h2

theorem walkImport_spec (i : Import) (srcs : List (List (PStr × Member))) (h : Sources i srcs) :
    ∃ d, walkImport i = .ok d ∧ IsLastDict d (ruleBindings srcs) := by
  cases h with
  | plain ms =>
    refine ⟨_, walk_plain ms, ?_⟩
    rw [ruleBindings_cons]
    have := isLastDict_members ms
    simpa [ruleBindings] using this
  | package ms l rest hs =>
    obtain ⟨d, h1, h2⟩ := walkSubs_spec l rest hs _ _ (isLastDict_members ms)
    refine ⟨d, ?_, ?_⟩
    · simpa [walkImport, walkModule, walkPath] using h1
    · rw [ruleBindings_cons]; exact h2

/-- Where a reference is imported from: a local one below its root directory, any other through `sys.path`. -/
def importSource (mods : Modules) (sysPath : List PStr) (q : QualifiedRule) : Import :=
  match q.loc with
  | some (_ :: _) => mods.locals q.root q.module
  | _ => mods.absolute sysPath q.module

theorem importRef_eq (mods : Modules) (sysPath : List PStr) (q : QualifiedRule) : importRef mods sysPath q = importSource mods sysPath q := by
  unfold importRef importSource QualifiedRule.isLocal
  cases q.loc with
  | none => rfl
  | some l => cases l <;> rfl

/-- **C31** A reference written with a leading dot in a config is looked up below the directory of that config, whatever `sys.path` is; any other
reference is looked up through `sys.path`, whatever the directory. -/
theorem C31_where_imported (mods : Modules) (sysPath : List PStr) (s : PStr) (root : Path) (q : QualifiedRule) (h : parseRule s root = .ok q) :
    importSource mods sysPath q = if s.head? = some '.' then mods.locals (some root) q.module else mods.absolute sysPath q.module := by
  obtain ⟨hd1, hd2⟩ := C10_root_iff_dot s root q h
  unfold parseRule at h
  split at h
  · simp at h
  · simp only at h
    split at h
    · simp only [Except.ok.injEq] at h
      subst h
      rw [if_pos (hd1.1 rfl)]
      rfl
    · simp only [Except.ok.injEq] at h
      subst h
      rw [if_neg (hd2.1 rfl)]
      rfl

/-- **C31** A reference to a module or package resolves to its rule classes in order of their names: one class per name bound in the
module or a direct submodule, the last binding of the name; sub-packages are neither searched nor imported. -/
theorem C31_module_rules_exact (mods : Modules) (sysPath : List PStr) (q : QualifiedRule) (hq : ¬ ByName q)
    (srcs : List (List (PStr × Member))) (h : Sources (importSource mods sysPath q) srcs) :
    ∃ named : List (PStr × ClassDef), findDefs mods sysPath q = .ok (named.map (·.2)) ∧
      (named.map (·.1)).Pairwise (fun a b => strLt a b = true) ∧
      ∀ n c, (n, c) ∈ named ↔ lastBinding srcs n = some c := by
  obtain ⟨d, h1, h2⟩ := walkImport_spec _ _ h
  have hnone : q.named = none := by
    cases hx : q.named with
    | none => rfl
    | some n => exact absurd ((named_isSome q).1 (by rw [hx]; rfl)) hq
  refine ⟨sortBy (keyLt Prod.fst) d, ?_, ?_, ?_⟩
  · rw [findDefs, importRef_eq, h1]
    simp only [selectRules, hnone]
  · have hs := sortBy_sorted (Prod.fst : PStr × ClassDef → PStr) d
    have hp := sortBy_perm (keyLt (Prod.fst : PStr × ClassDef → PStr)) d
    have hn : ((sortBy (keyLt Prod.fst) d).map Prod.fst).Nodup := (hp.map Prod.fst).nodup_iff.2 h2.1
    unfold SortedByKey at hs
    rw [List.Nodup, List.pairwise_map] at hn
    rw [List.pairwise_map]
    refine (hs.and hn).imp ?_
    rintro a b ⟨ha, hb⟩
    rcases strLt_total a.1 b.1 with h | h | h
    · exact h
    · exact absurd h hb
    · rw [h] at ha; simp at ha
  · intro n c
    rw [mem_sortBy]
    exact isLastDict_mem h2 n c

/-- **C31** A reference `module:Name` resolves to the class bound to that name and fails with CollectionError if there is none. -/
theorem C31_named_rule_exact (mods : Modules) (sysPath : List PStr) (q : QualifiedRule) (n : PStr) (hq : q.name = some n) (hn : n ≠ [])
    (srcs : List (List (PStr × Member))) (h : Sources (importSource mods sysPath q) srcs) :
    (∀ c, lastBinding srcs n = some c → findDefs mods sysPath q = .ok [c]) ∧
    (lastBinding srcs n = none → findDefs mods sysPath q = .error .collection) := by
  obtain ⟨d, h1, h2⟩ := walkImport_spec _ _ h
  have hname : q.named = some n := by
    unfold QualifiedRule.named
    rw [hq]
    cases n with
    | nil => exact absurd rfl hn
    | cons a as => rfl
  rw [findDefs, importRef_eq, h1]
  simp only [selectRules, hname]
  have := h2.2 n
  have hget : ruleGet n d = lastBinding srcs n := this
  rw [hget]
  constructor
  · intro c hc; rw [hc]
  · intro hc; rw [hc]

theorem walkSubs_fails : ∀ (l : Subs) (e : Err), SubFails l e → ∀ d, walkSubs l d = .error e := by
  intro l e h
  induction h using SubFails.rec (motive_1 := fun _ _ _ => True) with
  | here => trivial
  | sub => trivial
  | subpackage n imp l e _ ih => intro d; rw [walkSubs]; exact ih d
  | submodule n ms l e _ ih => intro d; rw [walkSubs, walk_plain]; exact ih _
  | fails n l e => intro d; rw [walkSubs, walkImport]; rfl

/-- **C31** If the module or a direct submodule fails to import the whole reference fails: ImportError becomes CollectionError,
other exceptions pass unchanged. -/
theorem C31_import_failure (mods : Modules) (sysPath : List PStr) (q : QualifiedRule) (e : Err) (h : Fails (importSource mods sysPath q) e) :
    findDefs mods sysPath q = .error (if e = .importError then .collection else e) := by
  have : walkImport (importSource mods sysPath q) = .error e := by
    generalize importSource mods sysPath q = i at h
    cases h with
    | here => rw [walkImport]
    | sub ms l e hs => rw [walkImport, walkModule, walkPath]; exact walkSubs_fails l e hs _
  rw [findDefs, importRef_eq, this]
  cases e <;> rfl

/-! ## C75 -/

/-- The collection environment in which references are resolved by `find_rules`. The state counts the loads. -/
def loaderEnv {V : Type} (mods : Modules) (tags : Cls → List PStr) (supports : V → Cls → Except Err Bool) (make : Cls → Except Err Unit) :
    CollectEnv Cls V Nat := ⟨findRules mods, tags, supports, make⟩

theorem after_loader (mods : Modules) (path : List PStr) (qs : List QualifiedRule) : ∀ n, after (findRules mods path) n qs = n + qs.length := by
  induction qs with
  | nil => intro n; rfl
  | cons q qs ih => intro n; rw [after]; simp only [findRules]; rw [ih]; simp; omega

theorem map_ok {α β : Type} {f : α → β} {x : Except Err α} {b : β} (h : x.map f = .ok b) : ∃ a, x = .ok a ∧ f a = b := by
  cases x with
  | error e => simp [Except.map] at h
  | ok a => simp only [Except.map, Except.ok.injEq] at h; exact ⟨a, rfl, h⟩

theorem outcomes_loader_load (mods : Modules) (path : List PStr) (qs : List QualifiedRule) : ∀ n q cs,
    (q, Except.ok cs) ∈ outcomes (findRules mods path) n qs →
    q ∈ qs ∧ ∃ k ds, n < k ∧ k ≤ n + qs.length ∧ findDefs mods path q = .ok ds ∧ cs = ds.map (classOf k q) := by
  induction qs with
  | nil => intro n q cs h; simp [outcomes] at h
  | cons x xs ih =>
    intro n q cs h
    simp only [outcomes, findRules, List.mem_cons, Prod.mk.injEq] at h
    rcases h with ⟨rfl, h⟩ | h
    · obtain ⟨ds, h1, h2⟩ := map_ok h.symm
      exact ⟨by simp, n + 1, ds, by omega, by simp, h1, h2.symm⟩
    · obtain ⟨h0, k, ds, h1, h2, h3, h4⟩ := ih (n + 1) q cs h
      exact ⟨by simp [h0], k, ds, by omega, by simp; omega, h3, h4⟩

/-- **C75** (finding) Disabling rules of a local module removes nothing: with only such references in `disable`, the rules collected are
those collected with an empty `disable`. -/
theorem C75_local_disable_has_no_effect {V : Type} (mods : Modules) (tags : Cls → List PStr) (supports : V → Cls → Except Err Bool)
    (make : Cls → Except Err Unit) (order : List Cls → List Cls) (horder : ∀ l, (order l).Perm l) (cfg : Config V) (sysPath : List PStr)
    (hlocal : ∀ q ∈ cfg.disable, q.isLocal = true ∧ ∀ ds, findDefs mods (searchPath cfg sysPath) q = .ok ds → ∀ c ∈ ds, isLocalModule c.module = true)
    (r r' : Collected Cls Nat)
    (h : (collectRules (loaderEnv mods tags supports make) order cfg sysPath 0).1 = .ok r)
    (h' : (collectRules (loaderEnv mods tags supports make) order { cfg with disable := [] } sysPath 0).1 = .ok r') :
    r.rules.Perm r'.rules := by
  obtain ⟨n1, m1⟩ := C28_collected_exact _ horder cfg sysPath 0 r h
  obtain ⟨n2, m2⟩ := C28_collected_exact _ horder { cfg with disable := [] } sysPath 0 r' h'
  rw [List.perm_ext_iff_of_nodup n1 n2]
  intro c
  rw [m1, m2]
  refine and_congr_right (fun hen => ?_)
  have hno : ¬ Resolved (disabled (loaderEnv mods tags supports make) cfg sysPath 0) c := by
    rintro ⟨q, cs, hq, -, hc⟩
    obtain ⟨q', cs', hq', -, hc'⟩ := hen
    have a := outcomes_loader_load mods (searchPath cfg sysPath) _ _ _ _ hq
    have b := outcomes_loader_load mods (searchPath cfg sysPath) _ _ _ _ hq'
    obtain ⟨hmem, k, ds, k1, k2, k3, rfl⟩ := a
    obtain ⟨-, k', ds', k1', k2', k3', rfl⟩ := b
    have haf := after_loader mods (searchPath cfg sysPath) cfg.enable 0
    simp only [loaderEnv] at k1 haf
    rw [haf] at k1
    rw [List.mem_map] at hc hc'
    obtain ⟨d, hd, rfl⟩ := hc
    obtain ⟨d', hd', he⟩ := hc'
    obtain ⟨l1, l2⟩ := hlocal q hmem
    have l3 := l2 ds k3 d hd
    simp only [classOf, l1, l3, Bool.and_self, if_true, Cls.mk.injEq] at he
    obtain ⟨-, he⟩ := he
    split at he <;> omega
  have hno' : ¬ Resolved (disabled (loaderEnv mods tags supports make) { cfg with disable := [] } sysPath 0) c := by
    rintro ⟨q, cs, hq, -⟩
    simp [disabled, outcomes] at hq
  simp only [hno, hno', false_implies, true_and]

/-- **C75** (finding) Two references to the same local rule give two rules: each load makes its own class. -/
theorem C75_local_rule_loaded_twice {V : Type} (mods : Modules) (tags : Cls → List PStr) (supports : V → Cls → Except Err Bool)
    (make : Cls → Except Err Unit) (cfg : Config V) (sysPath : List PStr) (q₁ q₂ : QualifiedRule) (pre mid post : List QualifiedRule)
    (hcfg : cfg.enable = pre ++ q₁ :: mid ++ q₂ :: post) (h₁ : q₁.isLocal = true) (h₂ : q₂.isLocal = true) (ds₁ ds₂ : List ClassDef) (c : ClassDef)
    (hd₁ : findDefs mods (searchPath cfg sysPath) q₁ = .ok ds₁) (hd₂ : findDefs mods (searchPath cfg sysPath) q₂ = .ok ds₂)
    (hc₁ : c ∈ ds₁) (hc₂ : c ∈ ds₂) (hl : isLocalModule c.module = true) :
    ∃ k₁ k₂, k₁ ≠ k₂ ∧ Resolved (enabled (loaderEnv mods tags supports make) cfg sysPath 0) ⟨c, k₁⟩ ∧
      Resolved (enabled (loaderEnv mods tags supports make) cfg sysPath 0) ⟨c, k₂⟩ := by
  have key : ∀ (pre post : List QualifiedRule) (q : QualifiedRule) (ds : List ClassDef) (n : Nat),
      findDefs mods (searchPath cfg sysPath) q = .ok ds → q.isLocal = true → c ∈ ds →
      Resolved (outcomes (findRules mods (searchPath cfg sysPath)) n (pre ++ q :: post)) (⟨c, n + pre.length + 1⟩ : Cls) := by
    intro pre
    induction pre with
    | nil =>
      intro post q ds n hd hq hc
      refine ⟨q, ds.map (classOf (n + 1) q), ?_, trivial, ?_⟩
      · simp [outcomes, findRules, hd, Except.map]
      · rw [List.mem_map]; exact ⟨c, hc, by simp [classOf, hq, hl]⟩
    | cons x xs ih =>
      intro post q ds n hd hq hc
      have := ih post q ds (n + 1) hd hq hc
      rw [List.cons_append, outcomes, Resolved, resolvedBy_cons]
      right
      have e : n + (x :: xs).length + 1 = n + 1 + xs.length + 1 := by simp; omega
      rw [e]
      exact this
  refine ⟨0 + pre.length + 1, 0 + (pre ++ q₁ :: mid).length + 1, ?_, ?_, ?_⟩
  · simp
  · unfold enabled
    rw [hcfg]
    have := key pre (mid ++ q₂ :: post) q₁ ds₁ 0 hd₁ h₁ hc₁
    simpa [loaderEnv] using this
  · unfold enabled
    rw [hcfg]
    exact key (pre ++ q₁ :: mid) post q₂ ds₂ 0 hd₂ h₂ hc₂

/-! ## Examples -/

/-- A project with a local package `.rules` (two modules and a sub-package) and the built-in rules. -/
def exModules : Modules where
  absolute _ m := if m = py "fixit.rules" then
      .ok (.mk [(py "LintRule", .lintRule)] (.package
        (.cons (py "a") false (.ok (.mk [(py "Avoid", .rule ⟨py "fixit.rules.a", py "Avoid"⟩)] .plain))
        (.cons (py "extra") true (.fail .importError) .nil))))
    else .fail .importError
  locals _ m := if m = py ".rules" then
      .ok (.mk [] (.package (.cons (py "x") false (.ok (.mk [(py "X", .rule ⟨py "fixit.local.rules.x", py "X"⟩), (py "y", .value)] .plain)) .nil)))
    else .fail .importError

def exQLocal : QualifiedRule := { module := py ".rules", loc := some (py "."), root := some [py "p"] }
def exQX : QualifiedRule := { module := py ".rules", name := some (py "X"), loc := some (py "."), root := some [py "p"] }
def exQBuiltin : QualifiedRule := { module := py "fixit.rules" }
def exQBroken : QualifiedRule := { module := py "nosuch" }

def exCfg (en dis : List QualifiedRule) : Config Nat where
  path := [py "p", py "f.py"]
  root := [py "p"]
  rootImport := .on
  enable := en
  disable := dis
  options := []
  pyver := some 3
  formatter := none
  outputFormat := .fixit
  outputTemplate := .str []

def exLoader : CollectEnv Cls Nat Nat := loaderEnv exModules (fun _ => []) (fun _ _ => .ok true) (fun _ => .ok ())

/-- A local rule is still run although it is disabled by name, and a second time because it is also enabled by name. -/
theorem C75_example : ∃ r, collectRules exLoader id (exCfg [exQLocal, exQX, exQBroken] [exQX]) [] 0 = (.ok r, []) ∧
    r.rules = [⟨⟨py "fixit.local.rules.x", py "X"⟩, 1⟩, ⟨⟨py "fixit.local.rules.x", py "X"⟩, 2⟩] ∧ r.warned = [exQBroken] :=
  ⟨_, rfl, by decide, by decide⟩

example : ∃ r, collectRules exLoader id (exCfg [exQBuiltin] [exQBuiltin]) [] 0 = (.ok r, []) ∧ r.rules = [] ∧
    r.reasons = [(⟨⟨py "fixit.rules.a", py "Avoid"⟩, 0⟩, .disabled)] := ⟨_, rfl, by decide, by decide⟩

example : Sources (importSource exModules [] exQBuiltin) [[(py "LintRule", .lintRule)], [(py "Avoid", .rule ⟨py "fixit.rules.a", py "Avoid"⟩)]] :=
  .package _ _ _ (.submodule _ _ _ _ (.subpackage _ _ _ _ .nil))
example : Fails (importSource exModules [] exQBroken) .importError := .here _
example : ∀ q ∈ [exQX], q.isLocal = true ∧ ∀ ds, findDefs exModules [] q = .ok ds → ∀ c ∈ ds, isLocalModule c.module = true := by
  intro q hq
  rw [List.mem_singleton] at hq
  subst hq
  refine ⟨rfl, ?_⟩
  intro ds hds
  have : findDefs exModules [] exQX = .ok [⟨py "fixit.local.rules.x", py "X"⟩] := by rfl
  rw [this] at hds
  cases hds
  decide

/-- A rule whose constructor raises leaves the import directory on `sys.path`. -/
example : (collectRules (loaderEnv exModules (fun _ => []) (fun _ _ => .ok true) (fun _ => .error .type) : CollectEnv Cls Nat Nat) id
    (exCfg [exQLocal] []) [py "/lib"] 0).2 = [py "/lib", py "/p"] := by decide

end Fixit
