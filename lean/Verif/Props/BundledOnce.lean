import Verif.Props.BundledSystem

/-!
# C121: no bundled rule but DeprecatedABCImport reports a node twice
-/

namespace Cst
open Py Fixit Spec

theorem reported_sublist {α : Type} {x : Err} {change : α → Change} {i : Nat} {message : Option PStr} {r : Cst.Report α} {out : List Rep} (h : reported x change i message r = .ok out) :
    (out.map (·.node)).Sublist [i] := by
  cases r with
  | silent => cases h; exact List.nil_sublist _
  | warn => cases h; exact .refl _
  | fix a => cases h; exact .refl _
  | crash => cases h

/-- Rules that remember nothing and report the node they visit. -/
theorem each_once {ms : List PStr} {f : Ev → Except Err (List Rep)} (hms : ∀ m ∈ ms, ∃ kind, m = py "visit_" ++ kind) (hf : ∀ e out, f e = .ok out → (out.map (·.node)).Sublist [e.node])
    {st : Store} {t : Syn} {reps : List Rep} (h : (VRule.each ms f).alone st t = .ok reps) (hd : t.ids.Nodup) : (reps.map (·.node)).Nodup := by
  refine (each_tracked ms f).once ?_ st t reps h hd
  intro s e out ho
  split at ho
  · rename_i hm
    obtain ⟨kind, hk⟩ := hms _ hm
    obtain ⟨i, l, rfl, -⟩ := (visit_method kind e).mp hk
    exact hf _ out ho
  · cases ho; exact List.nil_sublist _

/-- The same for rules that report the node they leave. -/
theorem each_once' {ms : List PStr} {f : Ev → Except Err (List Rep)} (hms : ∀ m ∈ ms, ∃ kind, m = py "leave_" ++ kind) (hf : ∀ e out, f e = .ok out → (out.map (·.node)).Sublist [e.node])
    {st : Store} {t : Syn} {reps : List Rep} (h : (VRule.each ms f).alone st t = .ok reps) (hd : t.ids.Nodup) : (reps.map (·.node)).Nodup := by
  refine (each_tracked ms f).once' ?_ st t reps h hd
  intro s e out ho
  split at ho
  · rename_i hm
    obtain ⟨kind, hk⟩ := hms _ hm
    obtain ⟨i, l, rfl, -⟩ := (leave_method kind e).mp hk
    exact hf _ out ho
  · cases ho; exact List.nil_sublist _

theorem exprRule_once {L : Looks} {kind : PStr} {message : Expr → Option PStr} {f : Nat → Expr → Cst.Report Expr} {method : PStr} (hm : method = py "visit_" ++ kind) {st : Store} {t : Syn}
    {reps : List Rep} (h : (exprRule L method message f).alone st t = .ok reps) (hd : t.ids.Nodup) : (reps.map (·.node)).Nodup :=
  each_once (fun m h => ⟨kind, by rw [List.mem_singleton.mp h, hm]⟩) (fun _ _ => reported_sublist) h hd

/-- The decorators of a class that is visited. -/
def decoratorIds (L : Looks) (e : Ev) : List Nat := if e.method = py "visit_ClassDef" then (L.decorators e.node).map (·.1) else []

theorem filterMap_nodes_sublist {α : Type} (ds : List (Nat × Expr)) (g : Expr → Option α) (change : α → Change) :
    ((((ds.map (·.2)).zipIdx.filterMap (fun p => (g p.1).map (fun e => (p.2, e)))).filterMap (fun r => (ds[r.1]?).map (fun d => { node := d.1, change := some (change r.2) : Rep }))).map (·.node)).Sublist
      (ds.map (·.1)) := by
  have key : ∀ (suf pre : List (Nat × Expr)), ds = pre ++ suf →
      (((((suf.map (·.2)).zipIdx pre.length).filterMap (fun p => (g p.1).map (fun e => (p.2, e)))).filterMap (fun r => (ds[r.1]?).map (fun d => { node := d.1, change := some (change r.2) : Rep }))).map
        (·.node)).Sublist (suf.map (·.1)) := by
    intro suf
    induction suf with
    | nil => intro pre _; exact .slnil
    | cons d suf ih =>
      intro pre he
      have ih := ih (pre ++ [d]) (by rw [he]; simp)
      rw [List.length_append, List.length_singleton] at ih
      rw [List.map_cons, List.zipIdx_cons, List.filterMap_cons]
      have hd : ds[pre.length]? = some d := by rw [he]; simp
      cases hg : g d.2 with
      | none => simp only [Option.map_none, List.map_cons]; exact ih.cons _
      | some e =>
        simp only [Option.map_some, List.filterMap_cons, hd, List.map_cons]
        exact ih.cons_cons _
  exact key ds [] rfl

theorem events_at {t : Syn} {i : Nat} {l : Label} (h : .visit i l ∈ t.events) : ∃ way ks, At way (.node i l ks) t := by
  obtain ⟨pre, post, he⟩ := List.append_of_mem h
  obtain ⟨way, i', l', ks, hat, hi | hi⟩ := (splits_iff t (fun _ e => e = .visit i l)).mp ⟨pre, _, post, he, rfl⟩
  · cases hi; exact ⟨way, ks, hat⟩
  · cases hi

theorem decoratorIds_nodup {L : Looks} {t : Syn} (hl : LooksRight L t) : ∀ evs : List Ev, (∀ i l, .visit i l ∈ evs → ∃ way ks, At way (.node i l ks) t) → (evs.flatMap visitId).Nodup →
    (evs.flatMap (decoratorIds L)).Nodup
  | [], _, _ => .nil
  | e :: es, hat, hnd => by
    rw [List.flatMap_cons] at hnd ⊢
    obtain ⟨-, hnd', hdis⟩ := List.nodup_append.mp hnd
    have ih := decoratorIds_nodup hl es (fun i l h => hat i l (List.mem_cons_of_mem _ h)) hnd'
    by_cases hme : e.method = py "visit_ClassDef"
    · obtain ⟨i, l, rfl, hk⟩ := (visit_method (py "ClassDef") e).mp hme
      obtain ⟨way, ks, ha⟩ := hat i l (List.mem_cons_self ..)
      have hi : OfKind t (py "ClassDef") i := ⟨way, l, ks, ha, hk⟩
      have h1 : decoratorIds L (.visit i l) = (L.decorators i).map (·.1) := by rw [decoratorIds, if_pos hme]; rfl
      rw [h1, List.nodup_append]
      refine ⟨hl.decorators i hi, ih, ?_⟩
      intro x hx y hy hxy
      subst hxy
      obtain ⟨e', he', hx'⟩ := List.mem_flatMap.mp hy
      by_cases hme' : e'.method = py "visit_ClassDef"
      · obtain ⟨j, l', rfl, hk'⟩ := (visit_method (py "ClassDef") e').mp hme'
        rw [decoratorIds, if_pos hme'] at hx'
        obtain ⟨way', ks', ha'⟩ := hat j l' (List.mem_cons_of_mem _ he')
        have hj : OfKind t (py "ClassDef") j := ⟨way', l', ks', ha', hk'⟩
        have hne : i ≠ j := by
          intro h
          subst h
          exact hdis i (List.mem_singleton.mpr rfl) i (List.mem_flatMap.mpr ⟨_, he', List.mem_singleton.mpr rfl⟩) rfl
        exact hl.apart i j hi hj hne x hx hx'
      · rw [decoratorIds, if_neg hme'] at hx'
        cases hx'
    · rw [decoratorIds, if_neg hme, List.nil_append]
      exact ih

theorem frozen_once {L : Looks} {t : Syn} (hl : LooksRight L t) {st : Store} {reps : List Rep} (h : (bundled L .explicitFrozenDataclass).alone st t = .ok reps) : (reps.map (·.node)).Nodup := by
  have ht := each_tracked [py "visit_ClassDef"] (fun e => .ok ((frozenReports L.isDataclass ((L.decorators e.node).map (·.2))).filterMap (fun r =>
    ((L.decorators e.node)[r.1]?).map (fun d => { node := d.1, change := some (.decorator r.2) }))))
  have h2 := (ht.alone (init := ()) st t).symm.trans h
  have := outs_sublist _ _ (decoratorIds L) ?_ _ _ _ h2
  · exact this.nodup (decoratorIds_nodup hl t.events (fun i l h => events_at h) (by rw [visit_ids]; exact hl.nodup))
  · intro s e out ho
    split at ho
    · rename_i hm
      cases ho
      rw [decoratorIds, if_pos (List.mem_singleton.mp hm)]
      exact filterMap_nodes_sublist (L.decorators e.node) (frozenDecorator L.isDataclass) Change.decorator
    · cases ho; exact List.nil_sublist _

/-- C121: no rule reports a node twice, but for `DeprecatedABCImport` (see `C101_twice`). -/
theorem C121_once {L : Looks} {t : Syn} (hl : LooksRight L t) (meta_ : Store) (b : Bundled) (hb : b ≠ .deprecatedABCImport) {reps : List Rep} (h : (bundled L b).alone meta_ t = .ok reps) :
    (reps.map (·.node)).Nodup := by
  have hone : ∀ {kind m : PStr}, m ∈ [py "visit_" ++ kind] → ∃ kind, m = py "visit_" ++ kind := fun h => ⟨_, List.mem_singleton.mp h⟩
  cases b with
  | avoidOrInExcept =>
    refine each_once (fun m h => hone (kind := py "Try") h) (fun e out ho => ?_) h hl.nodup
    cases ho
    split
    · exact .refl _
    · exact List.nil_sublist _
  | collapseIsinstanceChecks =>
    refine (isinstanceRule_tracked L).once (init := ([] : List Nat)) ?_ meta_ t reps h hl.nodup
    intro s e out ho
    unfold seenOut at ho
    split at ho
    · rename_i hme
      obtain ⟨i, l, rfl, -⟩ := (visit_method (py "BooleanOperation") e).mp hme
      split at ho
      · cases ho; exact List.nil_sublist _
      · exact reported_sublist ho
    · cases ho; exact List.nil_sublist _
  | useClsInClassmethod => exact each_once (fun m h => hone (kind := py "FunctionDef") h) (fun e out ho => reported_sublist ho) h hl.nodup
  | comparePrimitivesByEqual => exact exprRule_once (kind := py "Comparison") rfl h hl.nodup
  | compareSingletonPrimitivesByIs => exact exprRule_once (kind := py "Comparison") rfl h hl.nodup
  | deprecatedABCImport => exact absurd rfl hb
  | deprecatedUnittestAsserts => exact exprRule_once (kind := py "Call") rfl h hl.nodup
  | noAssertTrueForComparisons => exact exprRule_once (kind := py "Call") rfl h hl.nodup
  | noInheritFromObject =>
    refine each_once (fun m h => hone (kind := py "ClassDef") h) (fun e out ho => ?_) h hl.nodup
    repeat' (split at ho)
    all_goals (cases ho; first | exact .refl _ | exact List.nil_sublist _)
  | noNamedTuple =>
    refine each_once' (fun m h => ⟨py "ClassDef", List.mem_singleton.mp h⟩) (fun e out ho => ?_) h hl.nodup
    repeat' (split at ho)
    all_goals (cases ho; first | exact .refl _ | exact List.nil_sublist _)
  | noRedundantArgumentsSuper => exact C97_once meta_ t reps h hl.nodup
  | noRedundantFString =>
    refine each_once (fun m h => hone (kind := py "FormattedString") h) (fun e out ho => ?_) h hl.nodup
    repeat' (split at ho)
    all_goals (cases ho; first | exact .refl _ | exact List.nil_sublist _)
  | noRedundantLambda => exact exprRule_once (kind := py "Lambda") rfl h hl.nodup
  | noRedundantListComprehension => exact exprRule_once (kind := py "Call") rfl h hl.nodup
  | noStaticIfCondition => exact each_once (fun m h => hone (kind := py "If") h) (fun e out ho => reported_sublist ho) h hl.nodup
  | noStringTypeAnnotation => exact C100_once L.qual L.decoded L.parse meta_ t reps h hl.nodup
  | replaceUnionWithOptional => exact each_once' (fun m h => ⟨py "Annotation", List.mem_singleton.mp h⟩) (fun e out ho => reported_sublist ho) h hl.nodup
  | rewriteToComprehension => exact exprRule_once (kind := py "Call") rfl h hl.nodup
  | rewriteToLiteral => exact exprRule_once (kind := py "Call") rfl h hl.nodup
  | sortedAttributes =>
    refine each_once (fun m h => hone (kind := py "ClassDef") h) (fun e out ho => ?_) h hl.nodup
    repeat' (split at ho)
    all_goals (first | (cases ho; done) | (cases ho; first | exact .refl _ | exact List.nil_sublist _))
  | useAssertIn => exact exprRule_once (kind := py "Call") rfl h hl.nodup
  | useAssertIsNotNone => exact exprRule_once (kind := py "Call") rfl h hl.nodup
  | useAsyncSleepInAsyncDef => exact C98_once L.qual _ meta_ t reps h hl.nodup
  | useFstring =>
    refine each_once (fun m h => ?_) (fun e out ho => ?_) h hl.nodup
    · simp only [List.mem_cons, List.not_mem_nil, or_false] at h
      rcases h with rfl | rfl | rfl
      · exact ⟨py "Module", rfl⟩
      · exact ⟨py "Call", rfl⟩
      · exact ⟨py "BinaryOperation", rfl⟩
    · rw [fstring_at] at ho
      split at ho
      · exact reported_sublist ho
      · split at ho
        · exact reported_sublist ho
        · cases ho; exact List.nil_sublist _
  | useTypesFromTyping => exact C99_once L.qual L.scope meta_ t reps h hl.nodup
  | explicitFrozenDataclass => exact frozen_once hl h
  | useLintFixmeComment =>
    refine each_once (fun m h => hone (kind := py "Comment") h) (fun e out ho => ?_) h hl.nodup
    cases ho
    split
    · exact .refl _
    · exact List.nil_sublist _

end Cst

namespace Fixit
open Py Spec Gen Cst

section
variable {V M : Type} (o : Outside V M) (v : Visits) (horder : ∀ s : List Nat, (o.ruleOrder s).Perm s)

theorem recorded_nodes {m : Node} {k : Nat} {calls : List ReportCall} {vs : List (Violation Nat Repl)} (h : Recorded o m k calls vs) :
    (vs.map (·.node)).Sublist (calls.map (·.node)) := by
  induction h with
  | nil => exact .slnil
  | silenced call calls vs h rest ih => exact ih.cons _
  | says call calls w vs h hs rest ih =>
    rw [List.map_cons, List.map_cons, hs.node]
    exact ih.cons_cons _

include horder in
/-- C121: linting a file with bundled rules gives one violation per rule and node, but for `DeprecatedABCImport`. -/
theorem C121_found_once (options : Option Options) (files : Path → Option Bytes) (path : Path) (content : Bytes) (cfg : Config V) (m : Node)
    (h : Lints (o.walking v) options files path content cfg m) (hapart : NamesApart o files cfg) (L : Looks) (hl : LooksRight L (v.syn m)) (kind : Nat → Bundled)
    (hrules : ∀ k, Active o files cfg k → v.rule files cfg.root cfg.path m k = bundled L (kind k)) (k : Nat) (ha : Active o files cfg k) (hk : kind k ≠ .deprecatedABCImport) :
    (((foundIn ((o.walking v).env options) files path).filter (fun lv => lv.base.ruleName = ruleName (o.className k))).map (·.base.node)).Nodup := by
  have hkm : ∀ k, Active o files cfg k → KeepsMetadata (v.rule files cfg.root cfg.path m k) := fun k h => by rw [hrules k h]; exact C121_independent L _
  obtain ⟨reps, vs, halone, hrec, hshown⟩ := C116_alone o v horder options files path content cfg m h hapart hkm k ha
  rw [hrules k ha] at halone
  have h1 := C121_once hl _ _ hk halone
  have h2 := recorded_nodes o hrec
  have hbase := shown_mem hshown
  rw [List.map_map] at h2
  have h3 : ((foundIn ((o.walking v).env options) files path).filter (fun lv => lv.base.ruleName = ruleName (o.className k))).map (·.base.node) = vs.map (·.node) := by
    rw [← hbase, List.map_map]; rfl
  rw [h3]
  exact h2.nodup h1

end
end Fixit
