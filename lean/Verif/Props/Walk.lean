import Verif.Spec.Walk
import Verif.Props.Visit
import Verif.Props.SystemFails
import Verif.Proof.Sets

/-!
# C116: what a rule reports about a file does not depend on the other rules
-/

namespace Cst
open Py Fixit

theorem batchStepTrace_eq : ∀ (rs : List VRule) (j : Nat) (e : Ev) (st : Store) (ss : States rs),
    batchStep rs j e st ss = match batchStepTrace rs j e st ss with
      | (_, .error x) => .error x
      | (out, .ok (st, ss)) => .ok (st, ss, out)
  | [], _, _, _, _ => rfl
  | r :: rs, j, e, st, (s, ss) => by
    rw [batchStep, batchStepTrace]
    cases h : r.step e st s with
    | error x => rfl
    | ok a =>
      obtain ⟨st1, s1, out1⟩ := a
      simp only
      rw [batchStepTrace_eq rs (j + 1) e st1 ss]
      cases ht : batchStepTrace rs (j + 1) e st1 ss with
      | mk out res => cases res <;> rfl

theorem batchTrace_eq (rs : List VRule) : ∀ (evs : List Ev) (st : Store) (ss : States rs),
    (batchSteps rs evs st ss).map (fun x => x.2.2) = match (batchTrace rs evs st ss).2 with
      | some x => .error x
      | none => .ok (batchTrace rs evs st ss).1
  | [], _, _ => rfl
  | e :: es, st, ss => by
    rw [batchSteps, batchTrace, batchStepTrace_eq]
    cases ht : batchStepTrace rs 0 e st ss with
    | mk out res =>
      cases res with
      | error x => rfl
      | ok a =>
        obtain ⟨st1, ss1⟩ := a
        simp only
        have ih := batchTrace_eq rs es st1 ss1
        cases hb : batchSteps rs es st1 ss1 with
        | error x =>
          rw [hb] at ih
          cases h2 : (batchTrace rs es st1 ss1).2 with
          | none => rw [h2] at ih; cases ih
          | some y => rw [h2] at ih; cases ih; rfl
        | ok b =>
          rw [hb] at ih
          cases h2 : (batchTrace rs es st1 ss1).2 with
          | some y => rw [h2] at ih; cases ih
          | none => rw [h2] at ih; simp only [Except.map, Except.ok.injEq] at ih ⊢; rw [ih]

/-- The walk, as `visitBatched`. -/
theorem visitBatched_trace (rs : List VRule) (meta_ : Store) (t : Syn) :
    visitBatched rs meta_ t = match (batchTrace rs t.events meta_ (States.init rs)).2 with
      | some x => .error x
      | none => .ok (batchTrace rs t.events meta_ (States.init rs)).1 := batchTrace_eq rs t.events meta_ (States.init rs)

/-- One step that fails: the rules before the one that raises have made their reports of this step, the others have made none. -/
theorem batchStepTrace_error : ∀ (rs : List VRule) (j : Nat) (e : Ev) (st : Store) (ss : States rs) (out : List (Nat × Rep)) (x : Err), (∀ r ∈ rs, KeepsMetadata r) →
    batchStepTrace rs j e st ss = (out, .error x) → (∀ o ∈ out, j ≤ o.1) ∧ ∃ (i : Nat) (r : VRule) (h : rs[i]? = some r), r.step e st (States.get rs ss i r h) = .error x ∧
      ∀ (i' : Nat) (r' : VRule) (h' : rs[i']? = some r'),
        (i' < i → ∃ s', r'.step e st (States.get rs ss i' r' h') = .ok (st, s', (out.filter (fun o => o.1 = j + i')).map Prod.snd)) ∧
        (i ≤ i' → out.filter (fun o => o.1 = j + i') = [])
  | [], j, e, st, ss, out, x, _, h => by cases h
  | r0 :: rs, j, e, st, (s, ss), out, x, hk, h => by
    rw [batchStepTrace] at h
    cases h1 : r0.step e st s with
    | error y =>
      rw [h1] at h
      cases h
      refine ⟨by simp, 0, r0, rfl, h1, fun i' r' h' => ⟨fun hlt => absurd hlt (Nat.not_lt_zero _), fun _ => rfl⟩⟩
    | ok a =>
      obtain ⟨st1, s1, out1⟩ := a
      rw [h1] at h
      simp only at h
      have e1 : st1 = st := (hk r0 List.mem_cons_self).step h1
      subst e1
      cases h2 : batchStepTrace rs (j + 1) e st1 ss with
      | mk out2 res =>
        rw [h2] at h
        cases res with
        | ok y => cases h
        | error y =>
          cases h
          obtain ⟨hge, i, r, hr, hx, hrest⟩ := batchStepTrace_error rs (j + 1) e st1 ss out2 x (fun r hr => hk r (List.mem_cons_of_mem _ hr)) h2
          refine ⟨?_, i + 1, r, by simpa using hr, hx, ?_⟩
          · intro o ho
            rcases List.mem_append.mp ho with ho | ho
            · obtain ⟨z, -, rfl⟩ := List.mem_map.mp ho; exact Nat.le_refl _
            · have := hge o ho; omega
          · intro i' r' h'
            cases i' with
            | zero =>
              have : r0 = r' := by simpa using h'
              subst this
              refine ⟨fun _ => ⟨s1, ?_⟩, fun hle => absurd hle (by omega)⟩
              have hf : (out2.filter (fun o => o.1 = j + 0)) = [] := by
                rw [List.filter_eq_nil_iff]
                intro o ho
                have := hge o ho
                simp only [decide_eq_true_eq]
                omega
              have hf1 : ((out1.map (fun o => (j, o))).filter (fun o => o.1 = j + 0)).map Prod.snd = out1 := by
                have : (out1.map (fun o => (j, o))).filter (fun o => o.1 = j + 0) = out1.map (fun o => (j, o)) := by
                  rw [List.filter_eq_self]
                  intro o ho
                  obtain ⟨x, -, rfl⟩ := List.mem_map.mp ho
                  simp
                rw [this, List.map_map]
                simp [Function.comp_def]
              rw [List.filter_append, List.map_append, hf, hf1]
              simp only [States.get, List.map_nil, List.append_nil]
              exact h1
            | succ i' =>
              have hf1 : ((out1.map (fun o => (j, o))).filter (fun o => o.1 = j + (i' + 1))) = [] := by
                rw [List.filter_eq_nil_iff]
                intro o ho
                obtain ⟨x, -, rfl⟩ := List.mem_map.mp ho
                simp
              have hj : j + 1 + i' = j + (i' + 1) := by omega
              obtain ⟨ha, hb⟩ := hrest i' r' (by simpa using h')
              rw [hj] at ha hb
              rw [List.filter_append, hf1, List.nil_append]
              exact ⟨fun hlt => ha (by omega), fun hle => hb (by omega)⟩

/-- Rules walking over a tree, one of which raises at `e`: rule number `i`. Before `e` all rules have made their reports; at `e` the rules before it have. -/
theorem batchTrace_error (rs : List VRule) (hk : ∀ r ∈ rs, KeepsMetadata r) : ∀ (evs : List Ev) (st : Store) (ss : States rs) (x : Err), (batchTrace rs evs st ss).2 = some x →
    ∃ (pre : List Ev) (e : Ev) (post : List Ev) (i : Nat) (r : VRule) (h : rs[i]? = some r) (s : r.State) (out : List Rep), evs = pre ++ e :: post ∧
      r.steps pre st (States.get rs ss i r h) = .ok (st, s, out) ∧ r.step e st s = .error x ∧
      ∀ (i' : Nat) (r' : VRule) (h' : rs[i']? = some r'), ∃ s', r'.steps (if i' < i then pre ++ [e] else pre) st (States.get rs ss i' r' h') =
        .ok (st, s', ((batchTrace rs evs st ss).1.filter (fun o => o.1 = i')).map Prod.snd)
  | [], st, ss, x, h => by cases h
  | e :: es, st, ss, x, h => by
    rw [batchTrace] at h ⊢
    cases ht : batchStepTrace rs 0 e st ss with
    | mk out res =>
      rw [ht] at h
      cases res with
      | error y =>
        cases h
        obtain ⟨-, i, r, hr, hx, hrest⟩ := batchStepTrace_error rs 0 e st ss out x hk ht
        refine ⟨[], e, es, i, r, hr, _, [], rfl, rfl, hx, ?_⟩
        intro i' r' h'
        obtain ⟨ha, hb⟩ := hrest i' r' h'
        rw [Nat.zero_add] at ha hb
        by_cases hlt : i' < i
        · obtain ⟨s', hs'⟩ := ha hlt
          refine ⟨s', ?_⟩
          rw [if_pos hlt]
          simp only [List.nil_append, VRule.steps, hs', List.append_nil]
        · rw [if_neg hlt, hb (Nat.not_lt.mp hlt)]
          exact ⟨_, rfl⟩
      | ok y =>
        obtain ⟨st1, ss1⟩ := y
        have hstep := batchStepTrace_eq rs 0 e st ss
        rw [ht] at hstep
        obtain ⟨e1, -, hone⟩ := batchStep_get rs 0 e st st1 ss ss1 out hk hstep
        subst e1
        obtain ⟨pre, e', post, i, r, hr, s, out', he, h1, h2, h3⟩ := batchTrace_error rs hk es st1 ss1 x h
        refine ⟨e :: pre, e', post, i, r, hr, s, (out.filter (fun o => o.1 = i)).map Prod.snd ++ out', by rw [he]; rfl, ?_, h2, ?_⟩
        · have := hone i r hr
          rw [Nat.zero_add] at this
          rw [VRule.steps, this]
          simp only [h1]
        · intro i' r' h'
          obtain ⟨s', hs'⟩ := h3 i' r' h'
          have hthis := hone i' r' h'
          rw [Nat.zero_add] at hthis
          refine ⟨s', ?_⟩
          have hcons : (if i' < i then (e :: pre) ++ [e'] else e :: pre) = e :: (if i' < i then pre ++ [e'] else pre) := by split <;> rfl
          rw [hcons, VRule.steps, hthis]
          simp only [hs', List.filter_append, List.map_append]

end Cst

namespace Fixit
open Py Spec Gen Cst

section
variable {V M : Type} (o : Outside V M)

theorem runCalls_recorded (m : Node) (k : Nat) : ∀ (cs : List (RuleInst × ReportCall)) (st st' : RuleInst → List (Violation Nat Repl)), o.runCalls m cs st = .ok st' →
    ∃ vs, Recorded o m k ((cs.filter (fun x => x.1 = o.inst k)).map Prod.snd) vs ∧ st' (o.inst k) = st (o.inst k) ++ vs
  | [], st, st', h => by cases h; exact ⟨[], .nil, by simp⟩
  | (r, c) :: cs, st, st', h => by
    rw [Outside.runCalls] at h
    cases hrep : report o.unicode (nodeComments (o.tree m) (o.pos m c.node)) (o.range m c.node) ⟨r.name, o.classMessage r.id, st r⟩ c.node c.message c.position c.replacement with
    | none => rw [hrep] at h; cases h
    | some s =>
      rw [hrep] at h
      obtain ⟨vs, h1, h2⟩ := runCalls_recorded m k cs _ st' h
      by_cases hr : r = o.inst k
      · subst hr
        simp only [if_true] at h2
        rw [List.filter_cons_of_pos (by simp), List.map_cons]
        by_cases hs : ignoreLint o.unicode (o.inst k).name (nodeComments (o.tree m) (o.pos m c.node)) = true
        · rw [report, if_pos hs] at hrep
          cases hrep
          exact ⟨vs, .silenced c _ _ ((silenced_iff o m c.node _).mpr hs) h1, h2⟩
        · rw [report, if_neg hs] at hrep
          cases hmsg : resolveMessage c.message (o.classMessage (o.inst k).id) with
          | none => simp only [hmsg] at hrep; cases hrep
          | some msg =>
            simp only [hmsg, Option.some.injEq] at hrep
            refine ⟨recordOf o m (o.inst k) c msg :: vs, .says c _ _ _ (fun e => hs ((silenced_iff o m c.node _).mp e)) ((says_record o m k c _).mpr ⟨msg, hmsg, rfl⟩) h1, ?_⟩
            rw [h2, ← hrep]
            simp only [List.append_assoc, List.cons_append, List.nil_append]
            rfl
      · have hr' : ¬ o.inst k = r := fun e => hr e.symm
        rw [if_neg hr'] at h2
        rw [List.filter_cons_of_neg (by simpa using hr)]
        exact ⟨vs, h1, h2⟩

theorem Recorded.unique {m : Node} {k : Nat} : ∀ {calls : List ReportCall} {vs vs' : List (Violation Nat Repl)}, Recorded o m k calls vs → Recorded o m k calls vs' → vs = vs'
  | _, _, _, .nil, .nil => rfl
  | _, _, _, .silenced _ _ _ _ h, .silenced _ _ _ _ h' => Recorded.unique h h'
  | _, _, _, .silenced _ _ _ hs _, .says _ _ _ _ hn _ _ => absurd hs hn
  | _, _, _, .says _ _ _ _ hn _ _, .silenced _ _ _ hs _ => absurd hs hn
  | _, _, _, .says _ _ _ _ _ hs h, .says _ _ _ _ _ hs' h' => by
    obtain ⟨msg, h1, h2⟩ := (says_record o m k _ _).mp hs
    obtain ⟨msg', h1', h2'⟩ := (says_record o m k _ _).mp hs'
    rw [h1] at h1'
    cases h1'
    rw [h2, h2', Recorded.unique h h']

theorem Recorded.names {m : Node} {k : Nat} : ∀ {calls : List ReportCall} {vs : List (Violation Nat Repl)}, Recorded o m k calls vs → ∀ v ∈ vs, v.ruleName = ruleName (o.className k)
  | _, _, .nil, v, hv => by cases hv
  | _, _, .silenced _ _ _ _ h, v, hv => Recorded.names h v hv
  | _, _, .says _ _ _ _ _ hs h, v, hv => by
    rcases List.mem_cons.mp hv with rfl | hv
    · exact hs.rule
    · exact Recorded.names h v hv

theorem display_base {C : Type} {env : Env C} {path : Path} {m : Node} {v : Violation Nat Repl} {lv : LintViolation} (h : display env path m v = .ok lv) : lv.base = v := by
  unfold display at h
  split at h
  · simp only [Bind.bind, Except.bind] at h
    split at h
    · cases h
    · split at h
      · cases h
      · cases h; rfl
  · cases h; rfl

theorem shown_displayed {C : Type} (env : Env C) (path : Path) (m : Node) (p : PStr → Bool) : ∀ (vs : List (Violation Nat Repl)), (∀ v ∈ vs, ∃ lv, display env path m v = .ok lv) →
    Shown env path m (vs.filter (fun v => p v.ruleName)) ((displayed env path m vs).1.filter (fun lv => p lv.base.ruleName))
  | [], _ => .nil
  | v :: vs, h => by
    obtain ⟨lv, hl⟩ := h v List.mem_cons_self
    have ih := shown_displayed env path m p vs (fun v hv => h v (List.mem_cons_of_mem _ hv))
    simp only [displayed, hl, List.filter_cons, display_base hl]
    split
    · exact .cons _ _ _ _ hl ih
    · exact ih

theorem Shown.unique {C : Type} {env : Env C} {path : Path} {m : Node} : ∀ {vs : List (Violation Nat Repl)} {l l' : List LintViolation}, Shown env path m vs l → Shown env path m vs l' → l = l'
  | _, _, _, .nil, .nil => rfl
  | _, _, _, .cons _ _ _ _ h hs, .cons _ _ _ _ h' hs' => by
    rw [h] at h'
    cases h'
    rw [Shown.unique hs hs']

/-- Of rules in a row, those of one name. -/
theorem filter_flatMap_one (name : PStr) (st : RuleInst → List (Violation Nat Repl)) (k : Nat) (hname : ruleName (o.className k) = name) : ∀ (ks : List Nat), ks.Nodup →
    (∀ k' ∈ ks, ruleName (o.className k') = name → k' = k) → (∀ k' ∈ ks, ∀ v ∈ st (o.inst k'), v.ruleName = ruleName (o.className k')) →
    (((ks.map o.inst).flatMap st).filter (fun v => v.ruleName = name)) = if k ∈ ks then st (o.inst k) else []
  | [], _, _, _ => by simp
  | k' :: ks, hnd, h1, h2 => by
    rw [List.nodup_cons] at hnd
    have ih := filter_flatMap_one name st k hname ks hnd.2 (fun k' hk => h1 k' (List.mem_cons_of_mem _ hk)) (fun k' hk => h2 k' (List.mem_cons_of_mem _ hk))
    rw [List.map_cons, List.flatMap_cons, List.filter_append, ih]
    by_cases hk : k' = k
    · subst hk
      rw [if_neg hnd.1, if_pos List.mem_cons_self, List.append_nil, List.filter_eq_self]
      intro v hv
      rw [h2 k' List.mem_cons_self v hv]
      simpa using hname
    · have : (st (o.inst k')).filter (fun v => v.ruleName = name) = [] := by
        rw [List.filter_eq_nil_iff]
        intro v hv hn
        rw [decide_eq_true_eq, h2 k' List.mem_cons_self v hv] at hn
        exact hk (h1 k' List.mem_cons_self hn)
      rw [this, List.nil_append]
      have hiff : k ∈ k' :: ks ↔ k ∈ ks := by
        rw [List.mem_cons]
        exact ⟨fun h => h.resolve_left (fun e => hk e.symm), .inr⟩
      by_cases hm : k ∈ ks
      · rw [if_pos hm, if_pos (hiff.mpr hm)]
      · rw [if_neg hm, if_neg (fun e => hm (hiff.mp e))]

theorem filter_calls (rules : List RuleInst) (hnd : rules.Nodup) (call : Rep → ReportCall) (i : Nat) (r : RuleInst) (hr : rules[i]? = some r) : ∀ (trace : List (Nat × Rep)),
    ((trace.filterMap (fun x => rules[x.1]?.map (fun r => (r, call x.2)))).filter (fun x => x.1 = r)).map Prod.snd = ((trace.filter (fun x => x.1 = i)).map Prod.snd).map call
  | [] => rfl
  | (j, rep) :: trace => by
    have ih := filter_calls rules hnd call i r hr trace
    rw [List.filterMap_cons]
    cases hj : rules[j]? with
    | none =>
      have : j ≠ i := by rintro rfl; rw [hj] at hr; cases hr
      simp only [Option.map_none, List.filter_cons_of_neg (p := fun x : Nat × Rep => decide (x.1 = i)) (a := (j, rep)) (by simpa using this)]
      exact ih
    | some r' =>
      simp only [Option.map_some]
      by_cases he : j = i
      · subst he
        rw [hr] at hj
        cases hj
        rw [List.filter_cons_of_pos (by simp), List.filter_cons_of_pos (by simp), List.map_cons, List.map_cons, List.map_cons, ih]
      · have hne : ¬ r' = r := by
          rintro rfl
          obtain ⟨h1, -⟩ := List.getElem?_eq_some_iff.mp hj
          exact he ((List.getElem?_inj h1 hnd).mp (hj.trans hr.symm))
        rw [List.filter_cons_of_neg (by simpa using hne), List.filter_cons_of_neg (by simpa using he)]
        exact ih

theorem inst_nodup : ∀ (ks : List Nat), ks.Nodup → (ks.map o.inst).Nodup
  | [], _ => by simp
  | k :: ks, h => by
    rw [List.nodup_cons] at h
    rw [List.map_cons, List.nodup_cons]
    refine ⟨fun hm => ?_, inst_nodup ks h.2⟩
    obtain ⟨k', hk', he⟩ := List.mem_map.mp hm
    have : k' = k := congrArg RuleInst.id he
    exact h.1 (this ▸ hk')

variable (v : Visits) (horder : ∀ l, (o.ruleOrder l).Perm l)
include horder

/-- The selected rules, when they can be made. -/
theorem selected_iff (files : Path → Option Bytes) (cfg : Config V) (c : Collected Nat M) (hc : (collectRules (o.rules files) o.ruleOrder cfg o.sysPath o.mods).1 = .ok c) :
    c.rules.Nodup ∧ ∀ k, k ∈ c.rules ↔ Active o files cfg k := by
  obtain ⟨h1, h2⟩ := C28_collected_exact (o.rules files) horder cfg o.sysPath o.mods c hc
  refine ⟨h1, fun k => (h2 k).trans ⟨fun ⟨a, b, c, d⟩ => ⟨a, b, c, d⟩, fun ⟨a, b, c, d⟩ => ⟨a, b, c, d⟩⟩⟩

/-- C116: among the violations found in a file, those of one selected rule are what the rule reports when it visits the module alone, without what comments silence, in the same order. -/
theorem C116_alone (options : Option Options) (files : Path → Option Bytes) (path : Path) (content : Bytes) (cfg : Config V) (m : Node)
    (h : Lints (o.walking v) options files path content cfg m) (hapart : NamesApart o files cfg)
    (hk : ∀ k, Active o files cfg k → KeepsMetadata (v.rule files cfg.root cfg.path m k)) (k : Nat) (ha : Active o files cfg k) :
    ∃ reps vs, (v.rule files cfg.root cfg.path m k).alone (v.names files cfg.root cfg.path m) (v.syn m) = .ok reps ∧ Recorded o m k (reps.map (v.call m)) vs ∧
      Shown (o.env options) path m vs (ofRule o k (foundIn ((o.walking v).env options) files path)) := by
  obtain ⟨hl, c, st, durs, hc, -, hvis, hf, hshow, -⟩ := system_found (o.walking v) horder options files path content cfg m h
  obtain ⟨hnd, hact⟩ := selected_iff o horder files cfg c hc
  obtain ⟨c', hc', hraised, -⟩ := h.collect
  rw [hc] at hc'
  cases hc'
  have hvis : (o.walking v).visit files cfg m (c.rules.map o.inst) = .ok (st, durs) := hvis
  unfold Outside.visit at hvis
  cases hrun : (o.walking v).runCalls m ((o.walking v).visitors files cfg m (c.rules.map o.inst)).calls (fun _ => []) with
  | error e => rw [hrun] at hvis; cases hvis
  | ok st' =>
    rw [hrun] at hvis
    have hraised : ((o.walking v).visitors files cfg m (c.rules.map o.inst)).raised = none := hraised
    simp only [hraised, Except.ok.injEq, Prod.mk.injEq] at hvis
    obtain ⟨rfl, -⟩ := hvis
    have hnames : ∀ k' ∈ c.rules, ∀ v ∈ st' (o.inst k'), v.ruleName = ruleName (o.className k') := by
      intro k' _ v' hv'
      obtain ⟨vs, h1, h2⟩ := runCalls_recorded (o.walking v) m k' _ _ _ hrun
      have h2 : st' (o.inst k') = [] ++ vs := h2
      rw [h2, List.nil_append] at hv'
      exact Recorded.names (o.walking v) h1 v' hv'
    have hone := filter_flatMap_one o (ruleName (o.className k)) st' k rfl c.rules hnd
      (fun k' hk' hn => hapart k' k ((hact k').mp hk') ha hn) hnames
    rw [if_pos ((hact k).mpr ha)] at hone
    obtain ⟨vs, hrec, hst⟩ := runCalls_recorded (o.walking v) m k _ _ _ hrun
    have hst : st' (o.inst k) = [] ++ vs := hst
    rw [List.nil_append] at hst
    obtain ⟨i, hi⟩ := List.mem_iff_getElem?.mp ((hact k).mpr ha)
    have hir : (c.rules.map o.inst)[i]? = some (o.inst k) := by rw [List.getElem?_map, hi]; rfl
    have hcalls : ∃ reps, (v.rule files cfg.root cfg.path m k).alone (v.names files cfg.root cfg.path m) (v.syn m) = .ok reps ∧
        ((((o.walking v).visitors files cfg m (c.rules.map o.inst)).calls.filter (fun x => x.1 = o.inst k)).map Prod.snd) = reps.map (v.call m) := by
      have hdef : (o.walking v).visitors files cfg m (c.rules.map o.inst) = v.visitors o.className files cfg m (c.rules.map o.inst) := rfl
      rw [hdef] at hraised ⊢
      unfold Visits.visitors at hraised ⊢
      split at hraised
      · cases hraised
      · rename_i hrepo
        split at hraised
        · cases hraised
        · rename_i hres
          simp only at hraised
          have hvb := visitBatched_trace ((c.rules.map o.inst).map (fun r => v.rule files cfg.root cfg.path m r.id)) (v.names files cfg.root cfg.path m) (v.syn m)
          rw [hraised] at hvb
          refine ⟨_, C96_independent _ _ _ _ ?_ hvb i (v.rule files cfg.root cfg.path m k) ?_, ?_⟩
          · intro r hr
            rw [List.map_map] at hr
            obtain ⟨k', hk', rfl⟩ := List.mem_map.mp hr
            exact hk k' ((hact k').mp hk')
          · rw [List.getElem?_map, hir]; rfl
          · exact filter_calls (c.rules.map o.inst) (inst_nodup o c.rules hnd) (v.call m) i (o.inst k) hir _
    obtain ⟨reps, hal, hcs⟩ := hcalls
    have hcs : ((((o.walking v).visitors files cfg m (c.rules.map o.inst)).calls.filter (fun x => x.1 = (o.walking v).inst k)).map Prod.snd) = reps.map (v.call m) := hcs
    have hrec2 : ∀ calls vs, Recorded (o.walking v) m k calls vs → Recorded o m k calls vs := by
      intro calls vs h
      induction h with
      | nil => exact .nil
      | silenced call calls vs h _ ih => exact .silenced call calls vs h ih
      | says call calls v vs h hs _ ih => exact .says call calls v vs h ⟨hs.rule, hs.node, hs.fix, hs.message, hs.own, hs.range, hs.point⟩ ih
    refine ⟨reps, vs, hal, hrec2 _ _ (hcs ▸ hrec), ?_⟩
    have hsh := shown_displayed ((o.walking v).env options) path m (fun s => decide (s = ruleName (o.className k))) _ hshow
    have hone' : (((c.rules.map (o.walking v).inst).flatMap st').filter (fun v => decide (v.ruleName = ruleName (o.className k)))) = vs := hone.trans hst
    rw [hone'] at hsh
    have hfi : foundIn ((o.walking v).env options) files path = (displayed ((o.walking v).env options) path m ((c.rules.map (o.walking v).inst).flatMap st')).1 := by
      unfold foundIn; rw [hl]; exact hf
    unfold ofRule
    rw [hfi]
    have hsh2 : ∀ vs l, Shown ((o.walking v).env options) path m vs l → Shown (o.env options) path m vs l := by
      intro vs l h
      induction h with
      | nil => exact .nil
      | cons v vs lv lvs h _ ih => exact .cons v vs lv lvs h ih
    exact hsh2 _ _ hsh

/-- C116: two runs on the same file, with configurations that have the same root and both select the rule, report the same violations of that rule, in the same order, whatever
else the configurations select. -/
theorem C116_same (options options' : Option Options) (files : Path → Option Bytes) (path : Path) (content : Bytes) (cfg cfg' : Config V) (m : Node)
    (h : Lints (o.walking v) options files path content cfg m) (h' : Lints (o.walking v) options' files path content cfg' m)
    (hroot : cfg.root = cfg'.root) (hpath : cfg.path = cfg'.path) (hapart : NamesApart o files cfg) (hapart' : NamesApart o files cfg')
    (hk : ∀ k, Active o files cfg k ∨ Active o files cfg' k → KeepsMetadata (v.rule files cfg.root cfg.path m k)) (k : Nat) (ha : Active o files cfg k) (ha' : Active o files cfg' k) :
    ofRule o k (foundIn ((o.walking v).env options) files path) = ofRule o k (foundIn ((o.walking v).env options') files path) := by
  obtain ⟨reps, vs, h1, h2, h3⟩ := C116_alone o v horder options files path content cfg m h hapart (fun k hk' => hk k (.inl hk')) k ha
  obtain ⟨reps', vs', h1', h2', h3'⟩ := C116_alone o v horder options' files path content cfg' m h' hapart' (fun k hk' => hroot ▸ hpath ▸ hk k (.inr hk')) k ha'
  rw [← hroot, ← hpath, h1] at h1'
  cases h1'
  cases Recorded.unique o h2 h2'
  have h3'' : Shown (o.env options) path m vs (ofRule o k (foundIn ((o.walking v).env options') files path)) := by
    have : ∀ vs l, Shown (o.env options') path m vs l → Shown (o.env options) path m vs l := by
      intro vs l h
      induction h with
      | nil => exact .nil
      | cons v vs lv lvs h _ ih => exact .cons v vs lv lvs h ih
    exact this _ _ h3'
  exact Shown.unique h3 h3''

/-- The trace of a batch, by the rules alone. -/
theorem trace_raises (files : Path → Option Bytes) (cfg : Config V) (c : Collected Nat M) (m : Node) (hc : (collectRules (o.rules files) o.ruleOrder cfg o.sysPath o.mods).1 = .ok c)
    (hk : ∀ k, Active o files cfg k → KeepsMetadata (v.rule files cfg.root cfg.path m k)) :
    (∃ x, (batchTrace ((c.rules.map o.inst).map (fun r => v.rule files cfg.root cfg.path m r.id)) (v.syn m).events (v.names files cfg.root cfg.path m) (States.init _)).2 = some x) ↔
      ∃ k, Active o files cfg k ∧ ∃ x, (v.rule files cfg.root cfg.path m k).alone (v.names files cfg.root cfg.path m) (v.syn m) = .error x := by
  obtain ⟨-, hact⟩ := selected_iff o horder files cfg c hc
  have hkeep : ∀ r ∈ (c.rules.map o.inst).map (fun r => v.rule files cfg.root cfg.path m r.id), KeepsMetadata r := by
    intro r hr
    rw [List.map_map] at hr
    obtain ⟨k', hk', rfl⟩ := List.mem_map.mp hr
    exact hk k' ((hact k').mp hk')
  have hr := C96_raises _ (v.names files cfg.root cfg.path m) (v.syn m) hkeep
  rw [visitBatched_trace] at hr
  constructor
  · rintro ⟨x, hx⟩
    rw [hx] at hr
    obtain ⟨r, hr1, hr2⟩ := hr.mp ⟨x, rfl⟩
    rw [List.map_map] at hr1
    obtain ⟨k, hk1, rfl⟩ := List.mem_map.mp hr1
    exact ⟨k, (hact k).mp hk1, hr2⟩
  · rintro ⟨k, ha, hx⟩
    obtain ⟨x, hx⟩ := hr.mpr ⟨_, by rw [List.map_map]; exact List.mem_map_of_mem ((hact k).mpr ha), hx⟩
    split at hx
    · rename_i y hy; exact ⟨y, hy⟩
    · cases hx

/-- C116: if one selected rule raises when it visits the module alone, nothing is reported about the file but one error, whatever the other rules report; the file is not changed. -/
theorem C116_raises (options : Option Options) (autofix hook : Bool) (ss : List Answer) (w : World) (p : Path) (content : Bytes) (cfg : Config V) (c : Collected Nat M) (m : Node)
    (hf : w.files (o.base.resolve p) = some content) (hr : o.base.readRaises (o.base.resolve p) = none)
    (hcfg : generateConfig o.cfg o.configOrder (o.fs w.files) (o.load w.files) (o.base.resolve p) none options = .ok cfg)
    (hc : (collectRules (o.rules w.files) o.ruleOrder cfg o.sysPath o.mods).1 = .ok c) (hp : o.base.parse content = .ok m)
    (hk : ∀ k, Active o w.files cfg k → KeepsMetadata (v.rule w.files cfg.root cfg.path m k)) (k : Nat) (ha : Active o w.files cfg k) (x : Err)
    (hx : (v.rule w.files cfg.root cfg.path m k).alone (v.names w.files cfg.root cfg.path m) (v.syn m) = .error x) :
    ∃ e, ((fixitFile ((o.walking v).env options) p autofix hook).run ss w).1 = [⟨o.base.resolve p, none, some e⟩] ∧
      (((fixitFile ((o.walking v).env options) p autofix hook).run ss w).2.2).files = w.files := by
  obtain ⟨-, hact⟩ := selected_iff o horder w.files cfg c hc
  have hne : c.rules ≠ [] := by
    intro e
    have := (hact k).mpr ha
    rw [e] at this; cases this
  have hraised : ∃ e, ((o.walking v).visitors w.files cfg m (c.rules.map o.inst)).raised = some e := by
    show ∃ e, (v.visitors o.className w.files cfg m (c.rules.map o.inst)).raised = some e
    obtain ⟨y, hy⟩ := (trace_raises o v horder w.files cfg c m hc hk).mpr ⟨k, ha, x, hx⟩
    unfold Visits.visitors
    split
    · exact ⟨_, rfl⟩
    · split
      · exact ⟨_, rfl⟩
      · exact ⟨y, hy⟩
  obtain ⟨e, he⟩ := hraised
  by_cases hok : ∀ r call, (r, call) ∈ ((o.walking v).visitors w.files cfg m (c.rules.map o.inst)).calls → ¬ Silenced o m call.node r.name →
        ∃ s, s ≠ [] ∧ (call.message = some s ∨ o.classMessage r.id = some s)
  · exact ⟨e, C93_fails (o.walking v) options autofix hook ss w p content e hf hr (.raises cfg c m e hcfg hc hne hp hok he)⟩
  · simp only [Classical.not_forall, not_exists, not_and, not_or] at hok
    obtain ⟨r, call, hm, hs, hn⟩ := hok
    exact ⟨.value, C93_fails (o.walking v) options autofix hook ss w p content .value hf hr (.noMessage cfg c m r call hcfg hc hne hp hm hs (fun s hs => hn s hs))⟩

/-- The rules visit the module, one of them raises at `e` (rule number `j` of them, of class `k`), and `made` are the reports that a rule has made until then: those before `e`,
and those at `e` if it comes before `j`. -/
structure StopsAt (files : Path → Option Bytes) (cfg : Config V) (ks : List Nat) (m : Node) (pre : List Ev) (e : Ev) (j k : Nat) (x : Err) (made : Nat → List Rep) : Prop where
  walk : ∃ post, (v.syn m).events = pre ++ e :: post
  rule : ks[j]? = some k
  raises : ∃ s out, (v.rule files cfg.root cfg.path m k).steps pre (v.names files cfg.root cfg.path m) (v.rule files cfg.root cfg.path m k).init = .ok (v.names files cfg.root cfg.path m, s, out) ∧
    (v.rule files cfg.root cfg.path m k).step e (v.names files cfg.root cfg.path m) s = .error x
  made : ∀ (i k' : Nat), ks[i]? = some k' → ∃ s, (v.rule files cfg.root cfg.path m k').steps (if i < j then pre ++ [e] else pre) (v.names files cfg.root cfg.path m)
    (v.rule files cfg.root cfg.path m k').init = .ok (v.names files cfg.root cfg.path m, s, made i)

/-- C116: when the metadata can be computed and a selected rule raises, the error reported is that of the first step of the walk at which a rule raises, in the order of the rules;
unless a report that was made before that, by any rule, is not silenced and has no message: then it is a `ValueError`. -/
theorem C116_which (options : Option Options) (autofix hook : Bool) (ss : List Answer) (w : World) (p : Path) (content : Bytes) (cfg : Config V) (c : Collected Nat M) (m : Node)
    (hf : w.files (o.base.resolve p) = some content) (hr : o.base.readRaises (o.base.resolve p) = none)
    (hcfg : generateConfig o.cfg o.configOrder (o.fs w.files) (o.load w.files) (o.base.resolve p) none options = .ok cfg)
    (hc : (collectRules (o.rules w.files) o.ruleOrder cfg o.sysPath o.mods).1 = .ok c) (hp : o.base.parse content = .ok m)
    (hk : ∀ k, Active o w.files cfg k → KeepsMetadata (v.rule w.files cfg.root cfg.path m k))
    (hrepo : ∀ ps, v.repoRaises w.files cfg.root cfg.path ps = none) (hres : ∀ ps, v.resolveRaises w.files cfg.root cfg.path m ps = none)
    (k0 : Nat) (ha : Active o w.files cfg k0) (x0 : Err)
    (hx : (v.rule w.files cfg.root cfg.path m k0).alone (v.names w.files cfg.root cfg.path m) (v.syn m) = .error x0) :
    ∃ pre e j k x made, StopsAt v w.files cfg c.rules m pre e j k x made ∧
      (((∀ (i k' : Nat), c.rules[i]? = some k' → ∀ rep ∈ made i, ¬ Silenced o m rep.node (ruleName (o.className k')) → ∃ s, s ≠ [] ∧ (rep.message = some s ∨ o.classMessage k' = some s)) ∧
        ((fixitFile ((o.walking v).env options) p autofix hook).run ss w).1 = [⟨o.base.resolve p, none, some x⟩]) ∨
      ((∃ (i k' : Nat) (rep : Rep), c.rules[i]? = some k' ∧ rep ∈ made i ∧ ¬ Silenced o m rep.node (ruleName (o.className k')) ∧ ∀ s, s ≠ [] → rep.message ≠ some s ∧ o.classMessage k' ≠ some s) ∧
        ((fixitFile ((o.walking v).env options) p autofix hook).run ss w).1 = [⟨o.base.resolve p, none, some .value⟩])) := by
  obtain ⟨hnd, hact⟩ := selected_iff o horder w.files cfg c hc
  have hne : c.rules ≠ [] := by
    intro e
    have := (hact k0).mpr ha
    rw [e] at this; cases this
  obtain ⟨x, hx⟩ := (trace_raises o v horder w.files cfg c m hc hk).mpr ⟨k0, ha, x0, hx⟩
  have hkeep : ∀ r ∈ (c.rules.map o.inst).map (fun r => v.rule w.files cfg.root cfg.path m r.id), KeepsMetadata r := by
    intro r hr
    rw [List.map_map] at hr
    obtain ⟨k', hk', rfl⟩ := List.mem_map.mp hr
    exact hk k' ((hact k').mp hk')
  obtain ⟨pre, e, post, j, r, hrj, s, out, he, h1, h2, h3⟩ := batchTrace_error _ hkeep (v.syn m).events (v.names w.files cfg.root cfg.path m) (States.init _) x hx
  have hget : ∀ (i k' : Nat), c.rules[i]? = some k' → ((c.rules.map o.inst).map (fun r => v.rule w.files cfg.root cfg.path m r.id))[i]? = some (v.rule w.files cfg.root cfg.path m k') := by
    intro i k' hi
    simp only [List.getElem?_map, hi]; rfl
  have hrk : ∃ k, c.rules[j]? = some k ∧ r = v.rule w.files cfg.root cfg.path m k := by
    simp only [List.getElem?_map] at hrj
    cases hcj : c.rules[j]? with
    | none => rw [hcj] at hrj; cases hrj
    | some k => rw [hcj] at hrj; cases hrj; exact ⟨k, rfl, rfl⟩
  obtain ⟨k, hkj, rfl⟩ := hrk
  rw [States.get_init] at h1
  have hrepo' : v.repo w.files cfg.root cfg.path ((c.rules.map o.inst).map RuleInst.id) = none := by
    unfold Visits.repo; split
    · rfl
    · exact hrepo _
  have hraised : ((o.walking v).visitors w.files cfg m (c.rules.map o.inst)).raised = some x := by
    show (v.visitors o.className w.files cfg m (c.rules.map o.inst)).raised = some x
    unfold Visits.visitors
    simp only [hrepo', hres]
    exact hx
  generalize htr : batchTrace ((c.rules.map o.inst).map (fun r => v.rule w.files cfg.root cfg.path m r.id)) (v.syn m).events (v.names w.files cfg.root cfg.path m) (States.init _) = tr at hx h3
  have hcalls : ((o.walking v).visitors w.files cfg m (c.rules.map o.inst)).calls = tr.1.filterMap (fun x => (c.rules.map o.inst)[x.1]?.map (fun r => (r, v.call m x.2))) := by
    show (v.visitors o.className w.files cfg m (c.rules.map o.inst)).calls = _
    unfold Visits.visitors
    simp only [hrepo', hres, htr]
  have hmem : ∀ (i k' : Nat) (rep : Rep), c.rules[i]? = some k' → rep ∈ ((tr.1.filter (fun o => o.1 = i)).map Prod.snd) →
      (o.inst k', v.call m rep) ∈ ((o.walking v).visitors w.files cfg m (c.rules.map o.inst)).calls := by
    intro i k' rep hi hrep
    obtain ⟨⟨i', rep'⟩, hin, rfl⟩ := List.mem_map.mp hrep
    obtain ⟨hin2, hii⟩ := List.mem_filter.mp hin
    simp only [decide_eq_true_eq] at hii
    subst hii
    rw [hcalls]
    refine List.mem_filterMap.mpr ⟨(i', rep'), hin2, ?_⟩
    simp only [List.getElem?_map, hi, Option.map_some]
  refine ⟨pre, e, j, k, x, fun i => (tr.1.filter (fun o => o.1 = i)).map Prod.snd, ⟨⟨post, he⟩, hkj, ⟨s, out, h1, h2⟩, ?_⟩, ?_⟩
  · intro i k' hi
    obtain ⟨s', hs'⟩ := h3 i _ (hget i k' hi)
    rw [States.get_init] at hs'
    exact ⟨s', hs'⟩
  · by_cases hok : ∀ r call, (r, call) ∈ ((o.walking v).visitors w.files cfg m (c.rules.map o.inst)).calls → ¬ Silenced o m call.node r.name →
        ∃ s, s ≠ [] ∧ (call.message = some s ∨ o.classMessage r.id = some s)
    · left
      refine ⟨fun i k' hi rep hrep hs => hok _ _ (hmem i k' rep hi hrep) hs, ?_⟩
      exact (C93_fails (o.walking v) options autofix hook ss w p content x hf hr (.raises cfg c m x hcfg hc hne hp hok hraised)).1
    · right
      simp only [Classical.not_forall, not_exists, not_and, not_or] at hok
      obtain ⟨r, call, hm, hs, hn⟩ := hok
      refine ⟨?_, (C93_fails (o.walking v) options autofix hook ss w p content .value hf hr (.noMessage cfg c m r call hcfg hc hne hp hm hs (fun s hs => hn s hs))).1⟩
      rw [hcalls] at hm
      obtain ⟨⟨i, rep⟩, hi, he'⟩ := List.mem_filterMap.mp hm
      cases hci : c.rules[i]? with
      | none => simp [List.getElem?_map, hci] at he'
      | some k' =>
        simp only [List.getElem?_map, hci, Option.map_some, Option.some.injEq, Prod.mk.injEq] at he'
        obtain ⟨rfl, rfl⟩ := he'
        exact ⟨i, k', rep, hci, List.mem_map.mpr ⟨(i, rep), List.mem_filter.mpr ⟨hi, by simp⟩, rfl⟩, hs, fun s hs => hn s hs⟩

/-- C116: a file is linted without an error when each selected rule alone visits it without raising, the reports of each that are not silenced have messages and their diffs can be
made, and the metadata can be computed. -/
theorem C116_lints (options : Option Options) (files : Path → Option Bytes) (path : Path) (content : Bytes) (cfg : Config V) (c : Collected Nat M) (m : Node)
    (hf : files path = some content) (hr : o.base.readRaises path = none)
    (hcfg : generateConfig o.cfg o.configOrder (o.fs files) (o.load files) path none options = .ok cfg)
    (hc : (collectRules (o.rules files) o.ruleOrder cfg o.sysPath o.mods).1 = .ok c) (hp : o.base.parse content = .ok m)
    (hk : ∀ k, Active o files cfg k → KeepsMetadata (v.rule files cfg.root cfg.path m k))
    (hrepo : ∀ ps, v.repoRaises files cfg.root cfg.path ps = none) (hres : ∀ ps, v.resolveRaises files cfg.root cfg.path m ps = none)
    (hall : ∀ k, Active o files cfg k → ∃ reps, (v.rule files cfg.root cfg.path m k).alone (v.names files cfg.root cfg.path m) (v.syn m) = .ok reps ∧
      ∀ rep ∈ reps, ¬ Silenced o m rep.node (ruleName (o.className k)) → (∃ s, s ≠ [] ∧ (rep.message = some s ∨ o.classMessage k = some s)) ∧
        ∀ w : Violation Nat Repl, w.node = rep.node → w.replacement = rep.change.map (v.replacement m rep.node) → ∃ lv, display (o.env options) path m w = .ok lv) :
    Lints (o.walking v) options files path content cfg m := by
  obtain ⟨hnd, hact⟩ := selected_iff o horder files cfg c hc
  have hno : (batchTrace ((c.rules.map o.inst).map (fun r => v.rule files cfg.root cfg.path m r.id)) (v.syn m).events (v.names files cfg.root cfg.path m) (States.init _)).2 = none := by
    cases ht : (batchTrace ((c.rules.map o.inst).map (fun r => v.rule files cfg.root cfg.path m r.id)) (v.syn m).events (v.names files cfg.root cfg.path m) (States.init _)).2 with
    | none => rfl
    | some x =>
      obtain ⟨k, ha, y, hy⟩ := (trace_raises o v horder files cfg c m hc hk).mp ⟨x, ht⟩
      obtain ⟨reps, h1, -⟩ := hall k ha
      rw [h1] at hy; cases hy
  have hvis : (o.walking v).visitors files cfg m (c.rules.map o.inst) = v.visitors o.className files cfg m (c.rules.map o.inst) := rfl
  have hrepo' : v.repo files cfg.root cfg.path ((c.rules.map o.inst).map RuleInst.id) = none := by
    unfold Visits.repo; split
    · rfl
    · exact hrepo _
  refine ⟨hf, hr, hcfg, ⟨c, hc, ?_, ?_⟩, hp⟩
  · show (v.visitors o.className files cfg m (c.rules.map o.inst)).raised = none
    unfold Visits.visitors
    simp only [hrepo', hres]
    exact hno
  · intro r call hm hs
    have hm : (r, call) ∈ (v.visitors o.className files cfg m (c.rules.map o.inst)).calls := hm
    unfold Visits.visitors at hm
    simp only [hrepo', hres] at hm
    obtain ⟨⟨i, rep⟩, hi, he⟩ := List.mem_filterMap.mp hm
    cases hri : (c.rules.map o.inst)[i]? with
    | none => simp [hri] at he
    | some r' =>
      simp only [hri, Option.map_some, Option.some.injEq, Prod.mk.injEq] at he
      obtain ⟨rfl, rfl⟩ := he
      rw [List.getElem?_map] at hri
      cases hci : c.rules[i]? with
      | none => rw [hci] at hri; cases hri
      | some k =>
        rw [hci] at hri
        cases hri
        have ha := (hact k).mp (List.mem_of_getElem? hci)
        obtain ⟨reps, h1, h2⟩ := hall k ha
        have hvb := visitBatched_trace ((c.rules.map o.inst).map (fun r => v.rule files cfg.root cfg.path m r.id)) (v.names files cfg.root cfg.path m) (v.syn m)
        rw [hno] at hvb
        have hind := C96_independent _ _ _ _ (by
          intro r hr
          rw [List.map_map] at hr
          obtain ⟨k', hk', rfl⟩ := List.mem_map.mp hr
          exact hk k' ((hact k').mp hk')) hvb i (v.rule files cfg.root cfg.path m k) (by simp only [List.getElem?_map, hci]; rfl)
        rw [h1] at hind
        cases hind
        exact h2 rep (List.mem_map.mpr ⟨(i, rep), List.mem_filter.mpr ⟨hi, by simp⟩, rfl⟩) hs

omit horder

/-- The set of providers that need the repository. -/
theorem needs_mem (ks : List Nat) (p : Nat) : p ∈ v.needs ks ↔ v.genCache p = true ∧ ∃ k ∈ ks, p ∈ v.deps k := by
  have inner : ∀ (ps needs : List Nat), p ∈ ps.foldl (fun needs p => if v.genCache p then setAdd id p needs else needs) needs ↔ p ∈ needs ∨ (v.genCache p = true ∧ p ∈ ps) := by
    intro ps
    induction ps with
    | nil => simp
    | cons q ps ih =>
      intro needs
      rw [List.foldl_cons, ih]
      by_cases hq : v.genCache q
      · rw [if_pos hq]
        have hmem : p ∈ setAdd id q needs ↔ p = q ∨ p ∈ needs := by
          unfold setAdd
          split
          · rename_i hany
            obtain ⟨y, hy, hyq⟩ := List.any_eq_true.mp hany
            simp only [id, decide_eq_true_eq] at hyq
            subst hyq
            exact ⟨.inr, fun h => h.elim (fun e => e ▸ hy) id⟩
          · simp [or_comm]
        rw [hmem, List.mem_cons]
        constructor
        · rintro ((rfl | h) | ⟨h1, h2⟩)
          · exact .inr ⟨hq, .inl rfl⟩
          · exact .inl h
          · exact .inr ⟨h1, .inr h2⟩
        · rintro (h | ⟨h1, rfl | h2⟩)
          · exact .inl (.inr h)
          · exact .inl (.inl rfl)
          · exact .inr ⟨h1, h2⟩
      · rw [if_neg hq, List.mem_cons]
        constructor
        · rintro (h | ⟨h1, h2⟩)
          · exact .inl h
          · exact .inr ⟨h1, .inr h2⟩
        · rintro (h | ⟨h1, rfl | h2⟩)
          · exact .inl h
          · exact absurd h1 hq
          · exact .inr ⟨h1, h2⟩
  have outer : ∀ (ks needs : List Nat), p ∈ ks.foldl (fun needs k => (v.deps k).foldl (fun needs p => if v.genCache p then setAdd id p needs else needs) needs) needs ↔
      p ∈ needs ∨ (v.genCache p = true ∧ ∃ k ∈ ks, p ∈ v.deps k) := by
    intro ks
    induction ks with
    | nil => simp
    | cons k ks ih =>
      intro needs
      rw [List.foldl_cons, ih, inner]
      simp only [List.mem_cons, exists_eq_or_imp]
      constructor
      · rintro ((h | ⟨h1, h2⟩) | ⟨h1, h2⟩)
        · exact .inl h
        · exact .inr ⟨h1, .inl h2⟩
        · exact .inr ⟨h1, .inr h2⟩
      · rintro (h | ⟨h1, h2 | h2⟩)
        · exact .inl (.inl h)
        · exact .inl (.inr ⟨h1, h2⟩)
        · exact .inr ⟨h1, h2⟩
  unfold Visits.needs
  rw [outer]
  simp

/-- C116: unless a selected rule depends on metadata that needs the repository, no file of the repository is looked at: the outcome is the same whatever making the repository
manager would raise. Otherwise the visit fails with what that raises, before any rule has visited anything. -/
theorem C116_repository (cfg : Config V) (files : Path → Option Bytes) (m : Node) (rules : List RuleInst) :
    ((∀ r ∈ rules, ∀ p ∈ v.deps r.id, v.genCache p = false) → ∀ f,
      v.visitors o.className files cfg m rules = Visits.visitors { v with repoRaises := f } o.className files cfg m rules) ∧
    ((∃ r ∈ rules, ∃ p ∈ v.deps r.id, v.genCache p = true) → ∀ e, (∀ ps, (∀ p, p ∈ ps ↔ v.genCache p = true ∧ ∃ r ∈ rules, p ∈ v.deps r.id) → v.repoRaises files cfg.root cfg.path ps = some e) →
      (v.visitors o.className files cfg m rules).calls = [] ∧ (v.visitors o.className files cfg m rules).raised = some e) := by
  have hmem : ∀ p, p ∈ v.needs (rules.map RuleInst.id) ↔ v.genCache p = true ∧ ∃ r ∈ rules, p ∈ v.deps r.id := by
    intro p
    rw [needs_mem]
    refine and_congr Iff.rfl ⟨?_, ?_⟩
    · rintro ⟨k, hk, h⟩
      obtain ⟨r, hr, rfl⟩ := List.mem_map.mp hk
      exact ⟨r, hr, h⟩
    · rintro ⟨r, hr, h⟩
      exact ⟨r.id, List.mem_map_of_mem hr, h⟩
  constructor
  · intro h f
    have hn : v.needs (rules.map RuleInst.id) = [] := by
      rw [List.eq_nil_iff_forall_not_mem]
      intro p hp
      obtain ⟨h1, r, hr, h2⟩ := (hmem p).mp hp
      rw [h r hr p h2] at h1
      cases h1
    have hn' : Visits.needs { v with repoRaises := f } (rules.map RuleInst.id) = [] := hn
    unfold Visits.visitors Visits.repo
    rw [if_pos hn, if_pos hn']
    rfl
  · rintro ⟨r, hr, p, hp, hg⟩ e he
    have hn : v.needs (rules.map RuleInst.id) ≠ [] := by
      intro e
      have := (hmem p).mpr ⟨hg, r, hr, hp⟩
      rw [e] at this; cases this
    have hrep : v.repo files cfg.root cfg.path (rules.map RuleInst.id) = some e := by
      unfold Visits.repo
      rw [if_neg hn]
      exact he _ hmem
    unfold Visits.visitors
    rw [hrep]
    exact ⟨rfl, rfl⟩

end
end Fixit
