import Verif.Spec.System
import Verif.Props.Api
import Verif.Props.Merge
import Verif.Props.Cli
import Verif.Props.Testing

/-!
# C93: what Fixit reports, from beginning to end
-/

namespace Fixit
open Py Spec Gen

section
variable {V M : Type} (o : Outside V M)

theorem silenced_iff (m : Node) (node : Nat) (name : PStr) :
    Silenced o m node name ↔ ignoreLint o.unicode name (nodeComments (o.tree m) (o.pos m node)) = true := by
  unfold Silenced ignoreLint
  rw [List.any_eq_true]
  constructor
  · rintro ⟨c, h1, h2⟩
    exact ⟨c, (C05_consulted_iff_associated _ _ _).mpr h1, (commentSilences_iff o.unicode _ _).mpr h2⟩
  · rintro ⟨c, h1, h2⟩
    exact ⟨c, (C05_consulted_iff_associated _ _ _).mp h1, (commentSilences_iff o.unicode _ _).mp h2⟩

/-- The record a call leaves when it is not silenced. -/
def recordOf (m : Node) (r : RuleInst) (c : ReportCall) (msg : PStr) : Violation Nat Repl :=
  ⟨r.name, resolveRange (o.range m c.node) c.position, msg, c.node, c.replacement⟩

/-- What the calls leave. -/
theorem runCalls_ok (m : Node) : ∀ (cs : List (RuleInst × ReportCall)) (st st' : RuleInst → List (Violation Nat Repl)), o.runCalls m cs st = .ok st' →
    (∀ r v, v ∈ st' r ↔ v ∈ st r ∨ ∃ c msg, (r, c) ∈ cs ∧ ¬ Silenced o m c.node r.name ∧ resolveMessage c.message (o.classMessage r.id) = some msg ∧ v = recordOf o m r c msg) ∧
    ∀ r c, (r, c) ∈ cs → ¬ Silenced o m c.node r.name → ∃ msg, resolveMessage c.message (o.classMessage r.id) = some msg
  | [], st, st', h => by
    cases h
    simp
  | (r, c) :: cs, st, st', h => by
    rw [Outside.runCalls] at h
    by_cases hs : ignoreLint o.unicode r.name (nodeComments (o.tree m) (o.pos m c.node)) = true
    · have hs' := (silenced_iff o m c.node r.name).mpr hs
      rw [report, if_pos hs] at h
      simp only at h
      have hst : (fun r' => if r' = r then st r else st r') = st := by
        funext r'; by_cases e : r' = r
        · subst e; rw [if_pos rfl]
        · rw [if_neg e]
      rw [hst] at h
      obtain ⟨h1, h2⟩ := runCalls_ok m cs st st' h
      refine ⟨fun r' v => ?_, fun r' c' hm hn => ?_⟩
      · rw [h1 r' v]
        constructor
        · rintro (h | ⟨c', msg, hm, hn⟩)
          · exact .inl h
          · exact .inr ⟨c', msg, List.mem_cons_of_mem _ hm, hn⟩
        · rintro (h | ⟨c', msg, hm, hn⟩)
          · exact .inl h
          · rcases List.mem_cons.mp hm with e | hm
            · cases e; exact absurd hs' hn.1
            · exact .inr ⟨c', msg, hm, hn⟩
      · rcases List.mem_cons.mp hm with e | hm
        · cases e; exact absurd hs' hn
        · exact h2 r' c' hm hn
    · have hs' : ¬ Silenced o m c.node r.name := fun e => hs ((silenced_iff o m c.node r.name).mp e)
      rw [report, if_neg hs] at h
      cases hmsg : resolveMessage c.message (o.classMessage r.id) with
      | none => rw [hmsg] at h; cases h
      | some msg =>
        rw [hmsg] at h
        simp only at h
        obtain ⟨h1, h2⟩ := runCalls_ok m cs _ st' h
        refine ⟨fun r' v => ?_, fun r' c' hm hn => ?_⟩
        · rw [h1 r' v]
          constructor
          · rintro (h | ⟨c', msg', hm, hn⟩)
            · by_cases e : r' = r
              · rw [if_pos e] at h
                rcases List.mem_append.mp h with h | h
                · exact .inl (e ▸ h)
                · simp only [List.mem_singleton] at h
                  subst e
                  exact .inr ⟨c, msg, List.mem_cons_self, hs', hmsg, h⟩
              · rw [if_neg e] at h; exact .inl h
            · exact .inr ⟨c', msg', List.mem_cons_of_mem _ hm, hn⟩
          · rintro (h | ⟨c', msg', hm, hn1, hn2, hn3⟩)
            · left
              by_cases e : r' = r
              · rw [if_pos e]; exact List.mem_append.mpr (.inl (e ▸ h))
              · rw [if_neg e]; exact h
            · rcases List.mem_cons.mp hm with e | hm
              · cases e
                left
                rw [if_pos rfl, hmsg] at *
                cases hn2
                rw [hn3]
                exact List.mem_append.mpr (.inr List.mem_cons_self)
              · exact .inr ⟨c', msg', hm, hn1, hn2, hn3⟩
        · rcases List.mem_cons.mp hm with e | hm
          · cases e; exact ⟨msg, hmsg⟩
          · exact h2 r' c' hm hn

/-- When every call that is not silenced has a message, the calls do not raise. -/
theorem runCalls_total (m : Node) : ∀ (cs : List (RuleInst × ReportCall)) (st : RuleInst → List (Violation Nat Repl)),
    (∀ r c, (r, c) ∈ cs → ¬ Silenced o m c.node r.name → ∃ msg, resolveMessage c.message (o.classMessage r.id) = some msg) → ∃ st', o.runCalls m cs st = .ok st'
  | [], st, _ => ⟨st, rfl⟩
  | (r, c) :: cs, st, h => by
    rw [Outside.runCalls]
    by_cases hs : ignoreLint o.unicode r.name (nodeComments (o.tree m) (o.pos m c.node)) = true
    · rw [report, if_pos hs]
      exact runCalls_total m cs _ (fun r' c' hm => h r' c' (List.mem_cons_of_mem _ hm))
    · obtain ⟨msg, hmsg⟩ := h r c List.mem_cons_self (fun e => hs ((silenced_iff o m c.node r.name).mp e))
      rw [report, if_neg hs]
      simp only [hmsg]
      exact runCalls_total m cs _ (fun r' c' hm => h r' c' (List.mem_cons_of_mem _ hm))

theorem says_record (m : Node) (k : Nat) (c : ReportCall) (v : Violation Nat Repl) :
    Says o m k c v ↔ ∃ msg, resolveMessage c.message (o.classMessage k) = some msg ∧ v = recordOf o m (o.inst k) c msg := by
  constructor
  · rintro ⟨h1, h2, h3, h4, h5, h6, h7⟩
    refine ⟨v.message, (C06_message _ _ _).mpr h4, ?_⟩
    obtain ⟨rn, rg, ms, nd, rp⟩ := v
    simp only at h1 h2 h3 h5 h6 h7
    simp only [recordOf, Outside.inst, Violation.mk.injEq]
    refine ⟨h1, ?_, trivial, h2, h3⟩
    cases hp : c.position with
    | none => exact h5 hp
    | pos p => exact h7 p hp
    | range r => exact h6 r hp
  · rintro ⟨msg, hm, rfl⟩
    refine ⟨rfl, rfl, rfl, (C06_message _ _ _).mp hm, ?_, ?_, ?_⟩ <;> intros <;> simp_all [recordOf, resolveRange]

theorem displayed_mem {C : Type} (env : Env C) (path : Path) (m : Node) : ∀ (vs : List (Violation Nat Repl)), (∀ v ∈ vs, ∃ lv, display env path m v = .ok lv) →
    ∀ lv, lv ∈ (displayed env path m vs).1 ↔ ∃ v ∈ vs, display env path m v = .ok lv
  | [], _, lv => by simp [displayed]
  | v :: vs, h, lv => by
    obtain ⟨lv', hl⟩ := h v List.mem_cons_self
    simp only [displayed, hl, List.mem_cons, exists_eq_or_imp, displayed_mem env path m vs (fun v hv => h v (List.mem_cons_of_mem _ hv)) lv]
    constructor
    · rintro (rfl | h)
      · exact .inl rfl
      · exact .inr h
    · rintro (h' | h')
      · cases h'; exact .inl rfl
      · exact .inr h'

variable (horder : ∀ l, (o.ruleOrder l).Perm l)
include horder

/-- What linting finds. -/
theorem system_found (options : Option Options) (files : Path → Option Bytes) (path : Path) (content : Bytes) (cfg : Config V) (m : Node)
    (h : Lints o options files path content cfg m) :
    loaded (o.env options) files path = .ok (content, cfg) ∧
    ∃ c st durs, (collectRules (o.rules files) o.ruleOrder cfg o.sysPath o.mods).1 = .ok c ∧ (o.env options).collect files cfg = .ok (c.rules.map o.inst) ∧
      (o.env options).visit files cfg m (c.rules.map o.inst) = .ok (st, durs) ∧
      found (o.env options) files path content cfg = (displayed (o.env options) path m ((c.rules.map o.inst).flatMap st)).1 ∧
      (∀ v ∈ (c.rules.map o.inst).flatMap st, ∃ lv, display (o.env options) path m v = .ok lv) ∧
      ∀ v, v ∈ (c.rules.map o.inst).flatMap st ↔ ∃ k call, Flagged o files cfg m k call ∧ Says o m k call v := by
  obtain ⟨h1, h2, h3, ⟨c, hc, hr, hall⟩, hp⟩ := h
  have hload : loaded (o.env options) files path = .ok (content, cfg) := by
    unfold loaded
    have e1 : (o.env options).readRaises path = none := h2
    have e2 : (o.env options).config files path = .ok cfg := h3
    simp only [h1, e1, e2]
  refine ⟨hload, ?_⟩
  have hmsgs : ∀ r call, (r, call) ∈ (o.visitors files cfg m (c.rules.map o.inst)).calls → ¬ Silenced o m call.node r.name →
      ∃ msg, resolveMessage call.message (o.classMessage r.id) = some msg := by
    intro r call hm hn
    obtain ⟨⟨s, hs, hs'⟩, -⟩ := hall r call hm hn
    cases hc1 : call.message with
    | none =>
      rw [hc1] at hs'
      rcases hs' with e | e
      · cases e
      · exact ⟨s, (C06_message _ _ _).mpr ⟨hs, .inr ⟨.inl rfl, e⟩⟩⟩
    | some t =>
      cases t with
      | nil =>
        rw [hc1] at hs'
        rcases hs' with e | e
        · cases e; exact absurd rfl hs
        · exact ⟨s, (C06_message _ _ _).mpr ⟨hs, .inr ⟨.inr rfl, e⟩⟩⟩
      | cons a b => exact ⟨a :: b, rfl⟩
  obtain ⟨st, hst⟩ := runCalls_total o m _ (fun _ => []) hmsgs
  obtain ⟨hrec, -⟩ := runCalls_ok o m _ _ _ hst
  have hcol : (o.env options).collect files cfg = .ok (c.rules.map o.inst) := by
    show o.collect files cfg = _
    unfold Outside.collect
    rw [hc]; rfl
  have hvis : (o.env options).visit files cfg m (c.rules.map o.inst) = .ok (st, (o.visitors files cfg m (c.rules.map o.inst)).durations) := by
    show o.visit files cfg m _ = _
    unfold Outside.visit
    simp only [hst, hr]
  obtain ⟨-, hact⟩ := C28_collected_exact (o.rules files) horder cfg o.sysPath o.mods c hc
  have hflag : ∀ v, v ∈ (c.rules.map o.inst).flatMap st ↔ ∃ k call, Flagged o files cfg m k call ∧ Says o m k call v := by
    intro v
    rw [List.mem_flatMap]
    constructor
    · rintro ⟨r, hr', hv⟩
      obtain ⟨k, hk, rfl⟩ := List.mem_map.mp hr'
      rcases (hrec _ v).mp hv with hv | ⟨call, msg, hcm, hns, hmsg, rfl⟩
      · cases hv
      · obtain ⟨a1, a2, a3, a4⟩ := (hact k).mp hk
        exact ⟨k, call, ⟨⟨a1, a2, a3, a4⟩, ⟨c, hc, hcm⟩, hns⟩, (says_record o m k call _).mpr ⟨msg, hmsg, rfl⟩⟩
    · rintro ⟨k, call, ⟨⟨a1, a2, a3, a4⟩, ⟨c', hc', hcm⟩, hns⟩, hs⟩
      rw [hc] at hc'
      cases hc'
      obtain ⟨msg, hmsg, rfl⟩ := (says_record o m k call v).mp hs
      exact ⟨o.inst k, List.mem_map_of_mem ((hact k).mpr ⟨a1, a2, a3, a4⟩), (hrec _ _).mpr (.inr ⟨call, msg, hcm, hns, hmsg, rfl⟩)⟩
  have hshow : ∀ v ∈ (c.rules.map o.inst).flatMap st, ∃ lv, display (o.env options) path m v = .ok lv := by
    intro v hv
    obtain ⟨k, call, ⟨-, ⟨c', hc', hcm⟩, hns⟩, hs⟩ := (hflag v).mp hv
    rw [hc] at hc'
    cases hc'
    exact (hall _ call hcm hns).2 v hs.node hs.fix
  refine ⟨c, st, _, hc, hcol, hvis, ?_, hshow, hflag⟩
  unfold found
  have hp' : (o.env options).parse content = .ok m := hp
  rw [hcol]
  cases hrs : c.rules.map o.inst with
  | nil => simp [displayed]
  | cons r rs => rw [hrs] at hvis; simp only [hp', hvis]

/-- C93: the violations found in a file are exactly what the visitors of the selected rules report on it and no comment silences. -/
theorem C93_found (options : Option Options) (files : Path → Option Bytes) (path : Path) (content : Bytes) (cfg : Config V) (m : Node)
    (h : Lints o options files path content cfg m) (lv : LintViolation) :
    lv ∈ foundIn (o.env options) files path ↔ ∃ k call v, Flagged o files cfg m k call ∧ Says o m k call v ∧ display (o.env options) path m v = .ok lv := by
  obtain ⟨hl, c, st, durs, hc, -, -, hf, hshow, hflag⟩ := system_found o horder options files path content cfg m h
  unfold foundIn
  simp only [hl, hf]
  rw [displayed_mem _ _ _ _ hshow]
  constructor
  · rintro ⟨v, hv, hd⟩
    obtain ⟨k, call, h1, h2⟩ := (hflag v).mp hv
    exact ⟨k, call, v, h1, h2, hd⟩
  · rintro ⟨k, call, v, h1, h2, hd⟩
    exact ⟨v, (hflag v).mpr ⟨k, call, h1, h2⟩, hd⟩


/-- Nothing is found exactly when nothing is flagged. -/
theorem found_nil_iff (options : Option Options) (files : Path → Option Bytes) (path : Path) (content : Bytes) (cfg : Config V) (m : Node)
    (h : Lints o options files path content cfg m) : foundIn (o.env options) files path = [] ↔ ∀ k call, ¬ Flagged o files cfg m k call := by
  have hfound := C93_found o horder options files path content cfg m h
  constructor
  · intro he k call hf
    obtain ⟨hf1, ⟨c', hc', hcm⟩, hns⟩ := id hf
    obtain ⟨c2, hc2, -, hall⟩ := h.collect
    rw [hc'] at hc2; cases hc2
    obtain ⟨⟨s, hs, hs'⟩, hd⟩ := hall _ call hcm hns
    have hmsg : ∃ msg, resolveMessage call.message (o.classMessage k) = some msg := by
      cases hc1 : call.message with
      | none => rw [hc1] at hs'; rcases hs' with e | e
                · cases e
                · exact ⟨s, (C06_message _ _ _).mpr ⟨hs, .inr ⟨.inl rfl, e⟩⟩⟩
      | some t => cases t with
        | nil => rw [hc1] at hs'; rcases hs' with e | e
                 · cases e; exact absurd rfl hs
                 · exact ⟨s, (C06_message _ _ _).mpr ⟨hs, .inr ⟨.inr rfl, e⟩⟩⟩
        | cons a b => exact ⟨a :: b, rfl⟩
    obtain ⟨msg, hmsg⟩ := hmsg
    have hsays := (says_record o m k call _).mpr ⟨msg, hmsg, rfl⟩
    obtain ⟨lv, hlv⟩ := hd _ hsays.node hsays.fix
    have : lv ∈ foundIn (o.env options) files path := (hfound lv).mpr ⟨k, call, _, hf, hsays, hlv⟩
    rw [he] at this; cases this
  · intro hh
    rw [List.eq_nil_iff_forall_not_mem]
    intro lv hlv
    obtain ⟨k, call, v, hf, -⟩ := (hfound lv).mp hlv
    exact hh k call hf

/-- How linting the file without fixing it ends. -/
theorem system_finish (options : Option Options) (files : Path → Option Bytes) (path : Path) (content : Bytes) (cfg : Config V) (m : Node)
    (h : Lints o options files path content cfg m) (hook : Bool) (hhook : hook = true → ∀ μ, o.base.hookRaises μ = none) (ss : List Answer) (hss : ∀ a ∈ ss, a = none) :
    (fileFinish (o.env options) files path false hook ss).last = if foundIn (o.env options) files path = [] then some (cleanResult path) else none := by
  obtain ⟨hl, c, st, durs, hc, hcol, hvis, hf, hshow, hflag⟩ := system_found o horder options files path content cfg m h
  have hp' : (o.env options).parse content = .ok m := h.parse
  have hfi : foundIn (o.env options) files path = found (o.env options) files path content cfg := by unfold foundIn; rw [hl]
  have hacc : ∀ vs : List LintViolation, accepted false vs ss = [] := by
    intro vs
    unfold accepted
    rw [List.filterMap_eq_nil_iff]
    intro p hp
    have := hss p.2 (List.of_mem_zip hp).2
    simp [this]
  obtain ⟨good, hgood⟩ := displayed_all (o.env options) path m _ hshow
  rw [hfi, hf, hgood]
  simp only [fileFinish, hl]
  unfold bytesFinish
  rw [hcol]
  cases hrs : c.rules.map o.inst with
  | nil =>
    rw [hrs] at hgood
    simp only [List.flatMap_nil, displayed, Prod.mk.injEq] at hgood
    simp [← hgood.1]
  | cons r rs =>
    rw [hrs] at hvis hgood
    simp only [hp', hvis, hgood]
    have hr : ∀ μ, (if hook then (o.env options).hookRaises μ else none) = none := by
      intro μ
      cases hook with
      | false => rfl
      | true => exact hhook rfl μ
    simp only [hr, hacc]
    cases good with
    | nil => simp
    | cons g gs => simp [writeFinish]

/-- C93: linting a file says that it is clean when no selected rule reports anything on it that no comment silences, and otherwise reports exactly that. -/
theorem C93_file (options : Option Options) (w : World) (p : Path) (content : Bytes) (cfg : Config V) (m : Node)
    (h : Lints o options w.files (o.base.resolve p) content cfg m) (hook : Bool) (hhook : hook = true → ∀ μ, o.base.hookRaises μ = none) :
    ((alone (o.env options) false hook w p).1 = [cleanResult (o.base.resolve p)] ↔ ∀ k call, ¬ Flagged o w.files cfg m k call) ∧
    (∀ lv, reporting (o.base.resolve p) lv ∈ (alone (o.env options) false hook w p).1 ↔
      ∃ k call v, Flagged o w.files cfg m k call ∧ Says o m k call v ∧ display (o.env options) (o.base.resolve p) m v = .ok lv) ∧
    (∀ r ∈ (alone (o.env options) false hook w p).1, r.error = none) := by
  have hres : (o.env options).resolve p = o.base.resolve p := rfl
  have hfound := C93_found o horder options w.files (o.base.resolve p) content cfg m h
  have hsome : (∃ k call, Flagged o w.files cfg m k call) → foundIn (o.env options) w.files (o.base.resolve p) ≠ [] := by
    rintro ⟨k, call, hf⟩ he
    exact (found_nil_iff o horder options w.files (o.base.resolve p) content cfg m h).mp he k call hf
  have hout : (alone (o.env options) false hook w p).1 =
      if foundIn (o.env options) w.files (o.base.resolve p) = [] then [cleanResult (o.base.resolve p)] else
        (foundIn (o.env options) w.files (o.base.resolve p)).map (reporting (o.base.resolve p)) := by
    have h1 := run_replicate none (fixitFile (o.env options) p false hook) w _ (Nat.le_refl _)
    have h2 := alone_returns (o.env options) false hook w p
    have h3 : (fixitFile (o.env options) p false hook).run (List.replicate (drain none (fixitFile (o.env options) p false hook) w).1.length none) w = _ :=
      run_lintFile (o.env options) (o.base.resolve p) false hook _ w
    rw [h1] at h3
    have hlast := system_finish o horder options w.files (o.base.resolve p) content cfg m h hook hhook
      (List.replicate (drain none (fixitFile (o.env options) p false hook) w).1.length none) (fun a ha => (List.mem_replicate.mp ha).2)
    show (drain none (fixitFile (o.env options) p false hook) w).1 = _
    have h2' : (drain none (fixitFile (o.env options) p false hook) w).2.1 = .returned () := h2
    rw [h3] at h2' ⊢
    unfold script at h2' ⊢
    split at h2'
    · cases h2'
    · rename_i hlt
      rw [if_neg hlt, hlast]
      by_cases he : foundIn (o.env options) w.files (o.base.resolve p) = []
      · simp [he]
      · simp [he]
  rw [hout]
  refine ⟨?_, ?_, ?_⟩
  · constructor
    · intro hh k call hf
      have := hsome ⟨k, call, hf⟩
      rw [if_neg this] at hh
      cases hfi : foundIn (o.env options) w.files (o.base.resolve p) with
      | nil => exact this hfi
      | cons a b => rw [hfi] at hh; simp [reporting, cleanResult] at hh
    · intro hh
      have : foundIn (o.env options) w.files (o.base.resolve p) = [] := by
        rw [List.eq_nil_iff_forall_not_mem]
        intro lv hlv
        obtain ⟨k, call, v, hf, -⟩ := (hfound lv).mp hlv
        exact hh k call hf
      rw [if_pos this]
  · intro lv
    rw [← hfound lv]
    by_cases he : foundIn (o.env options) w.files (o.base.resolve p) = []
    · rw [if_pos he, he]; simp [reporting, cleanResult]
    · rw [if_neg he]
      constructor
      · intro hm
        obtain ⟨lv', h1, h2⟩ := List.mem_map.mp hm
        simp only [reporting, Result.mk.injEq, Option.some.injEq, true_and, and_true] at h2
        exact h2 ▸ h1
      · exact List.mem_map_of_mem
  · intro r hr
    by_cases he : foundIn (o.env options) w.files (o.base.resolve p) = []
    · rw [if_pos he] at hr; simp only [List.mem_singleton] at hr; subst hr; rfl
    · rw [if_neg he] at hr
      obtain ⟨lv', h1, rfl⟩ := List.mem_map.mp hr
      rfl

end
end Fixit
