import Verif.Props.Visit
import Verif.Props.RulesSuper
import Verif.Props.RulesAsync
import Verif.Props.RulesQuoted
import Verif.Props.RulesAbc
import Verif.Props.RulesUpgrade
import Verif.Props.RulesTestCase

/-!
# Which bundled rules do not influence each other, and the upgrade rules together
-/

namespace Cst
open Py Fixit Spec

theorem keepsMetadata_of_tracked {σ : Type} {init : σ} {methods : List PStr} {on : Store → σ → Ev → Except Err (Store × σ × List Rep)} {g : σ → Ev → σ} {f : σ → Ev → Except Err (List Rep)}
    (h : Tracked methods on g f) : KeepsMetadata (VRule.mk σ init methods on) := by
  intro e st s st' s' out hs
  rw [h.step] at hs
  cases hf : f s e with
  | error x => rw [hf] at hs; cases hs
  | ok o => rw [hf] at hs; cases hs; rfl

/-- C96: the modelled rules that do not use `pop` do not influence each other. -/
theorem C96_rules (qual : Nat → List PStr) (message : PStr) (scope : Nat → Except Err (Option (PStr → Bool))) (value : PStr → Except Err PStr) (parse : PStr → Option Expr) (root : Syn)
    (code : Expr → PStr) (parse' : PStr → Except Err Expr) :
    ∀ r ∈ [superRule, asyncSleepRule qual message, typingRule qual scope, quotedRule qual value parse, abcRule root, testCaseRule qual code parse'], KeepsMetadata r := by
  intro r hr
  simp only [List.mem_cons, List.not_mem_nil, or_false] at hr
  rcases hr with rfl | rfl | rfl | rfl | rfl | rfl
  · exact keepsMetadata_of_tracked superRule_tracked
  · exact keepsMetadata_of_tracked (asyncSleepRule_tracked qual message)
  · exact keepsMetadata_of_tracked (typingRule_tracked qual scope)
  · exact keepsMetadata_of_tracked (quotedRule_tracked qual value parse)
  · exact keepsMetadata_of_tracked (abcRule_tracked root)
  · exact keepsMetadata_of_tracked (testCaseRule_tracked qual code parse')

/-! ## Rules that take names out of the sets -/

/-- The methods of the rule put nothing into the sets. -/
def OnlyTakes (r : VRule) : Prop := ∀ e st s st' s' out, r.step e st s = .ok (st', s', out) → ∀ j, (st' j).length ≤ (st j).length

theorem KeepsMetadata.onlyTakes {r : VRule} (h : KeepsMetadata r) : OnlyTakes r := by
  intro e st s st' s' out hs j
  rw [h e st s st' s' out hs]
  exact Nat.le_refl _

theorem deprecatedImportRule_onlyTakes : OnlyTakes deprecatedImportRule := by
  intro e st s st' s' out hs j
  unfold VRule.step at hs
  split at hs
  · cases e with
    | leave i l => cases hs; exact Nat.le_refl _
    | visit i l =>
      cases l with
      | name v =>
        simp only [deprecatedImportRule] at hs
        cases hq : st i with
        | nil => rw [hq] at hs; cases hs; exact Nat.le_refl _
        | cons n rest =>
          rw [hq] at hs
          cases hs
          simp only
          split
          · rename_i hj; rw [hj, hq]; simp
          · exact Nat.le_refl _
      | _ => cases hs; exact Nat.le_refl _
  · cases hs; exact Nat.le_refl _

theorem suffixBases_takes (c : PStr) (n : Nat) : ∀ (bases : List (Nat × Arg)) (st st' : Store) (out : List Rep), suffixBases c n bases st = .ok (st', out) →
    (∀ j, (st' j).length ≤ (st j).length) ∧ ∀ b ∈ bases, (st' b.1).length + 1 ≤ (st b.1).length
  | [], st, st', out, h => by cases h; exact ⟨fun _ => Nat.le_refl _, by simp⟩
  | b :: bs, st, st', out, h => by
    rw [suffixBases] at h
    cases hq : st b.1 with
    | nil => simp [popName, hq] at h
    | cons q rest =>
      have hp : popName st b.1 = .ok (q, fun j => if j = b.1 then rest else st j) := by simp [popName, hq]
      rw [hp] at h
      simp only at h
      cases hs : suffixBases c n bs (fun j => if j = b.1 then rest else st j) with
      | error x => rw [hs] at h; cases h
      | ok y =>
        rw [hs] at h
        cases h
        obtain ⟨h1, h2⟩ := suffixBases_takes c n bs _ y.1 y.2 hs
        have hle : ∀ j, (if j = b.1 then rest else st j).length ≤ (st j).length := by
          intro j
          split
          · rename_i hj; rw [hj, hq]; simp
          · exact Nat.le_refl _
        refine ⟨fun j => Nat.le_trans (h1 j) (hle j), fun b' hb' => ?_⟩
        rcases List.mem_cons.mp hb' with rfl | hb'
        · have := h1 b'.1
          rw [if_pos rfl] at this
          rw [hq, List.length_cons]
          omega
        · exact Nat.le_trans (h2 b' hb') (hle b'.1)

theorem removeSuffixRule_onlyTakes : OnlyTakes removeSuffixRule := by
  intro e st s st' s' out hs j
  rcases removeSuffix_step e st s with ⟨i, c, n, bases, rfl, he⟩ | ⟨-, he⟩
  · rw [he] at hs
    cases hb : suffixBases c n bases st with
    | error x => rw [hb] at hs; cases hs
    | ok y => rw [hb] at hs; cases hs; exact (suffixBases_takes c n bases st _ _ hb).1 j
  · rw [he] at hs; cases hs; exact Nat.le_refl _

/-- One step of several rules. -/
theorem batchStep_takes : ∀ (rs : List VRule) (j : Nat) (e : Ev) (st st' : Store) (ss ss' : States rs) (out : List (Nat × Rep)), (∀ r ∈ rs, OnlyTakes r) →
    batchStep rs j e st ss = .ok (st', ss', out) → (∀ x, (st' x).length ≤ (st x).length) ∧
      (removeSuffixRule ∈ rs → ∀ i c n bases, e = .visit i (.classDef c n bases) → ∀ b ∈ bases, (st' b.1).length + 1 ≤ (st b.1).length) ∧
      ∀ k rep new, (k, rep) ∈ out → rs[k - j]? = some deprecatedImportRule → rep.change = some (.rename new) → j ≤ k ∧ ∃ v, e = .visit rep.node (.name v) ∧ st rep.node ≠ []
  | [], j, e, st, st', ss, ss', out, _, h => by
    cases h
    exact ⟨fun _ => Nat.le_refl _, fun h => by (cases h), fun k rep new h => by (cases h)⟩
  | r :: rs, j, e, st, st', (s, ss), ss', out, ho, h => by
    rw [batchStep] at h
    cases h1 : r.step e st s with
    | error x => rw [h1] at h; cases h
    | ok a =>
      obtain ⟨st1, s1, out1⟩ := a
      rw [h1] at h
      simp only at h
      cases h2 : batchStep rs (j + 1) e st1 ss with
      | error x => rw [h2] at h; cases h
      | ok b =>
        obtain ⟨st2, ss2, out2⟩ := b
        rw [h2] at h
        cases h
        have hr := ho r List.mem_cons_self e st s st1 s1 out1 h1
        obtain ⟨ha, hb, hc⟩ := batchStep_takes rs (j + 1) e st1 st' ss ss2 out2 (fun r hr => ho r (List.mem_cons_of_mem _ hr)) h2
        refine ⟨fun x => Nat.le_trans (ha x) (hr x), ?_, ?_⟩
        · intro hm i c n bases he b hbm
          rcases List.mem_cons.mp hm with rfl | hm
          · rcases removeSuffix_step e st s with ⟨i', c', n', bases', he', hs'⟩ | ⟨hne, -⟩
            · rw [he] at he'
              cases he'
              have hs' : removeSuffixRule.step e st s = _ := hs'
              rw [h1] at hs'
              cases hsb : suffixBases c n bases st with
              | error x => rw [hsb] at hs'; cases hs'
              | ok y =>
                rw [hsb] at hs'
                cases hs'
                have := (suffixBases_takes c n bases st _ _ hsb).2 b hbm
                have := ha b.1
                omega
            · exact absurd he (hne i c n bases)
          · exact Nat.le_trans (hb hm i c n bases he b hbm) (hr b.1)
        · intro k rep new hm hk hchange
          rcases List.mem_append.mp hm with hm | hm
          · obtain ⟨o, hom, heq⟩ := List.mem_map.mp hm
            cases heq
            refine ⟨Nat.le_refl _, ?_⟩
            rw [Nat.sub_self] at hk
            have : r = deprecatedImportRule := by simpa using hk
            subst this
            unfold VRule.step at h1
            split at h1
            · cases e with
              | leave i l => cases h1; cases hom
              | visit i l =>
                cases l with
                | importFrom d m ns =>
                  cases h1
                  obtain ⟨e, as, s, rfl, rfl, hs, a, ha, hr⟩ := (deprecatedFrom_iff m ns rep).mp hom
                  obtain ⟨old, new, asname, rfl, hn, hren, has, rfl⟩ := (deprecatedAlias_iff s a rep).mp hr
                  cases hchange
                | name v =>
                  simp only [deprecatedImportRule] at h1
                  cases hq : st i with
                  | nil => rw [hq] at h1; cases h1; cases hom
                  | cons n rest =>
                    rw [hq] at h1
                    cases h1
                    cases hdep : deprecation n with
                    | none => rw [hdep] at hom; cases hom
                    | some p =>
                      obtain ⟨old, new⟩ := p
                      simp only [hdep] at hom
                      split at hom
                      · rw [List.mem_singleton] at hom
                        subst hom
                        exact ⟨v, rfl, by simp [hq]⟩
                      · cases hom
                | _ => cases h1; cases hom
            · cases h1; cases hom
          · have hge : j + 1 ≤ k := by
              have : ∀ (rs : List VRule) (j : Nat) (st st' : Store) (ss ss' : States rs) (out : List (Nat × Rep)), batchStep rs j e st ss = .ok (st', ss', out) → ∀ o ∈ out, j ≤ o.1 := by
                intro rs
                induction rs with
                | nil => intro j st st' ss ss' out h o ho; cases h; cases ho
                | cons r rs ih =>
                  rintro j st st' ⟨s, ss⟩ ss' out h o ho
                  rw [batchStep] at h
                  cases h1 : r.step e st s with
                  | error x => rw [h1] at h; cases h
                  | ok a =>
                    obtain ⟨st1, s1, out1⟩ := a
                    rw [h1] at h
                    simp only at h
                    cases h2 : batchStep rs (j + 1) e st1 ss with
                    | error x => rw [h2] at h; cases h
                    | ok b =>
                      rw [h2] at h
                      cases h
                      rcases List.mem_append.mp ho with ho | ho
                      · obtain ⟨x, -, rfl⟩ := List.mem_map.mp ho; exact Nat.le_refl _
                      · have := ih (j + 1) _ _ _ _ _ h2 o ho; omega
              exact this rs (j + 1) _ _ _ _ _ h2 _ hm
            have hk' : rs[k - (j + 1)]? = some deprecatedImportRule := by
              have : k - j = (k - (j + 1)) + 1 := by omega
              rw [this, List.getElem?_cons_succ] at hk
              exact hk
            obtain ⟨-, v, he, hne⟩ := hc k rep new hm hk' hchange
            refine ⟨by omega, v, he, ?_⟩
            intro h0
            have := hr rep.node
            rw [h0] at this
            exact hne (List.length_eq_zero_iff.mp (Nat.le_zero.mp this))

theorem batchSteps_takes (rs : List VRule) (ho : ∀ r ∈ rs, OnlyTakes r) : ∀ (evs : List Ev) (st st' : Store) (ss ss' : States rs) (out : List (Nat × Rep)),
    batchSteps rs evs st ss = .ok (st', ss', out) → (∀ x, (st' x).length ≤ (st x).length) ∧
      ∀ k rep new, (k, rep) ∈ out → rs[k]? = some deprecatedImportRule → rep.change = some (.rename new) → ∃ pre v post y, evs = pre ++ .visit rep.node (.name v) :: post ∧
        batchSteps rs pre st ss = .ok y ∧ y.1 rep.node ≠ []
  | [], st, st', ss, ss', out, h => by
    cases h
    exact ⟨fun _ => Nat.le_refl _, fun k rep new h => by (cases h)⟩
  | e :: es, st, st', ss, ss', out, h => by
    rw [batchSteps] at h
    cases h1 : batchStep rs 0 e st ss with
    | error x => rw [h1] at h; cases h
    | ok a =>
      obtain ⟨st1, ss1, out1⟩ := a
      rw [h1] at h
      simp only at h
      cases h2 : batchSteps rs es st1 ss1 with
      | error x => rw [h2] at h; cases h
      | ok b =>
        obtain ⟨st2, ss2, out2⟩ := b
        rw [h2] at h
        cases h
        obtain ⟨ha, -, hc⟩ := batchStep_takes rs 0 e st st1 ss ss1 out1 ho h1
        obtain ⟨ha', hc'⟩ := batchSteps_takes rs ho es st1 st' ss1 ss' out2 h2
        refine ⟨fun x => Nat.le_trans (ha' x) (ha x), ?_⟩
        intro k rep new hm hk hchange
        rcases List.mem_append.mp hm with hm | hm
        · obtain ⟨-, v, he, hne⟩ := hc k rep new hm (by simpa using hk) hchange
          exact ⟨[], v, es, (st, ss, []), by rw [he]; rfl, rfl, hne⟩
        · obtain ⟨pre, v, post, y, hp, hy, hne⟩ := hc' k rep new hm hk hchange
          refine ⟨e :: pre, v, post, (y.1, y.2.1, out1 ++ y.2.2), by rw [hp]; rfl, ?_, hne⟩
          rw [batchSteps, h1]
          simp only [hy]

theorem batchSteps_append (rs : List VRule) : ∀ (a b : List Ev) (st : Store) (ss : States rs) (x : Store × States rs × List (Nat × Rep)), batchSteps rs (a ++ b) st ss = .ok x →
    ∃ y z, batchSteps rs a st ss = .ok y ∧ batchSteps rs b y.1 y.2.1 = .ok z ∧ x.1 = z.1
  | [], b, st, ss, x, h => ⟨(st, ss, []), x, rfl, h, rfl⟩
  | e :: a, b, st, ss, x, h => by
    rw [List.cons_append, batchSteps] at h
    cases h1 : batchStep rs 0 e st ss with
    | error x => rw [h1] at h; cases h
    | ok c =>
      obtain ⟨st1, ss1, out1⟩ := c
      rw [h1] at h
      simp only at h
      cases h2 : batchSteps rs (a ++ b) st1 ss1 with
      | error x => rw [h2] at h; cases h
      | ok d =>
        rw [h2] at h
        cases h
        obtain ⟨y, z, hy, hz, he⟩ := batchSteps_append rs a b st1 ss1 d h2
        refine ⟨(y.1, y.2.1, out1 ++ y.2.2), z, ?_, hz, he⟩
        rw [batchSteps, h1]
        simp only [hy]

/-- C102: when `FixitRemoveRuleSuffix` visits a module together with `FixitDeprecatedImport` (in any order, and with any other rules that put no names into the sets), no name
that is a base of a class and has one qualified name is renamed: `FixitRemoveRuleSuffix` took the qualified name away. -/
theorem C102_bases_stay (rs : List VRule) (ho : ∀ r ∈ rs, OnlyTakes r) (hs : removeSuffixRule ∈ rs) (k : Nat) (hk : rs[k]? = some deprecatedImportRule) (meta_ : Store) (t : Syn) (hd : t.ids.Nodup)
    (out : List (Nat × Rep)) (h : visitBatched rs meta_ t = .ok out) (way : List Frame) (i : Nat) (c : PStr) (n : Nat) (bases : List (Nat × Arg)) (ks : List Syn)
    (hat : At way (.node i (.classDef c n bases) ks) t) (b : Nat × Arg) (hb : b ∈ bases) (hin : b.1 ∈ Syn.idsAll ks) (hone : (meta_ b.1).length ≤ 1) (rep : Rep) (new : PStr)
    (hr : rep.node = b.1) (hc : rep.change = some (.rename new)) : (k, rep) ∉ out := by
  intro hm
  unfold visitBatched at h
  cases hbs : batchSteps rs t.events meta_ (States.init rs) with
  | error x => rw [hbs] at h; cases h
  | ok x =>
    rw [hbs] at h
    cases h
    obtain ⟨-, hrep⟩ := batchSteps_takes rs ho _ _ _ _ _ x.2.2 hbs
    obtain ⟨pre, v, post, y, hp, hy, hne⟩ := hrep k rep new hm hk hc
    rw [hr] at hp hne
    obtain ⟨rest, hsplit⟩ := hat.split
    have hev : t.events = (wayEvents way ++ [Ev.visit i (.classDef c n bases)]) ++ (Syn.eventsAll ks ++ [.leave i (.classDef c n bases)] ++ rest) := by
      rw [hsplit]; simp [Syn.events]
    -- the visit of the base is after the visit of the class
    have hids : (wayEvents way).flatMap visitId ++ (i :: (Syn.idsAll ks ++ rest.flatMap visitId)) = t.ids := by
      rw [← visit_ids t, hsplit]; simp [visit_ids, Syn.ids]
    have hafter : ∃ mid, pre = (wayEvents way ++ [Ev.visit i (.classDef c n bases)]) ++ mid := by
      rw [hev] at hp
      rcases List.append_eq_append_iff.mp hp with ⟨a, ha, hb'⟩ | ⟨a, ha, hb'⟩
      · exact ⟨a, ha⟩
      · cases a with
        | nil => exact ⟨[], by simpa using ha.symm⟩
        | cons e a =>
          simp only [List.cons_append, List.cons.injEq] at hb'
          obtain ⟨rfl, -⟩ := hb'
          exfalso
          have hmem : b.1 ∈ (wayEvents way ++ [Ev.visit i (.classDef c n bases)]).flatMap visitId := by
            rw [ha]; simp [visitId]
          rw [List.flatMap_append, List.mem_append] at hmem
          rw [← hids] at hd
          have hd' := List.nodup_append.mp hd
          rcases hmem with hmem | hmem
          · exact hd'.2.2 _ hmem b.1 (by simp [hin]) rfl
          · have : b.1 = i := by simpa [visitId] using hmem
            rw [← this] at hd'
            have := (List.nodup_cons.mp hd'.2.1).1
            exact this (by simp [hin])
    obtain ⟨mid, rfl⟩ := hafter
    -- after the visit of the class the set is empty
    obtain ⟨y1, y2, hy1, hy2, he⟩ := batchSteps_append rs _ _ _ _ _ hy
    obtain ⟨y3, y4, hy3, hy4, he'⟩ := batchSteps_append rs _ _ _ _ _ hy1
    have l1 := (batchSteps_takes rs ho _ _ _ _ _ _ hy3).1 b.1
    have l3 := (batchSteps_takes rs ho _ _ _ _ _ _ hy2).1 b.1
    have l2 : (y4.1 b.1).length + 1 ≤ (y3.1 b.1).length := by
      rw [batchSteps] at hy4
      cases h1 : batchStep rs 0 (.visit i (.classDef c n bases)) y3.1 y3.2.1 with
      | error x => rw [h1] at hy4; cases hy4
      | ok z =>
        rw [h1] at hy4
        cases hy4
        exact (batchStep_takes rs 0 _ _ _ _ _ _ ho h1).2.1 hs i c n bases rfl b hb
    rw [he'] at l3
    rw [he] at hne
    refine hne (List.length_eq_zero_iff.mp ?_)
    omega

/-! ## Cases -/

/-- `from fixit import CstLintRule` and `class CatRule(CstLintRule): …`. -/
def oldRule : Syn :=
  .node 0 .module [
    .node 1 (.importFrom 0 (some (.name (py "fixit"))) (some [⟨2, .name (py "CstLintRule"), none⟩])) [.node 3 (.name (py "fixit")) [], .node 2 (.importAlias ⟨2, .name (py "CstLintRule"), none⟩) [.node 4 (.name (py "CstLintRule")) []]],
    .node 5 (.classDef (py "CatRule") 6 [(8, .pos (.name (py "CstLintRule")))]) [.node 6 (.name (py "CatRule")) [], .node 7 (.other (py "Arg")) [.node 8 (.name (py "CstLintRule")) []]]]

/-- The base means `fixit.CstLintRule`. -/
def oldMeta : Store := fun i => if i = 8 then [py "fixit.CstLintRule"] else []

/-- Alone, `FixitDeprecatedImport` renames the import and the base. -/
example : (deprecatedImportRule.alone oldMeta oldRule).map (·.map (·.node)) = .ok [2, 8] := by decide +kernel

/-- A finding: with `fixit upgrade`, which runs the rules together, the import is renamed and the base is not: the new module fails with a `NameError`. So C96 is false of rules that use `pop`. -/
theorem C102_base_not_renamed : (visitBatched [deprecatedImportRule, removeSuffixRule, testCaseRule (fun _ => []) (fun _ => []) (fun _ => .ok (.name []))] oldMeta oldRule).map
    (·.map (fun o => (o.1, o.2.node))) = .ok [(0, 2)] := by decide +kernel

/-- The theorem above applies to it. -/
example : oldRule.ids.Nodup ∧ (oldMeta 8).length ≤ 1 := by decide +kernel

example (qual : Nat → List PStr) (code : Expr → PStr) (parse : PStr → Except Err Expr) : ∀ r ∈ [deprecatedImportRule, removeSuffixRule, testCaseRule qual code parse], OnlyTakes r := by
  intro r hr
  simp only [List.mem_cons, List.not_mem_nil, or_false] at hr
  rcases hr with rfl | rfl | rfl
  · exact deprecatedImportRule_onlyTakes
  · exact removeSuffixRule_onlyTakes
  · exact (keepsMetadata_of_tracked (testCaseRule_tracked qual code parse)).onlyTakes

/-- `class CatRule(LintRule): …` -/
def newRule (sets : List PStr) : Syn × Store :=
  (.node 0 .module [.node 5 (.classDef (py "CatRule") 6 [(8, .pos (.name (py "LintRule")))]) [.node 6 (.name (py "CatRule")) [], .node 7 (.other (py "Arg")) [.node 8 (.name (py "LintRule")) []]]],
   fun i => if i = 8 then sets else [])

/-- The suffix goes away when the base is `fixit.LintRule`. -/
example : ∃ reps, removeSuffixRule.alone (newRule [py "fixit.LintRule"]).2 (newRule [py "fixit.LintRule"]).1 = .ok reps ∧ reps = [{ node := 6, change := some (.rename (py "Cat")) }] := ⟨_, rfl, rfl⟩

/-- A base without qualified names (an expression that is no name) fails the file. -/
example : removeSuffixRule.alone (newRule []).2 (newRule []).1 = .error (.other 3) := rfl

/-- `InvalidTestCase("x", kind="C")`, in a module that imports it. -/
def oldCase : Syn :=
  .node 0 .module [
    .node 1 (.importFrom 0 (some (.name (py "fixit"))) (some [⟨2, .name (py "InvalidTestCase"), none⟩])) [],
    .node 5 (.call (.name (py "InvalidTestCase")) [.pos (.str (py "'x'")), .mk .none (some (py "kind")) (.str (py "'C'"))]) [.node 6 (.name (py "InvalidTestCase")) []]]

/-- A finding: `fixit upgrade` reports the import, the call and the name that is called. The new call holds the old name, and a replacement of a node goes before those of the nodes in it
(C35): the import is renamed and the call is not. -/
theorem C103_name_not_renamed : ∃ out, visitBatched [deprecatedImportRule, removeSuffixRule, testCaseRule (fun i => if i = 5 then [py "fixit.InvalidTestCase"] else []) (fun _ => []) (fun _ => .ok (.name []))]
      (fun i => if i = 6 then [py "fixit.InvalidTestCase"] else []) oldCase = .ok out ∧
    out = [(0, { node := 2, message := some (renamedMessage (py "InvalidTestCase") (py "Invalid")), change := some (.alias (.name (py "Invalid")) none) }),
      (2, { node := 5, change := some (.args [.pos (.str (py "'x'"))]) }),
      (0, { node := 6, message := some (renamedMessage (py "InvalidTestCase") (py "Invalid")), change := some (.rename (py "Invalid")) })] := ⟨_, rfl, rfl⟩

end Cst
