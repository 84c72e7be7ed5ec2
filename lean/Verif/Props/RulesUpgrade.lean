import Verif.Props.RulesAbc
import Verif.Props.Visit

/-!
# C102: the upgrade rules that rename, and C103: the upgrade rule for test cases
-/

namespace Cst
open Py Fixit Spec

/-! ## FixitDeprecatedImport -/

/-- A dotted name with one dot splits in one way. -/
theorem dotted_split : ∀ (a b c d : PStr), '.' ∉ c → '.' ∉ d → a ++ '.' :: b = c ++ '.' :: d → a = c ∧ b = d
  | [], b, [], d, _, _, h => by simp at h; exact ⟨rfl, h⟩
  | [], b, x :: c, d, hc, _, h => by
    simp only [List.nil_append, List.cons_append, List.cons.injEq] at h
    exact absurd (by rw [h.1]; exact List.mem_cons_self) hc
  | x :: a, b, [], d, _, hd, h => by
    simp only [List.nil_append, List.cons_append, List.cons.injEq] at h
    exact absurd (by rw [← h.2]; simp) hd
  | x :: a, b, y :: c, d, hc, hd, h => by
    simp only [List.cons_append, List.cons.injEq] at h
    have := dotted_split a b c d (fun hm => hc (List.mem_cons_of_mem _ hm)) hd h.2
    rw [h.1, this.1, this.2]
    exact ⟨rfl, rfl⟩

theorem renamed_dotless {old new : PStr} (h : (old, new) ∈ renamed) : '.' ∉ old := by
  simp only [renamed, List.mem_cons, List.not_mem_nil, or_false, Prod.mk.injEq] at h
  rcases h with ⟨rfl, -⟩ | ⟨rfl, -⟩ | ⟨rfl, -⟩ | ⟨rfl, -⟩ <;> decide

theorem deprecation_iff (fq old new : PStr) : deprecation fq = some (old, new) ↔ (old, new) ∈ renamed ∧ fq = py "fixit." ++ old := by
  have hfind : deprecation fq = some (old, new) ↔ ∃ d ∈ deprecations, d.1 = fq ∧ d.2 = (old, new) := by
    unfold deprecation
    rw [Option.map_eq_some_iff]
    constructor
    · rintro ⟨d, hd, h2⟩
      exact ⟨d, List.mem_of_find?_eq_some hd, by simpa using List.find?_some hd, h2⟩
    · rintro ⟨d, hd, h1, h2⟩
      simp only [deprecations, List.mem_cons, List.not_mem_nil, or_false] at hd
      rcases hd with rfl | rfl | rfl | rfl <;> (simp only at h1 h2; subst h1; rw [← h2]; exact ⟨_, rfl, rfl⟩)
  rw [hfind]
  simp only [deprecations, renamed, List.mem_cons, List.not_mem_nil, or_false, Prod.mk.injEq, exists_eq_or_imp, exists_eq_left]
  constructor
  · rintro (⟨rfl, rfl, rfl⟩ | ⟨rfl, rfl, rfl⟩ | ⟨rfl, rfl, rfl⟩ | ⟨rfl, rfl, rfl⟩)
    · exact ⟨.inl ⟨rfl, rfl⟩, by decide +kernel⟩
    · exact ⟨.inr (.inl ⟨rfl, rfl⟩), by decide +kernel⟩
    · exact ⟨.inr (.inr (.inl ⟨rfl, rfl⟩)), by decide +kernel⟩
    · exact ⟨.inr (.inr (.inr ⟨rfl, rfl⟩)), by decide +kernel⟩
  · rintro ⟨⟨rfl, rfl⟩ | ⟨rfl, rfl⟩ | ⟨rfl, rfl⟩ | ⟨rfl, rfl⟩, rfl⟩
    · exact .inl ⟨by decide +kernel, rfl, rfl⟩
    · exact .inr (.inl ⟨by decide +kernel, rfl, rfl⟩)
    · exact .inr (.inr (.inl ⟨by decide +kernel, rfl, rfl⟩))
    · exact .inr (.inr (.inr ⟨by decide +kernel, rfl, rfl⟩))

/-- The sets that are taken from in a step: only the one of the name that is visited. -/
theorem deprecatedImport_store {e : Ev} {st st' : Store} {s s' : deprecatedImportRule.State} {out : List Rep} (h : deprecatedImportRule.step e st s = .ok (st', s', out)) (j : Nat) (hj : j ∉ visitId e) :
    st' j = st j := by
  unfold VRule.step at h
  split at h
  · cases e with
    | leave i l => cases h; rfl
    | visit i l =>
      have hne : j ≠ i := by simpa [visitId] using hj
      cases l with
      | name v =>
        simp only [deprecatedImportRule] at h
        cases hs : st i with
        | nil => rw [hs] at h; cases h; rfl
        | cons n rest =>
          rw [hs] at h
          cases h
          simp [hne]
      | _ => cases h; rfl
  · cases h; rfl

theorem deprecatedImport_stores : ∀ (evs : List Ev) (st : Store) (s : deprecatedImportRule.State) (x : Store × deprecatedImportRule.State × List Rep), deprecatedImportRule.steps evs st s = .ok x →
    ∀ j, j ∉ evs.flatMap visitId → x.1 j = st j
  | [], st, s, x, h, j, _ => by cases h; rfl
  | e :: es, st, s, x, h, j, hj => by
    rw [VRule.steps] at h
    cases h1 : deprecatedImportRule.step e st s with
    | error y => rw [h1] at h; cases h
    | ok a =>
      obtain ⟨st1, s1, out1⟩ := a
      rw [h1] at h
      simp only at h
      rw [List.flatMap_cons, List.mem_append] at hj
      cases h2 : deprecatedImportRule.steps es st1 s1 with
      | error y => rw [h2] at h; cases h
      | ok b =>
        rw [h2] at h
        cases h
        have := deprecatedImport_stores es st1 s1 b h2 j (fun h => hj (.inr h))
        rw [show (b.1, b.2.1, out1 ++ b.2.2).1 = b.1 from rfl, this]
        exact deprecatedImport_store h1 j (fun h => hj (.inl h))

/-- In a tree with different nodes, a node is not visited before its position. -/
theorem not_visited_before {way : List Frame} {n t : Syn} (h : At way n t) (hd : t.ids.Nodup) : n.id ∉ (wayEvents way).flatMap visitId := by
  obtain ⟨rest, hr⟩ := h.split
  have : t.ids = (wayEvents way).flatMap visitId ++ n.ids ++ rest.flatMap visitId := by
    rw [← visit_ids t, hr]
    simp [visit_ids]
  rw [this, List.append_assoc] at hd
  intro hm
  obtain ⟨i, l, ks⟩ := n
  exact (List.nodup_append.mp hd).2.2 _ hm i (by simp [Syn.ids]) rfl

theorem deprecatedAlias_iff (s : PStr) (a : ImportName) (rep : Rep) : rep ∈ deprecatedAlias s a ↔ ∃ old new asname, s = py "fixit" ∧ a.name.core = .name old ∧ (old, new) ∈ renamed ∧
    ((∃ x, a.asname = some x ∧ x.core = .name new ∧ asname = none) ∨ (asname = a.asname ∧ ∀ x, a.asname = some x → x.core ≠ .name new)) ∧
    rep = { node := a.id, message := some (renamedMessage old new), change := some (.alias (.name new) asname) } := by
  have hnt : ∀ (e : Expr) (n : PStr), e.nameText = some n ↔ e.core = .name n := by
    intro e n
    unfold Expr.nameText
    cases e.core <;> simp
  unfold deprecatedAlias
  cases hn : a.name.nameText with
  | none =>
    constructor
    · intro h; cases h
    · rintro ⟨old, new, asname, -, h, -⟩
      rw [← hnt, hn] at h
      cases h
  | some n =>
    rw [hnt] at hn
    simp only
    have hfq : ∀ old new, deprecation (s ++ py "." ++ n) = some (old, new) ↔ s = py "fixit" ∧ n = old ∧ (old, new) ∈ renamed := by
      intro old new
      rw [deprecation_iff]
      constructor
      · rintro ⟨hr, he⟩
        have : s ++ '.' :: n = py "fixit" ++ '.' :: old := by
          have : py "fixit." ++ old = py "fixit" ++ '.' :: old := rfl
          rw [← this, ← he, List.append_assoc]; rfl
        obtain ⟨h1, h2⟩ := dotted_split _ _ _ _ (by decide) (renamed_dotless hr) this
        exact ⟨h1, h2, hr⟩
      · rintro ⟨rfl, rfl, hr⟩
        exact ⟨hr, by rw [List.append_assoc]; rfl⟩
    cases hd : deprecation (s ++ py "." ++ n) with
    | none =>
      constructor
      · intro h; cases h
      · rintro ⟨old, new, asname, h1, h2, h3, -⟩
        rw [hn] at h2
        cases h2
        rw [(hfq n new).mpr ⟨h1, rfl, h3⟩] at hd
        cases hd
    | some p =>
      obtain ⟨old, new⟩ := p
      obtain ⟨h1, h2, h3⟩ := (hfq old new).mp hd
      subst h2
      simp only [List.mem_singleton]
      have hu : ∀ old' new', a.name.core = .name old' → (old', new') ∈ renamed → old' = n ∧ new' = new := by
        intro old' new' hc hr
        rw [hn] at hc
        cases hc
        have := (hfq n new').mpr ⟨h1, rfl, hr⟩
        rw [hd] at this
        cases this
        exact ⟨rfl, rfl⟩
      constructor
      · intro h
        subst h
        cases ha : a.asname with
        | none => exact ⟨n, new, none, h1, hn, h3, .inr ⟨rfl, by simp⟩, rfl⟩
        | some x =>
          simp only
          by_cases hx : x.nameText = some new
          · rw [if_pos hx]
            exact ⟨n, new, none, h1, hn, h3, .inl ⟨x, rfl, (hnt x new).mp hx, rfl⟩, rfl⟩
          · rw [if_neg hx]
            exact ⟨n, new, some x, h1, hn, h3, .inr ⟨rfl, fun y hy => by cases hy; exact fun h => hx ((hnt x new).mpr h)⟩, rfl⟩
      · rintro ⟨old', new', asname, -, hc, hr, has, rfl⟩
        obtain ⟨rfl, rfl⟩ := hu old' new' hc hr
        cases ha : a.asname with
        | none =>
          rw [ha] at has
          rcases has with ⟨x, h, -⟩ | ⟨rfl, -⟩
          · cases h
          · rfl
        | some x =>
          simp only
          rw [ha] at has
          rcases has with ⟨y, h, hy, rfl⟩ | ⟨rfl, hy⟩
          · cases h
            rw [if_pos ((hnt x _).mpr hy)]
            rfl
          · rw [if_neg (fun h => hy x rfl ((hnt x _).mp h))]
            rfl

theorem deprecatedFrom_iff (m : Option Expr) (ns : Option (List ImportName)) (rep : Rep) : rep ∈ deprecatedFrom m ns ↔ ∃ e as s, m = some e ∧ ns = some as ∧ e.core = .name s ∧ ∃ a ∈ as, rep ∈ deprecatedAlias s a := by
  unfold deprecatedFrom
  cases m with
  | none => exact ⟨fun h => by (cases h), fun ⟨_, _, _, h, _⟩ => by (cases h)⟩
  | some e =>
    cases ns with
    | none => exact ⟨fun h => by (cases h), fun ⟨_, _, _, _, h, _⟩ => by (cases h)⟩
    | some as =>
      simp only [Expr.nameText]
      cases hc : e.core with
      | name s =>
        simp only [List.mem_flatMap]
        exact ⟨fun ⟨a, h⟩ => ⟨e, as, s, rfl, rfl, hc, a, h⟩, fun ⟨e', as', s', h1, h2, h3, a, h⟩ => by cases h1; cases h2; rw [hc] at h3; cases h3; exact ⟨a, h⟩⟩
      | _ => exact ⟨fun h => by (cases h), fun ⟨e', as', s', h1, h2, h3, _⟩ => by cases h1; rw [hc] at h3; cases h3⟩

/-- C102: `FixitDeprecatedImport` alone never fails and reports exactly the imports of the four old names from `fixit`, and the names that mean them. -/
theorem C102_imports (meta_ : Store) (t : Syn) (hd : t.ids.Nodup) : ∃ reps, deprecatedImportRule.alone meta_ t = .ok reps ∧ ∀ rep, rep ∈ reps ↔ RenameReport meta_ t rep := by
  have hstep : ∀ e st (s : deprecatedImportRule.State), ∃ y, deprecatedImportRule.step e st s = .ok y := by
    intro e st s
    unfold VRule.step
    split
    · cases e with
      | leave i l => exact ⟨_, rfl⟩
      | visit i l =>
        cases l with
        | name v =>
          simp only [deprecatedImportRule]
          cases hs : st i <;> exact ⟨_, rfl⟩
        | _ => exact ⟨_, rfl⟩
    · exact ⟨_, rfl⟩
  have hok : ∀ evs st (s : deprecatedImportRule.State), ∃ x, deprecatedImportRule.steps evs st s = .ok x := by
    intro evs
    induction evs with
    | nil => intro st s; exact ⟨_, rfl⟩
    | cons e es ih =>
      intro st s
      obtain ⟨y, hy⟩ := hstep e st s
      obtain ⟨z, hz⟩ := ih y.1 y.2.1
      rw [VRule.steps, hy]
      obtain ⟨y1, y2, y3⟩ := y
      have hz : deprecatedImportRule.steps es y1 y2 = .ok z := hz
      simp only [hz]
      exact ⟨_, rfl⟩
  obtain ⟨x, hx⟩ := hok t.events meta_ ()
  have ha : deprecatedImportRule.alone meta_ t = .ok x.2.2 := by
    unfold VRule.alone
    have hx : deprecatedImportRule.steps t.events meta_ deprecatedImportRule.init = .ok x := hx
    rw [hx]; rfl
  refine ⟨x.2.2, ha, fun rep => ?_⟩
  rw [mem_alone _ _ _ _ ha]
  constructor
  · rintro ⟨way, ⟨i, l, ks⟩, y, z, hat, hm, ⟨hy, hz⟩ | ⟨hy, hz⟩⟩
    · have hst := deprecatedImport_stores _ _ _ _ hy i (not_visited_before hat hd)
      unfold VRule.step at hz
      split at hz
      · simp only [Syn.id, Syn.label] at hz
        cases l with
        | importFrom d m ns =>
          cases hz
          obtain ⟨e, as, s, rfl, rfl, hs, a, ha, hr⟩ := (deprecatedFrom_iff m ns rep).mp hm
          obtain ⟨old, new, asname, rfl, hn, hren, has, rfl⟩ := (deprecatedAlias_iff s a rep).mp hr
          exact .import_ way i d e as ks a old new asname hat ha hs hn hren has
        | name v =>
          simp only [deprecatedImportRule] at hz
          rw [hst] at hz
          cases hq : meta_ i with
          | nil => rw [hq] at hz; cases hz; cases hm
          | cons n rest =>
            rw [hq] at hz
            cases hz
            cases hdep : deprecation n with
            | none => rw [hdep] at hm; cases hm
            | some p =>
              obtain ⟨old, new⟩ := p
              simp only [hdep] at hm
              split at hm
              · rename_i hv
                subst hv
                rw [List.mem_singleton] at hm
                subst hm
                obtain ⟨hr, rfl⟩ := (deprecation_iff n v new).mp hdep
                exact .use way i ks v new hat (by rw [hq]; rfl) hr
              · cases hm
        | _ => cases hz; cases hm
      · cases hz; cases hm
    · unfold VRule.step at hz
      split at hz <;> (cases hz; cases hm)
  · intro h
    have hprefix : ∀ {way : List Frame} {n : Syn}, At way n t → ∃ y, deprecatedImportRule.steps (wayEvents way) meta_ deprecatedImportRule.init = .ok y := fun {way n} _ => hok _ _ _
    cases h with
    | import_ way i d m as ks a old new asname hat ha hm hn hr has =>
      obtain ⟨y, hy⟩ := hprefix hat
      refine ⟨way, _, y, (y.1, y.2.1, deprecatedFrom (some m) (some as)), hat, ?_, .inl ⟨hy, ?_⟩⟩
      · exact (deprecatedFrom_iff _ _ _).mpr ⟨m, as, _, rfl, rfl, hm, a, ha, (deprecatedAlias_iff _ _ _).mpr ⟨old, new, asname, rfl, hn, hr, has, rfl⟩⟩
      · unfold VRule.step
        rw [if_pos (by simp [Ev.method, Syn.label, Label.typeName, deprecatedImportRule])]
        rfl
    | use way i ks old new hat hq hr =>
      obtain ⟨y, hy⟩ := hprefix hat
      have hst := deprecatedImport_stores _ _ _ _ hy i (not_visited_before hat hd)
      cases hqm : meta_ i with
      | nil => rw [hqm] at hq; cases hq
      | cons n rest =>
        rw [hqm] at hq
        simp only [List.getElem?_cons_zero, Option.some.injEq] at hq
        subst hq
        refine ⟨way, _, y, (fun j => if j = i then rest else y.1 j, y.2.1, [{ node := i, message := some (renamedMessage old new), change := some (.rename new) }]), hat,
          List.mem_singleton.mpr rfl, .inl ⟨hy, ?_⟩⟩
        unfold VRule.step
        rw [if_pos (by simp [Ev.method, Syn.label, Label.typeName, deprecatedImportRule])]
        simp only [deprecatedImportRule, Syn.id, Syn.label]
        rw [hst, hqm]
        simp only
        rw [(deprecation_iff _ _ _).mpr ⟨hr, rfl⟩]
        simp only [if_true]
        rfl

/-! ## FixitRemoveRuleSuffix -/

theorem error_steps (r : VRule) : ∀ (evs : List Ev) (st : Store) (s : r.State), (∃ x, r.steps evs st s = .error x) ↔
    ∃ pre e post y x, evs = pre ++ e :: post ∧ r.steps pre st s = .ok y ∧ r.step e y.1 y.2.1 = .error x
  | [], st, s => ⟨fun ⟨x, h⟩ => by (cases h), fun ⟨pre, e, post, y, x, h, _⟩ => by simp at h⟩
  | e :: es, st, s => by
    cases h1 : r.step e st s with
    | error x =>
      constructor
      · intro _; exact ⟨[], e, es, (st, s, []), x, rfl, rfl, h1⟩
      · intro _; exact ⟨x, by rw [VRule.steps, h1]⟩
    | ok a =>
      obtain ⟨st1, s1, o1⟩ := a
      have ih := error_steps r es st1 s1
      constructor
      · rintro ⟨x, h⟩
        rw [VRule.steps, h1] at h
        simp only at h
        cases h2 : r.steps es st1 s1 with
        | ok b => rw [h2] at h; cases h
        | error x' =>
          obtain ⟨pre, e', post, y, x'', rfl, hy, hx⟩ := ih.mp ⟨x', h2⟩
          refine ⟨e :: pre, e', post, (y.1, y.2.1, o1 ++ y.2.2), x'', rfl, ?_, hx⟩
          rw [VRule.steps, h1]
          simp only [hy]
      · rintro ⟨pre, e', post, y, x, hp, hy, hx⟩
        cases pre with
        | nil =>
          cases hp
          cases hy
          rw [h1] at hx
          cases hx
        | cons p pre =>
          cases hp
          rw [VRule.steps, h1] at hy
          simp only at hy
          cases h3 : r.steps pre st1 s1 with
          | error x' => rw [h3] at hy; cases hy
          | ok c =>
            rw [h3] at hy
            cases hy
            obtain ⟨x', hx'⟩ := ih.mpr ⟨pre, e', post, c, x, rfl, h3, hx⟩
            exact ⟨x', by rw [VRule.steps, h1]; simp only [hx']⟩

theorem withoutSuffix_iff (c c' : PStr) : withoutSuffix c = some c' ↔ c = c' ++ py "Rule" := by
  unfold withoutSuffix
  constructor
  · intro h
    split at h
    · rename_i hs
      rw [List.isSuffixOf_iff_suffix] at hs
      obtain ⟨p, rfl⟩ := hs
      cases h
      have : (p ++ py "Rule").length - 4 = p.length := by simp [List.length_append]
      rw [this, List.take_left]
    · cases h
  · rintro rfl
    have : (c' ++ py "Rule").length - 4 = c'.length := by simp [List.length_append]
    rw [if_pos (by rw [List.isSuffixOf_iff_suffix]; exact ⟨c', rfl⟩), this, List.take_left]

/-- What the loop over the bases does, when the bases are different nodes. -/
theorem suffixBases_spec (c : PStr) (n : Nat) : ∀ (bases : List (Nat × Arg)) (st : Store), (bases.map (·.1)).Nodup →
    ((∃ b ∈ bases, st b.1 = []) ∧ ∃ x, suffixBases c n bases st = .error x) ∨
    ((∀ b ∈ bases, st b.1 ≠ []) ∧ ∃ st' out, suffixBases c n bases st = .ok (st', out) ∧ (∀ j, j ∉ bases.map (·.1) → st' j = st j) ∧
      ∀ rep, rep ∈ out ↔ ∃ b ∈ bases, (st b.1)[0]? = some (py "fixit.LintRule") ∧ ∃ c', c = c' ++ py "Rule" ∧ rep = { node := n, message := none, change := some (.rename c') })
  | [], st, _ => .inr ⟨by simp, st, [], rfl, by simp, by simp⟩
  | b :: bs, st, hd => by
    rw [List.map_cons, List.nodup_cons] at hd
    rw [suffixBases]
    cases hq : st b.1 with
    | nil =>
      refine .inl ⟨⟨b, List.mem_cons_self, hq⟩, .other 3, ?_⟩
      simp [popName, hq]
    | cons q rest =>
      have hp : popName st b.1 = .ok (q, fun j => if j = b.1 then rest else st j) := by simp [popName, hq]
      have hsame : ∀ b' ∈ bs, (if b'.1 = b.1 then rest else st b'.1) = st b'.1 := by
        intro b' hb'
        have : b'.1 ≠ b.1 := fun e => hd.1 (by rw [← e]; exact List.mem_map_of_mem hb')
        simp [this]
      rw [hp]
      simp only
      rcases suffixBases_spec c n bs (fun j => if j = b.1 then rest else st j) hd.2 with ⟨⟨b', hb', he⟩, x, hx⟩ | ⟨hne, st', out, ho, hst, hout⟩
      · rw [hsame b' hb'] at he
        refine .inl ⟨⟨b', List.mem_cons_of_mem _ hb', he⟩, x, ?_⟩
        rw [hx]
      · refine .inr ⟨?_, st', _, by rw [ho], ?_, ?_⟩
        · intro b' hb'
          rcases List.mem_cons.mp hb' with rfl | hb'
          · rw [hq]; simp
          · rw [← hsame b' hb']; exact hne b' hb'
        · intro j hj
          simp only [List.map_cons, List.mem_cons, not_or] at hj
          rw [hst j hj.2]
          simp [hj.1]
        · intro rep
          rw [List.mem_append, hout]
          have hfirst : rep ∈ suffixReport c n q ↔
              (st b.1)[0]? = some (py "fixit.LintRule") ∧ ∃ c', c = c' ++ py "Rule" ∧ rep = { node := n, message := none, change := some (.rename c') } := by
            rw [hq, suffixReport]
            simp only [List.getElem?_cons_zero, Option.some.injEq]
            split
            · rename_i hl
              cases hw : withoutSuffix c with
              | none =>
                constructor
                · intro h; cases h
                · rintro ⟨-, c', hc, -⟩
                  rw [(withoutSuffix_iff c c').mpr hc] at hw
                  cases hw
              | some c' =>
                simp only [List.mem_singleton]
                constructor
                · intro h; exact ⟨hl, c', (withoutSuffix_iff c c').mp hw, h⟩
                · rintro ⟨-, c'', hc, h⟩
                  rw [(withoutSuffix_iff c c'').mpr hc] at hw
                  cases hw
                  exact h
            · rename_i hl
              exact ⟨fun h => by (cases h), fun h => absurd h.1 hl⟩
          rw [hfirst]
          constructor
          · rintro (h | ⟨b', hb', h1, h2⟩)
            · exact ⟨b, List.mem_cons_self, h⟩
            · rw [hsame b' hb'] at h1
              exact ⟨b', List.mem_cons_of_mem _ hb', h1, h2⟩
          · rintro ⟨b', hb', h1, h2⟩
            rcases List.mem_cons.mp hb' with rfl | hb'
            · exact .inl ⟨h1, h2⟩
            · exact .inr ⟨b', hb', by rw [hsame b' hb']; exact h1, h2⟩

/-- The bases of a step. -/
def evBases : Ev → List Nat
  | .visit _ l => basesOf l
  | .leave _ _ => []

mutual
theorem events_bases : ∀ t : Syn, t.events.flatMap evBases = baseIds t
  | .node i l ks => by simp [Syn.events, evBases, events_basesAll ks, baseIds]
theorem events_basesAll : ∀ ks : List Syn, (Syn.eventsAll ks).flatMap evBases = baseIdsAll ks
  | [] => rfl
  | k :: ks => by simp [Syn.eventsAll, events_bases k, events_basesAll ks, baseIdsAll]
end

/-- A step of the rule. -/
theorem removeSuffix_step (e : Ev) (st : Store) (s : removeSuffixRule.State) :
    (∃ i c n bases, e = .visit i (.classDef c n bases) ∧ removeSuffixRule.step e st s = (suffixBases c n bases st).map (fun x => (x.1, s, x.2))) ∨
    ((∀ i c n bases, e ≠ .visit i (.classDef c n bases)) ∧ removeSuffixRule.step e st s = .ok (st, s, [])) := by
  unfold VRule.step
  cases e with
  | leave i l =>
    refine .inr ⟨by simp, ?_⟩
    split <;> rfl
  | visit i l =>
    cases l with
    | classDef c n bases =>
      refine .inl ⟨i, c, n, bases, rfl, ?_⟩
      rw [if_pos (by simp [Ev.method, Label.typeName, removeSuffixRule])]
      simp only [removeSuffixRule]
      cases suffixBases c n bases st <;> rfl
    | _ =>
      refine .inr ⟨by simp, ?_⟩
      split <;> rfl

theorem removeSuffix_stores : ∀ (evs : List Ev) (st : Store) (s : removeSuffixRule.State) (x : Store × removeSuffixRule.State × List Rep), (evs.flatMap evBases).Nodup →
    removeSuffixRule.steps evs st s = .ok x → ∀ j, j ∉ evs.flatMap evBases → x.1 j = st j
  | [], st, s, x, _, h, j, _ => by cases h; rfl
  | e :: es, st, s, x, hd, h, j, hj => by
    rw [VRule.steps] at h
    rw [List.flatMap_cons] at hd hj
    rw [List.mem_append] at hj
    have hd' := List.nodup_append.mp hd
    cases h1 : removeSuffixRule.step e st s with
    | error y => rw [h1] at h; cases h
    | ok a =>
      obtain ⟨st1, s1, out1⟩ := a
      rw [h1] at h
      simp only at h
      cases h2 : removeSuffixRule.steps es st1 s1 with
      | error y => rw [h2] at h; cases h
      | ok b =>
        rw [h2] at h
        cases h
        have h3 := removeSuffix_stores es st1 s1 b hd'.2.1 h2 j (fun h => hj (.inr h))
        rw [show (b.1, b.2.1, out1 ++ b.2.2).1 = b.1 from rfl, h3]
        rcases removeSuffix_step e st s with ⟨i, c, n, bases, rfl, he⟩ | ⟨-, he⟩
        · rw [h1] at he
          rcases suffixBases_spec c n bases st hd'.1 with ⟨-, x, hx⟩ | ⟨-, st', out, ho, hst, -⟩
          · rw [hx] at he; cases he
          · rw [ho] at he
            cases he
            exact hst j (fun h => hj (.inl h))
        · rw [h1] at he; cases he; rfl

/-- The bases of a class are not met before its position, and are different. -/
theorem bases_before {way : List Frame} {i : Nat} {l : Label} {ks : List Syn} {t : Syn} (h : At way (.node i l ks) t) (hd : (baseIds t).Nodup) :
    (basesOf l).Nodup ∧ ((wayEvents way).flatMap evBases).Nodup ∧ ∀ j ∈ basesOf l, j ∉ (wayEvents way).flatMap evBases := by
  obtain ⟨rest, hr⟩ := h.split
  have : baseIds t = (wayEvents way).flatMap evBases ++ (basesOf l ++ (baseIdsAll ks ++ rest.flatMap evBases)) := by
    rw [← events_bases t, hr]
    simp [events_bases, baseIds]
  rw [this] at hd
  have h1 := List.nodup_append.mp hd
  have h2 := List.nodup_append.mp h1.2.1
  exact ⟨h2.1, h1.1, fun j hj hm => h1.2.2 j hm j (by simp [hj]) rfl⟩

/-- C102: `FixitRemoveRuleSuffix` alone, when it does not fail, reports exactly the classes whose name ends in `Rule`, once for each base that is `fixit.LintRule`; the fix is the name
without `Rule`. -/
theorem C102_suffix (meta_ : Store) (t : Syn) (hd : (baseIds t).Nodup) (reps : List Rep) (h : removeSuffixRule.alone meta_ t = .ok reps) (rep : Rep) : rep ∈ reps ↔
    ∃ way i c n bases ks c', At way (.node i (.classDef c n bases) ks) t ∧ (∃ b ∈ bases, (meta_ b.1)[0]? = some (py "fixit.LintRule")) ∧ c = c' ++ py "Rule" ∧
      rep = { node := n, message := none, change := some (.rename c') } := by
  have hpre : ∀ {way : List Frame} {n : Syn}, At way n t → ∃ y, removeSuffixRule.steps (wayEvents way) meta_ removeSuffixRule.init = .ok y := by
    intro way n hat
    obtain ⟨rest, hr⟩ := hat.split
    cases hp : removeSuffixRule.steps (wayEvents way) meta_ removeSuffixRule.init with
    | ok y => exact ⟨y, rfl⟩
    | error x =>
      unfold VRule.alone at h
      rw [hr, List.append_assoc, steps_append, hp] at h
      cases h
  rw [mem_alone _ _ _ _ h]
  constructor
  · rintro ⟨way, ⟨i, l, ks⟩, y, z, hat, hm, ⟨hy, hz⟩ | ⟨hy, hz⟩⟩
    · rcases removeSuffix_step (.visit i l) y.1 y.2.1 with ⟨i', c, n, bases, he, hs⟩ | ⟨-, hs⟩
      · cases he
        obtain ⟨hb1, hb2, hb3⟩ := bases_before hat hd
        have hst : ∀ b ∈ bases, y.1 b.1 = meta_ b.1 := fun b hb => removeSuffix_stores _ _ _ _ hb2 hy b.1 (hb3 b.1 (List.mem_map_of_mem (f := Prod.fst) hb))
        have hz : removeSuffixRule.step (.visit i (.classDef c n bases)) y.1 y.2.1 = .ok z := hz
        rw [hs] at hz
        rcases suffixBases_spec c n bases y.1 hb1 with ⟨-, x, hx⟩ | ⟨-, st', out, ho, -, hout⟩
        · rw [hx] at hz; cases hz
        · rw [ho] at hz
          cases hz
          obtain ⟨b, hb, h1, c', hc, hr⟩ := (hout rep).mp hm
          rw [hst b hb] at h1
          exact ⟨way, i, c, n, bases, ks, c', hat, ⟨b, hb, h1⟩, hc, hr⟩
      · have hz : removeSuffixRule.step (.visit i l) y.1 y.2.1 = .ok z := hz
        rw [hs] at hz
        cases hz
        cases hm
    · rcases removeSuffix_step (.leave i l) y.1 y.2.1 with ⟨i', c, n, bases, he, hs⟩ | ⟨-, hs⟩
      · cases he
      · have hz : removeSuffixRule.step (.leave i l) y.1 y.2.1 = .ok z := hz
        rw [hs] at hz
        cases hz
        cases hm
  · rintro ⟨way, i, c, n, bases, ks, c', hat, ⟨b, hb, h1⟩, hc, hr⟩
    obtain ⟨y, hy⟩ := hpre hat
    obtain ⟨hb1, hb2, hb3⟩ := bases_before hat hd
    have hst : ∀ b ∈ bases, y.1 b.1 = meta_ b.1 := fun b hb => removeSuffix_stores _ _ _ _ hb2 hy b.1 (hb3 b.1 (List.mem_map_of_mem (f := Prod.fst) hb))
    rcases removeSuffix_step (.visit i (.classDef c n bases)) y.1 y.2.1 with ⟨i', c2, n2, bases2, he, hs⟩ | ⟨hne, -⟩
    · cases he
      rcases suffixBases_spec c n bases y.1 hb1 with ⟨-, x, hx⟩ | ⟨-, st', out, ho, -, hout⟩
      · -- the rule would have failed
        rw [hx] at hs
        exfalso
        obtain ⟨rest, hr⟩ := hat.split
        have herr : ∃ x, removeSuffixRule.steps t.events meta_ removeSuffixRule.init = .error x :=
          (error_steps _ _ _ _).mpr ⟨wayEvents way, _, Syn.eventsAll ks ++ [.leave i (.classDef c n bases)] ++ rest, y, x, by rw [hr]; simp [Syn.events], hy, hs⟩
        obtain ⟨x', hx'⟩ := herr
        unfold VRule.alone at h
        rw [hx'] at h
        cases h
      · rw [ho] at hs
        exact ⟨way, _, y, _, hat, (hout rep).mpr ⟨b, hb, by rw [hst b hb]; exact h1, c', hc, hr⟩, .inl ⟨hy, hs⟩⟩
    · exact absurd rfl (hne _ _ _ _)

/-- C102: `FixitRemoveRuleSuffix` alone fails exactly when some class has a base without qualified names. -/
theorem C102_suffix_raises (meta_ : Store) (t : Syn) (hd : (baseIds t).Nodup) : (∃ x, removeSuffixRule.alone meta_ t = .error x) ↔
    ∃ way i c n bases ks, At way (.node i (.classDef c n bases) ks) t ∧ ∃ b ∈ bases, meta_ b.1 = [] := by
  have halone : (∃ x, removeSuffixRule.alone meta_ t = .error x) ↔ ∃ x, removeSuffixRule.steps t.events meta_ removeSuffixRule.init = .error x := by
    unfold VRule.alone
    cases removeSuffixRule.steps t.events meta_ removeSuffixRule.init with
    | ok y => exact ⟨fun ⟨x, h⟩ => by (cases h), fun ⟨x, h⟩ => by (cases h)⟩
    | error y => exact ⟨fun _ => ⟨y, rfl⟩, fun _ => ⟨y, rfl⟩⟩
  rw [halone]
  constructor
  · intro h
    obtain ⟨pre, e, post, y, x, hp, hy, hx⟩ := (error_steps _ _ _ _).mp h
    obtain ⟨way, ⟨i, l, ks⟩, hat, ⟨rfl, rfl⟩ | ⟨rfl, rfl⟩⟩ := position_of_split t pre post e hp
    · rcases removeSuffix_step (.visit i l) y.1 y.2.1 with ⟨i', c, n, bases, he, hs⟩ | ⟨-, hs⟩
      · cases he
        have hx : removeSuffixRule.step (.visit i (.classDef c n bases)) y.1 y.2.1 = .error x := hx
        rw [hs] at hx
        obtain ⟨hb1, hb2, hb3⟩ := bases_before hat hd
        rcases suffixBases_spec c n bases y.1 hb1 with ⟨⟨b, hb, he⟩, -⟩ | ⟨-, st', out, ho, -, hout⟩
        · rw [removeSuffix_stores _ _ _ _ hb2 hy b.1 (hb3 b.1 (List.mem_map_of_mem (f := Prod.fst) hb))] at he
          exact ⟨way, i, c, n, bases, ks, hat, b, hb, he⟩
        · rw [ho] at hx; cases hx
      · have hx : removeSuffixRule.step (.visit i l) y.1 y.2.1 = .error x := hx
        rw [hs] at hx; cases hx
    · rcases removeSuffix_step (.leave i l) y.1 y.2.1 with ⟨i', c, n, bases, he, hs⟩ | ⟨-, hs⟩
      · cases he
      · have hx : removeSuffixRule.step (.leave i l) y.1 y.2.1 = .error x := hx
        rw [hs] at hx; cases hx
  · rintro ⟨way, i, c, n, bases, ks, hat, b, hb, he⟩
    obtain ⟨hb1, hb2, hb3⟩ := bases_before hat hd
    obtain ⟨rest, hr⟩ := hat.split
    cases hp : removeSuffixRule.steps (wayEvents way) meta_ removeSuffixRule.init with
    | error x =>
      refine ⟨x, ?_⟩
      rw [hr, List.append_assoc, steps_append, hp]
      rfl
    | ok y =>
      rcases removeSuffix_step (.visit i (.classDef c n bases)) y.1 y.2.1 with ⟨i', c2, n2, bases2, he', hs⟩ | ⟨hne, -⟩
      · cases he'
        rcases suffixBases_spec c n bases y.1 hb1 with ⟨-, x, hx⟩ | ⟨hne, -⟩
        · rw [hx] at hs
          exact (error_steps _ _ _ _).mpr ⟨wayEvents way, _, Syn.eventsAll ks ++ [.leave i (.classDef c n bases)] ++ rest, y, x, by rw [hr]; simp [Syn.events], hp, hs⟩
        · refine absurd ?_ (hne b hb)
          rw [removeSuffix_stores _ _ _ _ hb2 hp b.1 (hb3 b.1 (List.mem_map_of_mem (f := Prod.fst) hb))]
          exact he
      · exact absurd rfl (hne _ _ _ _)

end Cst
