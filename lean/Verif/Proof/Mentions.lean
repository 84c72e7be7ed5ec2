import Verif.Proof.Merge

/-! The enable and disable sets as a function of the mentions. -/

namespace Fixit
open Py Spec

/-- The rule object came out of `parse_rule`. -/
def Parsed (q : QualifiedRule) : Prop := ∃ s r, parseRule s r = .ok q

theorem str_of_key {a b : QualifiedRule} (h : a.key = b.key) : a.str = b.str := by
  simp only [QualifiedRule.key, Prod.mk.injEq] at h
  simp [QualifiedRule.str, h.1, h.2.1]

theorem Parsed.key_iff {a b : QualifiedRule} (ha : Parsed a) (hb : Parsed b) : a.str = b.str ↔ a.key = b.key := by
  obtain ⟨s, r, h⟩ := ha
  obtain ⟨s', r', h'⟩ := hb
  exact C09_equal_string_equal_rule _ _ _ _ _ _ h h'

theorem str_no_newline {s : PStr} {r : Path} {q : QualifiedRule} (h : parseRule s r = .ok q) : '\n' ∉ q.str := by
  obtain ⟨ref, hr, hh⟩ := (C08_accepts_iff_grammar s r).1 ⟨q, h⟩
  have e := C09_round_trip_newline s r q h
  have hn := render_no_newline ref hr
  rcases hh with rfl | rfl <;> rcases e with e | e
  · rw [← e]; exact hn
  · rw [e] at hn; simp at hn
  · exfalso
    have hm : '\n' ∈ ref.render ++ ['\n'] := by simp
    have hq : q = refValue ref r := by
      rw [parseRule_render ref hr ['\n'] (Or.inr rfl) r] at h; cases h; rfl
    have hs : q.str = ref.render := by rw [hq]; exact str_of_parse ref hr _ _
    rw [← e, ] at hs
    have := congrArg List.length hs
    simp at this
  · have := List.append_cancel_right e
    rw [← this]; exact hn

theorem str_eq_ruleText {s : PStr} {r : Path} {q : QualifiedRule} (h : parseRule s r = .ok q) : q.str = ruleText s := by
  have hn := str_no_newline h
  rcases C09_round_trip_newline s r q h with e | e
  · have : s.getLast? ≠ some '\n' := by
      intro hl
      rw [e] at hl
      exact hn (List.mem_of_getLast? hl)
    rw [ruleText, if_neg this, ← e]
  · rw [e, ruleText, if_pos (by simp)]; simp

/-- The two sets. -/
abbrev Sets := List QualifiedRule × List QualifiedRule

/-- One mention. -/
def mentionStep (b : Bool) (q : QualifiedRule) (s : Sets) : Sets :=
  if b then (setAdd QualifiedRule.key q s.1, setDiscard QualifiedRule.key q s.2)
  else (setDiscard QualifiedRule.key q s.1, setAdd QualifiedRule.key q s.2)

/-- The mentions `ms`, processed in order, lead from `s` to `s'`. -/
inductive Steps (s : Sets) : List Mention → Sets → Prop
  | nil : Steps s [] s
  | snoc {ms : List Mention} {s1 : Sets} {b : Bool} {txt : PStr} {dir : Path} {q : QualifiedRule} :
      Steps s ms s1 → parseRule txt dir = .ok q → Steps s (ms ++ [⟨b, ruleText txt, dir⟩]) (mentionStep b q s1)

theorem Steps.trans {s s1 s2 : Sets} {ms ms' : List Mention} (h : Steps s ms s1) (h' : Steps s1 ms' s2) : Steps s (ms ++ ms') s2 := by
  induction h' with
  | nil => simpa using h
  | snoc _ hp ih => rw [← List.append_assoc]; exact Steps.snoc ih hp

/-- The string in a TOML value. -/
def strOf (t : Toml) : Option PStr := match t with | .str s => some s | _ => none

theorem enableLoop_steps {V : Type} {dir : Path} {ts : List Toml} {m m' : Merged V} (h : enableLoop dir ts m = .ok m') :
    Steps (m.enable, m.disable) ((ts.filterMap strOf).map (fun t => ⟨true, ruleText t, dir⟩)) (m'.enable, m'.disable) := by
  induction ts generalizing m with
  | nil => cases h; exact Steps.nil
  | cons t ts ih =>
    simp only [enableLoop] at h
    rw [bind_ok] at h
    obtain ⟨q, hq, h⟩ := h
    cases t with
    | str s =>
      have := ih h
      rw [List.filterMap_cons]
      simp only [strOf, List.map_cons]
      rw [show (⟨true, ruleText s, dir⟩ : Mention) :: List.map (fun t => ⟨true, ruleText t, dir⟩) (List.filterMap strOf ts) =
        ([] ++ [⟨true, ruleText s, dir⟩]) ++ List.map (fun t => ⟨true, ruleText t, dir⟩) (List.filterMap strOf ts) from rfl]
      exact Steps.trans (Steps.snoc Steps.nil hq) this
    | _ => simp [parseRuleToml] at hq

theorem disableLoop_steps {V : Type} {dir : Path} {ts : List Toml} {m m' : Merged V} (h : disableLoop dir ts m = .ok m') :
    Steps (m.enable, m.disable) ((ts.filterMap strOf).map (fun t => ⟨false, ruleText t, dir⟩)) (m'.enable, m'.disable) := by
  induction ts generalizing m with
  | nil => cases h; exact Steps.nil
  | cons t ts ih =>
    simp only [disableLoop] at h
    rw [bind_ok] at h
    obtain ⟨q, hq, h⟩ := h
    cases t with
    | str s =>
      have := ih h
      rw [List.filterMap_cons]
      simp only [strOf, List.map_cons]
      rw [show (⟨false, ruleText s, dir⟩ : Mention) :: List.map (fun t => ⟨false, ruleText t, dir⟩) (List.filterMap strOf ts) =
        ([] ++ [⟨false, ruleText s, dir⟩]) ++ List.map (fun t => ⟨false, ruleText t, dir⟩) (List.filterMap strOf ts) from rfl]
      exact Steps.trans (Steps.snoc Steps.nil hq) this
    | _ => simp [parseRuleToml] at hq

theorem asSequence_strings {key : PStr} {v : Option Toml} {l : List Toml} (h : asSequence key v = .ok l) : l.filterMap strOf = strings v := by
  cases v with
  | none => simp only [asSequence, Except.ok.injEq] at h; subst h; rfl
  | some t =>
    cases t with
    | arr a => simp only [asSequence, Except.ok.injEq] at h; subst h; rfl
    | _ => simp [asSequence] at h

theorem tableOf_ok {d : Dict} {t : Table} (h : tableOf d = .ok t) :
    asSequence (py "enable") (field (py "enable") d) = .ok t.enable ∧ asSequence (py "disable") (field (py "disable") d) = .ok t.disable ∧
    asOptions (py "options") (field (py "options") d) = .ok t.options ∧ t.pyver = field (py "python-version") d ∧
    t.formatter = field (py "formatter") d := by
  unfold tableOf at h
  simp only [bind_ok, pure_ok, dget_eq_field] at h
  obtain ⟨a, ha, b, hb, c, hc, rfl⟩ := h
  exact ⟨ha, hb, hc, rfl, rfl⟩

variable {V : Type} (env : CfgEnv V) (path : Path)

theorem sectionOK_steps {sec : Section} {m m' : Merged V} (h : SectionOK env sec m m') :
    Steps (m.enable, m.disable) (mentions sec) (m'.enable, m'.disable) := by
  obtain ⟨t, m1, m2, ht, h1, h2, he, hd, -⟩ := h
  obtain ⟨a, b, -⟩ := tableOf_ok ht
  rw [he, hd]
  unfold mentions
  rw [← asSequence_strings a, ← asSequence_strings b]
  exact Steps.trans (enableLoop_steps h1) (disableLoop_steps h2)

theorem applySections_steps {l : List Section} (hl : ∀ s ∈ l, s.scope.isPrefixOf path = true) {m m' : Merged V}
    (h : applySections env path l m = .ok m') :
    Steps (m.enable, m.disable) (l.flatMap mentions) (m'.enable, m'.disable) := by
  induction l generalizing m with
  | nil => cases h; exact Steps.nil
  | cons s ss ih =>
    simp only [applySections] at h
    rw [bind_ok] at h
    obtain ⟨m1, h1, h2⟩ := h
    rw [List.flatMap_cons]
    exact Steps.trans (sectionOK_steps env (applySection_ok env path (hl s (by simp)) h1))
      (ih (fun x hx => hl x (List.mem_cons_of_mem _ hx)) h2)

/-! ## Reading the sets -/

/-- Some rule of the set has this text. -/
def HasText (s : List QualifiedRule) (text : PStr) : Prop := ∃ q ∈ s, q.str = text

theorem hasText_setAdd (q : QualifiedRule) (s : List QualifiedRule) (text : PStr) :
    HasText (setAdd QualifiedRule.key q s) text ↔ text = q.str ∨ HasText s text := by
  constructor
  · rintro ⟨y, hy, rfl⟩
    rcases mem_setAdd _ _ _ _ hy with rfl | h
    · exact Or.inl rfl
    · exact Or.inr ⟨y, h, rfl⟩
  · intro h
    have hk : ∀ k, k = q.key ∨ k ∈ s.map QualifiedRule.key → k ∈ (setAdd QualifiedRule.key q s).map QualifiedRule.key :=
      fun k hk => (mem_setAdd_key _ _ _ _).2 hk
    rcases h with rfl | ⟨y, hy, rfl⟩
    · have := hk q.key (Or.inl rfl)
      rw [List.mem_map] at this
      obtain ⟨z, hz, hzk⟩ := this
      exact ⟨z, hz, str_of_key hzk⟩
    · have := hk y.key (Or.inr (List.mem_map_of_mem hy))
      rw [List.mem_map] at this
      obtain ⟨z, hz, hzk⟩ := this
      exact ⟨z, hz, str_of_key hzk⟩

theorem hasText_setDiscard {q : QualifiedRule} {s : List QualifiedRule} (hq : Parsed q) (hs : ∀ y ∈ s, Parsed y) (text : PStr) :
    HasText (setDiscard QualifiedRule.key q s) text ↔ text ≠ q.str ∧ HasText s text := by
  constructor
  · rintro ⟨y, hy, rfl⟩
    rw [mem_setDiscard] at hy
    refine ⟨?_, y, hy.1, rfl⟩
    intro e
    exact hy.2 (((hs y hy.1).key_iff hq).1 e)
  · rintro ⟨hne, y, hy, rfl⟩
    refine ⟨y, ?_, rfl⟩
    rw [mem_setDiscard]
    exact ⟨hy, fun e => hne (str_of_key e)⟩

/-- Both sets hold parsed rules, no duplicates. -/
structure GoodSets (s : Sets) : Prop where
  p1 : ∀ q ∈ s.1, Parsed q
  p2 : ∀ q ∈ s.2, Parsed q
  n1 : KeyNodup QualifiedRule.key s.1
  n2 : KeyNodup QualifiedRule.key s.2

theorem GoodSets.step {s : Sets} (h : GoodSets s) {q : QualifiedRule} (hq : Parsed q) (b : Bool) : GoodSets (mentionStep b q s) := by
  have ha : ∀ (l : List QualifiedRule), (∀ y ∈ l, Parsed y) → ∀ y ∈ setAdd QualifiedRule.key q l, Parsed y := by
    intro l hl y hy
    rcases mem_setAdd _ _ _ _ hy with rfl | h
    · exact hq
    · exact hl y h
  have hd : ∀ (l : List QualifiedRule), (∀ y ∈ l, Parsed y) → ∀ y ∈ setDiscard QualifiedRule.key q l, Parsed y := by
    intro l hl y hy
    rw [mem_setDiscard] at hy
    exact hl y hy.1
  cases b with
  | true => exact ⟨ha _ h.p1, hd _ h.p2, setAdd_nodup _ _ h.n1, setDiscard_nodup _ _ h.n2⟩
  | false => exact ⟨hd _ h.p1, ha _ h.p2, setDiscard_nodup _ _ h.n1, setAdd_nodup _ _ h.n2⟩

theorem Steps.good {s s' : Sets} {ms : List Mention} (h : Steps s ms s') (hg : GoodSets s) : GoodSets s' := by
  induction h with
  | nil => exact hg
  | snoc _ hp ih => exact ih.step ⟨_, _, hp⟩ _

theorem lastMention_snoc (ms : List Mention) (x : Mention) (text : PStr) :
    lastMention (ms ++ [x]) text = if x.text = text then some x.enable else lastMention ms text := by
  unfold lastMention
  rw [nearest_append, nearest_cons, nearest_nil]
  split <;> simp

/-- The sets after the mentions: the last mention decides. -/
theorem Steps.texts {s s' : Sets} {ms : List Mention} (h : Steps s ms s') (hg : GoodSets s) (text : PStr) :
    (HasText s'.1 text ↔ lastMention ms text = some true ∨ (lastMention ms text = none ∧ HasText s.1 text)) ∧
    (HasText s'.2 text ↔ lastMention ms text = some false ∨ (lastMention ms text = none ∧ HasText s.2 text)) := by
  induction h with
  | nil => simp [lastMention, nearest_nil]
  | @snoc ms s1 b txt dir q hst hp ih =>
    have hg1 := hst.good hg
    have hq : Parsed q := ⟨_, _, hp⟩
    rw [lastMention_snoc]
    simp only
    rw [← str_eq_ruleText hp]
    cases b with
    | true =>
      simp only [mentionStep, if_true, hasText_setAdd, hasText_setDiscard hq hg1.p2, ih.1, ih.2]
      by_cases e : q.str = text
      · subst e; simp
      · simp [e, Ne.symm e]
    | false =>
      simp only [mentionStep, Bool.false_eq_true, if_false, hasText_setAdd, hasText_setDiscard hq hg1.p1, ih.1, ih.2]
      by_cases e : q.str = text
      · subst e; simp
      · simp [e, Ne.symm e]

theorem bindingDir_snoc (ms : List Mention) (x : Mention) (text : PStr) :
    bindingDir (ms ++ [x]) text =
      if x.text = text then (if x.enable then (bindingDir ms text).or (some x.dir) else none) else bindingDir ms text := by
  unfold bindingDir
  rw [List.filter_append]
  by_cases h : x.text = text
  · simp only [h, List.filter_cons, decide_true, if_true, List.filter_nil, List.reverse_append, List.reverse_cons, List.reverse_nil,
      List.nil_append, List.singleton_append, List.takeWhile_cons]
    cases x.enable with
    | false => simp
    | true =>
      simp only [if_true]
      cases ht : List.takeWhile (fun m => m.enable) (List.filter (fun m => decide (m.text = text)) ms).reverse with
      | nil => simp
      | cons a as =>
        rw [List.getLast?_cons_cons]
        cases h' : (a :: as).getLast? with
        | none => simp at h'
        | some y => simp
  · simp [h]

/-- The directory a local rule of the enable set is bound to. -/
theorem Steps.roots {s s' : Sets} {ms : List Mention} (h : Steps s ms s') (hg : GoodSets s) :
    ∀ q ∈ s'.1, q.str.head? = some '.' → (∃ d, bindingDir ms q.str = some d ∧ q.root = some d) ∨ q ∈ s.1 := by
  induction h with
  | nil => intro q hq _; exact Or.inr hq
  | @snoc ms s1 b txt dir q hst hp ih =>
    have hg1 := hst.good hg
    have hqp : Parsed q := ⟨_, _, hp⟩
    intro x hx hdot
    rw [bindingDir_snoc]
    simp only
    rw [← str_eq_ruleText hp]
    cases b with
    | false =>
      simp only [mentionStep, Bool.false_eq_true, if_false] at hx ⊢
      rw [mem_setDiscard] at hx
      have hne : ¬ q.str = x.str := fun e => hx.2 (((hg1.p1 x hx.1).key_iff hqp).1 e.symm)
      rw [if_neg hne]
      exact ih x hx.1 hdot
    | true =>
      simp only [mentionStep, if_true] at hx ⊢
      by_cases hin : q.key ∈ s1.1.map QualifiedRule.key
      · -- an equal rule is already there and stays
        have hx' : x ∈ s1.1 := by
          unfold setAdd at hx
          rw [if_pos ((any_key_iff _ _ _).2 hin)] at hx
          exact hx
        rcases ih x hx' hdot with ⟨d, hd, hr⟩ | h
        · left
          refine ⟨d, ?_, hr⟩
          split
          · rw [hd]; rfl
          · exact hd
        · exact Or.inr h
      · unfold setAdd at hx
        rw [if_neg (fun h => hin ((any_key_iff _ _ _).1 h))] at hx
        rw [List.mem_append, List.mem_singleton] at hx
        rcases hx with hx | rfl
        · have hne : ¬ q.str = x.str := by
            intro e
            apply hin
            rw [((hqp.key_iff (hg1.p1 x hx)).1 e)]
            exact List.mem_map_of_mem hx
          rw [if_neg hne]
          exact ih x hx hdot
        · left
          rw [if_pos rfl]
          have hnone : bindingDir ms x.str = none := by
            have htx := (hst.texts hg x.str).1
            have hno : ¬ HasText s1.1 x.str := by
              rintro ⟨y, hy, e⟩
              apply hin
              rw [((hqp.key_iff (hg1.p1 y hy)).1 e.symm)]
              exact List.mem_map_of_mem hy
            have hl : lastMention ms x.str ≠ some true := fun e => hno (htx.2 (Or.inl e))
            -- no final streak of enables
            unfold bindingDir
            unfold lastMention nearest at hl
            cases hr : (List.filter (fun m => decide (m.text = x.str)) ms).reverse with
            | nil => rfl
            | cons a as =>
              have hfm : ∀ l : List Mention, (l.filterMap (fun m => if m.text = x.str then some m.enable else none)) =
                  (l.filter (fun m => decide (m.text = x.str))).map (·.enable) := by
                intro l; induction l with
                | nil => rfl
                | cons b bs ihb => by_cases e : b.text = x.str <;> simp [e, ihb]
              rw [hfm, ← List.reverse_reverse (List.filter _ ms), hr] at hl
              simp at hl
              simp [hl]
          rw [hnone]
          refine ⟨dir, rfl, ?_⟩
          have hd : txt.head? = some '.' := by
            rcases C09_round_trip_newline txt dir x hp with e | e
            · rw [e]; exact hdot
            · rw [e]
              cases hx : x.str with
              | nil => rw [hx] at hdot; simp at hdot
              | cons c cs => rw [hx] at hdot; simpa using hdot
          exact ((C10_root_iff_dot txt dir x hp).1).2 hd

end Fixit
