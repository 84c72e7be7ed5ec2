import Verif.Proof.Re
import Verif.Model.Refs
import Verif.Spec.Refs

namespace Py

/-- The language of a regex (anchors match the empty word). -/
inductive Lang : Re → PStr → Prop where
  | eps : Lang .eps []
  | chr (p : Char → Bool) (c : Char) : p c = true → Lang (.chr p) [c]
  | seq (a b : Re) (x y : PStr) : Lang a x → Lang b y → Lang (.seq a b) (x ++ y)
  | altL (a b : Re) (x : PStr) : Lang a x → Lang (.alt a b) x
  | altR (a b : Re) (x : PStr) : Lang b x → Lang (.alt a b) x
  | starNil (a : Re) : Lang (.star a) []
  | starCons (a : Re) (x y : PStr) : Lang a x → Lang (.star a) y → Lang (.star a) (x ++ y)
  | grp (n : Nat) (a : Re) (x : PStr) : Lang a x → Lang (.grp n a) x
  | bos : Lang .bos []
  | eos : Lang .eos []

/-- Whatever the engine consumes belongs to the language. -/
theorem run_sound : ∀ (r : Re) (s t : St), t ∈ r.run s → ∃ w, s.rest = w ++ t.rest ∧ Lang r w := by
  intro r
  induction r with
  | eps => intro s t h; simp at h; subst h; exact ⟨[], rfl, .eps⟩
  | chr p =>
    intro s t h
    obtain ⟨pos, rest, caps⟩ := s
    cases rest with
    | nil => simp [Re.run] at h
    | cons c cs =>
      rw [run_chr_cons] at h
      split at h
      · rename_i hp
        simp at h; subst h
        exact ⟨[c], rfl, .chr p c hp⟩
      · simp at h
  | seq a b iha ihb =>
    intro s t h
    rw [run_seq, List.mem_flatMap] at h
    obtain ⟨m, h1, h2⟩ := h
    obtain ⟨w1, e1, l1⟩ := iha s m h1
    obtain ⟨w2, e2, l2⟩ := ihb m t h2
    exact ⟨w1 ++ w2, by rw [e1, e2]; simp, .seq a b w1 w2 l1 l2⟩
  | alt a b iha ihb =>
    intro s t h
    rw [run_alt, List.mem_append] at h
    rcases h with h | h
    · obtain ⟨w, e, l⟩ := iha s t h; exact ⟨w, e, .altL a b w l⟩
    · obtain ⟨w, e, l⟩ := ihb s t h; exact ⟨w, e, .altR a b w l⟩
  | star a iha =>
    intro s t h
    have : ∀ n s, t ∈ starGo a.run n s → ∃ w, s.rest = w ++ t.rest ∧ Lang (.star a) w := by
      intro n
      induction n with
      | zero => intro s h; simp [starGo] at h; subst h; exact ⟨[], rfl, .starNil a⟩
      | succ n ih =>
        intro s h
        simp only [starGo, List.mem_append, List.mem_flatMap, List.mem_filter, List.mem_singleton] at h
        rcases h with ⟨m, ⟨h1, -⟩, h2⟩ | rfl
        · obtain ⟨w1, e1, l1⟩ := iha s m h1
          obtain ⟨w2, e2, l2⟩ := ih m h2
          exact ⟨w1 ++ w2, by rw [e1, e2]; simp, .starCons a w1 w2 l1 l2⟩
        · exact ⟨[], rfl, .starNil a⟩
    exact this _ s h
  | grp n a iha =>
    intro s t h
    simp only [Re.run, List.mem_map] at h
    obtain ⟨m, h1, rfl⟩ := h
    obtain ⟨w, e, l⟩ := iha s m h1
    exact ⟨w, e, .grp n a w l⟩
  | bos =>
    intro s t h
    simp only [Re.run] at h
    split at h
    · simp at h; subst h; exact ⟨[], rfl, .bos⟩
    · simp at h
  | eos =>
    intro s t h
    simp only [Re.run] at h
    split at h
    · simp at h; subst h; exact ⟨[], rfl, .eos⟩
    · simp at h

theorem run_eos_rest (s t : St) (h : t ∈ Re.eos.run s) : t = s ∧ (s.rest = [] ∨ s.rest = ['\n']) := by
  simp only [Re.run] at h
  split at h
  · rename_i hc; simp at h; exact ⟨h, hc⟩
  · simp at h

theorem lang_star_chr {p : Char → Bool} {w : PStr} (h : Lang (.star (.chr p)) w) : ∀ c ∈ w, p c = true := by
  generalize hr : Re.star (.chr p) = r at h
  induction h with
  | starNil a => simp
  | starCons a x y hx hy _ ih =>
    cases hr
    cases hx with
    | chr _ c hc => intro d hd; simp at hd; rcases hd with rfl | hd; exact hc; exact ih rfl d hd
  | _ => cases hr

theorem lang_plus_chr {p : Char → Bool} {w : PStr} (h : Lang (.plus (.chr p)) w) : w ≠ [] ∧ ∀ c ∈ w, p c = true := by
  cases h with
  | seq _ _ x y hx hy =>
    cases hx with
    | chr _ c hc =>
      refine ⟨by simp, ?_⟩
      intro d hd; simp at hd
      rcases hd with rfl | hd
      · exact hc
      · exact lang_star_chr hy d hd

theorem lang_lit {d : Char} {w : PStr} (h : Lang (.lit d) w) : w = [d] := by
  cases h with
  | chr _ c hc => simp at hc; rw [hc]

theorem dropWhile_append_all' {p : Char → Bool} {a b : PStr} (ha : ∀ c ∈ a, p c = true)
    (hb : ∀ c r, b = c :: r → p c = false) : (a ++ b).dropWhile p = b := by
  induction a with
  | nil =>
    cases b with
    | nil => rfl
    | cons c r => simp [hb c r rfl]
  | cons x xs ih =>
    simp only [List.mem_cons, forall_eq_or_imp] at ha
    simp [ha.1, ih ha.2]

/-- `p+` followed by something that cannot start with `p`, on a maximal run of `p`. -/
theorem plus_chr_flatMap (p : Char → Bool) (g : St → List St)
    (hg : ∀ pos c cs caps, p c = true → g ⟨pos, c :: cs, caps⟩ = []) (n post : PStr) (hne : n ≠ [])
    (hn : ∀ c ∈ n, p c = true) (hpost : ∀ c r, post = c :: r → p c = false) (pos : Nat) (caps) :
    ∃ pos', ((Re.plus (.chr p)).run ⟨pos, n ++ post, caps⟩).flatMap g = g ⟨pos', post, caps⟩ := by
  cases n with
  | nil => exact absurd rfl hne
  | cons c cs =>
    simp only [List.mem_cons, forall_eq_or_imp] at hn
    refine ⟨pos + 1 + ((cs ++ post).takeWhile p).length, ?_⟩
    simp only [Re.plus, run_seq, List.cons_append, run_chr_cons, hn.1, if_true, List.flatMap_cons, List.flatMap_nil,
      List.append_nil]
    rw [star_chr_flatMap p g hg]
    simp only [eatAll]
    rw [dropWhile_append_all' hn.2 hpost]

end Py

namespace Fixit
open Py Spec

theorem isIdentChar_iff (c : Char) : isIdentChar c = true ↔ IdentChar c := Iff.rfl
theorem isSegChar_iff (c : Char) : isSegChar c = true ↔ SegChar c := by
  simp [isSegChar, SegChar, isIdentChar_iff]

abbrev segRe : Re := .grp 3 (.seq (.lit '.') (.plus (.chr isSegChar)))
abbrev tailRe : Re := .seq (.opt (.seq (.lit ':') (.grp 4 (.plus (.chr isSegChar))))) .eos
abbrev modRe : Re := .seq (.opt (.grp 2 (.lit '.'))) (.seq (.plus (.chr isIdentChar)) (.star segRe))

theorem regex_eq : qualifiedRuleRegex = .seq .bos (.seq (.grp 1 modRe) tailRe) := rfl

/-- A state from which nothing but more module text can follow. -/
def Cont (c : Char) : Prop := c = '.' ∨ isSegChar c = true

theorem seg_ne_dot {c : Char} (h : isSegChar c = true) : c ≠ '.' := by
  rintro rfl; exact absurd h (by decide)
theorem seg_ne_colon {c : Char} (h : isSegChar c = true) : c ≠ ':' := by
  rintro rfl; exact absurd h (by decide)
theorem seg_ne_nl {c : Char} (h : isSegChar c = true) : c ≠ '\n' := by
  rintro rfl; exact absurd h (by decide)
theorem ident_seg {c : Char} (h : isIdentChar c = true) : isSegChar c = true := by simp [isSegChar, h]

theorem run_opt (a : Re) (s : St) : (Re.opt a).run s = a.run s ++ [s] := rfl

theorem eos_fail (pos c cs caps) (h : c ≠ '\n') : Re.eos.run ⟨pos, c :: cs, caps⟩ = [] := by
  simp [Re.run, h]

theorem tail_fail (pos c cs caps) (h : Cont c) : tailRe.run ⟨pos, c :: cs, caps⟩ = [] := by
  have h1 : c ≠ ':' := by rcases h with rfl | h; decide; exact seg_ne_colon h
  have h2 : c ≠ '\n' := by rcases h with rfl | h; decide; exact seg_ne_nl h
  rw [run_seq, run_opt]
  simp [run_lit_cons, h1, eos_fail _ _ _ _ h2]

theorem seg_run_fail (pos c cs caps) (h : c ≠ '.') : segRe.run ⟨pos, c :: cs, caps⟩ = [] := by
  simp [Re.run, Re.lit, h]

theorem seg_run_cons (pos r caps) : segRe.run ⟨pos, '.' :: r, caps⟩ =
    ((Re.plus (.chr isSegChar)).run ⟨pos + 1, r, caps⟩).map (fun t =>
      { t with caps := setCap t.caps 3 (('.' :: r).take (('.' :: r).length - t.rest.length)) }) := by
  have : ∀ s, segRe.run s = ((Re.seq (.lit '.') (.plus (.chr isSegChar))).run s).map (fun t =>
      { t with caps := setCap t.caps 3 (s.rest.take (s.rest.length - t.rest.length)) }) := fun _ => rfl
  rw [this, run_seq, run_lit_cons, if_pos rfl, List.flatMap_cons, List.flatMap_nil, List.append_nil]

theorem starGo_stop (f : St → List St) (n : Nat) (s : St) (h : f s = []) : starGo f n s = [s] := by
  cases n <;> simp [starGo, h]

/-- The dotted tail of a module is matched deterministically. -/
theorem star_seg_flatMap (K : St → List St) (hK : ∀ pos c cs caps, Cont c → K ⟨pos, c :: cs, caps⟩ = [])
    (post : PStr) (hpost : ∀ c r, post = c :: r → ¬ Cont c) :
    ∀ (segs : List PStr), (∀ s ∈ segs, s ≠ [] ∧ ∀ c ∈ s, SegChar c) → ∀ (fuel pos : Nat) (caps : Nat → Option PStr),
      ((segs.map (fun s => '.' :: s)).flatten ++ post).length ≤ fuel →
      ∃ pos' caps', (∀ n, n ≠ 3 → caps' n = caps n) ∧
        (starGo segRe.run fuel ⟨pos, (segs.map (fun s => '.' :: s)).flatten ++ post, caps⟩).flatMap K = K ⟨pos', post, caps'⟩ := by
  intro segs
  induction segs with
  | nil =>
    intro _ fuel pos caps _
    refine ⟨pos, caps, fun _ _ => rfl, ?_⟩
    rw [starGo_stop]
    · simp
    · cases post with
      | nil => simp [Re.run, Re.lit]
      | cons c r =>
        have : c ≠ '.' := fun e => hpost c r rfl (Or.inl e)
        exact seg_run_fail pos c r caps this
  | cons seg segs ih =>
    intro hsegs fuel pos caps hfuel
    cases fuel with
    | zero => simp at hfuel
    | succ k =>
      have hseg := hsegs seg (by simp)
      have hrest : (List.map (fun s => '.' :: s) (seg :: segs)).flatten ++ post =
          '.' :: (seg ++ ((segs.map (fun s => '.' :: s)).flatten ++ post)) := by simp
      rw [hrest] at hfuel ⊢
      have hK0 : K ⟨pos, '.' :: (seg ++ ((segs.map (fun s => '.' :: s)).flatten ++ post)), caps⟩ = [] :=
        hK _ _ _ _ (Or.inl rfl)
      have hfilter : (segRe.run ⟨pos, '.' :: (seg ++ ((segs.map (fun s => '.' :: s)).flatten ++ post)), caps⟩).filter
          (fun t => t.rest.length < ('.' :: (seg ++ ((segs.map (fun s => '.' :: s)).flatten ++ post))).length) =
          segRe.run ⟨pos, '.' :: (seg ++ ((segs.map (fun s => '.' :: s)).flatten ++ post)), caps⟩ := by
        rw [List.filter_eq_self]
        intro t ht
        rw [seg_run_cons, List.mem_map] at ht
        obtain ⟨t0, ht0, rfl⟩ := ht
        obtain ⟨w, e, -⟩ := run_sound _ _ _ ht0
        have := congrArg List.length e
        simp at this ⊢
        omega
      rw [starGo]
      simp only
      rw [hfilter, List.flatMap_append, List.flatMap_assoc]
      simp only [List.flatMap_cons, List.flatMap_nil, hK0, List.append_nil]
      rw [seg_run_cons, List.flatMap_map]
      have hnext : ∀ c r, (segs.map (fun s => '.' :: s)).flatten ++ post = c :: r → isSegChar c = false := by
        intro c r h
        cases hc : isSegChar c with
        | false => rfl
        | true =>
          cases segs with
          | nil => simp at h; exact absurd (Or.inr hc) (hpost c r h)
          | cons a as => simp at h; exact absurd h.1.symm (seg_ne_dot hc)
      obtain ⟨pos', h⟩ := plus_chr_flatMap isSegChar
        (fun t => (starGo segRe.run k { t with caps := setCap t.caps 3 (('.' :: (seg ++ ((segs.map (fun s => '.' :: s)).flatten ++ post))).take
            (('.' :: (seg ++ ((segs.map (fun s => '.' :: s)).flatten ++ post))).length - t.rest.length)) }).flatMap K)
        (by
          intro pos c cs caps hc
          simp only
          rw [starGo_stop _ _ _ (seg_run_fail _ _ _ _ (seg_ne_dot hc))]
          simp [hK _ _ _ _ (Or.inr hc)])
        seg _ hseg.1 (fun c hc => (isSegChar_iff c).2 (hseg.2 c hc)) hnext (pos + 1) caps
      rw [h]
      simp only
      obtain ⟨pos'', caps'', hc, he⟩ := ih (fun s hs => hsegs s (by simp [hs])) k pos'
        (setCap caps 3 (('.' :: (seg ++ ((segs.map (fun s => '.' :: s)).flatten ++ post))).take
            (('.' :: (seg ++ ((segs.map (fun s => '.' :: s)).flatten ++ post))).length -
              ((segs.map (fun s => '.' :: s)).flatten ++ post).length))) (by simp at hfuel ⊢; omega)
      exact ⟨pos'', caps'', fun n hn => by rw [hc n hn]; simp [setCap, hn], he⟩

/-- The end of a reference. -/
theorem tail_run (name : Option PStr) (hname : ∀ n, name = some n → n ≠ [] ∧ ∀ c ∈ n, SegChar c) (nl : PStr)
    (hnl : nl = [] ∨ nl = ['\n']) (pos : Nat) (caps) :
    ∃ t l, tailRe.run ⟨pos, nameSuffix name ++ nl, caps⟩ = t :: l ∧
      t.caps 4 = name.or (caps 4) ∧ ∀ n, n ≠ 4 → t.caps n = caps n := by
  have heos : ∀ pos caps, Re.eos.run ⟨pos, nl, caps⟩ = [⟨pos, nl, caps⟩] := by
    intro pos caps; simp [Re.run, hnl]
  cases name with
  | none =>
    simp only [nameSuffix, List.nil_append]
    have : (Re.seq (.lit ':') (.grp 4 (.plus (.chr isSegChar)))).run ⟨pos, nl, caps⟩ = [] := by
      rcases hnl with rfl | rfl
      · rfl
      · simp [run_lit_cons]
    rw [run_seq, run_opt, this]
    simp only [List.nil_append, List.flatMap_cons, List.flatMap_nil, List.append_nil, heos]
    exact ⟨_, [], rfl, rfl, fun _ _ => rfl⟩
  | some n =>
    obtain ⟨hne, hok⟩ := hname n rfl
    simp only [nameSuffix, List.cons_append]
    rw [run_seq, run_opt, List.flatMap_append, run_seq, run_lit_cons, if_pos rfl]
    simp only [List.flatMap_cons, List.flatMap_nil, List.append_nil]
    rw [eos_fail _ _ _ _ (by decide), List.append_nil]
    have hg : ∀ s, (Re.grp 4 (.plus (.chr isSegChar))).run s = ((Re.plus (.chr isSegChar)).run s).map (fun t =>
      { t with caps := setCap t.caps 4 (s.rest.take (s.rest.length - t.rest.length)) }) := fun _ => rfl
    rw [hg, List.flatMap_map]
    obtain ⟨pos', h⟩ := plus_chr_flatMap isSegChar
      (fun t => Re.eos.run { t with caps := setCap t.caps 4 ((n ++ nl).take ((n ++ nl).length - t.rest.length)) })
      (by intro pos c cs caps hc; exact eos_fail _ _ _ _ (seg_ne_nl hc)) n nl hne
      (fun c hc => (isSegChar_iff c).2 (hok c hc))
      (by
        intro c r h
        rcases hnl with rfl | rfl
        · simp at h
        · simp at h; rw [← h.1]; decide) (pos + 1) caps
    simp only at h
    rw [h]
    simp only [heos]
    refine ⟨_, [], rfl, ?_, ?_⟩
    · simp [setCap]
    · intro m hm; simp [setCap, hm]

/-- The reference is matched and its parts are captured. -/
theorem match_render (r : RuleRef) (hr : r.WF) (nl : PStr) (hnl : nl = [] ∨ nl = ['\n']) :
    ∃ t, qualifiedRuleRegex.match_ (r.render ++ nl) = some t ∧ t.caps 1 = some r.module ∧
      t.caps 2 = (if r.isLocal then some ['.'] else none) ∧ t.caps 4 = r.name := by
  obtain ⟨hh, hhead, hsegs, hname⟩ := hr
  have hbos : ∀ s g, s.pos = 0 → (Re.seq .bos g).run s = g.run s := by
    intro s g h; simp [Re.run, h]
  have hgrp : ∀ s, (Re.grp 1 modRe).run s = (modRe.run s).map (fun t =>
      { t with caps := setCap t.caps 1 (s.rest.take (s.rest.length - t.rest.length)) }) := fun _ => rfl
  let post : PStr := nameSuffix r.name ++ nl
  have hpost : ∀ c q, post = c :: q → ¬ Cont c := by
    intro c q h
    have : c = ':' ∨ c = '\n' := by
      simp only [post] at h
      cases hn : r.name with
      | some n => rw [hn] at h; simp [nameSuffix] at h; exact Or.inl h.1.symm
      | none =>
        rw [hn] at h
        rcases hnl with rfl | rfl
        · simp [nameSuffix] at h
        · simp [nameSuffix] at h; exact Or.inr h.1.symm
    rintro (rfl | hc)
    · rcases this with h | h <;> simp at h
    · rcases this with h | h
      · exact seg_ne_colon hc h
      · exact seg_ne_nl hc h
  let full : PStr := r.render ++ nl
  have hfull : full = (if r.isLocal then ['.'] else []) ++ (r.head ++ ((r.segs.map (fun s => '.' :: s)).flatten ++ post)) := by
    simp [full, RuleRef.render, RuleRef.module, post]
  let K : St → List St := fun t => tailRe.run { t with caps := setCap t.caps 1 (full.take (full.length - t.rest.length)) }
  have hK : ∀ pos c cs caps, Cont c → K ⟨pos, c :: cs, caps⟩ = [] := fun pos c cs caps h => tail_fail _ _ _ _ h
  have hrun : qualifiedRuleRegex.run ⟨0, full, fun _ => none⟩ = (modRe.run ⟨0, full, fun _ => none⟩).flatMap K := by
    rw [regex_eq, hbos _ _ rfl, run_seq, hgrp, List.flatMap_map]
  -- the part after the optional dot
  have hident : ∀ (pos : Nat) (caps : Nat → Option PStr), ∃ pos' caps', (∀ n, n ≠ 3 → caps' n = caps n) ∧
      ((Re.seq (.plus (.chr isIdentChar)) (.star segRe)).run
        ⟨pos, r.head ++ ((r.segs.map (fun s => '.' :: s)).flatten ++ post), caps⟩).flatMap K = K ⟨pos', post, caps'⟩ := by
    intro pos caps
    have hnext : ∀ c q, (r.segs.map (fun s => '.' :: s)).flatten ++ post = c :: q → isIdentChar c = false := by
      intro c q h
      cases hc : isIdentChar c with
      | false => rfl
      | true =>
        cases hs : r.segs with
        | nil => rw [hs] at h; simp at h; exact absurd (Or.inr (ident_seg hc)) (hpost c q h)
        | cons a as => rw [hs] at h; simp at h; exact absurd h.1.symm (seg_ne_dot (ident_seg hc))
    obtain ⟨pos1, h1⟩ := plus_chr_flatMap isIdentChar (fun t => ((Re.star segRe).run t).flatMap K)
      (by
        intro pos c cs caps hc
        have : (Re.star segRe).run ⟨pos, c :: cs, caps⟩ = [⟨pos, c :: cs, caps⟩] :=
          starGo_stop _ _ _ (seg_run_fail _ _ _ _ (seg_ne_dot (ident_seg hc)))
        simp only [this]
        simp [hK _ _ _ _ (Or.inr (ident_seg hc))])
      r.head _ hh hhead hnext pos caps
    obtain ⟨pos2, caps2, h2, h3⟩ := star_seg_flatMap K hK post hpost r.segs hsegs _ pos1 caps (Nat.le_refl _)
    refine ⟨pos2, caps2, h2, ?_⟩
    rw [run_seq, List.flatMap_assoc, h1]
    exact h3
  obtain ⟨pos', caps', hc', hmod⟩ : ∃ pos' caps', (caps' 2 = if r.isLocal then some ['.'] else none) ∧ caps' 4 = none ∧
      (modRe.run ⟨0, full, fun _ => none⟩).flatMap K = K ⟨pos', post, caps'⟩ := by
    rw [hfull, run_seq, run_opt, List.flatMap_append]
    simp only [List.flatMap_cons, List.flatMap_nil, List.append_nil, List.flatMap_append]
    have hg2 : ∀ s, (Re.grp 2 (.lit '.')).run s = ((Re.lit '.').run s).map (fun t =>
      { t with caps := setCap t.caps 2 (s.rest.take (s.rest.length - t.rest.length)) }) := fun _ => rfl
    cases hl : r.isLocal with
    | true =>
      simp only [if_true, List.cons_append, List.nil_append]
      rw [hg2, run_lit_cons, if_pos rfl]
      simp only [List.map_cons, List.map_nil, List.flatMap_cons, List.flatMap_nil, List.append_nil]
      obtain ⟨pos', caps', h1, h2⟩ := hident 1 (setCap (fun _ => none) 2 ['.'])
      refine ⟨pos', caps', ?_, ?_, ?_⟩
      · rw [h1 2 (by decide)]; simp [setCap]
      · rw [h1 4 (by decide)]; simp [setCap]
      · have hdot : (Re.seq (.plus (.chr isIdentChar)) (.star segRe)).run
            ⟨0, '.' :: (r.head ++ ((r.segs.map (fun s => '.' :: s)).flatten ++ post)), fun _ => none⟩ = [] := by
          simp [Re.plus, run_chr_cons, show isIdentChar '.' = false by decide]
        rw [hdot]
        simp only [List.flatMap_nil, List.append_nil]
        have htake : ('.' :: (r.head ++ ((r.segs.map (fun s => '.' :: s)).flatten ++ post))).take
            (('.' :: (r.head ++ ((r.segs.map (fun s => '.' :: s)).flatten ++ post))).length -
             (r.head ++ ((r.segs.map (fun s => '.' :: s)).flatten ++ post)).length) = ['.'] := by
          have : ('.' :: (r.head ++ ((r.segs.map (fun s => '.' :: s)).flatten ++ post))).length -
             (r.head ++ ((r.segs.map (fun s => '.' :: s)).flatten ++ post)).length = 1 := by simp
          rw [this]; rfl
        rw [htake]
        exact h2
    | false =>
      simp only [Bool.false_eq_true, if_false, List.nil_append]
      have hfirst : ∃ c q, r.head ++ ((r.segs.map (fun s => '.' :: s)).flatten ++ post) = c :: q ∧ c ≠ '.' := by
        cases hhd : r.head with
        | nil => exact absurd hhd hh
        | cons c q =>
          refine ⟨c, _, rfl, seg_ne_dot (ident_seg (hhead c (by simp [hhd])))⟩
      obtain ⟨c, q, he, hne⟩ := hfirst
      have : (Re.grp 2 (.lit '.')).run
          ⟨0, r.head ++ ((r.segs.map (fun s => '.' :: s)).flatten ++ post), fun _ => none⟩ = [] := by
        rw [he, hg2, run_lit_cons, if_neg hne]; rfl
      rw [this]
      simp only [List.flatMap_nil, List.nil_append]
      obtain ⟨pos', caps', h1, h2⟩ := hident 0 (fun _ => none)
      exact ⟨pos', caps', by rw [h1 2 (by decide)], by rw [h1 4 (by decide)], h2⟩
  obtain ⟨h4, hmod⟩ := hmod
  obtain ⟨t, l, ht, ht4, htn⟩ := tail_run r.name hname nl hnl pos'
    (setCap caps' 1 (full.take (full.length - post.length)))
  refine ⟨t, ?_, ?_, ?_, ?_⟩
  · rw [Re.match_, Re.matchAt]
    rw [show r.render ++ nl = full from rfl, hrun, hmod]
    simp only [K]
    rw [show (post : PStr) = nameSuffix r.name ++ nl from rfl] at ht ⊢
    rw [ht]; rfl
  · rw [htn 1 (by decide)]
    have hm : full = r.module ++ post := by simp [full, RuleRef.render, post]
    have : full.take (full.length - post.length) = r.module := by rw [hm]; simp
    simp [setCap, this]
  · rw [htn 2 (by decide)]; simp [setCap, hc']
  · rw [ht4]; simp [setCap, h4]

/-- Everything matched is a rendered reference, possibly followed by one newline. -/
theorem match_sound (s : PStr) (t : St) (h : qualifiedRuleRegex.match_ s = some t) :
    ∃ (r : RuleRef) (nl : PStr), r.WF ∧ (nl = [] ∨ nl = ['\n']) ∧ s = r.render ++ nl := by
  have hmem : t ∈ qualifiedRuleRegex.run ⟨0, s, fun _ => none⟩ := List.mem_of_head? h
  rw [regex_eq, run_seq, List.mem_flatMap] at hmem
  obtain ⟨s0, h0, hmem⟩ := hmem
  have hs0 : s0 = ⟨0, s, fun _ => none⟩ := by simpa [Re.run] using h0
  subst hs0
  rw [run_seq, List.mem_flatMap] at hmem
  obtain ⟨s1, h1, hmem⟩ := hmem
  rw [run_seq, List.mem_flatMap] at hmem
  obtain ⟨s2, h2, h3⟩ := hmem
  obtain ⟨w1, e1, l1⟩ := run_sound _ _ _ h1
  obtain ⟨w2, e2, l2⟩ := run_sound _ _ _ h2
  obtain ⟨-, hnl⟩ := run_eos_rest _ _ h3
  simp only at e1
  have hl2 : ∃ name : Option PStr, (∀ n, name = some n → n ≠ [] ∧ ∀ c ∈ n, SegChar c) ∧
      w2 = nameSuffix name := by
    cases l2 with
    | altL _ _ _ hl =>
      cases hl with
      | seq _ _ x y hx hy =>
        have := lang_lit hx; subst this
        cases hy with
        | grp _ _ _ hy =>
          have := lang_plus_chr hy
          exact ⟨some y, fun n hn => by cases hn; exact ⟨this.1, fun c hc => (isSegChar_iff c).1 (this.2 c hc)⟩, rfl⟩
    | altR _ _ _ hl =>
      cases hl
      exact ⟨none, by simp, rfl⟩
  obtain ⟨name, hname, rfl⟩ := hl2
  have hstar : ∀ w, Lang (.star segRe) w → ∃ segs : List PStr, (∀ x ∈ segs, x ≠ [] ∧ ∀ c ∈ x, SegChar c) ∧
      w = (segs.map (fun x => '.' :: x)).flatten := by
    intro w hw
    generalize hr : Re.star segRe = r at hw
    induction hw with
    | starNil a => exact ⟨[], by simp, rfl⟩
    | starCons a x y hx hy _ ih =>
      cases hr
      obtain ⟨segs, hs, rfl⟩ := ih rfl
      cases hx with
      | grp _ _ _ hx =>
        cases hx with
        | seq _ _ x1 x2 hx1 hx2 =>
          have := lang_lit hx1; subst this
          have hp := lang_plus_chr hx2
          refine ⟨x2 :: segs, ?_, by simp⟩
          intro z hz
          simp at hz
          rcases hz with rfl | hz
          · exact ⟨hp.1, fun c hc => (isSegChar_iff c).1 (hp.2 c hc)⟩
          · exact hs z hz
    | _ => cases hr
  cases l1 with
  | grp _ _ _ l1 =>
    cases l1 with
    | seq _ _ d rest hd hrest =>
      cases hrest with
      | seq _ _ head tl hhead htl =>
        have hp := lang_plus_chr hhead
        obtain ⟨segs, hs, rfl⟩ := hstar tl htl
        have hdot : ∃ b : Bool, d = if b then ['.'] else [] := by
          cases hd with
          | altL _ _ _ hl => cases hl with
            | grp _ _ _ hl => exact ⟨true, lang_lit hl⟩
          | altR _ _ _ hl => cases hl; exact ⟨false, rfl⟩
        obtain ⟨b, rfl⟩ := hdot
        refine ⟨⟨b, head, segs, name⟩, s2.rest, ⟨hp.1, hp.2, hs, hname⟩, hnl, ?_⟩
        rw [e1, e2]
        simp [RuleRef.render, RuleRef.module]

end Fixit
