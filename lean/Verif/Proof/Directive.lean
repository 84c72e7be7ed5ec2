import Verif.Proof.Re
import Verif.Model.Rule
import Verif.Spec.Directive

/-! The regex engine on `LintIgnoreRegex` agrees with the specification of directives. -/

namespace Fixit
open Py Spec

variable (u : Unicode)

abbrev moreRe : Re := .seq (.lit ',') <| .seq (.star (.chr isSpace)) (.plus (.chr u.word))
abbrev listRe : Re := .seq (.plus (.chr u.word)) (.star (moreRe u))

theorem mem_takeWhile_true {p : Char → Bool} {l : PStr} {c : Char} (h : c ∈ l.takeWhile p) : p c = true := by
  induction l with
  | nil => simp at h
  | cons x xs ih =>
    by_cases hx : p x = true
    · simp only [List.takeWhile_cons, hx, if_true, List.mem_cons] at h
      rcases h with rfl | h
      · exact hx
      · exact ih h
    · simp [hx] at h

theorem dropWhile_head_false {p : Char → Bool} {l : PStr} {c : Char} {r : PStr} (h : l.dropWhile p = c :: r) :
    p c = false := by
  induction l with
  | nil => simp at h
  | cons x xs ih =>
    by_cases hx : p x = true
    · simp only [List.dropWhile_cons, hx, if_true] at h
      exact ih h
    · simp only [List.dropWhile_cons, hx] at h
      simp at h
      obtain ⟨rfl, -⟩ := h
      simpa using hx

theorem run_plus_chr_nil (p : Char → Bool) (pos caps) : (Re.plus (.chr p)).run ⟨pos, [], caps⟩ = [] := rfl

theorem run_plus_chr_cons (p : Char → Bool) (pos c cs caps) :
    (Re.plus (.chr p)).run ⟨pos, c :: cs, caps⟩ =
      if p c then (Re.star (.chr p)).run ⟨pos + 1, cs, caps⟩ else [] := by
  simp only [Re.plus, run_seq, run_chr_cons]
  split <;> simp

theorem space_not_word {c : Char} (h : isSpace c = true) : u.word c = false := by
  cases hw : u.word c with
  | false => rfl
  | true => have := u.word_not_space c hw; simp [this] at h

/-- `post` does not start with a word character. -/
def NoWord (post : PStr) : Prop := ∀ c r, post = c :: r → u.word c = false

theorem dropWhile_append_all {p : Char → Bool} {a b : PStr} (ha : ∀ c ∈ a, p c = true)
    (hb : ∀ c r, b = c :: r → p c = false) : (a ++ b).dropWhile p = b := by
  induction a with
  | nil =>
    cases b with
    | nil => rfl
    | cons c r => simp [hb c r rfl]
  | cons x xs ih =>
    simp only [List.mem_cons, forall_eq_or_imp] at ha
    simp [ha.1, ih ha.2]

theorem run_plus_word (n post : PStr) (hn : IsName u n) (hp : NoWord u post) (pos caps) :
    ∃ p' l, (Re.plus (.chr u.word)).run ⟨pos, n ++ post, caps⟩ = ⟨p', post, caps⟩ :: l := by
  obtain ⟨hne, hall⟩ := hn
  cases n with
  | nil => exact absurd rfl hne
  | cons c cs =>
    simp only [List.mem_cons, forall_eq_or_imp] at hall
    obtain ⟨l, hl⟩ := star_chr_head u.word (pos + 1) (cs ++ post) caps
    refine ⟨pos + 1 + ((cs ++ post).takeWhile u.word).length, l, ?_⟩
    rw [List.cons_append, run_plus_chr_cons, if_pos hall.1, hl]
    simp only [eatAll]
    rw [dropWhile_append_all hall.2 hp]

theorem run_plus_word_fail (xs : PStr) (h : NoWord u xs) (pos caps) :
    (Re.plus (.chr u.word)).run ⟨pos, xs, caps⟩ = [] := by
  cases xs with
  | nil => rfl
  | cons c r => rw [run_plus_chr_cons]; simp [h c r rfl]

theorem word_starts {n : PStr} (hn : IsName u n) (post : PStr) :
    ∃ c r, n ++ post = c :: r ∧ u.word c = true := by
  obtain ⟨hne, hall⟩ := hn
  cases n with
  | nil => exact absurd rfl hne
  | cons c cs => exact ⟨c, cs ++ post, rfl, hall c (by simp)⟩

theorem nameList_starts {text : PStr} {ns} (h : NameList u text ns) (post : PStr) :
    ∃ c r, text ++ post = c :: r ∧ u.word c = true := by
  cases h with
  | one n hn => exact word_starts u hn post
  | more n ws text ns hn _ _ =>
    obtain ⟨c, r, h1, h2⟩ := word_starts u hn (',' :: (ws ++ text) ++ post)
    exact ⟨c, r, by rw [← h1]; simp, h2⟩

/-- The iterated part matched once. -/
theorem run_more (ws n post : PStr) (hws : Blank ws) (hn : IsName u n) (hp : NoWord u post) (pos caps) :
    ∃ p' l, (moreRe u).run ⟨pos, ',' :: (ws ++ (n ++ post)), caps⟩ = ⟨p', post, caps⟩ :: l := by
  simp only [run_seq, run_lit_cons, if_true, List.flatMap_cons, List.flatMap_nil, List.append_nil]
  rw [star_chr_flatMap]
  · obtain ⟨c, r, hcr, hc⟩ := word_starts u hn post
    simp only [eatAll]
    rw [dropWhile_append_all hws (by intro d t hd; rw [hcr] at hd; cases hd; exact u.word_not_space _ hc)]
    exact run_plus_word u n post hn hp _ _
  · intro pos c cs caps hc
    rw [run_plus_chr_cons]
    simp [space_not_word u hc]

theorem run_more_fail (post : PStr) (h : EndsList u post) (pos caps) :
    (moreRe u).run ⟨pos, post, caps⟩ = [] := by
  cases post with
  | nil => rfl
  | cons c r =>
    simp only [run_seq, run_lit_cons]
    by_cases hc : c = ','
    · subst hc
      simp only [if_true, List.flatMap_cons, List.flatMap_nil, List.append_nil, run_seq]
      rw [star_chr_flatMap]
      · apply run_plus_word_fail
        intro d t hd
        simp only at hd
        refine h.2 (r.takeWhile isSpace) d t ?_ ?_
        · rw [← hd]; simp
        · intro e he; exact mem_takeWhile_true he
      · intro pos c cs caps hc
        rw [run_plus_chr_cons]
        simp [space_not_word u hc]
    · simp [hc]

theorem noWord_of_ends {post} (h : EndsList u post) : NoWord u post := h.1

theorem noWord_comma (r : PStr) : NoWord u (',' :: r) := by
  intro c t h; cases h; exact u.word_comma

/-- Text following a first name: nothing more, or `,`, blanks and a further list. -/
theorem head_star_more (text : PStr) (ns) (h : NameList u text ns) (post : PStr) (hp : EndsList u post) :
    ∀ (ws : PStr), Blank ws → ∀ (fuel pos : Nat) (caps), (',' :: (ws ++ (text ++ post))).length ≤ fuel →
      ∃ p', (starGo (moreRe u).run fuel ⟨pos, ',' :: (ws ++ (text ++ post)), caps⟩).head? = some ⟨p', post, caps⟩ := by
  induction h with
  | one n hn =>
    intro ws hws fuel pos caps hf
    cases fuel with
    | zero => simp at hf
    | succ k =>
      obtain ⟨p', l, hr⟩ := run_more u ws n post hws hn (noWord_of_ends u hp) pos caps
      have hlt : post.length < (',' :: (ws ++ (n ++ post))).length := by simp; omega
      rw [head?_starGo _ _ _ _ _ hr hlt, head?_starGo_nil _ _ _ (run_more_fail u post hp _ _)]
      exact ⟨_, rfl⟩
  | more n ws' text ns hn hws' hl ih =>
    intro ws hws fuel pos caps hf
    cases fuel with
    | zero => simp at hf
    | succ k =>
      obtain ⟨p', l, hr⟩ := run_more u ws n (',' :: (ws' ++ (text ++ post))) hws hn (noWord_comma u _) pos caps
      have e : (n ++ ',' :: (ws' ++ text)) ++ post = n ++ (',' :: (ws' ++ (text ++ post))) := by simp
      rw [e]
      have hlt : (',' :: (ws' ++ (text ++ post))).length <
          (',' :: (ws ++ (n ++ (',' :: (ws' ++ (text ++ post)))))).length := by simp; omega
      rw [head?_starGo _ _ _ _ _ hr hlt]
      refine ih ws' hws' k p' caps ?_
      rw [e] at hf
      simp only [List.length_cons, List.length_append] at hf ⊢
      omega

theorem head_list (text : PStr) (ns) (h : NameList u text ns) (post : PStr) (hp : EndsList u post) (pos caps) :
    ∃ p', ((listRe u).run ⟨pos, text ++ post, caps⟩).head? = some ⟨p', post, caps⟩ := by
  cases h with
  | one _ hn =>
    obtain ⟨p', l, hr⟩ := run_plus_word u text post hn (noWord_of_ends u hp) pos caps
    rw [head?_seq _ (.star (moreRe u)) _ _ _ hr (starGo_ne_nil _ _ _)]
    exact ⟨p', head?_starGo_nil _ _ _ (run_more_fail u post hp _ _)⟩
  | more n ws text ns hn hws hl =>
    have e : (n ++ ',' :: (ws ++ text)) ++ post = n ++ (',' :: (ws ++ (text ++ post))) := by simp
    obtain ⟨p', l, hr⟩ := run_plus_word u n (',' :: (ws ++ (text ++ post))) hn (noWord_comma u _) pos caps
    rw [e, head?_seq _ (.star (moreRe u)) _ _ _ hr (starGo_ne_nil _ _ _)]
    exact head_star_more u text ns hl post hp ws hws _ p' caps (Nat.le_refl _)

theorem list_fail (xs : PStr) (h : NoWord u xs) (pos caps) : (listRe u).run ⟨pos, xs, caps⟩ = [] := by
  rw [run_seq, run_plus_word_fail u xs h]; rfl

/-- The optional names part, `(?::\s*|\s+)(names)`. -/
abbrev namesRe : Re :=
  .seq (.alt (.seq (.lit ':') (.star (.chr isSpace))) (.plus (.chr isSpace))) (.grp 2 (listRe u))

theorem grp_list_fail (xs : PStr) (h : NoWord u xs) (pos caps) :
    (Re.grp 2 (listRe u)).run ⟨pos, xs, caps⟩ = [] := by
  simp only [Re.run, List.map_eq_nil_iff]
  exact list_fail u xs h pos caps

theorem grp_list_space (pos c cs caps) (hc : isSpace c = true) :
    (Re.grp 2 (listRe u)).run ⟨pos, c :: cs, caps⟩ = [] :=
  grp_list_fail u _ (by intro d t h; cases h; exact space_not_word u hc) pos caps

/-- Running the names part reduces to one deterministic position. -/
theorem run_names_colon (r : PStr) (pos caps) :
    (namesRe u).run ⟨pos, ':' :: r, caps⟩ = (Re.grp 2 (listRe u)).run (eatAll isSpace ⟨pos + 1, r, caps⟩) := by
  simp only [run_seq, run_alt, run_lit_cons, if_true, List.flatMap_cons, List.flatMap_nil, List.append_nil,
    run_plus_chr_cons, show isSpace ':' = false by decide, Bool.false_eq_true, if_false]
  exact star_chr_flatMap isSpace _ (fun pos c cs caps hc => grp_list_space u pos c cs caps hc) _ _ _

theorem run_names_space (c : Char) (hc : isSpace c = true) (r : PStr) (pos caps) :
    (namesRe u).run ⟨pos, c :: r, caps⟩ = (Re.grp 2 (listRe u)).run (eatAll isSpace ⟨pos + 1, r, caps⟩) := by
  have hne : c ≠ ':' := by rintro rfl; exact absurd hc (by decide)
  simp only [run_seq, run_alt, run_lit_cons, hne, if_false, List.flatMap_nil, List.nil_append,
    run_plus_chr_cons, hc, if_true]
  exact star_chr_flatMap isSpace _ (fun pos c cs caps hc => grp_list_space u pos c cs caps hc) _ _ _

theorem run_names_other (c : Char) (hc : isSpace c = false) (hne : c ≠ ':') (r : PStr) (pos caps) :
    (namesRe u).run ⟨pos, c :: r, caps⟩ = [] := by
  simp [run_lit_cons, hne, run_plus_chr_cons, hc]

theorem run_names_nil (pos caps) : (namesRe u).run ⟨pos, [], caps⟩ = [] := rfl

theorem blank_takeWhile (r : PStr) : Blank (r.takeWhile isSpace) := fun _ h => mem_takeWhile_true h

theorem names_none {tail : PStr} (h : NamesAfter u tail none) (pos caps) :
    (namesRe u).run ⟨pos, tail, caps⟩ = [] := by
  simp only [NamesAfter] at h
  cases tail with
  | nil => rfl
  | cons c r =>
    have key : ∀ sep0 : PStr, (Separator (sep0 ++ r.takeWhile isSpace)) → c :: r = sep0 ++ r →
        NoWord u (r.dropWhile isSpace) := by
      intro sep0 hs he d t hd
      cases hw : u.word d with
      | false => rfl
      | true =>
        refine absurd ⟨sep0 ++ r.takeWhile isSpace, d, t, ?_, hs, hw⟩ h
        rw [← hd, he]; simp
    by_cases hcol : c = ':'
    · subst hcol
      rw [run_names_colon]
      refine grp_list_fail u _ (key [':'] (Or.inl ⟨_, rfl, blank_takeWhile r⟩) rfl) _ _
    · by_cases hsp : isSpace c = true
      · rw [run_names_space u c hsp]
        refine grp_list_fail u _ (key [c] (Or.inr ⟨by simp, ?_⟩) rfl) _ _
        intro d hd
        simp only [List.cons_append, List.nil_append, List.mem_cons] at hd
        rcases hd with rfl | hd
        · exact hsp
        · exact blank_takeWhile r d hd
      · exact run_names_other u c (by simpa using hsp) hcol r pos caps

theorem names_some {tail : PStr} {ns} (h : NamesAfter u tail (some ns)) (pos caps) :
    ∃ p' text post, NameList u text ns ∧
      ((namesRe u).run ⟨pos, tail, caps⟩).head? = some ⟨p', post, setCap caps 2 text⟩ := by
  obtain ⟨sep, text, post, rfl, hsep, hl, hp⟩ := h
  obtain ⟨c, r, hcr, hc⟩ := nameList_starts u hl post
  have hns : ∀ d t, text ++ post = d :: t → isSpace d = false := by
    intro d t hd; rw [hcr] at hd; cases hd; exact u.word_not_space _ hc
  have fin : ∀ pos', ∃ p', ((Re.grp 2 (listRe u)).run ⟨pos', text ++ post, caps⟩).head? =
      some ⟨p', post, setCap caps 2 text⟩ := by
    intro pos'
    obtain ⟨p', hr⟩ := head_list u text ns hl post hp pos' caps
    refine ⟨p', ?_⟩
    simp only [Re.run] at hr ⊢
    rw [List.head?_map, hr]
    simp
  rcases hsep with ⟨ws, rfl, hws⟩ | ⟨hne, hws⟩
  · rw [List.append_assoc, List.cons_append, run_names_colon]
    simp only [eatAll]
    rw [dropWhile_append_all hws hns]
    obtain ⟨p', h⟩ := fin _
    exact ⟨p', text, post, hl, h⟩
  · cases sep with
    | nil => exact absurd rfl hne
    | cons s ss =>
      have hs := hws s (by simp)
      rw [List.append_assoc, List.cons_append, run_names_space u s hs]
      simp only [eatAll]
      rw [dropWhile_append_all (fun d hd => hws d (by simp [hd])) hns]
      obtain ⟨p', h⟩ := fin _
      exact ⟨p', text, post, hl, h⟩

/-! ### The head of the directive -/

abbrev kwRe : Re := .grp 1 (.seq (.str (py "lint-")) (.alt (.str (py "ignore")) (.str (py "fixme"))))

theorem run_kw_hit (kw : PStr) (hk : kw ∈ keywords) (tail : PStr) (pos caps) :
    kwRe.run ⟨pos, kw ++ tail, caps⟩ = [⟨pos + kw.length, tail, setCap caps 1 kw⟩] := by
  simp only [keywords, List.mem_cons, List.not_mem_nil, or_false] at hk
  have hrun : ∀ s, kwRe.run s = ((Re.seq (.str (py "lint-")) (.alt (.str (py "ignore")) (.str (py "fixme")))).run s).map
      (fun t => { t with caps := setCap t.caps 1 (s.rest.take (s.rest.length - t.rest.length)) }) := fun _ => rfl
  have e : ∀ (k : PStr), (k ++ tail).take ((k ++ tail).length - tail.length) = k := by
    intro k; simp
  have inner : (Re.seq (.str (py "lint-")) (.alt (.str (py "ignore")) (.str (py "fixme")))).run ⟨pos, kw ++ tail, caps⟩ =
      [⟨pos + kw.length, tail, caps⟩] := by
    rcases hk with rfl | rfl <;> simp [run_str, List.isPrefixOf]
  rw [hrun, inner]
  simp only [List.map_cons, List.map_nil, e]

theorem run_kw_miss (xs : PStr) (h : ∀ kw tail, kw ∈ keywords → xs ≠ kw ++ tail) (pos caps) :
    kwRe.run ⟨pos, xs, caps⟩ = [] := by
  have hrun : ∀ s, kwRe.run s = ((Re.seq (.str (py "lint-")) (.alt (.str (py "ignore")) (.str (py "fixme")))).run s).map
      (fun t => { t with caps := setCap t.caps 1 (s.rest.take (s.rest.length - t.rest.length)) }) := fun _ => rfl
  rw [hrun, List.map_eq_nil_iff, run_seq, run_str]
  split
  · rename_i hp
    rw [List.isPrefixOf_iff_prefix] at hp
    obtain ⟨t, rfl⟩ := hp
    have hd : (py "lint-" ++ t).drop (py "lint-").length = t := by simp
    rw [hd]
    simp only [List.flatMap_cons, List.flatMap_nil, List.append_nil, run_alt, run_str]
    have h1 : (py "ignore").isPrefixOf t = false := by
      rw [Bool.eq_false_iff]; intro hh
      rw [List.isPrefixOf_iff_prefix] at hh
      obtain ⟨t', rfl⟩ := hh
      exact h (py "lint-ignore") t' (by simp [keywords]) (by simp)
    have h2 : (py "fixme").isPrefixOf t = false := by
      rw [Bool.eq_false_iff]; intro hh
      rw [List.isPrefixOf_iff_prefix] at hh
      obtain ⟨t', rfl⟩ := hh
      exact h (py "lint-fixme") t' (by simp [keywords]) (by simp)
    simp [h1, h2]
  · rfl

theorem kw_not_space (kw tail : PStr) (hk : kw ∈ keywords) :
    ∀ c r, kw ++ tail = c :: r → isSpace c = false := by
  intro c r h
  simp only [keywords, List.mem_cons, List.not_mem_nil, or_false] at hk
  rcases hk with rfl | rfl <;> (simp at h; obtain ⟨rfl, -⟩ := h; decide)

theorem kw_space_fail (g : Re) (pos c cs caps) (hc : isSpace c = true) :
    (Re.seq kwRe g).run ⟨pos, c :: cs, caps⟩ = [] := by
  rw [run_seq, run_kw_miss]
  · rfl
  · intro kw tail hk he
    have := kw_not_space kw tail hk c cs he.symm
    simp [this] at hc

theorem run_regex_hash (r : PStr) (pos caps) :
    (lintIgnoreRegex u).run ⟨pos, '#' :: r, caps⟩ =
      (Re.seq kwRe (.opt (namesRe u))).run (eatAll isSpace ⟨pos + 1, r, caps⟩) := by
  have : lintIgnoreRegex u = .seq (.lit '#') (.seq (.star (.chr isSpace)) (.seq kwRe (.opt (namesRe u)))) := rfl
  rw [this, run_seq, run_lit_cons, if_pos rfl]
  rw [List.flatMap_cons, List.flatMap_nil, List.append_nil, run_seq]
  exact star_chr_flatMap isSpace _ (fun pos c cs caps hc => kw_space_fail (.opt (namesRe u)) pos c cs caps hc) _ _ _

theorem regex_miss (xs : PStr) (h : ¬ ∃ kw tail, DirectiveHead xs kw tail) (pos caps) :
    (lintIgnoreRegex u).run ⟨pos, xs, caps⟩ = [] := by
  cases xs with
  | nil => rfl
  | cons c r =>
    by_cases hc : c = '#'
    · subst hc
      rw [run_regex_hash, run_seq]
      simp only [eatAll]
      rw [run_kw_miss]
      · rfl
      · intro kw tail hk he
        refine h ⟨kw, tail, r.takeWhile isSpace, ?_, blank_takeWhile r, hk⟩
        rw [List.append_assoc, ← he]; simp
    · have : lintIgnoreRegex u = .seq (.lit '#') (.seq (.star (.chr isSpace)) (.seq kwRe (.opt (namesRe u)))) := rfl
      rw [this, run_seq, run_lit_cons, if_neg hc]; rfl

theorem regex_hit {xs kw tail : PStr} (h : DirectiveHead xs kw tail) (pos caps) :
    ∃ pos', (lintIgnoreRegex u).run ⟨pos, xs, caps⟩ =
      (Re.opt (namesRe u)).run ⟨pos', tail, setCap caps 1 kw⟩ := by
  obtain ⟨ws, rfl, hws, hk⟩ := h
  rw [run_regex_hash, run_seq]
  simp only [eatAll]
  rw [List.append_assoc, dropWhile_append_all hws (kw_not_space kw tail hk), run_kw_hit kw hk]
  rw [List.flatMap_cons, List.flatMap_nil, List.append_nil]
  exact ⟨_, rfl⟩

/-- A match at a given position, from the specification. -/
theorem matchAt_none {xs : PStr} (h : ¬ ∃ kw tail, DirectiveHead xs kw tail) (pos) :
    (lintIgnoreRegex u).matchAt pos xs = none := by
  rw [Re.matchAt, regex_miss u xs h]; rfl

theorem matchAt_bare {xs kw tail : PStr} (h : DirectiveHead xs kw tail) (hn : NamesAfter u tail none) (pos) :
    ∃ t, (lintIgnoreRegex u).matchAt pos xs = some t ∧ t.caps 1 = some kw ∧ t.caps 2 = none := by
  obtain ⟨p', he⟩ := regex_hit u h pos (fun _ => none)
  rw [Re.matchAt, he, Re.opt, run_alt, names_none u hn]
  exact ⟨_, rfl, by simp [setCap], by simp [setCap]⟩

theorem matchAt_named {xs kw tail : PStr} {ns} (h : DirectiveHead xs kw tail) (hn : NamesAfter u tail (some ns)) (pos) :
    ∃ t text, (lintIgnoreRegex u).matchAt pos xs = some t ∧ t.caps 1 = some kw ∧ t.caps 2 = some text ∧ NameList u text ns := by
  obtain ⟨p', he⟩ := regex_hit u h pos (fun _ => none)
  obtain ⟨p'', text, post, hl, hh⟩ := names_some u hn p' (setCap (fun _ => none) 1 kw)
  rw [Re.matchAt, he, Re.opt, run_alt, List.head?_append, hh]
  exact ⟨_, text, rfl, by simp [setCap], by simp [setCap], hl⟩

/-! ### Totality of the names specification -/

theorem ends_or_more (xs : PStr) (h : NoWord u xs) :
    EndsList u xs ∨ ∃ ws c r, xs = ',' :: (ws ++ c :: r) ∧ Blank ws ∧ u.word c = true := by
  by_cases hm : ∃ ws c r, xs = ',' :: (ws ++ c :: r) ∧ Blank ws ∧ u.word c = true
  · exact Or.inr hm
  · refine Or.inl ⟨h, ?_⟩
    intro ws c r he hb
    cases hw : u.word c with
    | false => rfl
    | true => exact absurd ⟨ws, c, r, he, hb, hw⟩ hm

theorem nameList_total : ∀ (n : Nat) (c : Char) (r : PStr), r.length ≤ n → u.word c = true →
    ∃ text ns post, c :: r = text ++ post ∧ NameList u text ns ∧ EndsList u post := by
  intro n
  induction n using Nat.strongRecOn with
  | ind n ih =>
    intro c r hr hc
    have hname : IsName u (c :: r.takeWhile u.word) := by
      refine ⟨by simp, ?_⟩
      intro d hd
      simp only [List.mem_cons] at hd
      rcases hd with rfl | hd
      · exact hc
      · exact mem_takeWhile_true hd
    have hnw : NoWord u (r.dropWhile u.word) := by
      intro d t hd
      exact dropWhile_head_false hd
    have hcr : c :: r = (c :: r.takeWhile u.word) ++ r.dropWhile u.word := by simp
    rcases ends_or_more u _ hnw with he | ⟨ws, d, t, he, hb, hd⟩
    · exact ⟨_, _, _, hcr, NameList.one _ hname, he⟩
    · have hlen : (r.dropWhile u.word).length ≤ r.length := by
        have h2 := List.dropWhile_sublist u.word (l := r); exact h2.length_le
      have hlt : t.length < n := by
        rw [he] at hlen; simp at hlen; omega
      obtain ⟨text, ns, post, h1, h2, h3⟩ := ih t.length hlt d t (Nat.le_refl _) hd
      refine ⟨(c :: r.takeWhile u.word) ++ ',' :: (ws ++ text), _, post, ?_, NameList.more _ ws text ns hname hb h2, h3⟩
      rw [hcr, he, h1]; simp

theorem namesAfter_total (tail : PStr) : ∃ names, NamesAfter u tail names := by
  by_cases h : ∃ sep c r, tail = sep ++ c :: r ∧ Separator sep ∧ u.word c = true
  · obtain ⟨sep, c, r, rfl, hs, hc⟩ := h
    obtain ⟨text, ns, post, h1, h2, h3⟩ := nameList_total u _ c r (Nat.le_refl _) hc
    exact ⟨some ns, sep, text, post, by rw [h1]; simp, hs, h2, h3⟩
  · exact ⟨none, h⟩

/-! ### search -/

theorem searchFrom_none {xs : PStr} (h : ¬ HasDirective xs) (pos) :
    (lintIgnoreRegex u).searchFrom pos xs = none := by
  induction xs generalizing pos with
  | nil =>
    refine matchAt_none u ?_ pos
    rintro ⟨kw, tail, hd⟩
    exact h ⟨[], [], kw, tail, rfl, hd⟩
  | cons c cs ih =>
    rw [Re.searchFrom, matchAt_none u (by rintro ⟨kw, tail, hd⟩; exact h ⟨[], _, kw, tail, rfl, hd⟩)]
    refine ih ?_ _
    rintro ⟨pre, rest, kw, tail, rfl, hd⟩
    exact h ⟨c :: pre, rest, kw, tail, rfl, hd⟩

/-- Searching finds the match at the first directive. -/
theorem searchFrom_hit (pre rest : PStr)
    (hfirst : ∀ p q kw' tail', pre ++ rest = p ++ q → DirectiveHead q kw' tail' → pre.length ≤ p.length)
    (P : St → Prop) (hm : ∀ pos, ∃ t, (lintIgnoreRegex u).matchAt pos rest = some t ∧ P t) (pos) :
    ∃ t, (lintIgnoreRegex u).searchFrom pos (pre ++ rest) = some t ∧ P t := by
  induction pre generalizing pos with
  | nil =>
    obtain ⟨t, ht, hP⟩ := hm pos
    refine ⟨t, ?_, hP⟩
    cases rest with
    | nil => exact ht
    | cons c cs => simp only [List.nil_append, Re.searchFrom]; rw [ht]
  | cons c cs ih =>
    rw [List.cons_append, Re.searchFrom, matchAt_none u ?_]
    · exact ih (fun p q kw' tail' he hd => by
        have := hfirst (c :: p) q kw' tail' (by simp [he]) hd
        simpa using this) _
    · rintro ⟨kw, tail, hd⟩
      have := hfirst [] _ kw tail rfl hd
      simp at this

theorem search_bare {s kw : PStr} (h : FirstDirective u s kw none) :
    ∃ t, (lintIgnoreRegex u).search s = some t ∧ t.caps 1 = some kw ∧ t.caps 2 = none := by
  obtain ⟨pre, rest, tail, rfl, hd, hn, hf⟩ := h
  exact searchFrom_hit u pre rest hf _ (fun pos => matchAt_bare u hd hn pos) 0

theorem search_named {s kw : PStr} {ns} (h : FirstDirective u s kw (some ns)) :
    ∃ t text, (lintIgnoreRegex u).search s = some t ∧ t.caps 1 = some kw ∧ t.caps 2 = some text ∧ NameList u text ns := by
  obtain ⟨pre, rest, tail, rfl, hd, hn, hf⟩ := h
  obtain ⟨t, h1, text, h2⟩ := searchFrom_hit u pre rest hf
    (fun t => ∃ text, t.caps 1 = some kw ∧ t.caps 2 = some text ∧ NameList u text ns)
    (fun pos => by
      obtain ⟨t, text, h⟩ := matchAt_named u hd hn pos
      exact ⟨t, h.1, text, h.2⟩) 0
  exact ⟨t, text, h1, h2⟩

theorem firstDirective_total {s : PStr} (h : HasDirective s) : ∃ kw names, FirstDirective u s kw names := by
  have hex : ∃ n, ∃ pre rest kw tail, s = pre ++ rest ∧ DirectiveHead rest kw tail ∧ pre.length = n := by
    obtain ⟨pre, rest, kw, tail, h1, h2⟩ := h
    exact ⟨_, pre, rest, kw, tail, h1, h2, rfl⟩
  have : ∃ pre rest kw tail, s = pre ++ rest ∧ DirectiveHead rest kw tail ∧
      ∀ p q kw' tail', s = p ++ q → DirectiveHead q kw' tail' → pre.length ≤ p.length := by
    obtain ⟨n, hn⟩ := hex
    induction n using Nat.strongRecOn with
    | ind n ih =>
      obtain ⟨pre, rest, kw, tail, h1, h2, h3⟩ := hn
      by_cases hb : ∀ p q kw' tail', s = p ++ q → DirectiveHead q kw' tail' → pre.length ≤ p.length
      · exact ⟨pre, rest, kw, tail, h1, h2, hb⟩
      · simp only [Classical.not_forall, Nat.not_le] at hb
        obtain ⟨p, q, kw', tail', e, hd, hlt⟩ := hb
        exact ih p.length (by omega) ⟨p, q, kw', tail', e, hd, rfl⟩
  obtain ⟨pre, rest, kw, tail, h1, h2, h3⟩ := this
  obtain ⟨names, hn⟩ := namesAfter_total u tail
  exact ⟨kw, names, pre, rest, tail, h1, h2, hn, h3⟩

/-! ### Splitting the captured names -/

theorem splitOn_ne_nil (c : Char) (s : PStr) : splitOn c s ≠ [] := by
  cases s with
  | nil => simp [splitOn]
  | cons x xs => simp only [splitOn]; split <;> (try simp); split <;> simp

theorem splitOn_append_sep (c : Char) (a b : PStr) (ha : c ∉ a) :
    splitOn c (a ++ c :: b) = a :: splitOn c b := by
  induction a with
  | nil => simp [splitOn]
  | cons x xs ih =>
    simp only [List.mem_cons, not_or] at ha
    rw [List.cons_append, splitOn, if_neg (fun e => ha.1 e.symm), ih ha.2]

theorem splitOn_nosep (c : Char) (a : PStr) (ha : c ∉ a) : splitOn c a = [a] := by
  induction a with
  | nil => rfl
  | cons x xs ih =>
    simp only [List.mem_cons, not_or] at ha
    rw [splitOn, if_neg (fun e => ha.1 e.symm), ih ha.2]

theorem name_no_comma {n : PStr} (h : IsName u n) : ',' ∉ n := by
  intro hm
  have := h.2 _ hm
  simp [u.word_comma] at this

theorem blank_no_comma {ws : PStr} (h : Blank ws) : ',' ∉ ws := by
  intro hm; exact absurd (h _ hm) (by decide)

theorem strip_blank_name {ws n : PStr} (hw : Blank ws) (hn : IsName u n) : strip (ws ++ n) = n := by
  have h1 : (ws ++ n).dropWhile isSpace = n :=
    dropWhile_append_all hw (fun c r h => u.word_not_space c (hn.2 c (by simp [h])))
  have h2 : n.reverse.dropWhile isSpace = n.reverse := by
    have : ∀ c r, n.reverse = c :: r → isSpace c = false := by
      intro c r h
      have hm : c ∈ n.reverse := by rw [h]; simp
      exact u.word_not_space c (hn.2 c (by simpa using hm))
    simpa using dropWhile_append_all (p := isSpace) (a := []) (b := n.reverse) (by simp) this
  simp [strip, lstrip, rstrip, h1, h2]

theorem names_split {text : PStr} {ns} (h : NameList u text ns) :
    ∀ ws, Blank ws → (splitOn ',' (ws ++ text)).map strip = ns := by
  induction h with
  | one n hn =>
    intro ws hws
    rw [splitOn_nosep]
    · simp [strip_blank_name u hws hn]
    · simp [blank_no_comma hws, name_no_comma u hn]
  | more n ws' text ns hn hws' _ ih =>
    intro ws hws
    rw [← List.append_assoc, splitOn_append_sep]
    · simp [strip_blank_name u hws hn, ih ws' hws']
    · simp [blank_no_comma hws, name_no_comma u hn]

/-! ### Names -/

theorem endsWith_iff (s p : PStr) : endsWith s p = true ↔ ∃ b, s = b ++ p := by
  rw [endsWith, List.isSuffixOf_iff_suffix]
  constructor
  · rintro ⟨b, h⟩; exact ⟨b, h.symm⟩
  · rintro ⟨b, h⟩; exact ⟨b, h.symm⟩

theorem stripRuleSuffix_append (b : PStr) : stripRuleSuffix (b ++ py "Rule") = b := by
  rw [stripRuleSuffix, if_pos ((endsWith_iff _ _).2 ⟨b, rfl⟩)]
  simp

theorem stripRuleSuffix_id {s : PStr} (h : ¬ ∃ b, s = b ++ py "Rule") : stripRuleSuffix s = s := by
  rw [stripRuleSuffix, if_neg]
  rw [endsWith_iff]; exact h

theorem names_iff (n name : PStr) :
    Names u n name ↔ (stripRuleSuffix n = name ∨ stripRuleSuffix n = u.lower name) := by
  constructor
  · rintro ⟨base, h1, h2⟩
    rcases h1 with rfl | ⟨rfl, hne⟩
    · rw [stripRuleSuffix_append]; exact h2
    · rw [stripRuleSuffix_id hne]; exact h2
  · intro h
    refine ⟨stripRuleSuffix n, ?_, h⟩
    by_cases hb : ∃ b, n = b ++ py "Rule"
    · obtain ⟨b, rfl⟩ := hb
      exact Or.inl (by rw [stripRuleSuffix_append])
    · exact Or.inr ⟨(stripRuleSuffix_id hb).symm, hb⟩

end Fixit
