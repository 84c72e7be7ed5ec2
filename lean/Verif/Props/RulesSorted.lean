import Verif.Spec.RulesClasses

/-!
# C104: SortedAttributes
-/

namespace Cst
open Py Fixit Spec

theorem hasSub_iff (sub : PStr) : ∀ s, hasSub sub s = true ↔ ∃ a b, s = a ++ sub ++ b
  | [] => by
    rw [hasSub, List.isPrefixOf_iff_prefix]
    constructor
    · rintro ⟨t, ht⟩; exact ⟨[], t, by simpa using ht.symm⟩
    · rintro ⟨a, b, h⟩
      have : sub = [] := by
        cases sub with
        | nil => rfl
        | cons x xs => simp at h
      rw [this]; exact List.nil_prefix
  | c :: s => by
    rw [hasSub, Bool.or_eq_true, List.isPrefixOf_iff_prefix, hasSub_iff sub s]
    constructor
    · rintro (⟨t, ht⟩ | ⟨a, b, rfl⟩)
      · exact ⟨[], t, by simpa using ht.symm⟩
      · exact ⟨c :: a, b, rfl⟩
    · rintro ⟨a, b, h⟩
      cases a with
      | nil => exact .inl ⟨b, by simpa using h.symm⟩
      | cons x a =>
        simp only [List.cons_append, List.cons.injEq] at h
        exact .inr ⟨a, b, h.2⟩

theorem hasDirective_iff (body : List Line) : hasDirective body = true ↔ Directive body := by
  unfold hasDirective
  constructor
  · intro h
    split at h
    · obtain ⟨a, b, rfl⟩ := (hasSub_iff _ _).mp h
      exact ⟨_, a, b, _, rfl⟩
    · cases h
  · rintro ⟨i, a, b, rest, rfl⟩
    exact (hasSub_iff _ _).mpr ⟨a, b, rfl⟩

theorem isAssign_iff (l : Line) : l.isAssign = true ↔ Assigns l := by
  unfold Line.isAssign Assigns
  cases l.kind <;> simp

/-- After the first assignment. -/
theorem partLines_true : ∀ ls, partLines true ls = ([], ls.filter (fun l => Assigns l), ls.filter (fun l => ¬ Assigns l))
  | [] => rfl
  | l :: ls => by
    rw [partLines]
    by_cases h : Assigns l
    · rw [if_pos ((isAssign_iff l).mpr h), partLines_true ls]
      simp [h]
    · rw [if_neg (fun e => h ((isAssign_iff l).mp e)), partLines_true ls]
      simp [h]

/-- The whole body. -/
theorem partLines_false : ∀ ls, ∃ pre rest, ls = pre ++ rest ∧ (∀ l ∈ pre, ¬ Assigns l) ∧ (∀ l tail, rest = l :: tail → Assigns l) ∧
    partLines false ls = (pre, ls.filter (fun l => Assigns l), rest.filter (fun l => ¬ Assigns l))
  | [] => ⟨[], [], rfl, by simp, by simp, rfl⟩
  | l :: ls => by
    rw [partLines]
    by_cases h : Assigns l
    · refine ⟨[], l :: ls, rfl, by simp, fun _ _ e => by cases e; exact h, ?_⟩
      rw [if_pos ((isAssign_iff l).mpr h), partLines_true ls]
      simp [h]
    · obtain ⟨pre, rest, rfl, h1, h2, h3⟩ := partLines_false ls
      refine ⟨l :: pre, rest, rfl, ?_, h2, ?_⟩
      · intro x hx
        rcases List.mem_cons.mp hx with rfl | hx
        · exact h
        · exact h1 x hx
      · rw [if_neg (fun e => h ((isAssign_iff l).mp e)), h3]
        simp [h]

/-! ## Sorting -/

section
variable {α : Type} (key : α → PStr)

theorem insertBy_stable (x : α) (s : PStr) : ∀ l : List α, (insertBy (keyLt key) x l).filter (fun a => key a = s) = (x :: l).filter (fun a => key a = s)
  | [] => rfl
  | y :: ys => by
    rw [insertBy]
    split
    · rename_i h
      rw [List.filter_cons, insertBy_stable x s ys]
      by_cases hx : key x = s
      · have hy : key y ≠ s := by
          intro hy
          rw [keyLt, hy, ← hx, strLt_irrefl] at h
          cases h
        simp [hx, hy]
      · simp [hx, List.filter_cons]
    · rfl

theorem sortBy_stable (s : PStr) : ∀ l : List α, (sortBy (keyLt key) l).filter (fun a => key a = s) = l.filter (fun a => key a = s)
  | [] => rfl
  | x :: xs => by
    have : sortBy (keyLt key) (x :: xs) = insertBy (keyLt key) x (sortBy (keyLt key) xs) := rfl
    rw [this, insertBy_stable, List.filter_cons, List.filter_cons, sortBy_stable s xs]

theorem sortBy_of_sorted : ∀ l : List α, SortedByKey key l → sortBy (keyLt key) l = l
  | [], _ => rfl
  | x :: xs, h => by
    have h' := List.pairwise_cons.mp h
    have : sortBy (keyLt key) (x :: xs) = insertBy (keyLt key) x (sortBy (keyLt key) xs) := rfl
    rw [this, sortBy_of_sorted xs h'.2]
    cases xs with
    | nil => rfl
    | cons y ys =>
      rw [insertBy, if_neg]
      rw [keyLt, h'.1 y List.mem_cons_self]
      exact Bool.false_ne_true
end

theorem keysOf_cases : ∀ ls : List Line, (∀ l ∈ ls, Assigns l) →
    ((∃ l ∈ ls, l.kind = .assign .sequence) ∧ keysOf ls = .error .attribute) ∨
    ((∀ l ∈ ls, l.kind ≠ .assign .sequence) ∧ ∃ ks, keysOf ls = .ok ks ∧ ks.map Prod.snd = ls ∧
      (∀ k ∈ ks, k.1.toText = attributeOf k.2) ∧ ((ks.any (fun k => !k.1.isText)) = true ↔ ∃ l ∈ ls, l.kind = .assign .node))
  | [], _ => .inr ⟨by simp, [], rfl, rfl, by simp, by simp⟩
  | l :: ls, h => by
    rw [List.forall_mem_cons] at h
    obtain ⟨⟨t, ht⟩, h⟩ := h
    have ih := keysOf_cases ls h
    rw [keysOf]
    cases t with
    | sequence => exact .inl ⟨⟨l, List.mem_cons_self, ht⟩, by simp [Line.key, ht]⟩
    | name s =>
      have hk : l.key = .ok (.text s) := by simp [Line.key, ht]
      rw [hk]
      simp only
      rcases ih with ⟨⟨x, hx, hs⟩, he⟩ | ⟨hn, ks, he, hm, hkey, hany⟩
      · exact .inl ⟨⟨x, List.mem_cons_of_mem _ hx, hs⟩, by rw [he]⟩
      · refine .inr ⟨?_, (.text s, l) :: ks, by rw [he], by rw [List.map_cons, hm], ?_, ?_⟩
        · rw [List.forall_mem_cons]; exact ⟨by rw [ht]; simp, hn⟩
        · rw [List.forall_mem_cons]
          exact ⟨by simp [Key.toText, attributeOf, ht], hkey⟩
        · rw [List.any_cons, show (!(Key.text s).isText) = false from rfl, Bool.false_or, hany]
          constructor
          · rintro ⟨x, hx, hs⟩; exact ⟨x, List.mem_cons_of_mem _ hx, hs⟩
          · rintro ⟨x, hx, hs⟩
            rcases List.mem_cons.mp hx with rfl | hx
            · rw [ht] at hs; simp at hs
            · exact ⟨x, hx, hs⟩
    | node =>
      have hk : l.key = .ok .node := by simp [Line.key, ht]
      rw [hk]
      simp only
      rcases ih with ⟨⟨x, hx, hs⟩, he⟩ | ⟨hn, ks, he, hm, hkey, hany⟩
      · exact .inl ⟨⟨x, List.mem_cons_of_mem _ hx, hs⟩, by rw [he]⟩
      · refine .inr ⟨?_, (.node, l) :: ks, by rw [he], by rw [List.map_cons, hm], ?_, ?_⟩
        · rw [List.forall_mem_cons]; exact ⟨by rw [ht]; simp, hn⟩
        · rw [List.forall_mem_cons]
          exact ⟨by simp [Key.toText, attributeOf, ht], hkey⟩
        · rw [List.any_cons]
          simp only [Key.isText, Bool.not_false, Bool.true_or, true_iff]
          exact ⟨l, List.mem_cons_self, ht⟩

theorem sortBy_map {α β : Type} (key : β → PStr) (f : α → β) : ∀ l : List α, (sortBy (keyLt (fun a => key (f a))) l).map f = sortBy (keyLt key) (l.map f)
  | [] => rfl
  | x :: xs => by
    have h1 : sortBy (keyLt (fun a => key (f a))) (x :: xs) = insertBy (keyLt (fun a => key (f a))) x (sortBy (keyLt (fun a => key (f a))) xs) := rfl
    have h2 : sortBy (keyLt key) ((x :: xs).map f) = insertBy (keyLt key) (f x) (sortBy (keyLt key) (xs.map f)) := rfl
    rw [h1, h2, ← sortBy_map key f xs]
    generalize sortBy (keyLt (fun a => key (f a))) xs = l
    induction l with
    | nil => rfl
    | cons y ys ih =>
      rw [insertBy, List.map_cons, insertBy]
      have : keyLt key (f y) (f x) = keyLt (fun a => key (f a)) y x := rfl
      rw [this]
      split
      · rw [List.map_cons, ih]
      · rfl

theorem sortBy_congr {α : Type} (k k' : α → PStr) : ∀ l : List α, (∀ a ∈ l, k a = k' a) → sortBy (keyLt k) l = sortBy (keyLt k') l
  | [], _ => rfl
  | x :: xs, h => by
    rw [List.forall_mem_cons] at h
    have h1 : sortBy (keyLt k) (x :: xs) = insertBy (keyLt k) x (sortBy (keyLt k) xs) := rfl
    have h2 : sortBy (keyLt k') (x :: xs) = insertBy (keyLt k') x (sortBy (keyLt k') xs) := rfl
    rw [h1, h2, ← sortBy_congr k k' xs h.2]
    have hm : ∀ a ∈ sortBy (keyLt k) xs, k a = k' a := fun a ha => h.2 a ((mem_sortBy _ _ _).mp ha)
    generalize sortBy (keyLt k) xs = l at hm
    induction l with
    | nil => rfl
    | cons y ys ih =>
      rw [List.forall_mem_cons] at hm
      rw [insertBy, insertBy]
      have : keyLt k' y x = keyLt k y x := by rw [keyLt, keyLt, hm.1, h.1]
      rw [this]
      split
      · rw [ih hm.2]
      · rfl

/-- What sorting the assignments gives. -/
theorem sortLines_cases (body : List Line) : (Unsortable body ∧ ∃ x, sortLines (body.filter (fun l => Assigns l)) = .error x) ∨
    (¬ Unsortable body ∧ sortLines (body.filter (fun l => Assigns l)) = .ok (sortBy (keyLt attributeOf) (body.filter (fun l => Assigns l)))) := by
  have hall : ∀ l ∈ body.filter (fun l => Assigns l), Assigns l := fun l hl => by simpa using (List.mem_filter.mp hl).2
  have hin : ∀ (t : LineTarget), (∃ l ∈ body.filter (fun l => Assigns l), l.kind = .assign t) ↔ ∃ l ∈ body, l.kind = .assign t := by
    intro t
    constructor
    · rintro ⟨l, hl, h⟩; exact ⟨l, (List.mem_filter.mp hl).1, h⟩
    · rintro ⟨l, hl, h⟩; exact ⟨l, List.mem_filter.mpr ⟨hl, by simpa using ⟨t, h⟩⟩, h⟩
  unfold sortLines Unsortable
  rcases keysOf_cases _ hall with ⟨hs, he⟩ | ⟨hn, ks, he, hm, hkey, hany⟩
  · rw [he]
    exact .inl ⟨.inl ((hin _).mp hs), _, rfl⟩
  · rw [he]
    have hlen : ks.length = (body.filter (fun l => Assigns l)).length := by rw [← hm, List.length_map]
    simp only
    rw [hlen]
    have hany' := hany.trans (hin .node)
    have hns : ¬ ∃ l ∈ body, l.kind = .assign .sequence := by
      rw [← hin]
      rintro ⟨l, hl, h⟩
      exact hn l hl h
    split
    · rename_i h
      exact .inl ⟨.inr ⟨h.1, hany'.mp h.2⟩, _, rfl⟩
    · rename_i h
      refine .inr ⟨fun h' => h'.elim hns (fun h' => h ⟨h'.1, hany'.mpr h'.2⟩), ?_⟩
      rw [sortBy_congr _ (fun k => attributeOf k.2) ks hkey, sortBy_map attributeOf Prod.snd ks, hm]

/-- C104: with the directive, the rule fails exactly when there are targets that it cannot sort by name. -/
theorem C104_raises (body : List Line) : (∃ x, sortAttributes body = .error x) ↔ Directive body ∧ Unsortable body := by
  unfold sortAttributes
  rw [← hasDirective_iff]
  split
  · rename_i h
    obtain ⟨pre, rest, hb, h1, h2, h3⟩ := partLines_false body
    rw [h3]
    simp only
    rcases sortLines_cases body with ⟨hu, x, hx⟩ | ⟨hu, hx⟩
    · rw [hx]; exact ⟨fun _ => ⟨h, hu⟩, fun _ => ⟨x, rfl⟩⟩
    · rw [hx]
      simp only
      constructor
      · rintro ⟨x, hx⟩; split at hx <;> cases hx
      · rintro ⟨-, hu'⟩; exact absurd hu' hu
  · rename_i h
    exact ⟨fun ⟨x, hx⟩ => by (cases hx), fun hh => absurd hh.1 h⟩

theorem id_inj : ∀ {b : List Line}, b.Pairwise (fun x y => x.id ≠ y.id) → ∀ x ∈ b, ∀ y ∈ b, x.id = y.id → x = y
  | [], _, x, hx, _, _, _ => by cases hx
  | z :: zs, h, x, hx, y, hy, he => by
    rw [List.pairwise_cons] at h
    rcases List.mem_cons.mp hx with hx1 | hx2 <;> rcases List.mem_cons.mp hy with hy1 | hy2
    · rw [hx1, hy1]
    · exact absurd (hx1 ▸ he) (h.1 y hy2)
    · exact absurd (hy1 ▸ he).symm (h.1 x hx2)
    · exact id_inj h.2 x hx2 y hy2 he

theorem eq_of_ids : ∀ {a b : List Line}, a.Perm b → (b.map Line.id).Nodup → a.map Line.id = b.map Line.id → a = b := by
  intro a b hp hd he
  have hinj : ∀ x ∈ b, ∀ y ∈ b, x.id = y.id → x = y := by
    intro x hx y hy h
    rw [List.Nodup, List.pairwise_map] at hd
    exact id_inj hd x hx y hy h
  have hl : a.length = b.length := hp.length_eq
  apply List.ext_getElem hl
  intro i h1 h2
  refine hinj _ (hp.mem_iff.mp (List.getElem_mem h1)) _ (List.getElem_mem h2) ?_
  have := congrArg (fun l => l[i]?) he
  simpa [List.getElem?_eq_getElem h1, List.getElem?_eq_getElem h2] using this

/-- C104: when it does not fail, the rule reports a class exactly when it has the directive and its assignments are not in order. -/
theorem C104_reports (body : List Line) (hd : (body.map Line.id).Nodup) (r : Option (List Line)) (h : sortAttributes body = .ok r) : r.isSome = true ↔ Directive body ∧ ¬ InOrder body := by
  have hids : ((body.filter (fun l => Assigns l)).map Line.id).Nodup := (List.Sublist.map _ List.filter_sublist).nodup hd
  unfold sortAttributes at h
  rw [← hasDirective_iff]
  split at h
  · rename_i hdir
    obtain ⟨pre, rest, hb, h1, h2, h3⟩ := partLines_false body
    rw [h3] at h
    simp only at h
    rcases sortLines_cases body with ⟨hu, x, hx⟩ | ⟨hu, hx⟩
    · rw [hx] at h; cases h
    · rw [hx] at h
      simp only at h
      split at h
      · rename_i he
        cases h
        have hs := eq_of_ids (sortBy_perm _ _) hids he
        have : InOrder body := by
          unfold InOrder
          have := sortBy_sorted attributeOf (body.filter (fun l => Assigns l))
          rw [hs] at this
          exact this
        exact ⟨fun h => by (cases h), fun h => absurd this h.2⟩
      · rename_i he
        cases h
        refine ⟨fun _ => ⟨hdir, fun hin => he ?_⟩, fun _ => rfl⟩
        rw [sortBy_of_sorted attributeOf _ hin]
  · rename_i hdir
    cases h
    exact ⟨fun h => by (cases h), fun h => absurd h.1 hdir⟩

/-- C104: the fix is the sorted body. -/
theorem C104_fix (body new : List Line) (h : sortAttributes body = .ok (some new)) : SortedBody body new := by
  unfold sortAttributes at h
  split at h
  · obtain ⟨pre, rest, hb, h1, h2, h3⟩ := partLines_false body
    rw [h3] at h
    simp only at h
    rcases sortLines_cases body with ⟨hu, x, hx⟩ | ⟨hu, hx⟩
    · rw [hx] at h; cases h
    · rw [hx] at h
      simp only at h
      split at h
      · cases h
      · cases h
        exact ⟨pre, rest, _, hb, h1, h2, rfl, sortBy_perm _ _, sortBy_sorted attributeOf _, fun s => sortBy_stable attributeOf s _⟩
  · cases h

theorem filter_none {l : List Line} (h : ∀ x ∈ l, ¬ Assigns x) : l.filter (fun l => Assigns l) = [] := by
  rw [List.filter_eq_nil_iff]; intro x hx; simpa using h x hx

/-- C104: the fix only moves lines. -/
theorem C104_perm (body new : List Line) (h : sortAttributes body = .ok (some new)) : new.Perm body := by
  obtain ⟨pre, rest, mid, rfl, h1, h2, rfl, hp, -, -⟩ := (C104_fix body new h).parts
  rw [List.append_assoc]
  refine List.Perm.append_left pre ?_
  rw [List.filter_append, filter_none h1, List.nil_append] at hp
  refine (List.Perm.append_right _ hp).trans ?_
  have := List.filter_append_perm (fun l => decide (Assigns l)) rest
  simpa using this

/-- C104: a class that was fixed is not reported again. -/
theorem C104_idempotent (body new : List Line) (hd : (body.map Line.id).Nodup) (h : sortAttributes body = .ok (some new)) : sortAttributes new = .ok none := by
  have hperm := C104_perm body new h
  have hd' : (new.map Line.id).Nodup := ((hperm.map Line.id).nodup_iff).mpr hd
  have hfix := C104_fix body new h
  have hdir := ((C104_reports body hd _ h).mp rfl).1
  have hnotraise : ¬ Unsortable body := fun hu => by
    obtain ⟨x, hx⟩ := (C104_raises body).mpr ⟨hdir, hu⟩
    rw [h] at hx
    cases hx
  have hu : ¬ Unsortable new := by
    intro hu
    apply hnotraise
    rcases hu with ⟨l, hl, hk⟩ | ⟨hlen, l, hl, hk⟩
    · exact .inl ⟨l, hperm.mem_iff.mp hl, hk⟩
    · refine .inr ⟨?_, l, hperm.mem_iff.mp hl, hk⟩
      rw [← (hperm.filter _).length_eq]; exact hlen
  have hin : InOrder new := by
    obtain ⟨pre, rest, mid, -, h1, -, rfl, hp, hs, -⟩ := hfix.parts
    unfold InOrder
    have hmid : mid.filter (fun l => Assigns l) = mid := by
      rw [List.filter_eq_self]
      intro x hx
      exact (List.mem_filter.mp (hp.mem_iff.mp hx)).2
    rw [List.filter_append, List.filter_append, filter_none h1, hmid, List.nil_append,
      filter_none (l := rest.filter (fun l => ¬ Assigns l)) (fun x hx => by simpa using (List.mem_filter.mp hx).2), List.append_nil]
    exact hs
  cases hr : sortAttributes new with
  | error x =>
    exact absurd ((C104_raises new).mp ⟨x, hr⟩).2 hu
  | ok r =>
    cases r with
    | none => rfl
    | some new' => exact absurd hin ((C104_reports new hd' _ hr).mp rfl).2

/-! ## Cases -/

/-- The doc string. -/
def sortedDoc : Line := ⟨0, .doc (py "@sorted-attributes")⟩
/-- `<s> = …` -/
def setLine (i : Nat) (s : PStr) : Line := ⟨i, .assign (.name s)⟩

example : sortAttributes [sortedDoc, setLine 1 (py "b"), setLine 2 (py "a"), setLine 3 (py "b")] = .ok (some [sortedDoc, setLine 2 (py "a"), setLine 1 (py "b"), setLine 3 (py "b")]) := by decide +kernel
example : sortAttributes [sortedDoc, setLine 1 (py "a"), setLine 2 (py "b")] = .ok none := by decide +kernel
example : (([sortedDoc, setLine 1 (py "b"), setLine 2 (py "a"), setLine 3 (py "b")] : List Line).map Line.id).Nodup := by decide +kernel

/-- A finding: lines between the assignments move behind all of them: `B = 1`, `def f(self, x=B): …`, `A = f` becomes `A = f`, `B = 1`, `def f…`, and the class statement fails with a `NameError`. -/
theorem C104_moves_between : sortAttributes [sortedDoc, setLine 1 (py "B"), ⟨2, .other⟩, setLine 3 (py "A")] = .ok (some [sortedDoc, setLine 3 (py "A"), setLine 1 (py "B"), ⟨2, .other⟩]) := by decide +kernel

/-- A finding: `x.y = 1` in such a class fails the file when there is another assignment. -/
theorem C104_attribute_target : sortAttributes [sortedDoc, setLine 1 (py "a"), ⟨2, .assign .node⟩] = .error .type := by decide +kernel

/-- A finding: `a, b = 1, 2` always fails the file. -/
theorem C104_tuple_target : sortAttributes [sortedDoc, ⟨2, .assign .sequence⟩] = .error .attribute := by decide +kernel

end Cst
