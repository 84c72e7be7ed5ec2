import Verif.Props.RulesQuoted

/-!
# C101: DeprecatedABCImport
-/

namespace Cst
open Py Fixit Spec

theorem abcs_eq : abcs = movedAbcs := rfl

theorem nameText_eq (e : Expr) : e.nameText = plainName e := by
  unfold Expr.nameText plainName
  cases e.core <;> rfl

/-- What the model looks at in an import, in the words of the specification. -/
theorem collectionsNames_eq (d : Nat) (m : Option Expr) (ns : Option (List ImportName)) :
    collectionsNames (.importFrom d m ns) = if fromCollections m && ns.isSome then some (importNames ns) else none := by
  cases m with
  | none => cases ns <;> rfl
  | some m =>
    cases ns with
    | none => simp [collectionsNames]
    | some as =>
      simp only [collectionsNames, fromCollections, nameText_eq, plainName, Option.isSome_some, Bool.and_true, importNames]
      cases m.core with
      | name s =>
        by_cases h : s = py "collections"
        · subst h; simp
        · simp [h]
      | _ => simp

/-- Whether the import is one that must be split. -/
theorem mixed_iff (d : Nat) (m : Option Expr) (ns : Option (List ImportName)) :
    (fromCollections m && (importNames ns).any (abcs.contains ·)) = true ∧ ¬ (importNames ns).all (abcs.contains ·) = true ↔
      ∃ names, collectionsNames (.importFrom d m ns) = some names ∧ Mixed names := by
  rw [collectionsNames_eq]
  simp only [Bool.and_eq_true, List.any_eq_true, List.all_eq_true, List.contains_iff_mem, abcs_eq, Classical.not_forall]
  constructor
  · rintro ⟨⟨h1, n, h2, h3⟩, m', h4, h5⟩
    have hs : ns.isSome = true := by
      cases ns with
      | none => cases h2
      | some _ => rfl
    exact ⟨importNames ns, by rw [if_pos ⟨h1, hs⟩], ⟨n, h2, h3⟩, m', h4, h5⟩
  · rintro ⟨names, h, ⟨n, h2, h3⟩, m', h4, h5⟩
    split at h
    · rename_i hc
      cases h
      exact ⟨⟨hc.1, n, h2, h3⟩, m', h4, h5⟩
    · cases h

/-- Whether all names moved. -/
theorem allMoved_iff (d : Nat) (m : Option Expr) (ns : Option (List ImportName)) :
    (fromCollections m && (importNames ns).any (abcs.contains ·)) = true ∧ (importNames ns).all (abcs.contains ·) = true ↔
      ∃ names, collectionsNames (.importFrom d m ns) = some names ∧ names ≠ [] ∧ ∀ n ∈ names, n ∈ movedAbcs := by
  rw [collectionsNames_eq]
  simp only [Bool.and_eq_true, List.any_eq_true, List.all_eq_true, List.contains_iff_mem, abcs_eq]
  constructor
  · rintro ⟨⟨h1, n, h2, h3⟩, h4⟩
    have hs : ns.isSome = true := by
      cases ns with
      | none => cases h2
      | some _ => rfl
    exact ⟨importNames ns, by rw [if_pos ⟨h1, hs⟩], List.ne_nil_of_mem h2, h4⟩
  · rintro ⟨names, h, h2, h3⟩
    split at h
    · rename_i hc
      cases h
      obtain ⟨n, hn⟩ := List.exists_mem_of_ne_nil _ h2
      exact ⟨⟨hc.1, n, hn, h3 n hn⟩, h3⟩
    · cases h

/-! ## Below an except clause -/

mutual
theorem belowExcept_mem (id : Nat) : ∀ (t : Syn) (b : Bool), belowExcept id b t = true → id ∈ t.ids
  | .node i l ks, b, h => by
    rw [belowExcept, Bool.or_eq_true] at h
    rw [Syn.ids, List.mem_cons]
    rcases h with h | h
    · simp only [Bool.and_eq_true, beq_iff_eq] at h; exact .inl h.1.symm
    · exact .inr (belowExceptAny_mem id ks _ h)
theorem belowExceptAny_mem (id : Nat) : ∀ (ks : List Syn) (b : Bool), belowExceptAny id b ks = true → id ∈ Syn.idsAll ks
  | [], b, h => by cases h
  | k :: ks, b, h => by
    rw [belowExceptAny, Bool.or_eq_true] at h
    rw [Syn.idsAll, List.mem_append]
    rcases h with h | h
    · exact .inl (belowExcept_mem id k b h)
    · exact .inr (belowExceptAny_mem id ks b h)
end

theorem idsAll_append : ∀ a b : List Syn, Syn.idsAll (a ++ b) = Syn.idsAll a ++ Syn.idsAll b
  | [], b => by simp [Syn.idsAll]
  | x :: a, b => by simp [Syn.idsAll, idsAll_append a b]

theorem belowExceptAny_append (id : Nat) (b : Bool) : ∀ xs ys : List Syn, belowExceptAny id b (xs ++ ys) = (belowExceptAny id b xs || belowExceptAny id b ys)
  | [], ys => by simp [belowExceptAny]
  | x :: xs, ys => by simp [belowExceptAny, belowExceptAny_append id b xs ys, Bool.or_assoc]

/-- Whether some node on the way is an `except` clause. -/
def exceptIn (way : List Frame) : Bool := way.any (fun f => f.label.isExcept)

theorem exceptIn_iff (way : List Frame) : exceptIn way = true ↔ InExcept way := by
  simp only [exceptIn, List.any_eq_true, InExcept]
  refine exists_congr fun f => and_congr_right fun _ => ?_
  cases hf : f.label <;> simp [Label.isExcept]

theorem at_mem {way : List Frame} {n t : Syn} (h : At way n t) : n.id ∈ t.ids := by
  induction h with
  | here t => obtain ⟨i, l, ks⟩ := t; simp [Syn.id, Syn.ids]
  | down i l before after k way n h ih => simp [Syn.ids, idsAll_append, Syn.idsAll, ih]

/-- With different nodes, looking for a node from the top finds it at its position. -/
theorem belowExcept_at {way : List Frame} {n t : Syn} (h : At way n t) : ∀ b, t.ids.Nodup → belowExcept n.id b t = (b || exceptIn way) := by
  induction h with
  | here t =>
    intro b hd
    obtain ⟨i, l, ks⟩ := t
    rw [Syn.ids, List.nodup_cons] at hd
    have : belowExceptAny i (b || l.isExcept) ks = false := by
      rw [← Bool.not_eq_true]
      exact fun h => hd.1 (belowExceptAny_mem i ks _ h)
    simp only [belowExcept, Syn.id]
    rw [this]
    simp [exceptIn]
  | down i l before after k way n h ih =>
    intro b hd
    rw [Syn.ids, List.nodup_cons, idsAll_append] at hd
    have hn := at_mem h
    have hbk := List.nodup_append.mp hd.2
    have hka := List.nodup_append.mp (show (k.ids ++ Syn.idsAll after).Nodup from hbk.2.1)
    have hi : n.id ≠ i := by
      rintro rfl
      exact hd.1 (by simp [Syn.idsAll, hn])
    have hb : ∀ c, belowExceptAny n.id c before = false := by
      intro c
      rw [← Bool.not_eq_true]
      exact fun h => hbk.2.2 _ (belowExceptAny_mem _ _ _ h) n.id (by simp [Syn.idsAll, hn]) rfl
    have ha : ∀ c, belowExceptAny n.id c after = false := by
      intro c
      rw [← Bool.not_eq_true]
      exact fun h => hka.2.2 _ hn _ (belowExceptAny_mem _ _ _ h) rfl
    have hi' : (i == n.id) = false := by simp [Ne.symm hi]
    rw [belowExcept, hi', belowExceptAny_append, hb, belowExceptAny, ha, ih _ hka.1]
    simp [exceptIn, Bool.or_assoc]

theorem at_trans {way way' : List Frame} {n m t : Syn} (h : At way m t) (h' : At way' n m) : At (way ++ way') n t := by
  induction h with
  | here t => exact h'
  | down i l before after k way n h ih => exact .down i l before after k _ _ (ih h')

/-! ## The state of the rule -/

/-- How the rule's state changes. -/
def abcTrack (root : Syn) (s : Option (List PStr)) : Ev → Option (List PStr)
  | .visit i (.importFrom _ m ns) =>
    if belowExcept i false root then s
    else if fromCollections m && (importNames ns).any (abcs.contains ·) then
      if (importNames ns).all (abcs.contains ·) then s else some (importNames ns)
    else s
  | _ => s

/-- What the rule reports. -/
def abcOut (root : Syn) (s : Option (List PStr)) : Ev → Except Err (List Rep)
  | .visit i (.importFrom _ m ns) =>
    .ok (if belowExcept i false root then []
      else if fromCollections m && (importNames ns).any (abcs.contains ·) then
        if (importNames ns).all (abcs.contains ·) then [{ node := i, change := some (.fromModule collectionsAbc) }] else []
      else [])
  | .leave i .module => match s with
    | none => .ok []
    | some names => .ok [{ node := i, change := some (.body (splitImports names root.kids)) }]
  | .visit i (.importAlias a) => match collectionsDot a.name with
    | some n => .ok [{ node := i, change := some (.alias (collectionsAbcDot n) a.asname) }]
    | none => .ok []
  | .visit i (.classDef _ _ bases) =>
    .ok ((bases.filter (fun b => (collectionsDot b.2.value).isSome)).map (fun _ => { node := i, change := some (.bases (bases.map (fun b => newBase b.2))) }))
  | _ => .ok []

theorem abcRule_tracked (root : Syn) : Tracked (abcRule root).methods (abcRule root).on (abcTrack root) (abcOut root) where
  mem st s e _ := by
    cases e with
    | visit i l =>
      cases l with
      | importFrom d m ns =>
        simp only [abcRule, VRule.simple, abcOut, abcTrack]
        generalize belowExcept i false root = b1
        generalize (fromCollections m && (importNames ns).any fun x => abcs.contains x) = b2
        generalize ((importNames ns).all fun x => abcs.contains x) = b3
        cases b1 <;> cases b2 <;> cases b3 <;> rfl
      | importAlias a =>
        simp only [abcRule, VRule.simple, abcOut, abcTrack]
        cases collectionsDot a.name <;> rfl
      | _ => rfl
    | leave i l =>
      cases l with
      | module => cases s <;> rfl
      | _ => rfl
  other s e hm := by
    cases e with
    | visit i l => cases l <;> first | exact ⟨rfl, rfl⟩ | (exfalso; apply hm; simp [Ev.method, Label.typeName, abcRule, VRule.simple])
    | leave i l => cases l <;> first | exact ⟨rfl, rfl⟩ | (exfalso; apply hm; simp [Ev.method, Label.typeName, abcRule, VRule.simple])

theorem abcTrack_import (root : Syn) (s : Option (List PStr)) (i d : Nat) (m : Option Expr) (ns : Option (List ImportName)) :
    abcTrack root s (.visit i (.importFrom d m ns)) =
      if belowExcept i false root then s else (((collectionsNames (.importFrom d m ns)).toList.filter (fun ns => Mixed ns)).getLast?).or s := by
  simp only [abcTrack]
  by_cases hb : belowExcept i false root = true
  · rw [if_pos hb, if_pos hb]
  · rw [if_neg hb, if_neg hb]
    have hm := mixed_iff d m ns
    by_cases hc : ∃ names, collectionsNames (.importFrom d m ns) = some names ∧ Mixed names
    · obtain ⟨h1, h2⟩ := hm.mpr hc
      rw [if_pos h1, if_neg h2]
      obtain ⟨names, hn, hmx⟩ := hc
      have : importNames ns = names := by
        rw [collectionsNames_eq] at hn
        split at hn
        · cases hn; rfl
        · cases hn
      rw [hn, this]
      simp [hmx]
    · have hr : ((collectionsNames (.importFrom d m ns)).toList.filter (fun ns => Mixed ns)).getLast?.or s = s := by
        cases hn : collectionsNames (.importFrom d m ns) with
        | none => simp
        | some names =>
          have : ¬ Mixed names := fun h => hc ⟨names, hn, h⟩
          simp [this]
      rw [hr]
      by_cases h1 : (fromCollections m && (importNames ns).any (abcs.contains ·)) = true
      · rw [if_pos h1]
        by_cases h2 : (importNames ns).all (abcs.contains ·) = true
        · rw [if_pos h2]
        · exact absurd (hm.mp ⟨h1, h2⟩) hc
      · rw [if_neg h1]

theorem getLast?_append_or {α : Type} (a b : List α) (s : Option α) : (a ++ b).getLast?.or s = b.getLast?.or (a.getLast?.or s) := by
  rw [List.getLast?_append]
  cases b.getLast? <;> rfl

mutual
theorem abcTrack_events (root : Syn) (hd : root.ids.Nodup) : ∀ (t : Syn) (way : List Frame), At way t root → ∀ s,
    t.events.foldl (abcTrack root) s = ((collectionsImports (exceptIn way) t).filter (fun ns => Mixed ns)).getLast?.or s
  | .node i l ks, way, hat, s => by
    rw [Syn.events, List.foldl_cons, List.foldl_append, List.foldl_cons, List.foldl_nil]
    have hleave : ∀ s, abcTrack root s (.leave i l) = s := fun s => by cases l <;> rfl
    have hvisit : abcTrack root s (.visit i l) = (((if exceptIn way then [] else (collectionsNames l).toList)).filter (fun ns => Mixed ns)).getLast?.or s := by
      cases l with
      | importFrom d m ns =>
        rw [abcTrack_import]
        have := belowExcept_at hat false hd
        simp only [Syn.id, Bool.false_or] at this
        rw [this]
        cases exceptIn way <;> simp
      | _ => cases exceptIn way <;> simp [abcTrack, collectionsNames]
    rw [hleave, hvisit, abcTrack_eventsAll root hd i l [] ks way hat]
    rw [collectionsImports, List.filter_append, getLast?_append_or]
theorem abcTrack_eventsAll (root : Syn) (hd : root.ids.Nodup) (i : Nat) (l : Label) : ∀ (before ks : List Syn) (way : List Frame), At way (.node i l (before ++ ks)) root → ∀ s,
    (Syn.eventsAll ks).foldl (abcTrack root) s =
      ((collectionsImportsAll (exceptIn way || l.isExcept) ks).filter (fun ns => Mixed ns)).getLast?.or s
  | before, [], way, hat, s => by simp [Syn.eventsAll, collectionsImportsAll]
  | before, k :: ks, way, hat, s => by
    have hk : At (way ++ [⟨i, l, before⟩]) k root := at_trans hat (.down i l before ks k [] k (.here k))
    have he : exceptIn (way ++ [⟨i, l, before⟩]) = (exceptIn way || l.isExcept) := by
      simp [exceptIn]
    rw [Syn.eventsAll, List.foldl_append, abcTrack_events root hd k _ hk s, he, collectionsImportsAll, List.filter_append, getLast?_append_or]
    exact abcTrack_eventsAll root hd i l (before ++ [k]) ks way (by simpa using hat) _
end


/-! ## Splitting -/

mutual
theorem hasImport_iff (names : List PStr) : ∀ s : Syn, hasImport names s = true ↔ ImportsExactly names s
  | .node i l ks => by
    rw [hasImport, Bool.or_eq_true, hasImportAny_iff names ks]
    have hzip : ∀ (as : List ImportName) (ns : List PStr), (as.length == ns.length && (as.zip ns).all (fun p => p.1.name.isName p.2)) = true ↔ as.map (fun a => a.name.core) = ns.map Expr.name := by
      intro as
      induction as with
      | nil => intro ns; cases ns <;> simp
      | cons a as ih =>
        intro ns
        cases ns with
        | nil => simp
        | cons n ns =>
          have := ih ns
          simp only [Bool.and_eq_true, beq_iff_eq, List.all_eq_true, isName_iff] at this
          simp only [List.length_cons, List.zip_cons_cons, List.all_cons, Bool.and_eq_true, beq_iff_eq, isName_iff, List.map_cons, List.cons.injEq, Nat.add_right_cancel_iff,
            List.all_eq_true]
          rw [← this]
          constructor
          · rintro ⟨h1, h2, h3⟩; exact ⟨h2, h1, h3⟩
          · rintro ⟨h2, h1, h3⟩; exact ⟨h1, h2, h3⟩
    constructor
    · rintro (h | ⟨k, hk, j, d, m, as, js, hw, h1, h2⟩)
      · cases l with
        | importFrom d m as =>
          cases m with
          | none => cases h
          | some m =>
            cases as with
            | none => cases h
            | some as =>
              rw [Label.importsExactly, Bool.and_eq_true, isName_iff, hzip] at h
              exact ⟨i, d, m, as, ks, Within.refl _, h.1, h.2⟩
        | _ => cases h
      · exact ⟨j, d, m, as, js, Within.down hw hk, h1, h2⟩
    · rintro ⟨j, d, m, as, js, hw, h1, h2⟩
      rcases Within.cases hw with e | ⟨k, hk, hw⟩
      · cases e
        refine .inl ?_
        rw [Label.importsExactly, Bool.and_eq_true, isName_iff, hzip]
        exact ⟨h1, h2⟩
      · exact .inr ⟨k, hk, j, d, m, as, js, hw, h1, h2⟩
theorem hasImportAny_iff (names : List PStr) : ∀ ks : List Syn, hasImportAny names ks = true ↔ ∃ k ∈ ks, ImportsExactly names k
  | [] => by simp [hasImportAny]
  | k :: ks => by rw [hasImportAny, Bool.or_eq_true, hasImport_iff names k, hasImportAny_iff names ks]; simp
end

theorem splitImports_split (names : List PStr) : ∀ ss : List Syn, SplitBody names ss (splitImports names ss)
  | [] => .nil
  | s :: ss => by
    have ih := splitImports_split names ss
    rw [splitImports]
    by_cases hi : hasImport names s = true
    · rw [if_pos hi]
      have e1 : names.filter (fun n => !abcs.contains n) = names.filter (fun n => n ∉ movedAbcs) := by
        congr 1; funext n; simp [abcs_eq]
      have e2 : names.filter (fun n => abcs.contains n) = names.filter (fun n => n ∈ movedAbcs) := by
        congr 1; funext n; simp [abcs_eq]
      rw [e1, e2]
      exact .replaced s ss _ ((hasImport_iff names s).mp hi) ih
    · rw [if_neg hi]
      exact .kept s ss _ (fun h => hi ((hasImport_iff names s).mpr h)) ih

theorem splitBody_unique {names : List PStr} : ∀ {ss a b : List Syn}, SplitBody names ss a → SplitBody names ss b → a = b
  | _, _, _, .nil, .nil => rfl
  | _, _, _, .kept s ss new h hs, .kept _ _ new' h' hs' => by rw [splitBody_unique hs hs']
  | _, _, _, .kept s ss new h hs, .replaced _ _ new' h' hs' => absurd h' h
  | _, _, _, .replaced s ss new h hs, .kept _ _ new' h' hs' => absurd h h'
  | _, _, _, .replaced s ss new h hs, .replaced _ _ new' h' hs' => by rw [splitBody_unique hs hs']

/-! ## Reports -/

theorem collectionsDot_iff (e : Expr) (x : PStr) : collectionsDot e = some x ↔ OldAbc e x := by
  unfold collectionsDot OldAbc
  cases hc : e.core with
  | attr v a =>
    simp only
    split
    · rename_i h
      rw [Bool.and_eq_true, isName_iff, List.contains_iff_mem, abcs_eq] at h
      constructor
      · intro h'; cases h'; exact ⟨v, rfl, h.1, h.2⟩
      · rintro ⟨v', e1, -, -⟩; cases e1; rfl
    · rename_i h
      rw [Bool.and_eq_true, isName_iff, List.contains_iff_mem, abcs_eq] at h
      constructor
      · intro h'; cases h'
      · rintro ⟨v', e1, h1, h2⟩; cases e1; exact absurd ⟨h1, h2⟩ h
  | _ => exact ⟨fun h => by (cases h), fun ⟨_, h, _⟩ => by (cases h)⟩

theorem newBase_new (b : Arg) : NewBase b (newBase b) := by
  unfold newBase
  cases h : collectionsDot b.value with
  | none => exact .same b (fun x hx => by rw [(collectionsDot_iff _ _).mpr hx] at h; cases h)
  | some x => exact .moved b x ((collectionsDot_iff _ _).mp h)

theorem newBase_unique {b b1 b2 : Arg} (h1 : NewBase b b1) (h2 : NewBase b b2) : b1 = b2 := by
  cases h1 with
  | moved x h =>
    cases h2 with
    | moved x' h' =>
      have := (collectionsDot_iff _ _).mpr h
      rw [(collectionsDot_iff _ _).mpr h'] at this
      cases this
      rfl
    | same h' => exact absurd h (h' x)
  | same h =>
    cases h2 with
    | moved x' h' => exact absurd h' (h x')
    | same h' => rfl

/-- C101: the rule never fails, and reports exactly this. -/
theorem C101_reports (meta_ : Store) (t : Syn) (ht : IsModule t) (hd : t.ids.Nodup) : ∃ reps, (abcRule t).alone meta_ t = .ok reps ∧ ∀ rep, rep ∈ reps ↔ AbcReport t rep := by
  have hT := abcRule_tracked t
  have hno : ¬ ∃ x, (abcRule t).alone meta_ t = .error x := by
    intro hx
    obtain ⟨way, i, l, ks, -, ⟨x, hx⟩ | ⟨x, hx⟩⟩ := (hT.error_alone meta_ t).mp hx
    · cases l with
      | importAlias a =>
        simp only [abcOut] at hx
        cases hc : collectionsDot a.name <;> (rw [hc] at hx; cases hx)
      | _ => cases hx
    · cases l with
      | module =>
        simp only [abcOut] at hx
        split at hx <;> cases hx
      | _ => cases hx
  cases ha : (abcRule t).alone meta_ t with
  | error x => exact absurd ⟨x, ha⟩ hno
  | ok reps =>
  refine ⟨reps, rfl, fun rep => ?_⟩
  rw [hT.mem_alone meta_ t reps ha rep]
  have hbelow : ∀ (way : List Frame) (i : Nat) (l : Label) (ks : List Syn), At way (.node i l ks) t → belowExcept i false t = exceptIn way := by
    intro way i l ks hat
    have := belowExcept_at hat false hd
    simpa [Syn.id] using this
  -- the end of the module
  have hlast : ∀ ks i, t = .node i .module ks → (Syn.eventsAll ks).foldl (abcTrack t) none = lastMixed t := by
    intro ks i ht'
    have hall := abcTrack_eventsAll t hd i .module [] ks [] (by rw [ht']; exact .here _) none
    rw [hall, ht', lastMixed, collectionsImports]
    simp [collectionsNames, exceptIn, Label.isExcept]
  constructor
  · rintro ⟨way, i, l, ks, hat, ⟨out, ho, hm⟩ | ⟨out, ho, hm⟩⟩
    · cases l with
      | importFrom d m ns =>
        cases ho
        rw [hbelow way i _ ks hat] at hm
        split at hm
        · cases hm
        · rename_i hex
          split at hm
          · rename_i h1
            split at hm
            · rename_i h2
              rw [List.mem_singleton] at hm
              subst hm
              obtain ⟨names, hn, hne, hall⟩ := (allMoved_iff d m ns).mp ⟨h1, h2⟩
              exact .from_ way i _ ks names hat hn hne hall (fun h => hex ((exceptIn_iff way).mpr h))
            · cases hm
          · cases hm
      | importAlias a =>
        have ho : abcOut t _ (.visit i (.importAlias a)) = .ok out := ho
        simp only [abcOut] at ho
        cases hc : collectionsDot a.name with
        | none => rw [hc] at ho; cases ho; cases hm
        | some x =>
          rw [hc] at ho
          cases ho
          rw [List.mem_singleton] at hm
          subst hm
          exact .import_ way i a ks x hat ((collectionsDot_iff _ _).mp hc)
      | classDef c n bases =>
        cases ho
        obtain ⟨b, hb, rfl⟩ := List.mem_map.mp hm
        rw [List.mem_filter] at hb
        obtain ⟨x, hx⟩ := Option.isSome_iff_exists.mp hb.2
        refine .base way i c n bases ks _ hat ⟨b, hb.1, x, (collectionsDot_iff _ _).mp hx⟩ (by simp) ?_
        intro j b1 b2 h1 h2
        rw [List.getElem?_map, h1] at h2
        cases h2
        exact newBase_new b1.2
      | _ => cases ho; cases hm
    · cases l with
      | module =>
        obtain ⟨r, rl, rks⟩ := t
        have hroot : rl = .module := ht.1
        subst hroot
        have hway : way = [] ∧ Syn.node i .module ks = .node r .module rks := by
          cases hat with
          | here => exact ⟨rfl, rfl⟩
          | down _ _ before after k way _ h => exact absurd ⟨way, h⟩ (ht.2 k (by simp [Syn.kids]) i ks)
        obtain ⟨rfl, e⟩ := hway
        cases e
        have ho : abcOut (.node i .module ks) ((Syn.eventsAll ks).foldl (abcTrack (.node i .module ks)) none) (.leave i .module) = .ok out := ho
        rw [hlast ks i rfl] at ho
        cases hl : lastMixed (.node i .module ks) with
        | none => rw [hl] at ho; cases ho; cases hm
        | some names =>
          rw [hl] at ho
          cases ho
          rw [List.mem_singleton] at hm
          subst hm
          exact .mixed names _ hl (splitImports_split names ks)
      | _ => cases ho; cases hm
  · intro h
    cases h with
    | from_ way i l ks names hat hn hne hall hx =>
      refine ⟨way, i, l, ks, hat, .inl ?_⟩
      cases l with
      | importFrom d m ns =>
        refine ⟨_, rfl, ?_⟩
        obtain ⟨h1, h2⟩ := (allMoved_iff d m ns).mpr ⟨names, hn, hne, hall⟩
        rw [hbelow way i _ ks hat, if_neg (fun h => hx ((exceptIn_iff way).mp h)), if_pos h1, if_pos h2]
        exact List.mem_singleton.mpr rfl
      | _ => cases hn
    | mixed names body hm hb =>
      obtain ⟨r, rl, rks⟩ := t
      have hroot : rl = .module := ht.1
      subst hroot
      refine ⟨[], r, _, rks, .here _, .inr ⟨[{ node := r, change := some (.body (splitImports names rks)) }], ?_, ?_⟩⟩
      · show abcOut (.node r .module rks) ((Syn.eventsAll rks).foldl (abcTrack (.node r .module rks)) none) (.leave r .module) = _
        rw [hlast rks r rfl, hm]
        rfl
      · rw [splitBody_unique hb (splitImports_split names rks)]
        exact List.mem_singleton.mpr rfl
    | import_ way i a ks x hat ha =>
      refine ⟨way, i, _, ks, hat, .inl ⟨[{ node := i, change := some (.alias (collectionsAbcDot x) a.asname) }], ?_, List.mem_singleton.mpr rfl⟩⟩
      simp only [abcOut]
      rw [(collectionsDot_iff _ _).mpr ha]
    | base way i c n bases ks new hat hb hl hnew =>
      refine ⟨way, i, _, ks, hat, .inl ⟨_, rfl, ?_⟩⟩
      obtain ⟨b, hb, x, hx⟩ := hb
      refine List.mem_map.mpr ⟨b, List.mem_filter.mpr ⟨hb, by rw [(collectionsDot_iff _ _).mpr hx]; rfl⟩, ?_⟩
      have : new = bases.map (fun b => newBase b.2) := by
        apply List.ext_getElem?
        intro j
        cases hj : bases[j]? with
        | none =>
          rw [List.getElem?_map, hj, Option.map_none]
          rw [List.getElem?_eq_none_iff] at hj ⊢
          omega
        | some b1 =>
          have hlt : j < new.length := by
            have := (List.getElem?_eq_some_iff.mp hj).1
            omega
          rw [List.getElem?_map, hj, List.getElem?_eq_getElem hlt]
          have := hnew j b1 _ hj (List.getElem?_eq_getElem hlt)
          rw [newBase_unique this (newBase_new b1.2)]
          rfl
      rw [this]

/-! ## Cases -/

/-- `from <m> import <names>` in a module. -/
def fromNode (i : Nat) (dots : Nat) (m : PStr) (names : List (PStr × Option PStr)) : Syn :=
  .node i (.importFrom dots (some (.name m)) (some (names.map (fun n => ⟨0, .name n.1, n.2.map .name⟩)))) []

def abcCase (kids : List Syn) : Except Err (List Rep) := (abcRule (.node 0 .module kids)).alone (fun _ => []) (.node 0 .module kids)

/-- `from collections import Mapping, Set` in a function and in an `except` clause: only the first is reported. -/
example : (abcCase [.node 1 (.funcDef false) [fromNode 2 0 (py "collections") [(py "Mapping", none), (py "Set", none)]],
    .node 3 (.other (py "Try")) [.node 4 .exceptHandler [fromNode 5 0 (py "collections") [(py "Mapping", none)]]]]).map (·.map (·.node)) = .ok [2] := by decide +kernel

/-- `from collections import Mapping, deque` becomes two imports. -/
example : ∃ reps, abcCase [fromNode 2 0 (py "collections") [(py "Mapping", none), (py "deque", none)], .node 3 (.other (py "Pass")) []] = .ok reps ∧
    reps = [{ node := 0, message := none, change := some (.body [importStatement (.name (py "collections")) [py "deque"],
      importStatement (.attr (.name (py "collections")) (py "abc")) [py "Mapping"], .node 3 (.other (py "Pass")) []]) }] := ⟨_, rfl, rfl⟩

/-- Finding: `from collections import Mapping as M, deque` becomes `from collections import deque` and `from collections.abc import Mapping`: the name `M` is no longer bound. -/
theorem C101_alias_lost : ∃ reps, abcCase [fromNode 2 0 (py "collections") [(py "Mapping", some (py "M")), (py "deque", none)]] = .ok reps ∧
    reps = [{ node := 0, message := none, change := some (.body [importStatement (.name (py "collections")) [py "deque"],
      importStatement (.attr (.name (py "collections")) (py "abc")) [py "Mapping"]]) }] := ⟨_, rfl, rfl⟩

/-- Finding: when the import is inside a function, an `if` or a `try`, the whole compound statement is replaced by the two imports, and the rest of its body is lost. -/
theorem C101_compound_lost : ∃ reps, abcCase [.node 1 (.funcDef false) [fromNode 2 0 (py "collections") [(py "Mapping", none), (py "deque", none)], .node 3 (.other (py "Return")) []]] = .ok reps ∧
    reps = [{ node := 0, message := none, change := some (.body [importStatement (.name (py "collections")) [py "deque"],
      importStatement (.attr (.name (py "collections")) (py "abc")) [py "Mapping"]]) }] := ⟨_, rfl, rfl⟩

/-- Finding: of two such imports only the last is split. -/
theorem C101_only_last : ∃ reps, abcCase [fromNode 2 0 (py "collections") [(py "Mapping", none), (py "deque", none)], fromNode 3 0 (py "collections") [(py "Set", none), (py "deque", none)]] = .ok reps ∧
    reps = [{ node := 0, message := none, change := some (.body [fromNode 2 0 (py "collections") [(py "Mapping", none), (py "deque", none)],
      importStatement (.name (py "collections")) [py "deque"], importStatement (.attr (.name (py "collections")) (py "abc")) [py "Set"]]) }] := ⟨_, rfl, rfl⟩

/-- Finding: the leading dots are not looked at: `from .collections import Mapping`, a module of the program itself, is reported and becomes `from .collections.abc import Mapping`. -/
theorem C101_relative : ∃ reps, abcCase [fromNode 2 1 (py "collections") [(py "Mapping", none)]] = .ok reps ∧
    reps = [{ node := 2, message := none, change := some (.fromModule (.attr (.name (py "collections")) (py "abc"))) }] := ⟨_, rfl, rfl⟩

/-- Finding: a class with two such bases is reported twice, with the same fix. -/
theorem C101_twice : (abcCase [.node 1 (.classDef (py "C") 2 [(3, .pos (.attr (.name (py "collections")) (py "Set"))), (4, .pos (.attr (.name (py "collections")) (py "Sized")))]) []]).map
    (·.map (·.node)) = .ok [1, 1] := by decide +kernel

/-- The hypotheses of `C101_reports` hold of the module in `C101_compound_lost`. -/
example : IsModule (.node 0 .module [.node 1 (.funcDef false) [fromNode 2 0 (py "collections") [(py "Mapping", none), (py "deque", none)], .node 3 (.other (py "Return")) []]]) := by
  refine ⟨rfl, ?_⟩
  intro k hk i ks h
  simp only [Syn.kids, List.mem_singleton] at hk
  subst hk
  rcases Within.cases h with h | ⟨k, hk, h⟩
  · cases h
  · simp only [List.mem_cons, List.not_mem_nil, or_false] at hk
    rcases hk with rfl | rfl
    · rcases Within.cases h with h | ⟨k, hk, h⟩
      · cases h
      · cases hk
    · rcases Within.cases h with h | ⟨k, hk, h⟩
      · cases h
      · cases hk

end Cst
