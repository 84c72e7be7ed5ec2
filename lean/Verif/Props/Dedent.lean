import Verif.Spec.Testing
import Verif.Proof.Directive
import Verif.Props.Refs

/-!
# C90: how test code is read
-/

namespace Fixit
open Py Spec

theorem isBlankLine_iff (l : PStr) : isBlankLine l = true ↔ PadLine l := by
  simp [isBlankLine, PadLine, Pad]

theorem indentOf_pad (l : PStr) : PadLine (indentOf l) := by
  unfold indentOf
  induction l with
  | nil => intro c hc; cases hc
  | cons d ds ih =>
    intro c hc
    rw [List.takeWhile_cons] at hc
    split at hc
    · rename_i hd
      rcases List.mem_cons.mp hc with rfl | h
      · simpa [Pad] using hd
      · exact ih c h
    · cases hc

theorem indentOf_append (w l : PStr) (hw : PadLine w) : indentOf (w ++ l) = w ++ indentOf l := by
  unfold indentOf
  rw [List.takeWhile_append_of_pos]
  intro c hc
  simpa [Pad] using hw c hc

theorem blank_append (w l : PStr) (hw : PadLine w) : PadLine (w ++ l) ↔ PadLine l := by
  constructor
  · intro h c hc; exact h c (List.mem_append_right _ hc)
  · intro h c hc
    rcases List.mem_append.mp hc with h' | h'
    · exact hw c h'
    · exact h c h'

theorem isBlankLine_append (w l : PStr) (hw : PadLine w) : isBlankLine (w ++ l) = isBlankLine l := by
  rw [Bool.eq_iff_iff, isBlankLine_iff, isBlankLine_iff, blank_append w l hw]

theorem commonPrefix_append (w a b : PStr) : commonPrefix (w ++ a) (w ++ b) = w ++ commonPrefix a b := by
  induction w with
  | nil => rfl
  | cons c cs ih => simp [commonPrefix, ih]

theorem commonPrefix_left (a b : PStr) : commonPrefix a b <+: a := by
  induction a generalizing b with
  | nil => simp [commonPrefix]
  | cons c cs ih =>
    cases b with
    | nil => simp [commonPrefix]
    | cons d ds =>
      simp only [commonPrefix]
      split
      · exact List.cons_prefix_cons.mpr ⟨rfl, ih ds⟩
      · exact List.nil_prefix

theorem commonPrefix_right (a b : PStr) : commonPrefix a b <+: b := by
  induction a generalizing b with
  | nil => simp [commonPrefix]
  | cons c cs ih =>
    cases b with
    | nil => simp [commonPrefix]
    | cons d ds =>
      simp only [commonPrefix]
      split
      · rename_i h; subst h; exact List.cons_prefix_cons.mpr ⟨rfl, ih ds⟩
      · exact List.nil_prefix

/-- The common beginning is the longest. -/
theorem commonPrefix_max (p a b : PStr) (ha : p <+: a) (hb : p <+: b) : p <+: commonPrefix a b := by
  obtain ⟨x, rfl⟩ := ha
  obtain ⟨y, rfl⟩ := hb
  rw [commonPrefix_append]
  exact List.prefix_append _ _

theorem marginOf_blank : ∀ (ls : List PStr) (m : PStr), marginOf ls = some m → PadLine m
  | [], m, h => by cases h
  | l :: ls, m, h => by
    unfold marginOf at h
    split at h
    · exact marginOf_blank ls m h
    · cases hm : marginOf ls with
      | none =>
        rw [hm] at h
        simp only [Option.some.injEq] at h
        rw [← h]; exact indentOf_pad l
      | some m' =>
        rw [hm] at h
        simp only [Option.some.injEq] at h
        rw [← h]
        intro c hc
        exact indentOf_pad l c ((commonPrefix_left _ _).subset hc)

theorem marginOf_prefix : ∀ (ls : List PStr) (m : PStr), marginOf ls = some m → ∀ l ∈ ls, isBlankLine l = false → m <+: indentOf l
  | [], m, h => by cases h
  | l :: ls, m, h => by
    unfold marginOf at h
    intro l' hl' hb
    split at h
    · rename_i hbl
      rcases List.mem_cons.mp hl' with rfl | h'
      · rw [hbl] at hb; cases hb
      · exact marginOf_prefix ls m h l' h' hb
    · cases hm : marginOf ls with
      | none =>
        rw [hm] at h
        simp only [Option.some.injEq] at h
        rcases List.mem_cons.mp hl' with rfl | h'
        · rw [h]; exact List.prefix_refl _
        · exfalso
          clear h hl'
          induction ls with
          | nil => cases h'
          | cons k ks ih =>
            unfold marginOf at hm
            split at hm
            · rename_i hk
              rcases List.mem_cons.mp h' with rfl | h''
              · rw [hk] at hb; cases hb
              · exact ih hm h''
            · cases hks : marginOf ks <;> simp [hks] at hm
      | some m' =>
        rw [hm] at h
        simp only [Option.some.injEq] at h
        rw [← h]
        rcases List.mem_cons.mp hl' with rfl | h'
        · exact commonPrefix_left _ _
        · exact (commonPrefix_right _ _).trans (marginOf_prefix ls m' hm l' h' hb)

theorem marginOf_max : ∀ (ls : List PStr) (m p : PStr), marginOf ls = some m → (∀ l ∈ ls, isBlankLine l = false → p <+: indentOf l) → p <+: m
  | [], m, p, h, _ => by cases h
  | l :: ls, m, p, h, hp => by
    unfold marginOf at h
    split at h
    · exact marginOf_max ls m p h (fun l' hl' => hp l' (List.mem_cons_of_mem _ hl'))
    · rename_i hb
      have hl := hp l List.mem_cons_self (by simpa using hb)
      cases hm : marginOf ls with
      | none =>
        rw [hm] at h
        simp only [Option.some.injEq] at h
        rw [← h]; exact hl
      | some m' =>
        rw [hm] at h
        simp only [Option.some.injEq] at h
        rw [← h]
        exact commonPrefix_max _ _ _ hl (marginOf_max ls m' p hm (fun l' hl' => hp l' (List.mem_cons_of_mem _ hl')))

theorem marginOf_none : ∀ (ls : List PStr), marginOf ls = none → ∀ l ∈ ls, isBlankLine l = true
  | [], _ => by simp
  | l :: ls, h => by
    unfold marginOf at h
    split at h
    · rename_i hb
      intro l' hl'
      rcases List.mem_cons.mp hl' with rfl | h'
      · exact hb
      · exact marginOf_none ls h l' h'
    · cases hm : marginOf ls <;> simp [hm] at h

/-- What dedenting does to each line, given the margin. -/
def movedLine (n : Nat) (l : PStr) : PStr := if isBlankLine l then [] else l.drop n

theorem movedAll_map (m : PStr) : ∀ ls : List PStr, (∀ l ∈ ls, isBlankLine l = false → m <+: l) → MovedAll m ls (ls.map (movedLine m.length))
  | [], _ => .nil
  | l :: ls, h => by
    refine .cons ?_ (movedAll_map m ls (fun l' hl' => h l' (List.mem_cons_of_mem _ hl')))
    unfold movedLine
    by_cases hb : isBlankLine l = true
    · rw [if_pos hb]; exact .blank ((isBlankLine_iff l).mp hb)
    · rw [if_neg hb]
      obtain ⟨t, rfl⟩ := h l List.mem_cons_self (by simpa using hb)
      rw [List.drop_left]
      exact .line (fun hc => hb ((isBlankLine_iff _).mpr hc))

theorem indentOf_prefix (l : PStr) : indentOf l <+: l := List.takeWhile_prefix _

theorem nonblank_head (c : Char) (l : PStr) (hc : Pad c) (m : PStr) (hm : PadLine m) (h : [c] <+: l) : m ++ [c] <+: indentOf (m ++ l) := by
  obtain ⟨t, rfl⟩ := h
  rw [indentOf_append m _ hm]
  refine (List.prefix_append_right_inj m).mpr ?_
  have : indentOf ([c] ++ t) = [c] ++ indentOf t := indentOf_append [c] t (by intro d hd; simp at hd; rw [hd]; exact hc)
  rw [this]
  exact List.prefix_append _ _

theorem movedAll_old {m : PStr} {os ns : List PStr} (h : MovedAll m os ns) (n : PStr) (hn : n ∈ ns) (hne : n ≠ []) : m ++ n ∈ os ∧ ¬ PadLine (m ++ n) := by
  induction h with
  | nil => cases hn
  | cons hmv _ ih =>
    rcases List.mem_cons.mp hn with rfl | h'
    · cases hmv with
      | blank _ => exact absurd rfl hne
      | line hl => exact ⟨List.mem_cons_self, hl⟩
    · exact ⟨List.mem_cons_of_mem _ (ih h').1, (ih h').2⟩

theorem movedAll_new {m : PStr} {os ns : List PStr} (h : MovedAll m os ns) (o : PStr) (ho : o ∈ os) (hb : ¬ PadLine o) : ∃ n ∈ ns, o = m ++ n := by
  induction h with
  | nil => cases ho
  | cons hmv _ ih =>
    rcases List.mem_cons.mp ho with rfl | h'
    · cases hmv with
      | blank hbl => exact absurd hbl hb
      | line hl => exact ⟨_, List.mem_cons_self, rfl⟩
    · obtain ⟨n, hn, h1⟩ := ih h'
      exact ⟨n, List.mem_cons_of_mem _ hn, h1⟩

theorem textwrapDedent_eq (text : PStr) :
    textwrapDedent text = join ['\n'] ((splitOn '\n' text).map (movedLine ((marginOf (splitOn '\n' text)).getD []).length)) := rfl

theorem dropFirstNewline_other (s : PStr) (h : s.head? ≠ some '\n') : dropFirstNewline s = s := by
  unfold dropFirstNewline
  split
  · simp at h
  · rfl

theorem dedent_body (src : PStr) (ls : List PStr) (hne : ls ≠ []) (hnl : ∀ l ∈ ls, '\n' ∉ l)
    (h : src = '\n' :: join ['\n'] ls ∨ (src = join ['\n'] ls ∧ src.head? ≠ some '\n')) :
    dedent src = join ['\n'] (ls.map (movedLine ((marginOf ls).getD []).length)) := by
  have hs : splitOn '\n' (dropFirstNewline src) = ls := by
    rcases h with rfl | ⟨h1, h2⟩
    · exact splitOn_join '\n' ls hne hnl
    · rw [dropFirstNewline_other src h2, h1]; exact splitOn_join '\n' ls hne hnl
  unfold dedent
  rw [textwrapDedent_eq, hs]

/-- C90: the code of a test case is its text without the newline it begins with, moved to the left as far as its lines allow: one margin of spaces and tabs is
taken from every line, blank lines become empty, and no further space or tab could be taken. -/
theorem C90_dedent (src : PStr) (ls : List PStr) (hne : ls ≠ []) (hnl : ∀ l ∈ ls, '\n' ∉ l)
    (h : src = '\n' :: join ['\n'] ls ∨ (src = join ['\n'] ls ∧ src.head? ≠ some '\n')) :
    ∃ margin news, PadLine margin ∧ MovedAll margin ls news ∧ dedent src = join ['\n'] news ∧
      ∀ c, Pad c → (∃ l ∈ ls, ¬ PadLine l) → ∃ l ∈ ls, ¬ PadLine l ∧ ¬ (margin ++ [c]) <+: l := by
  rw [dedent_body src ls hne hnl h]
  cases hm : marginOf ls with
  | none =>
    have hall := marginOf_none ls hm
    refine ⟨[], _, by (intro c hc; cases hc), movedAll_map [] ls ?_, rfl, ?_⟩
    · intro l hl hb; rw [hall l hl] at hb; cases hb
    · rintro c - ⟨l, hl, hb⟩
      exact absurd ((isBlankLine_iff l).mp (hall l hl)) hb
  | some m =>
    have hpre := marginOf_prefix ls m hm
    refine ⟨m, _, marginOf_blank ls m hm, movedAll_map m ls (fun l hl hb => (hpre l hl hb).trans (indentOf_prefix l)), rfl, ?_⟩
    intro c hc _
    apply Classical.byContradiction
    intro hno
    have hall : ∀ l ∈ ls, isBlankLine l = false → m ++ [c] <+: indentOf l := by
      intro l hl hb
      have hb' : ¬ PadLine l := fun hp => by rw [(isBlankLine_iff l).mpr hp] at hb; cases hb
      have hp : m ++ [c] <+: l := Classical.byContradiction fun hp => hno ⟨l, hl, hb', hp⟩
      obtain ⟨t, rfl⟩ := hp
      rw [List.append_assoc]
      exact nonblank_head c _ hc m (marginOf_blank ls m hm) (List.prefix_append _ _)
    have := (marginOf_max ls m _ hm hall).length_le
    simp only [List.length_append, List.length_singleton] at this
    omega

theorem indented_margin (w : PStr) (hw : PadLine w) {os ns : List PStr} (h : Indented w os ns) : marginOf ns = (marginOf os).map (w ++ ·) := by
  induction h with
  | nil => rfl
  | blank ho hn _ ih => simp [marginOf, (isBlankLine_iff _).mpr ho, (isBlankLine_iff _).mpr hn, ih]
  | line _ ih =>
    rename_i o os ns _
    unfold marginOf
    rw [isBlankLine_append w o hw, ih, indentOf_append w o hw]
    by_cases hb : isBlankLine o = true
    · simp [hb]
    · simp only [hb, Bool.false_eq_true, if_false]
      cases marginOf os with
      | none => rfl
      | some m => simp [commonPrefix_append]

theorem indented_moved (w : PStr) (hw : PadLine w) {os ns : List PStr} (h : Indented w os ns) (k : Nat) :
    ns.map (movedLine (w.length + k)) = os.map (movedLine k) := by
  induction h with
  | nil => rfl
  | blank ho hn _ ih => simp only [List.map_cons, ih, movedLine, (isBlankLine_iff _).mpr ho, (isBlankLine_iff _).mpr hn, if_true]
  | line _ ih =>
    rename_i o os ns _
    simp only [List.map_cons, ih, movedLine, isBlankLine_append w o hw]
    congr 2
    rw [← List.drop_drop, List.drop_left]

theorem moved_blank (k k' : Nat) : ∀ os : List PStr, (∀ l ∈ os, isBlankLine l = true) → os.map (movedLine k) = os.map (movedLine k')
  | [], _ => rfl
  | o :: os, h => by
    simp only [List.map_cons, movedLine, h o List.mem_cons_self, if_true]
    rw [moved_blank k k' os (fun l hl => h l (List.mem_cons_of_mem _ hl))]

/-- C90: how far a test case is indented in the source of the rule does not matter. -/
theorem C90_indent (w : PStr) (hw : PadLine w) (os ns : List PStr) (h : Indented w os ns) (hne : os ≠ []) (ho : ∀ l ∈ os, '\n' ∉ l) (hn : ∀ l ∈ ns, '\n' ∉ l) :
    dedent ('\n' :: join ['\n'] ns) = dedent ('\n' :: join ['\n'] os) := by
  have hne' : ns ≠ [] := by cases h <;> simp_all
  rw [dedent_body _ ns hne' hn (.inl rfl), dedent_body _ os hne ho (.inl rfl), indented_margin w hw h]
  cases hm : marginOf os with
  | some m => simp only [Option.map_some, Option.getD_some, List.length_append]; rw [indented_moved w hw h]
  | none =>
    simp only [Option.map_none, Option.getD_none, List.length_nil]
    have := indented_moved w hw h 0
    rw [← this]
    congr 1
    apply moved_blank
    have hm' : marginOf ns = none := by rw [indented_margin w hw h, hm]; rfl
    exact marginOf_none ns hm'

/-- A test case as rules write it: three lines, one blank, in the body of a class. -/
example : dedent (py "\n    def f():\n \n        return 1\n    ") = py "def f():\n\n    return 1\n" := by decide

example : Indented (py "  ") [py "a", py "", py " b"] [py "  a", py " ", py "   b"] :=
  .line (.blank (by (intro c hc; cases hc)) (by (intro c hc; simp at hc; subst hc; exact .inl rfl)) (.line .nil))

end Fixit
