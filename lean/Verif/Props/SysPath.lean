import Verif.Model.SysPath
import Verif.Props.Collect

/-!
# C30: rule modules that change `sys.path` while they are imported
-/

namespace Fixit
open Py

/-- A body that leaves `sys.path` alone: `withSysPath` is `appendSysPath` of `Model/Collect`. -/
theorem withSysPath_quiet {α : Type} (path : Path) (sysPath : List PStr) (body : List PStr → Except Err α) :
    withSysPath path sysPath (fun l => (body l, l)) = appendSysPath path sysPath body := by
  unfold withSysPath appendSysPath
  split
  · rfl
  · cases hb : body (sysPath ++ [asPosix path]) with
    | error e => simp [hb]
    | ok a => simp [hb]

theorem removeFirst_split (p : PStr) : ∀ (before after : List PStr), p ∉ before → removeFirst p (before ++ p :: after) = before ++ after
  | [], after, _ => by simp [removeFirst]
  | x :: before, after, h => by
    rw [List.mem_cons, not_or] at h
    rw [List.cons_append, removeFirst, if_neg (fun e => h.1 e.symm), removeFirst_split p before after h.2]
    rfl

/-- **C30** Whatever the imported modules do to `sys.path`: if the directory was on it, Fixit does not touch it; otherwise the
code runs with the directory at the end, and when it ends well exactly the first entry for the directory is taken off what it
left — or ValueError is raised when it left none; when the code raises, everything stays as it left it. -/
theorem C30_any_change {α : Type} (path : Path) (sysPath : List PStr) (body : List PStr → Except Err α × List PStr) :
    (asPosix path ∈ sysPath → withSysPath path sysPath body = body sysPath) ∧
    (asPosix path ∉ sysPath → ∀ (left : List PStr),
      (∀ (a : α) (before after : List PStr), body (sysPath ++ [asPosix path]) = (.ok a, left) → left = before ++ asPosix path :: after →
        asPosix path ∉ before → withSysPath path sysPath body = (.ok a, before ++ after)) ∧
      (∀ (a : α), body (sysPath ++ [asPosix path]) = (.ok a, left) → asPosix path ∉ left →
        withSysPath path sysPath body = (.error .value, left)) ∧
      (∀ (e : Err), body (sysPath ++ [asPosix path]) = (.error e, left) → withSysPath path sysPath body = (.error e, left))) := by
  refine ⟨fun h => ?_, fun h left => ⟨fun a before after hb hl hn => ?_, fun a hb hn => ?_, fun e hb => ?_⟩⟩
  · unfold withSysPath; rw [if_pos h]
  · unfold withSysPath; rw [if_neg h, hb]
    have hm : asPosix path ∈ left := by rw [hl]; simp
    simp only [if_pos hm]
    rw [hl, removeFirst_split _ _ _ hn]
  · unfold withSysPath; rw [if_neg h, hb]; simp only [if_neg hn]
  · unfold withSysPath; rw [if_neg h, hb]

/-- **C30** If imported modules only add entries, anywhere, each entry that was there keeps its place relative to the others,
and every entry but one more for the directory itself is exactly what they added. -/
theorem C30_additions {α : Type} (path : Path) (sysPath left sysPath' : List PStr) (a r : α) (body : List PStr → Except Err α × List PStr)
    (hn : asPosix path ∉ sysPath) (hb : body (sysPath ++ [asPosix path]) = (.ok a, left)) (hadd : (sysPath ++ [asPosix path]).Sublist left)
    (h : withSysPath path sysPath body = (.ok r, sysPath')) :
    r = a ∧ sysPath.Sublist sysPath' ∧ left.Perm (asPosix path :: sysPath') := by
  have hm : asPosix path ∈ left := hadd.subset (by simp)
  obtain ⟨before, after, hl, hbn⟩ := List.eq_append_cons_of_mem hm
  have hw := ((C30_any_change path sysPath body).2 hn left).1 a before after hb hl hbn
  rw [h] at hw
  simp only [Prod.mk.injEq, Except.ok.injEq] at hw
  obtain ⟨hr, hs⟩ := hw
  have hsub : sysPath.Sublist left := (List.sublist_append_left sysPath [asPosix path]).trans hadd
  have herase := hsub.erase (asPosix path)
  rw [List.erase_of_not_mem hn, hl, List.erase_append_right _ hbn, List.erase_cons_head] at herase
  refine ⟨hr, hs ▸ herase, ?_⟩
  rw [hs, hl]
  exact List.perm_middle

/-- **C30** (finding) A rule module that puts its own directory in front: Fixit takes away the module's entry and leaves its own at
the end, so the directory stays importable for the rest of the process. -/
theorem C30_keeps_own_entry :
    withSysPath [py "r"] [py "/lib"] (fun l => (.ok (), py "/r" :: l)) = (.ok (), [py "/lib", py "/r"]) := by
  decide +kernel

/-- **C30** (finding) A rule module that takes the directory off the path itself: collecting the rules ends with ValueError. -/
theorem C30_entry_gone :
    withSysPath [py "r"] [py "/lib"] (fun l => ((.ok () : Except Err Unit), l.filter (fun q => q ≠ py "/r"))) = (.error .value, [py "/lib"]) := by
  decide +kernel

/-! The cases of `C30_any_change` and the hypotheses of `C30_additions` are met. -/
example : withSysPath [py "r"] [py "/r"] (fun l => ((.ok 1 : Except Err Nat), py "/new" :: l)) = (.ok 1, [py "/new", py "/r"]) := by decide +kernel
example : withSysPath [py "r"] [py "/a"] (fun l => ((.error .type : Except Err Nat), py "/new" :: l)) = (.error .type, [py "/new", py "/a", py "/r"]) := by
  decide +kernel
example : asPosix [py "r"] ∉ [py "/a"] ∧ ([py "/a"] ++ [asPosix [py "r"]]).Sublist [py "/new", py "/a", py "/r"] ∧
    withSysPath [py "r"] [py "/a"] (fun l => ((.ok 1 : Except Err Nat), py "/new" :: l)) = (.ok 1, [py "/new", py "/a"]) := by
  refine ⟨by decide +kernel, List.Sublist.cons _ (List.Sublist.refl _), by decide +kernel⟩

end Fixit
