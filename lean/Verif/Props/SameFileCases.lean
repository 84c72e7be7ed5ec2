import Verif.Props.SameFile
import Verif.Props.PathsCases

/-!
# C139: cases
-/

namespace Fixit
open Py Spec Gen

/-- C139: the hypotheses hold for one file given three times that has something to fix and something that cannot be fixed. -/
theorem sameFile_ok : OnceIsEnough (toyEnv none none []) true false (toyWorld [98, 110]) [[py "f"], [py "f"], [py "f"]] where
  stable _ _ _ := ⟨rfl, rfl, rfl⟩
  opens _ _ := rfl
  writes _ _ _ := rfl
  empty p hp := by
    simp only [List.mem_cons, List.not_mem_nil, or_false, or_self] at hp
    subst hp; decide
  once p hp := by
    simp only [List.mem_cons, List.not_mem_nil, or_false, or_self] at hp
    subst hp; decide

/-- C139: while one worker rewrites the file another sees it empty, and the third sees it fixed. -/
example :
    let R := runPool (List.replicate 7 0 ++ List.replicate 8 1 ++ List.replicate 6 0 ++ List.replicate 20 2) (startWorkers (toyEnv none none []) true false [[py "f"], [py "f"], [py "f"]])
      (toyWorld [98, 110])
    R.1.map Worker.done = [true, true, true] ∧ R.1.map (fun k => shown k.out) = [[(some (py "b"), false), (some (py "n"), false)], [(none, false)], [(some (py "n"), false)]] ∧
    fContent R.2 = some [66, 110] ∧ afterAlone (toyEnv none none []) true false (toyWorld [98, 110]) [py "f"] (some [98, 110]) = some [66, 110] := by
  decide

/-- A rule that wants a header in every file, and gets it. -/
def bannerEnv : Env Unit :=
  { toyEnv none (some (py "header")) [] with
    visit := fun _ _ m _ => .ok (fun _ => if (toyBytes m).head? = some 72 then [] else [⟨py "Header", ⟨⟨1, 0⟩, ⟨1, 0⟩⟩, py "h", 0, some (.node m)⟩], [])
    styles := [(py "header", fun m _ => .ok (72 :: toyBytes m))] }

/-- **C139** (finding) A file that is empty must be left empty: two workers on a file in which a rule adds a header can lose all the rest of it. The second has seen the file while
the first was rewriting it, found it empty, and made it a file that has nothing but the header. Fixing once is enough here. -/
theorem C139_empty_is_needed :
    (let w := toyWorld [97, 98]
     afterAlone bannerEnv true false w [py "f"] (some [97, 98]) = some [72, 97, 98] ∧ afterAlone bannerEnv true false w [py "f"] (some [72, 97, 98]) = some [72, 97, 98] ∧
     afterAlone bannerEnv true false w [py "f"] (some []) = some [72]) ∧
    ∃ sched, let R := runPool sched (startWorkers bannerEnv true false [[py "f"], [py "f"]]) (toyWorld [97, 98])
      R.1.map Worker.done = [true, true] ∧ fContent R.2 = some [72] := by
  refine ⟨by decide, List.replicate 6 0 ++ List.replicate 1 1 ++ List.replicate 3 0 ++ List.replicate 20 1, by decide, by decide⟩

/-- A rule whose fix for `b` is `d`, which it takes away when it sees it again. -/
def twoStepsEnv : Env Unit :=
  { toyEnv none none [] with
    visit := fun _ _ m _ => .ok (fun _ => (toyFind 1 (toyBytes m)).map (fun v => if v.message = py "b" then { v with replacement := some (.node (toyLeaf 99 100)) } else v), []) }

/-- **C139** (finding) Fixing once must be enough: with three workers on a file that has more to fix after the first time, the file can be left with a content that is none of its old
content, that content fixed once, and that content fixed twice: the end of a longer text behind the shorter one that was written last. -/
theorem C139_once_is_needed :
    (let w := toyWorld [98, 98, 97]
     afterAlone twoStepsEnv true false w [py "f"] (some []) = some [] ∧ afterAlone twoStepsEnv true false w [py "f"] (some [98, 98, 97]) = some [100, 100, 97] ∧
     afterAlone twoStepsEnv true false w [py "f"] (some [100, 100, 97]) = some [97]) ∧
    ∃ sched, let R := runPool sched (startWorkers twoStepsEnv true false [[py "f"], [py "f"], [py "f"]]) (toyWorld [98, 98, 97])
      R.1.map Worker.done = [true, true, true] ∧ fContent R.2 = some [97, 100, 97] := by
  refine ⟨by decide, List.replicate 6 1 ++ List.replicate 20 0 ++ List.replicate 6 2 ++ [1, 2, 1, 2] ++ List.replicate 3 1 ++ List.replicate 3 2, by decide, by decide⟩

end Fixit
