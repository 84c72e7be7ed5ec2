import Verif.Props.Stdin

/-!
# Concrete runs for C42–C49, C53, C54, C69, C77, C78

A toy language: a file is a sequence of one-byte statements. One rule flags `b` (fix: `B`), `d` (fix: remove it) and `n` (no fix); `x` does not parse.
-/

namespace Fixit
open Py Spec Gen

/-- One statement. -/
def toyLeaf (i : Nat) (b : UInt8) : Node := .mk i false false (.tok [Char.ofNat b.toNat] .nil)

def toyStmts : Nat → Bytes → List Node
  | _, [] => []
  | i, b :: bs => toyLeaf i b :: toyStmts (i + 1) bs

def toyParse (bs : Bytes) : Except Err Node :=
  if bs.contains 120 then .error (.other 7) else .ok (.mk 0 false false (.seq [] true [] [] (.ofList (toyStmts 1 bs)) .nil))

def toyBytes (m : Node) : Bytes := (moduleCode m).map (fun c => UInt8.ofNat c.toNat)

def toyRule : RuleInst := ⟨0, py "Toy"⟩

def toyFind : Nat → Bytes → List (Violation Nat Repl)
  | _, [] => []
  | i, b :: bs =>
    (if b = 98 then [⟨py "Toy", ⟨⟨1, i⟩, ⟨1, i + 1⟩⟩, py "b", i, some (.node (toyLeaf 99 66))⟩]
     else if b = 100 then [⟨py "Toy", ⟨⟨1, i⟩, ⟨1, i + 1⟩⟩, py "d", i, some .remove⟩]
     else if b = 110 then [⟨py "Toy", ⟨⟨1, i⟩, ⟨1, i + 1⟩⟩, py "n", i, none⟩] else []) ++ toyFind (i + 1) bs

/-- `w`: how writing fails, if it does; `fmt`: the configured formatter (`up` appends `!`). -/
def toyEnv (w : Option (Nat × Err)) (fmt : Option PStr) (stdin : Bytes) : Env Unit where
  resolve := fun p => [py "root"] ++ p
  config := fun _ _ => .ok ()
  collect := fun _ _ => .ok [toyRule]
  parse := toyParse
  visit := fun _ _ m _ => .ok (fun _ => toyFind 1 (toyBytes m), [])
  unifiedDiff := fun _ _ _ => .ok []
  hookRaises := fun _ => none
  formatter := fun _ => fmt
  styles := [(py "up", fun m _ => .ok (toyBytes m ++ [33]))]
  bytes := fun m => .ok (toyBytes m)
  readRaises := fun _ => none
  openRaises := fun _ => none
  writeRaises := fun _ _ => w
  stdin := .ok stdin
  stdoutRaises := fun _ => none

/-- One file `root/f`. -/
def toyWorld (content : Bytes) : World := ⟨fun p => if p = [py "root", py "f"] then some content else none, []⟩

/-- Rules and messages of the violations among results. -/
def shown (rs : List Result) : List (Option PStr × Bool) := rs.map (fun r => (r.violation.map (·.base.message), r.error.isSome))

def fContent (w : World) : Option Bytes := w.files [py "root", py "f"]

def isReturned {R : Type} : Status R → Bool
  | .returned _ => true
  | _ => false

/-- C42: `abd`, linted to the end: two violations, nothing written. -/
example :
    let out := (fixitFile (toyEnv none none []) [py "f"] false false).run [none, some false] (toyWorld [97, 98, 100])
    shown out.1 = [(some (py "b"), false), (some (py "d"), false)] ∧ isReturned out.2.1 = true ∧ fContent out.2.2 = some [97, 98, 100] := by
  decide

/-- C46, C43: with autofix everything is applied, even against the answers. -/
example :
    let out := (fixitFile (toyEnv none none []) [py "f"] true false).run [some false, none] (toyWorld [97, 98, 100])
    shown out.1 = [(some (py "b"), false), (some (py "d"), false)] ∧ isReturned out.2.1 = true ∧ fContent out.2.2 = some [97, 66] := by
  decide

/-- C47: only the second accepted. -/
example :
    let out := (fixitFile (toyEnv none none []) [py "f"] false false).run [some false, some true] (toyWorld [97, 98, 100])
    isReturned out.2.1 = true ∧ fContent out.2.2 = some [97, 98] := by
  decide

/-- C49: stopping at the second violation, after accepting the first. -/
example :
    let out := (fixitFile (toyEnv none none []) [py "f"] true false).run [some true] (toyWorld [97, 98, 100])
    shown out.1 = [(some (py "b"), false), (some (py "d"), false)] ∧ isReturned out.2.1 = false ∧ fContent out.2.2 = some [97, 98, 100] := by
  decide

/-- C44: a clean file. -/
example : shown ((fixitFile (toyEnv none none []) [py "f"] true false).run [none] (toyWorld [97, 97])).1 = [(none, false)] := by decide

/-- C45: a file that does not parse; a file that is not there. -/
example : shown ((fixitFile (toyEnv none none []) [py "f"] true false).run [none] (toyWorld [98, 120])).1 = [(none, true)] ∧
    shown ((fixitFile (toyEnv none none []) [py "g"] true false).run [none] (toyWorld [98])).1 = [(none, true)] := by decide

/-- C54: the path is the resolved one. -/
example : ((fixitFile (toyEnv none none []) [py "f"] false false).run [] (toyWorld [98])).1.map (·.path) = [[py "root", py "f"]] := by decide

/-- C48. -/
example :
    let out := (fixitStdin (toyEnv none none [98, 100, 97]) [py "f"] true false).run [none, none] (toyWorld [])
    isReturned out.2.1 = true ∧ stdoutWrites (newEvents (toyWorld []) out.2.2) = [[66, 97]] := by
  decide

/-- C48: source that does not parse is printed as it is. -/
example :
    let out := (fixitStdin (toyEnv none none [98, 120]) [py "f"] true false).run [none] (toyWorld [])
    shown out.1 = [(none, true)] ∧ stdoutWrites (newEvents (toyWorld []) out.2.2) = [[98, 120]] := by
  decide

/-- **C77** (finding) The write is not atomic: there is a point of the run where the file is empty, and when the write fails, part of the new content stays. -/
theorem C77_write_not_atomic :
    (∃ w' ∈ (fixitFile (toyEnv none none []) [py "f"] true false).worlds [none, none] (toyWorld [97, 98, 100]), fContent w' = some []) ∧
    (let out := (fixitFile (toyEnv (some (1, .other 9)) none []) [py "f"] true false).run [none, none, none] (toyWorld [97, 98, 100])
     shown out.1 = [(some (py "b"), false), (some (py "d"), false), (none, true)] ∧ fContent out.2.2 = some [97]) := by
  constructor
  · exact ⟨_, .tail _ (.tail _ (.tail _ (.tail _ (.tail _ (.tail _ (.tail _ (.head _))))))), by decide⟩
  · decide

/-- **C53** (finding) A fix that empties the file is computed but not written: every statement of `dd` is to be removed, the fixed content is empty, and
the run ends without errors leaving the file as it was. On standard input the original is printed. -/
theorem C53_empty_fix_not_applied :
    (let out := (fixitFile (toyEnv none none []) [py "f"] true false).run [none, none] (toyWorld [100, 100])
     shown out.1 = [(some (py "d"), false), (some (py "d"), false)] ∧ isReturned out.2.1 = true ∧ fContent out.2.2 = some [100, 100]) ∧
    (fixedContent (toyEnv none none []) [py "f"] [100, 100] () (found (toyEnv none none []) (toyWorld [100, 100]).files [py "f"] [100, 100] ())).toOption = some [] ∧
    (let out := (fixitStdin (toyEnv none none [100, 100]) [py "f"] true false).run [none, none] (toyWorld [])
     stdoutWrites (newEvents (toyWorld []) out.2.2) = [[100, 100]]) := by
  decide

/-- **C78** (finding) A file whose only violation has no fix is rewritten by the formatter when autofix is on. -/
theorem C78_rewritten_without_fix :
    let out := (fixitFile (toyEnv none (some (py "up")) []) [py "f"] true false).run [none] (toyWorld [97, 110])
    shown out.1 = [(some (py "n"), false)] ∧ fContent out.2.2 = some [97, 110, 33] := by
  decide

end Fixit
