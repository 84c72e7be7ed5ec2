import Verif.Props.Paths

/-!
# C139: several processes on the same file
-/

namespace Spec
open Py Fixit

variable {C : Type} (env : Env C)

/-- The world in which the file `q` has this content, or does not exist; everything else as in `w`. -/
def holding (w : World) (q : Path) (c : Option Bytes) : World := { w with files := fun q' => if q' = q then c else w.files q' }

/-- The content of the file given as `p` after it was linted on its own, when it had the content `c`. -/
def afterAlone (autofix hook : Bool) (w : World) (p : Path) (c : Option Bytes) : Option Bytes :=
  (alone env autofix hook (holding w (env.resolve p) c) p).2.2.files (env.resolve p)

/-- The content that a linted file can be seen to have while it is linted: its own, what becomes of it, or nothing while it is rewritten. -/
def ContentSeen (autofix hook : Bool) (w : World) (p : Path) (c : Option Bytes) : Prop :=
  c = w.files (env.resolve p) ∨ afterAlone env autofix hook w p (w.files (env.resolve p)) ≠ w.files (env.resolve p) ∧
    (c = afterAlone env autofix hook w p (w.files (env.resolve p)) ∨ c = some [])

end Spec

namespace Fixit
open Py Spec Gen

/-- A generator that changes no file, whose steps are the same in all worlds that satisfy `J`, and what it yields and how it ends when it is always sent `s`. -/
inductive Quiet {Y Q R : Type} (J : World → Prop) (s : Q) : Gen World Y Q R → List Y → Except Err R → Prop
  | ret (r : R) : Quiet J s (.ret r) [] (.ok r)
  | raise (e : Err) : Quiet J s (.raise e) [] (.error e)
  | yield (y : Y) (k : Q → Gen World Y Q R) (ys : List Y) (v : Except Err R) : Quiet J s (k s) ys v → Quiet J s (.yield y k) (y :: ys) v
  | act (a : World → World) (k : World → Gen World Y Q R) (g : Gen World Y Q R) (ys : List Y) (v : Except Err R) :
      (∀ w, (a w).files = w.files) → (∀ w, J w → k w = g) → Quiet J s g ys v → Quiet J s (.act a k) ys v

namespace Quiet
variable {Y Q R : Type} {J : World → Prop} {s : Q}

theorem bind {T : Type} {g : Gen World Y Q R} {ys : List Y} {v : Except Err R} (hg : Quiet J s g ys v) {f : R → Gen World Y Q T}
    (hf : ∀ r, v = .ok r → ∃ zs u, Quiet J s (f r) zs u) : ∃ zs u, Quiet J s (g.bind f) zs u := by
  induction hg with
  | ret r => exact hf r rfl
  | raise e => exact ⟨_, _, .raise e⟩
  | yield y k ys v _ ih => obtain ⟨zs, u, h⟩ := ih hf; exact ⟨_, _, .yield y _ zs u h⟩
  | act a k g ys v h1 h2 _ ih =>
    obtain ⟨zs, u, h⟩ := ih hf
    exact ⟨_, _, .act a _ _ zs u h1 (fun w hw => by simp only [h2 w hw]) h⟩

theorem except {g : Gen World Y Q R} {ys : List Y} {v : Except Err R} (hg : Quiet J s g ys v) {f : Err → Gen World Y Q R}
    (hf : ∀ e, ∃ zs u, Quiet J s (f e) zs u) : ∃ zs u, Quiet J s (g.except f) zs u := by
  induction hg with
  | ret r => exact ⟨_, _, .ret r⟩
  | raise e => exact hf e
  | yield y k ys v _ ih => obtain ⟨zs, u, h⟩ := ih; exact ⟨_, _, .yield y _ zs u h⟩
  | act a k g ys v h1 h2 _ ih =>
    obtain ⟨zs, u, h⟩ := ih
    exact ⟨_, _, .act a _ _ zs u h1 (fun w hw => by simp only [h2 w hw]) h⟩

theorem forIn {Z T : Type} {g : Gen World Z Unit R} {ys : List Z} {v : Except Err R} (hg : Quiet J () g ys v) {body : Z → T → Gen World Y Q T}
    (hb : ∀ z t, ∃ zs u, Quiet J s (body z t) zs u) : ∀ t, ∃ zs u, Quiet J s (g.forIn body t) zs u := by
  induction hg with
  | ret r => intro t; exact ⟨_, _, .ret t⟩
  | raise e => intro t; exact ⟨_, _, .raise e⟩
  | yield y k ys v _ ih =>
    intro t
    obtain ⟨zs, u, h⟩ := hb y t
    exact h.bind (fun r _ => ih r)
  | act a k g ys v h1 h2 _ ih =>
    intro t
    obtain ⟨zs, u, h⟩ := ih t
    exact ⟨_, _, .act a _ _ zs u h1 (fun w hw => by simp only [h2 w hw]) h⟩

theorem ofExcept (r : Except Err R) : ∃ ys v, Quiet J s (Gen.ofExcept r : Gen World Y Q R) ys v := by
  cases r with
  | error e => exact ⟨_, _, .raise e⟩
  | ok a => exact ⟨_, _, .ret a⟩

end Quiet

variable {C : Type} (env : Env C)

/-- The files outside `S` are as in `f`. -/
def SameOutside (S : Path → Prop) (f : Path → Option Bytes) (w : World) : Prop := ∀ q, ¬ S q → w.files q = f q

theorem quiet_violationLoop {J : World → Prop} (path : Path) (m : Node) (name : PStr) :
    ∀ (vs : List (Violation Nat Repl)) (st : Nat × Metrics), ∃ ys v, Quiet J () (violationLoop env path m name vs st) ys v
  | [], st => ⟨_, _, .ret st⟩
  | v :: vs, (n, μ) => by
    unfold violationLoop
    split
    · split
      · exact ⟨_, _, .raise _⟩
      · obtain ⟨ys, v, h⟩ := quiet_violationLoop path m name vs _
        exact ⟨_, _, .yield _ _ ys v h⟩
    · obtain ⟨ys, v, h⟩ := quiet_violationLoop path m name vs _
      exact ⟨_, _, .yield _ _ ys v h⟩

theorem quiet_ruleLoop {J : World → Prop} (path : Path) (m : Node) (recorded : RuleInst → List (Violation Nat Repl)) :
    ∀ (rs : List RuleInst) (st : Nat × Metrics), ∃ ys v, Quiet J () (ruleLoop env path m recorded rs st) ys v
  | [], st => ⟨_, _, .ret st⟩
  | r :: rs, (n, μ) => by
    unfold ruleLoop
    obtain ⟨_, _, h⟩ := quiet_violationLoop (J := J) env path m _ _ _
    exact h.bind (fun st _ => quiet_ruleLoop path m recorded rs st)

theorem quiet_callHook {Y Q : Type} {J : World → Prop} {s : Q} (hook : Bool) (μ : Metrics) : ∃ ys v, Quiet J s (callHook env hook μ : Gen World Y Q Unit) ys v := by
  unfold callHook
  split
  · split
    · exact ⟨_, _, .act _ _ _ _ _ (fun _ => rfl) (fun _ _ => rfl) (.raise _)⟩
    · exact ⟨_, _, .act _ _ _ _ _ (fun _ => rfl) (fun _ _ => rfl) (.ret _)⟩
  · exact ⟨_, _, .ret _⟩

section
variable {S : Path → Prop} (hS : Stable env S) (f : Path → Option Bytes)
include hS

theorem quiet_collect (path : Path) (m : Node) (rules : List RuleInst) (cfg : C) (hook : Bool) :
    ∃ ys v, Quiet (SameOutside S f) () (collectViolations env path m rules cfg hook) ys v := by
  unfold collectViolations
  have hb : ∃ ys v, Quiet (SameOutside S f) () ((Gen.ofExcept (env.visit f cfg m rules)).bind fun rd =>
      (ruleLoop env path m rd.1 rules (0, rd.2)).bind fun nm =>
        (callHook env hook (dictSet totalKey nm.1 nm.2) : Gen World LintViolation Unit Unit).bind fun _ => Gen.ret nm.1) ys v := by
    obtain ⟨_, _, h⟩ := Quiet.ofExcept (J := SameOutside S f) (s := ()) (Y := LintViolation) (env.visit f cfg m rules)
    refine h.bind (fun rd _ => ?_)
    obtain ⟨_, _, h⟩ := quiet_ruleLoop (J := SameOutside S f) env path m rd.1 rules (0, rd.2)
    refine h.bind (fun nm _ => ?_)
    obtain ⟨_, _, h⟩ := quiet_callHook (J := SameOutside S f) (s := ()) (Y := LintViolation) env hook (dictSet totalKey nm.1 nm.2)
    exact h.bind (fun _ _ => ⟨_, _, .ret _⟩)
  obtain ⟨ys, v, h⟩ := hb
  exact ⟨ys, v, .act _ _ _ _ _ (fun _ => rfl) (fun w hw => by simp only [(hS w.files f hw).2.2]) h⟩

theorem quiet_fixitBytes (path : Path) (content : Bytes) (cfg : C) (autofix hook : Bool) :
    ∃ ys v, Quiet (SameOutside S f) (none : Answer) (fixitBytes env path content cfg autofix hook) ys v := by
  have hb : ∃ ys v, Quiet (SameOutside S f) (none : Answer) (bytesBody env path content cfg autofix hook) ys v := by
    unfold bytesBody
    have hb : ∃ ys v, Quiet (SameOutside S f) (none : Answer) ((Gen.ofExcept (env.collect f cfg)).bind (fun rules =>
      if rules.isEmpty then (yieldClean path).bind (fun _ => .ret none)
      else (Gen.ofExcept (env.parse content)).bind (fun m =>
        ((collectViolations env path m rules cfg hook).forIn (onViolation path autofix) (true, [])).bind (finishBytes env path cfg m)))) ys v := by
      obtain ⟨_, _, h⟩ := Quiet.ofExcept (J := SameOutside S f) (s := (none : Answer)) (Y := Result) (env.collect f cfg)
      refine h.bind (fun rules _ => ?_)
      split
      · exact ⟨_, _, .yield _ _ _ _ (.ret _)⟩
      · obtain ⟨_, _, h⟩ := Quiet.ofExcept (J := SameOutside S f) (s := (none : Answer)) (Y := Result) (env.parse content)
        refine h.bind (fun m _ => ?_)
        obtain ⟨_, _, h⟩ := quiet_collect env hS f path m rules cfg hook
        obtain ⟨_, _, h⟩ := Quiet.forIn (s := (none : Answer)) h (body := onViolation path autofix) (fun z t => ⟨_, _, .yield _ _ _ _ (.ret _)⟩) (true, [])
        refine h.bind (fun st _ => ?_)
        unfold finishBytes
        have hc : ∃ ys v, Quiet (SameOutside S f) (none : Answer) (if st.1 then yieldClean path else .ret ()) ys v := by
          split
          · exact ⟨_, _, .yield _ _ _ _ (.ret _)⟩
          · exact ⟨_, _, .ret _⟩
        obtain ⟨_, _, hc⟩ := hc
        refine hc.bind (fun _ _ => ?_)
        split
        · exact ⟨_, _, .ret _⟩
        · exact Quiet.ofExcept _
    obtain ⟨ys, v, h⟩ := hb
    exact ⟨ys, v, .act _ _ _ _ _ (fun _ => rfl) (fun w hw => by simp only [(hS w.files f hw).2.1]) h⟩
  unfold fixitBytes
  obtain ⟨_, _, hb⟩ := hb
  exact hb.except (fun e => ⟨_, _, .yield _ _ _ _ (.ret _)⟩)

end

/-- The worker has the file open and is about to write `b`. -/
def Pending (p : Path) (b : Bytes) (g : Linting Unit) : Prop :=
  ∃ k, g = .act (fun w => (w.overwrite p b).note (.wrote p b)) k ∧ ∀ w, k w = .ret ()

/-- What is left after the file was read: what is yielded, and what is written, if anything. -/
inductive Tail (J : World → Prop) (p : Path) : Linting Unit → List Result → Option Bytes → Prop
  | ret : Tail J p (.ret ()) [] none
  | yield (y : Result) (k : Answer → Linting Unit) (ys : List Result) (u : Option Bytes) : Tail J p (k none) ys u → Tail J p (.yield y k) (y :: ys) u
  | act (a : World → World) (k : World → Linting Unit) (g : Linting Unit) (ys : List Result) (u : Option Bytes) :
      (∀ w, (a w).files = w.files) → (∀ w, J w → k w = g) → Tail J p g ys u → Tail J p (.act a k) ys u
  | write (b : Bytes) (k : World → Linting Unit) : (∀ w, Pending p b (k w)) → Tail J p (.act (fun w => (w.put p []).note (.opened p)) k) [] (some b)

theorem Tail.bind_except {J : World → Prop} {p : Path} {R : Type} {g : Gen World Result Answer R} {ys : List Result} {v : Except Err R} (hg : Quiet J none g ys v)
    {P : Option Bytes → Prop} {f : R → Linting Unit} {h : Err → Linting Unit} (hf : ∀ r, v = .ok r → ∃ zs u, Tail J p ((f r).except h) zs u ∧ P u)
    (hh : ∀ e, ∃ zs u, Tail J p (h e) zs u ∧ P u) : ∃ zs u, Tail J p ((g.bind f).except h) zs u ∧ P u := by
  induction hg with
  | ret r => exact hf r rfl
  | raise e => exact hh e
  | yield y k ys v _ ih => obtain ⟨zs, u, h, hu⟩ := ih hf; exact ⟨_, _, .yield y _ zs u h, hu⟩
  | act a k g ys v h1 h2 _ ih =>
    obtain ⟨zs, u, h, hu⟩ := ih hf
    exact ⟨_, _, .act a _ _ zs u h1 (fun w hw => by simp only [h2 w hw]) h, hu⟩

/-- `fixit_file` once it has read the file. -/
def whenRead (path : Path) (autofix hook : Bool) (c : Option Bytes) : Linting Unit :=
  (((match c with
    | none => .raise (.other 1)
    | some b => match env.readRaises path with
      | some e => .raise e
      | none => .ret b : Linting Bytes)).bind (fun content =>
    .look (fun w => (Gen.ofExcept (env.config w.files path)).bind (fun cfg =>
      (fixitBytes env path content cfg autofix hook).bind (writeBack env path content))))).except (yieldError path)

theorem lintFile_reads (path : Path) (autofix hook : Bool) : lintFile env path autofix hook = .act id (fun w => whenRead env path autofix hook (w.files path)) := rfl

theorem tail_whenRead {S : Path → Prop} (hS : Stable env S) (f : Path → Option Bytes) (path : Path) (autofix hook : Bool)
    (ho : env.openRaises path = none) (hw : ∀ b, env.writeRaises path b = none) (c : Option Bytes) :
    ∃ ys u, Tail (SameOutside S f) path (whenRead env path autofix hook c) ys u ∧ ∀ b, u = some b → some b ≠ c := by
  have herr : ∀ e, ∃ zs u, Tail (SameOutside S f) path (yieldError path e) zs u ∧ ∀ b, u = some b → some b ≠ c :=
    fun e => ⟨_, _, .yield _ _ _ _ .ret, fun b hb => by cases hb⟩
  unfold whenRead
  cases c with
  | none => exact herr _
  | some b =>
    cases hr : env.readRaises path with
    | some e => exact herr e
    | none =>
      simp only [Gen.bind]
      have hb : ∃ ys u, Tail (SameOutside S f) path (((Gen.ofExcept (env.config f path)).bind (fun cfg =>
          (fixitBytes env path b cfg autofix hook).bind (writeBack env path b))).except (yieldError path)) ys u ∧ ∀ b', u = some b' → some b' ≠ some b := by
        obtain ⟨_, _, h⟩ := Quiet.ofExcept (J := SameOutside S f) (s := (none : Answer)) (Y := Result) (env.config f path)
        refine Tail.bind_except h (fun cfg _ => ?_) herr
        obtain ⟨_, _, h⟩ := quiet_fixitBytes env hS f path b cfg autofix hook
        refine Tail.bind_except h (fun upd _ => ?_) herr
        cases upd with
        | none => exact ⟨_, _, .ret, fun b hb => by cases hb⟩
        | some b' =>
          unfold writeBack
          simp only
          split
          · exact ⟨_, _, .ret, fun b hb => by cases hb⟩
          · split
            · exact ⟨_, _, .ret, fun b hb => by cases hb⟩
            · rename_i hne
              refine ⟨[], some b', ?_, fun b'' hb => by cases hb; simpa using hne⟩
              simp only [writeBytes, ho, hw, Gen.except]
              exact .write b' _ (fun w => ⟨_, rfl, fun w => rfl⟩)
      obtain ⟨ys, u, h, hu⟩ := hb
      exact ⟨ys, u, .act _ _ _ _ _ (fun _ => rfl) (fun w hw => by simp only [(hS w.files f hw).1]) h, hu⟩

/-- The tail when it runs on its own. -/
theorem Tail.drain {J : World → Prop} (hJ : ∀ w w' : World, w'.files = w.files → J w → J w') {p : Path} {g : Linting Unit} {ys : List Result} {u : Option Bytes}
    (h : Tail J p g ys u) : ∀ w, J w → (g.drain none w).1 = ys ∧ (g.drain none w).2.2.files p = u.or (w.files p) := by
  induction h with
  | ret => intro w _; exact ⟨rfl, rfl⟩
  | yield y k ys u _ ih => intro w hw; obtain ⟨h1, h2⟩ := ih w hw; exact ⟨by simp [Gen.drain, h1], h2⟩
  | act a k g ys u h1 h2 _ ih =>
    intro w hw
    obtain ⟨h3, h4⟩ := ih (a w) (hJ w _ (h1 w) hw)
    simp only [Gen.drain, h2 w hw]
    exact ⟨h3, by rw [h4, h1 w]⟩
  | write b k hk =>
    intro w hw
    obtain ⟨k', hk', hr⟩ := hk w
    simp only [Gen.drain, hk', hr]
    exact ⟨trivial, by simp [World.put, World.note, World.overwrite]⟩

/-! ## Any number of workers on any number of files -/

/-- How far a worker is. -/
inductive FixStage
  | fresh
  | reading (c : Option Bytes) (ys : List Result) (u : Option Bytes)
  | pending (b : Bytes)
  | done

section
variable (autofix hook : Bool) (fs : List Path) (w0 : World)

/-- The paths of the linted files. -/
def GivenFile (q : Path) : Prop := ∃ p ∈ fs, env.resolve p = q

/-- The file on its own with another content: results and content afterwards. -/
def aloneAt (q : Path) (c : Option Bytes) : List Result × Option Bytes :=
  (((lintFile env q autofix hook).drain none (holding w0 q c)).1, ((lintFile env q autofix hook).drain none (holding w0 q c)).2.2.files q)

/-- The file is changed when linted on its own. -/
def Changes (q : Path) : Prop := (aloneAt env autofix hook w0 q (w0.files q)).2 ≠ w0.files q

/-- See `Spec.ContentSeen`. -/
def SeenAt (q : Path) (c : Option Bytes) : Prop :=
  c = w0.files q ∨ Changes env autofix hook w0 q ∧ (c = (aloneAt env autofix hook w0 q (w0.files q)).2 ∨ c = some [])

/-- The worker is at this stage. -/
def AtStage (q : Path) (k : Worker) : FixStage → Prop
  | .fresh => k.rest = lintFile env q autofix hook ∧ k.out = []
  | .reading c ys u => Tail (SameOutside (GivenFile env fs) w0.files) q k.rest ys u ∧ k.out ++ ys = (aloneAt env autofix hook w0 q c).1 ∧ SeenAt env autofix hook w0 q c ∧
      u.or c = (aloneAt env autofix hook w0 q c).2 ∧ ∀ b, u = some b → some b ≠ c
  | .pending b => Pending q b k.rest ∧ (aloneAt env autofix hook w0 q (w0.files q)).2 = some b ∧ Changes env autofix hook w0 q ∧
      ∃ c, SeenAt env autofix hook w0 q c ∧ k.out = (aloneAt env autofix hook w0 q c).1
  | .done => k.rest = .ret () ∧ ∃ c, SeenAt env autofix hook w0 q c ∧ k.out = (aloneAt env autofix hook w0 q c).1

/-- The worker has not opened the file, and will if it is to be changed. -/
def Early (q : Path) : FixStage → Prop
  | .fresh => True
  | .reading c _ _ => c = w0.files q
  | .pending _ => False
  | .done => ¬ Changes env autofix hook w0 q

/-- The content of a file and the stages of the workers fit together. -/
def FileState (q : Path) (w : World) (σ : Nat → FixStage) : Prop :=
  (w.files q = w0.files q ∧ ∀ (i : Nat) p, fs[i]? = some p → env.resolve p = q → Early env autofix hook w0 q (σ i)) ∨
  Changes env autofix hook w0 q ∧ (w.files q = (aloneAt env autofix hook w0 q (w0.files q)).2 ∨
    w.files q = some [] ∧ ∃ (i : Nat) (p : Path) (b : Bytes), fs[i]? = some p ∧ env.resolve p = q ∧ σ i = .pending b)

/-- The invariant. -/
structure Racing (σ : Nat → FixStage) (ks : List Worker) (w : World) : Prop where
  length : ks.length = fs.length
  stages : ∀ (i : Nat) p k, fs[i]? = some p → ks[i]? = some k → AtStage env autofix hook fs w0 (env.resolve p) k (σ i)
  others : SameOutside (GivenFile env fs) w0.files w
  files : ∀ q, GivenFile env fs q → FileState env autofix hook fs w0 q w σ

theorem racing_start : Racing env autofix hook fs w0 (fun _ => .fresh) (startWorkers env autofix hook fs) w0 where
  length := by simp [startWorkers]
  stages i p k hp hk := by
    simp only [startWorkers, List.getElem?_map, hp, Option.map_some, Option.some.injEq] at hk
    subst hk
    exact ⟨rfl, rfl⟩
  others q _ := rfl
  files q _ := Or.inl ⟨rfl, fun _ _ _ _ => trivial⟩

theorem aloneAt_eq (q : Path) (c : Option Bytes) {ys : List Result} {u : Option Bytes} (hq : GivenFile env fs q)
    (h : Tail (SameOutside (GivenFile env fs) w0.files) q (whenRead env q autofix hook c) ys u) : aloneAt env autofix hook w0 q c = (ys, u.or c) := by
  have hJ : SameOutside (GivenFile env fs) w0.files (holding w0 q c) := by
    intro q' hq'
    have : q' ≠ q := fun e => hq' (e ▸ hq)
    simp [holding, this]
  have hc : (holding w0 q c).files q = c := by simp [holding]
  obtain ⟨h1, h2⟩ := h.drain (fun w w' hw h q hq => by rw [hw]; exact h q hq) _ hJ
  simp only [aloneAt, lintFile_reads, Gen.drain, id, hc]
  rw [h1, h2, hc]

/-- One step of a worker, and the stage it is at afterwards. -/
theorem racing_step (hS : Stable env (GivenFile env fs)) (ho : ∀ q, GivenFile env fs q → env.openRaises q = none) (hw : ∀ q, GivenFile env fs q → ∀ b, env.writeRaises q b = none)
    (hempty : ∀ q, GivenFile env fs q → (aloneAt env autofix hook w0 q (some [])).2 = some [])
    (honce : ∀ q, GivenFile env fs q → (aloneAt env autofix hook w0 q (aloneAt env autofix hook w0 q (w0.files q)).2).2 = (aloneAt env autofix hook w0 q (w0.files q)).2)
    {σ : Nat → FixStage} {ks : List Worker} {w : World} (h : Racing env autofix hook fs w0 σ ks w) (i : Nat) (k : Worker) (hk : ks[i]? = some k) :
    ∃ s, Racing env autofix hook fs w0 (fun j => if j = i then s else σ j) (ks.set i (k.step w).1) (k.step w).2 := by
  have hi : i < ks.length := (List.getElem?_eq_some_iff.mp hk).1
  obtain ⟨p, hp⟩ : ∃ p, fs[i]? = some p := ⟨fs[i]'(h.length ▸ hi), List.getElem?_eq_getElem _⟩
  have hq : GivenFile env fs (env.resolve p) := ⟨p, List.mem_of_getElem? hp, rfl⟩
  have hst := h.stages i p k hp hk
  generalize hqe : env.resolve p = q at hq hst
  -- what has to be shown about this worker and about its file
  suffices hsuff : ∃ s, AtStage env autofix hook fs w0 q (k.step w).1 s ∧ (∀ q', q' ≠ q → (k.step w).2.files q' = w.files q') ∧
      FileState env autofix hook fs w0 q (k.step w).2 (fun j => if j = i then s else σ j) by
    obtain ⟨s, h1, h2, h3⟩ := hsuff
    refine ⟨s, ⟨by simp [h.length], ?_, ?_, ?_⟩⟩
    · intro j p' k' hp' hk'
      by_cases hj : j = i
      · subst hj
        rw [List.getElem?_set_self hi, Option.some.injEq] at hk'
        rw [hp, Option.some.injEq] at hp'
        subst hk'; subst hp'
        simp only [if_true, hqe]
        exact h1
      · rw [List.getElem?_set_ne (Ne.symm hj)] at hk'
        simp only [if_neg hj]
        exact h.stages j p' k' hp' hk'
    · intro q' hq'
      have : q' ≠ q := fun e => hq' (e ▸ hq)
      rw [h2 q' this]
      exact h.others q' hq'
    · intro q' hq'
      by_cases hqq : q' = q
      · subst hqq; exact h3
      · have hold := h.files q' hq'
        have hother : ∀ (j : Nat) p', fs[j]? = some p' → env.resolve p' = q' → j ≠ i := by
          intro j p' hp' hr hj
          subst hj
          rw [hp, Option.some.injEq] at hp'
          subst hp'
          exact hqq (hr ▸ hqe)
        rcases hold with ⟨e1, e2⟩ | ⟨e1, e2 | ⟨e2, j, p', b, e3, e4, e5⟩⟩
        · refine Or.inl ⟨by rw [h2 q' hqq, e1], fun j p' hp' hr => ?_⟩
          simp only [if_neg (hother j p' hp' hr)]
          exact e2 j p' hp' hr
        · exact Or.inr ⟨e1, Or.inl (by rw [h2 q' hqq, e2])⟩
        · refine Or.inr ⟨e1, Or.inr ⟨by rw [h2 q' hqq, e2], j, p', b, e3, e4, ?_⟩⟩
          simp only [if_neg (hother j p' e3 e4), e5]
  have hfile := h.files q hq
  -- steps that leave the files alone
  have keep : ∀ (w' : World) (s : FixStage), w'.files = w.files → (∀ b, σ i ≠ .pending b) → (w.files q = w0.files q → Early env autofix hook w0 q (σ i) → Early env autofix hook w0 q s) →
      FileState env autofix hook fs w0 q w' (fun j => if j = i then s else σ j) := by
    intro w' s hw' hnp he
    rcases hfile with ⟨e1, e2⟩ | ⟨e1, e2 | ⟨e2, j, p', b, e3, e4, e5⟩⟩
    · refine Or.inl ⟨by rw [hw', e1], fun j p' hp' hr => ?_⟩
      by_cases hj : j = i
      · simp only [if_pos hj]
        exact he e1 (e2 i p hp hqe)
      · simp only [if_neg hj]
        exact e2 j p' hp' hr
    · exact Or.inr ⟨e1, Or.inl (by rw [hw', e2])⟩
    · have hj : j ≠ i := fun hj => hnp b (hj ▸ e5)
      exact Or.inr ⟨e1, Or.inr ⟨by rw [hw', e2], j, p', b, e3, e4, by simp only [if_neg hj, e5]⟩⟩
  cases hs : σ i with
  | fresh =>
    rw [hs] at hst
    obtain ⟨h1, h2⟩ := hst
    have hseen : SeenAt env autofix hook w0 q (w.files q) := by
      rcases hfile with ⟨e1, _⟩ | ⟨e1, e2 | ⟨e2, _⟩⟩
      · exact Or.inl e1
      · exact Or.inr ⟨e1, Or.inl e2⟩
      · exact Or.inr ⟨e1, Or.inr e2⟩
    obtain ⟨ys, u, ht, hu⟩ := tail_whenRead env hS w0.files q autofix hook (ho q hq) (hw q hq) (w.files q)
    have ha := aloneAt_eq env autofix hook fs w0 q (w.files q) hq ht
    have hstep : k.step w = (⟨whenRead env q autofix hook (w.files q), k.out⟩, w) := by
      simp only [Worker.step, h1, lintFile_reads, id]
    rw [hstep]
    refine ⟨.reading (w.files q) ys u, ⟨ht, by simp [h2, ha], hseen, by rw [ha], hu⟩, fun _ _ => rfl, keep w _ rfl (by simp [hs]) (fun e _ => e)⟩
  | reading c ys u =>
    rw [hs] at hst
    obtain ⟨ht, h1, hseen, h2, hu⟩ := hst
    obtain ⟨g, out⟩ := k
    simp only at ht h1
    cases ht with
    | ret =>
      refine ⟨.done, ⟨rfl, c, hseen, by simpa [Worker.step] using h1⟩, fun _ _ => rfl, keep w _ rfl (by simp [hs]) (fun _ e => ?_)⟩
      rw [hs] at e
      simp only [Early] at e ⊢
      intro hc
      apply hc
      rw [← e, ← h2]
      rfl
    | yield y k' ys' _ ht' =>
      refine ⟨.reading c ys' u, ⟨ht', by simpa [Worker.step] using h1, hseen, h2, hu⟩, fun _ _ => rfl, keep w _ rfl (by simp [hs]) (fun _ e => ?_)⟩
      rw [hs] at e
      exact e
    | act a k' g' _ _ ha hk' ht' =>
      refine ⟨.reading c ys u, ⟨?_, by simpa [Worker.step] using h1, hseen, h2, hu⟩, fun q' _ => by simp [Worker.step, ha], keep (a w) _ (ha w) (by simp [hs]) (fun _ e => ?_)⟩
      · simp only [Worker.step, hk' w h.others]
        exact ht'
      · rw [hs] at e
        exact e
    | write b k' hpend =>
      have hb : (aloneAt env autofix hook w0 q c).2 = some b := by rw [← h2]; rfl
      have hbc := hu b rfl
      have hchg : c = w0.files q := by
        rcases hseen with e | ⟨_, e | e⟩
        · exact e
        · exfalso
          have := honce q hq
          rw [← e, hb] at this
          exact hbc this
        · exfalso
          have := hempty q hq
          rw [← e, hb] at this
          exact hbc this
      have hch : Changes env autofix hook w0 q := by
        intro e
        rw [← hchg, hb] at e
        exact hbc e
      refine ⟨.pending b, ⟨hpend w, by rw [← hchg, hb], hch, c, hseen, by simpa [Worker.step] using h1⟩,
        fun q' hq' => by simp [Worker.step, World.put, World.note, hq'], Or.inr ⟨hch, Or.inr ⟨by simp [Worker.step, World.put, World.note], i, p, b, hp, hqe, by simp⟩⟩⟩
  | pending b =>
    rw [hs] at hst
    obtain ⟨⟨k', hg, hr⟩, hb, hch, c, hseen, hout⟩ := hst
    obtain ⟨g, out⟩ := k
    simp only at hg hout
    subst hg
    have hcon : w.files q = some b ∨ w.files q = some [] := by
      rcases hfile with ⟨_, e2⟩ | ⟨_, e2 | ⟨e2, _⟩⟩
      · have := e2 i p hp hqe
        rw [hs] at this
        exact absurd this (by simp [Early])
      · exact Or.inl (by rw [e2, hb])
      · exact Or.inr e2
    refine ⟨.done, ⟨by simp [Worker.step, hr], c, hseen, hout⟩, fun q' hq' => by simp [Worker.step, World.overwrite, World.put, World.note, hq'], Or.inr ⟨hch, Or.inl ?_⟩⟩
    rw [hb]
    rcases hcon with e | e <;> simp [Worker.step, World.overwrite, World.put, World.note, e]
  | done =>
    rw [hs] at hst
    obtain ⟨hg, c, hseen, hout⟩ := hst
    obtain ⟨g, out⟩ := k
    simp only at hg hout
    subst hg
    refine ⟨.done, ⟨rfl, c, hseen, hout⟩, fun _ _ => rfl, keep w _ rfl (by simp [hs]) (fun _ e => ?_)⟩
    rw [hs] at e
    exact e

theorem racing_run (hS : Stable env (GivenFile env fs)) (ho : ∀ q, GivenFile env fs q → env.openRaises q = none) (hw : ∀ q, GivenFile env fs q → ∀ b, env.writeRaises q b = none)
    (hempty : ∀ q, GivenFile env fs q → (aloneAt env autofix hook w0 q (some [])).2 = some [])
    (honce : ∀ q, GivenFile env fs q → (aloneAt env autofix hook w0 q (aloneAt env autofix hook w0 q (w0.files q)).2).2 = (aloneAt env autofix hook w0 q (w0.files q)).2) :
    ∀ (sched : List Nat) (σ : Nat → FixStage) (ks : List Worker) (w : World), Racing env autofix hook fs w0 σ ks w →
      ∃ σ', Racing env autofix hook fs w0 σ' (runPool sched ks w).1 (runPool sched ks w).2
  | [], σ, ks, w, h => ⟨σ, h⟩
  | i :: sched, σ, ks, w, h => by
    simp only [runPool]
    cases hk : ks[i]? with
    | none => exact racing_run hS ho hw hempty honce sched σ ks w h
    | some k =>
      obtain ⟨s, hs⟩ := racing_step env autofix hook fs w0 hS ho hw hempty honce h i k hk
      exact racing_run hS ho hw hempty honce sched _ _ _ hs

end

/-- What C139 asks of the files `fs` in the world `w`: they can be written, a file that is empty is left empty, and fixing a file once is enough. -/
structure OnceIsEnough (autofix hook : Bool) (w : World) (fs : List Path) : Prop where
  stable : Stable env (fun q => ∃ p ∈ fs, env.resolve p = q)
  opens : ∀ p ∈ fs, env.openRaises (env.resolve p) = none
  writes : ∀ p ∈ fs, ∀ b, env.writeRaises (env.resolve p) b = none
  empty : ∀ p ∈ fs, afterAlone env autofix hook w p (some []) = some []
  once : ∀ p ∈ fs, afterAlone env autofix hook w p (afterAlone env autofix hook w p (w.files (env.resolve p))) = afterAlone env autofix hook w p (w.files (env.resolve p))

variable {env}

theorem OnceIsEnough.racing {autofix hook : Bool} {w : World} {fs : List Path} (h : OnceIsEnough env autofix hook w fs) (sched : List Nat) :
    ∃ σ, Racing env autofix hook fs w σ (runPool sched (startWorkers env autofix hook fs) w).1 (runPool sched (startWorkers env autofix hook fs) w).2 := by
  refine racing_run env autofix hook fs w h.stable ?_ ?_ ?_ ?_ sched _ _ _ (racing_start env autofix hook fs w)
  · rintro q ⟨p, hp, rfl⟩; exact h.opens p hp
  · rintro q ⟨p, hp, rfl⟩; exact h.writes p hp
  · rintro q ⟨p, hp, rfl⟩; exact h.empty p hp
  · rintro q ⟨p, hp, rfl⟩; exact h.once p hp

/-- **C139** At every moment each of the files has its old content, its new content, or, while it is rewritten, none. -/
theorem C139_content {autofix hook : Bool} {w : World} {fs : List Path} (h : OnceIsEnough env autofix hook w fs) (sched : List Nat) (p : Path) (hp : p ∈ fs) :
    ContentSeen env autofix hook w p ((runPool sched (startWorkers env autofix hook fs) w).2.files (env.resolve p)) := by
  obtain ⟨σ, hr⟩ := h.racing sched
  rcases hr.files (env.resolve p) ⟨p, hp, rfl⟩ with ⟨e1, _⟩ | ⟨e1, e2 | ⟨e2, _⟩⟩
  · exact Or.inl e1
  · exact Or.inr ⟨e1, Or.inl e2⟩
  · exact Or.inr ⟨e1, Or.inr e2⟩

/-- **C139** Once all the workers that were given the file, under whatever names, have finished, it has the content that fixing it once on its own gives it. -/
theorem C139_finished {autofix hook : Bool} {w : World} {fs : List Path} (h : OnceIsEnough env autofix hook w fs) (sched : List Nat) (p : Path) (hp : p ∈ fs)
    (hdone : ∀ (i : Nat) p' k, fs[i]? = some p' → env.resolve p' = env.resolve p → (runPool sched (startWorkers env autofix hook fs) w).1[i]? = some k → k.done = true) :
    (runPool sched (startWorkers env autofix hook fs) w).2.files (env.resolve p) = afterAlone env autofix hook w p (w.files (env.resolve p)) := by
  obtain ⟨σ, hr⟩ := h.racing sched
  -- no worker on this file is at a stage before the end
  have hst : ∀ (i : Nat) p', fs[i]? = some p' → env.resolve p' = env.resolve p → ∃ k, (runPool sched (startWorkers env autofix hook fs) w).1[i]? = some k ∧
      AtStage env autofix hook fs w (env.resolve p) k (σ i) ∧ k.done = true := by
    intro i p' hi he
    have hlt : i < fs.length := (List.getElem?_eq_some_iff.mp hi).1
    have hk := List.getElem?_eq_getElem (l := (runPool sched (startWorkers env autofix hook fs) w).1) (i := i) (by rw [hr.length]; exact hlt)
    exact ⟨_, hk, he ▸ hr.stages i p' _ hi hk, hdone i p' _ hi he hk⟩
  rcases hr.files (env.resolve p) ⟨p, hp, rfl⟩ with ⟨e1, e2⟩ | ⟨e1, e2 | ⟨e2, j, p', b, e3, e4, e5⟩⟩
  · rw [e1]
    obtain ⟨i, hi, hget⟩ := List.mem_iff_getElem.mp hp
    have hi' : fs[i]? = some p := by rw [List.getElem?_eq_getElem hi, hget]
    obtain ⟨k, _, hs, hd⟩ := hst i p hi' rfl
    have he := e2 i p hi' rfl
    cases hσ : σ i with
    | fresh =>
      rw [hσ] at hs
      simp [Worker.done, hs.1, lintFile_reads] at hd
    | reading c ys u =>
      rw [hσ] at hs he
      simp only [Early] at he
      obtain ⟨g, out⟩ := k
      obtain ⟨ht, _, _, hu, _⟩ := hs
      simp only at ht
      cases ht with
      | ret =>
        rw [he] at hu
        exact hu
      | yield => simp [Worker.done] at hd
      | act => simp [Worker.done] at hd
      | write => simp [Worker.done] at hd
    | pending b =>
      rw [hσ] at he
      exact absurd he (by simp [Early])
    | done =>
      rw [hσ] at he
      simp only [Early, Changes, ne_eq, Decidable.not_not] at he
      exact he.symm
  · exact e2
  · obtain ⟨k, _, hs, hd⟩ := hst j p' e3 e4
    rw [e5] at hs
    obtain ⟨⟨k', hg, _⟩, _⟩ := hs
    simp [Worker.done, hg] at hd

/-- **C139** Each worker reports what linting the file on its own reports, for one of these contents. -/
theorem C139_results {autofix hook : Bool} {w : World} {fs : List Path} (h : OnceIsEnough env autofix hook w fs) (sched : List Nat) (i : Nat) (p : Path) (k : Worker)
    (hi : fs[i]? = some p) (hk : (runPool sched (startWorkers env autofix hook fs) w).1[i]? = some k) (hd : k.done = true) :
    ∃ c, ContentSeen env autofix hook w p c ∧ k.out = (alone env autofix hook (holding w (env.resolve p) c) p).1 := by
  obtain ⟨σ, hr⟩ := h.racing sched
  have hs := hr.stages i p k hi hk
  cases hσ : σ i with
  | fresh =>
    rw [hσ] at hs
    simp [Worker.done, hs.1, lintFile_reads] at hd
  | reading c ys u =>
    rw [hσ] at hs
    obtain ⟨g, out⟩ := k
    obtain ⟨ht, ho, hseen, _⟩ := hs
    simp only at ht ho
    cases ht with
    | ret => exact ⟨c, hseen, by rw [List.append_nil] at ho; exact ho⟩
    | yield => simp [Worker.done] at hd
    | act => simp [Worker.done] at hd
    | write => simp [Worker.done] at hd
  | pending b =>
    rw [hσ] at hs
    exact hs.2.2.2
  | done =>
    rw [hσ] at hs
    exact hs.2

/-- **C139** So `fixit_paths` with paths that overlap leaves each file as if it had been fixed once. -/
theorem C139_paths {walk : (Path → Option Bytes) → Path → Except Err (List Path)} {autofix hook : Bool} {paths fs : List Path} {ss : List Answer} {w : World}
    {ys : List Result} {w' : World} (hpool : usesPool (walk w.files) true paths = some fs) (h : OnceIsEnough env autofix hook w fs)
    (hrun : PathsRun env walk autofix hook true paths ss w (ys, .returned (), w')) (p : Path) (hp : p ∈ fs) :
    w'.files (env.resolve p) = afterAlone env autofix hook w p (w.files (env.resolve p)) := by
  generalize hx : (ys, Status.returned (), w') = x at hrun
  cases hrun with
  | plain hn => rw [hpool] at hn; cases hn
  | pool fs' sched order hf hnd hdone hall =>
    rw [hpool, Option.some.injEq] at hf
    subst hf
    simp only [Prod.mk.injEq] at hx
    obtain ⟨_, hret, rfl⟩ := hx
    refine C139_finished h sched p hp (fun i p' k hi he hk => ?_)
    have := hall hret.symm i (List.getElem?_eq_some_iff.mp hi).1
    obtain ⟨k', hk', hd⟩ := hdone i this
    rw [hk, Option.some.injEq] at hk'
    exact hk' ▸ hd

end Fixit
