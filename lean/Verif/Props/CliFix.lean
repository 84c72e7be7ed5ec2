import Verif.Props.Cli

/-!
# C57: `fix`; C80: `fix -`
-/

namespace Fixit
open Py Py.Gen Spec

variable {C : Type} (env : Env C) (con : Console) (walk : (Path → Option Bytes) → Path → Except Err (List Path))

/-- What is printed for a list of results. -/
def printedFor (con : Console) (showDiff stderr : Bool) (fmt : OutputFormat) (template : Toml) (rs : List Result) : List Out :=
  rs.flatMap (fun r => match printResult con showDiff stderr fmt template r with | .ok (outs, _) => outs | .error _ => [])

/-- The result can be printed. -/
def printable (con : Console) (fmt : OutputFormat) (template : Toml) (r : Result) : Bool :=
  match printResult con false false fmt template r with
  | .ok _ => true
  | .error _ => false

theorem printable_spec (showDiff stderr : Bool) (fmt : OutputFormat) (template : Toml) (r : Result) :
    printable con fmt template r = true ↔ ∃ outs d, printResult con showDiff stderr fmt template r = .ok (outs, d) := by
  unfold printable printResult
  cases r.violation with
  | none => cases r.error <;> simp
  | some v => simp only; cases violationLine con fmt template r v <;> simp

/-- **C79** With the built-in formats every result can be printed. -/
theorem C79_builtin_formats (fmt : OutputFormat) (template : Toml) (h : fmt ≠ .custom) (r : Result) : printable con fmt template r = true := by
  unfold printable
  cases hp : printResult con false false fmt template r with
  | ok _ => rfl
  | error e => exact absurd (C79_raises con false false fmt template r e hp).1 h

/-- The variables of the loop of `fix` after the results `rs`, of which those in `answers` were accepted. -/
structure FixCounted (interactive : Bool) (t t' : Tally) (P Q : Path → Prop) (rs : List Result) (answers : List Answer) : Prop where
  code : t'.exitCode = t.exitCode
  visited : Lists t'.visited (fun q => P q ∨ ∃ r ∈ rs, r.path = q)
  dirty : Lists t'.dirty (fun q => Q q ∨ ∃ r ∈ rs, r.path = q ∧ Dirty r)
  autofixes : t'.autofixes = t.autofixes + (rs.filter Result.fixable).length
  fixed : t'.fixed = t.fixed + if interactive then answers.count (some true) else (rs.filter Result.fixable).length

theorem fix_visited (t : Tally) (autofix : Bool) (r : Result) (d : Bool) (P : Path → Prop) (h : Lists t.visited P) :
    Lists (t.fix autofix r d).visited (fun q => P q ∨ q = r.path) := by
  have : (t.fix autofix r d).visited = pathAdd r.path t.visited := by
    unfold Tally.fix; cases d <;> cases (autofix && r.fixable) <;> rfl
  rw [this]; exact pathAdd_lists _ _ _ h

theorem fix_dirty (t : Tally) (autofix : Bool) (r : Result) (d : Bool) (Q : Path → Prop) (h : Lists t.dirty Q) (hd : d = true ↔ Dirty r) :
    Lists (t.fix autofix r d).dirty (fun q => Q q ∨ (q = r.path ∧ Dirty r)) := by
  by_cases hdt : d = true
  · have : (t.fix autofix r d).dirty = pathAdd r.path t.dirty := by
      unfold Tally.fix; rw [hdt]; cases (autofix && r.fixable) <;> rfl
    rw [this]
    exact (pathAdd_lists _ _ _ h).congr (fun a => by simp [hd.mp hdt])
  · have : (t.fix autofix r d).dirty = t.dirty := by unfold Tally.fix; simp [hdt]
    rw [this]
    exact h.congr (fun a => by simp [mt hd.mpr hdt])

theorem fix_counts (t : Tally) (autofix : Bool) (r : Result) (d : Bool) (hd : d = true ↔ Dirty r) :
    (t.fix autofix r d).autofixes = t.autofixes + (if autofix && r.fixable then 1 else 0) ∧
    (t.fix autofix r d).fixed = t.fixed + (if autofix && r.fixable then 1 else 0) ∧ (t.fix autofix r d).exitCode = t.exitCode := by
  unfold Tally.fix
  by_cases hdt : d = true
  · simp only [hdt, if_true]
    split <;> simp
  · have : r.fixable = false := by
      cases hf : r.fixable with
      | false => rfl
      | true => exact absurd (hd.mpr (fixable_dirty r hf)) hdt
    simp [hdt, this]

/-- How the loop ends (`end_`), when the generator below, answered with `answers`, has yielded `rs` and is at `st`: with it, or because the last result could not
be printed, or where the user replied nothing any more, quit or aborted. `Counts t'` is to hold of the variables then. -/
def SessionEnd (con : Console) (interactive diff isStdin : Bool) (fmt : OutputFormat) (template : Toml) (rs : List Result) (replies : List Reply)
    (Counts : Tally → Prop) (st : Status Unit) (end_ : Status Tally) : Prop :=
  match st with
  | .returned _ => ∃ t', end_ = .returned t' ∧ Counts t'
  | .raised e => end_ = .raised e
  | .suspended => ∃ r before, rs = before ++ [r] ∧
      ((∃ e, printResult con (interactive || diff) isStdin fmt template r = .error e ∧ end_ = .raised e) ∨
      (interactive = true ∧ r.fixable = true ∧ printable con fmt template r = true ∧
        ((replies[(before.filter Result.fixable).length]? = none ∧ end_ = .suspended) ∨
         (replies[(before.filter Result.fixable).length]? = some Reply.quit ∧ ∃ t', end_ = .returned t' ∧ Counts t') ∨
         (replies[(before.filter Result.fixable).length]? = some Reply.abort ∧ end_ = .raised abortError))))

theorem SessionEnd.imp {interactive diff isStdin : Bool} {fmt : OutputFormat} {template : Toml} {rs : List Result} {replies : List Reply}
    {K K' : Tally → Prop} {st : Status Unit} {end_ : Status Tally} (h : SessionEnd con interactive diff isStdin fmt template rs replies K st end_)
    (hk : ∀ t', K t' → K' t') : SessionEnd con interactive diff isStdin fmt template rs replies K' st end_ := by
  cases st with
  | returned u => obtain ⟨t', h1, h2⟩ := h; exact ⟨t', h1, hk t' h2⟩
  | raised e => exact h
  | suspended =>
    obtain ⟨r, before, h1, h2⟩ := h
    refine ⟨r, before, h1, h2.imp id (fun h => ⟨h.1, h.2.1, h.2.2.1, h.2.2.2.imp id (Or.imp (fun g => ?_) id)⟩)⟩
    obtain ⟨g0, t', g1, g2⟩ := g
    exact ⟨g0, t', g1, hk t' g2⟩

/-- One more result in front. -/
theorem SessionEnd.cons {interactive diff isStdin : Bool} {fmt : OutputFormat} {template : Toml} {rs : List Result} {replies replies' : List Reply} {z : Result}
    {K : Tally → Prop} {st : Status Unit} {end_ : Status Tally} (h : SessionEnd con interactive diff isStdin fmt template rs replies K st end_)
    (hz : interactive = true → ∀ n : Nat, replies[n]? = replies'[if z.fixable then n + 1 else n]?) :
    SessionEnd con interactive diff isStdin fmt template (z :: rs) replies' K st end_ := by
  cases st with
  | returned u => exact h
  | raised e => exact h
  | suspended =>
    obtain ⟨r, before, h1, h2⟩ := h
    refine ⟨r, z :: before, by rw [h1]; rfl, h2.imp id (fun h => ⟨h.1, h.2.1, h.2.2.1, ?_⟩)⟩
    have := hz h.1 (before.filter Result.fixable).length
    have hl : ((z :: before).filter Result.fixable).length = if z.fixable then (before.filter Result.fixable).length + 1 else (before.filter Result.fixable).length := by
      rw [List.filter_cons]; split <;> simp
    rw [hl, ← this]
    exact h.2.2.2

/-- The loop of `fix` over any generator of results: there are answers for which the generator's run is what happens underneath. -/
theorem fix_session (interactive diff isStdin : Bool) (fmt : OutputFormat) (template : Toml) :
    ∀ (g : Linting Unit) (t : Tally) (replies : List Reply) (w : World) (c : List Out) (P Q : Path → Prop), Lists t.visited P → Lists t.dirty Q →
    ∃ ss : List Answer,
      ss = answersTo (printable con fmt template) interactive (g.run ss w).1 replies ∧
      ((forCapture (fixBody con interactive diff isStdin fmt template) (onFirst g) t).run replies (w, c)).1 =
        (g.run ss w).1.filter (fun r => interactive && printable con fmt template r && r.fixable) ∧
      ((forCapture (fixBody con interactive diff isStdin fmt template) (onFirst g) t).run replies (w, c)).2.2 =
        ((g.run ss w).2.2, c ++ printedFor con (interactive || diff) isStdin fmt template (g.run ss w).1) ∧
      SessionEnd con interactive diff isStdin fmt template (g.run ss w).1 replies (fun t' => FixCounted interactive t t' P Q (g.run ss w).1 ss) (g.run ss w).2.1
        ((forCapture (fixBody con interactive diff isStdin fmt template) (onFirst g) t).run replies (w, c)).2.1
  | .ret r, t, replies, w, c, P, Q, hP, hQ => by
    refine ⟨[], rfl, rfl, by simp [onFirst, forCapture, run, printedFor], t, rfl, ⟨rfl, hP.congr (by simp [run]), hQ.congr (by simp [run]), by simp [run], by cases interactive <;> simp [run]⟩⟩
  | .raise e, t, replies, w, c, P, Q, hP, hQ => ⟨[], rfl, rfl, by simp [onFirst, forCapture, run, printedFor], rfl⟩
  | .act a k, t, replies, w, c, P, Q, hP, hQ => by
    have := fix_session interactive diff isStdin fmt template (k w) t replies (a w) c P Q hP hQ
    simpa only [onFirst, forCapture, run] using this
  | .yield z k, t, replies, w, c, P, Q, hP, hQ => by
    by_cases hpr : printable con fmt template z = true
    · obtain ⟨outs, d, hp⟩ := (printable_spec con (interactive || diff) isStdin fmt template z).mp hpr
      have hd := (C79_dirty con _ _ fmt template z outs d hp).1
      have hP' := fix_visited t (!interactive) z d P hP
      have hQ' := fix_dirty t (!interactive) z d Q hQ hd
      obtain ⟨hc1, hc2, hc3⟩ := fix_counts t (!interactive) z d hd
      have hpf : ∀ rs, c ++ outs ++ printedFor con (interactive || diff) isStdin fmt template rs = c ++ printedFor con (interactive || diff) isStdin fmt template (z :: rs) := by
        intro rs; simp [printedFor, hp]
      -- one pass, then the rest
      have hgo : ∀ (rest : List Reply) (a : Answer) (t₁ : Tally), (interactive && z.fixable) = true ∨ rest = replies →
          t₁.visited = (t.fix (!interactive) z d).visited → t₁.dirty = (t.fix (!interactive) z d).dirty → t₁.exitCode = t.exitCode →
          t₁.autofixes = t.autofixes + (if z.fixable then 1 else 0) →
          t₁.fixed = t.fixed + (if interactive then [a].count (some true) else if z.fixable then 1 else 0) →
          ∃ ss : List Answer,
            ss = answersTo (printable con fmt template) interactive ((k a).run ss w).1 rest ∧
            ((forCapture (fixBody con interactive diff isStdin fmt template) (onFirst (k a)) t₁).run rest (w, c ++ outs)).1 =
              ((k a).run ss w).1.filter (fun r => interactive && printable con fmt template r && r.fixable) ∧
            ((forCapture (fixBody con interactive diff isStdin fmt template) (onFirst (k a)) t₁).run rest (w, c ++ outs)).2.2 =
              (((k a).run ss w).2.2, c ++ printedFor con (interactive || diff) isStdin fmt template (z :: ((k a).run ss w).1)) ∧
            SessionEnd con interactive diff isStdin fmt template ((k a).run ss w).1 rest (fun t' => FixCounted interactive t t' P Q (z :: ((k a).run ss w).1) (a :: ss))
              ((k a).run ss w).2.1 ((forCapture (fixBody con interactive diff isStdin fmt template) (onFirst (k a)) t₁).run rest (w, c ++ outs)).2.1 := by
        intro rest a t₁ _ e1 e2 e3 e4 e5
        obtain ⟨ss, s1, s2, s3, s4⟩ := fix_session interactive diff isStdin fmt template (k a) t₁ rest w (c ++ outs) _ _ (by rw [e1]; exact hP') (by rw [e2]; exact hQ')
        have hfc : ∀ t', FixCounted interactive t₁ t' (fun q => P q ∨ q = z.path) (fun q => Q q ∨ (q = z.path ∧ Dirty z)) ((k a).run ss w).1 ss →
            FixCounted interactive t t' P Q (z :: ((k a).run ss w).1) (a :: ss) := by
          intro t' h
          refine ⟨by rw [h.code, e3], h.visited.congr (fun q => ?_), h.dirty.congr (fun q => ?_), ?_, ?_⟩
          · simp only [List.mem_cons, exists_eq_or_imp, or_assoc]; rw [eq_comm (a := q)]
          · simp only [List.mem_cons, exists_eq_or_imp, or_assoc]; rw [eq_comm (a := q)]
          · rw [h.autofixes, e4, List.filter_cons]; split <;> simp <;> omega
          · rw [h.fixed, e5, List.filter_cons]
            cases interactive with
            | false => cases z.fixable <;> simp <;> omega
            | true =>
              simp only [if_true]
              rw [List.count_cons (a := some true) (b := a) (l := ss), List.count_cons (a := some true) (b := a) (l := []), List.count_nil]
              omega
        exact ⟨ss, s1, s2, by rw [s3, hpf], s4.imp con hfc⟩
      by_cases hask : (interactive && z.fixable) = true
      · have hi : interactive = true := by cases interactive <;> simp_all
        have hfx : z.fixable = true := by cases interactive <;> simp_all
        have hbody : fixBody con interactive diff isStdin fmt template z t = (printing outs).bind (fun _ => askUser z (t.fix (!interactive) z d)) := by
          unfold fixBody; rw [hp]; simp [hask]
        have hrun : ∀ reps, (forCapture (fixBody con interactive diff isStdin fmt template) (onFirst (.yield z k)) t).run reps (w, c) =
            match reps with
            | [] => ([z], .suspended, (w, c ++ outs))
            | .yes :: more => (z :: ((forCapture (fixBody con interactive diff isStdin fmt template) (onFirst (k (some true)))
                (t.fix (!interactive) z d).offer.accept).run more (w, c ++ outs)).1,
              ((forCapture (fixBody con interactive diff isStdin fmt template) (onFirst (k (some true)))
                (t.fix (!interactive) z d).offer.accept).run more (w, c ++ outs)).2)
            | .no :: more => (z :: ((forCapture (fixBody con interactive diff isStdin fmt template) (onFirst (k none))
                (t.fix (!interactive) z d).offer).run more (w, c ++ outs)).1,
              ((forCapture (fixBody con interactive diff isStdin fmt template) (onFirst (k none))
                (t.fix (!interactive) z d).offer).run more (w, c ++ outs)).2)
            | .quit :: _ => ([z], .returned (t.fix (!interactive) z d).offer, (w, c ++ outs))
            | .abort :: _ => ([z], .raised abortError, (w, c ++ outs)) := by
          intro reps
          simp only [onFirst, forCapture, hbody]
          cases reps with
          | nil => simp [printing, askUser, Gen.bind, run]
          | cons r more => cases r <;> simp [printing, askUser, Gen.bind, run]
        have hfl : (z :: (List.nil : List Result)).filter (fun r => interactive && printable con fmt template r && r.fixable) = [z] := by simp [hi, hpr, hfx]
        have hstop : ∀ st, ([] : List Answer) = answersTo (printable con fmt template) interactive [z] (st :: (List.nil : List Reply)) ∨ st = .yes ∨ st = .no := by
          intro st; cases st <;> simp [answersTo, hpr, hi, hfx]
        rw [hrun]
        cases replies with
        | nil =>
          refine ⟨[], by simp [run, answersTo, hpr, hi, hfx], by simp only [run]; exact hfl.symm, by simp [run, printedFor, hp], z, [], rfl, Or.inr ⟨hi, hfx, hpr, Or.inl ⟨rfl, rfl⟩⟩⟩
        | cons reply more =>
          cases reply with
          | quit =>
            refine ⟨[], by simp [run, answersTo, hpr, hi, hfx], by simp only [run]; exact hfl.symm, by simp [run, printedFor, hp], z, [], rfl, Or.inr ⟨hi, hfx, hpr, Or.inr (Or.inl ⟨rfl, _, rfl, ⟨hc3, ?_, ?_, ?_, ?_⟩⟩)⟩⟩
            · exact hP'.congr (fun q => by simp only [run, List.mem_singleton, exists_eq_left]; rw [eq_comm (a := q)])
            · exact hQ'.congr (fun q => by simp only [run, List.mem_singleton, exists_eq_left]; rw [eq_comm (a := q)])
            · show (t.fix (!interactive) z d).autofixes + 1 = _
              rw [hc1]; simp [run, hi, hfx]
            · show (t.fix (!interactive) z d).fixed = _
              rw [hc2]; simp [hi]
          | abort =>
            refine ⟨[], by simp [run, answersTo, hpr, hi, hfx], by simp only [run]; exact hfl.symm, by simp [run, printedFor, hp], z, [], rfl, Or.inr ⟨hi, hfx, hpr, Or.inr (Or.inr ⟨rfl, rfl⟩)⟩⟩
          | yes =>
            obtain ⟨ss, s1, s2, s3, s4⟩ := hgo more (some true) (t.fix (!interactive) z d).offer.accept (Or.inl hask) rfl rfl hc3 (by show (t.fix (!interactive) z d).autofixes + 1 = _; rw [hc1]; simp [hi, hfx]) (by show (t.fix (!interactive) z d).fixed + _ = _; rw [hc2]; simp [hi])
            refine ⟨some true :: ss, ?_, ?_, ?_, ?_⟩
            · simp only [run, answersTo, hpr, hask, if_true]; rw [← s1]
            · show z :: _ = _; simp only [run]; rw [List.filter_cons_of_pos (by simp [hi, hpr, hfx]), ← s2]
            · exact s3
            · exact s4.cons con (fun _ n => by simp [hfx])
          | no =>
            obtain ⟨ss, s1, s2, s3, s4⟩ := hgo more none (t.fix (!interactive) z d).offer (Or.inl hask) rfl rfl hc3 (by show (t.fix (!interactive) z d).autofixes + 1 = _; rw [hc1]; simp [hi, hfx]) (by show (t.fix (!interactive) z d).fixed = _; rw [hc2]; simp [hi])
            refine ⟨none :: ss, ?_, ?_, ?_, ?_⟩
            · simp only [run, answersTo, hpr, hask, if_true]; rw [← s1]
            · show z :: _ = _; simp only [run]; rw [List.filter_cons_of_pos (by simp [hi, hpr, hfx]), ← s2]
            · exact s3
            · exact s4.cons con (fun _ n => by simp [hfx])
      · have hbody : fixBody con interactive diff isStdin fmt template z t = (printing outs).bind (fun _ => .ret (.next (t.fix (!interactive) z d) none)) := by
          unfold fixBody; rw [hp]; simp [hask]
        have hrun : (forCapture (fixBody con interactive diff isStdin fmt template) (onFirst (.yield z k)) t).run replies (w, c) =
            (forCapture (fixBody con interactive diff isStdin fmt template) (onFirst (k none)) (t.fix (!interactive) z d)).run replies (w, c ++ outs) := by
          simp only [onFirst, forCapture, hbody]
          simp [printing, Gen.bind, run]
        rw [hrun]
        obtain ⟨ss, s1, s2, s3, s4⟩ := hgo replies none (t.fix (!interactive) z d) (Or.inr rfl) rfl rfl hc3
          (by rw [hc1]; cases interactive <;> simp_all) (by rw [hc2]; cases interactive <;> simp_all)
        refine ⟨none :: ss, ?_, ?_, ?_, ?_⟩
        · simp only [run, answersTo, hpr, hask, if_true]; rw [if_neg (by simp), ← s1]
        · simp only [run]; rw [List.filter_cons_of_neg (by intro h; apply hask; simp only [Bool.and_eq_true] at h ⊢; exact ⟨h.1.1, h.2⟩), ← s2]
        · exact s3
        · refine s4.cons con (fun hi n => ?_)
          have hz : z.fixable = false := by
            cases hzf : z.fixable with
            | false => rfl
            | true => simp [hi, hzf] at hask
          simp [hz]
    · have hno := hpr
      rw [printable_spec con (interactive || diff) isStdin fmt template z] at hno
      cases hp : printResult con (interactive || diff) isStdin fmt template z with
      | ok x => exact absurd ⟨x.1, x.2, hp⟩ hno
      | error e =>
        have hbody : fixBody con interactive diff isStdin fmt template z t = .raise e := by unfold fixBody; rw [hp]
        have hrun : (forCapture (fixBody con interactive diff isStdin fmt template) (onFirst (.yield z k)) t).run replies (w, c) = ([], .raised e, (w, c)) := by
          simp only [onFirst, forCapture, hbody]; rfl
        rw [hrun]
        refine ⟨[], by simp [run, answersTo, hpr], by simp [run, hpr], by simp [run, printedFor, hp], z, [], rfl, Or.inl ⟨e, hp, rfl⟩⟩

/-- The paths of the command: the current directory when none are given. -/
theorem defaultPaths_eq (args : List Path) : defaultPaths con args = if args = [] then [con.cwd] else args := by
  unfold defaultPaths; cases args <;> rfl

/-- **C57** A session of `fixit fix` with any replies of the user. Underneath there is a sequential run of `fixit_paths` on the given paths (the current directory
if there are none), with autofix exactly when not interactive, answered `True` for the prompts replied to with yes and `None` otherwise; standard input is never
interactive. The prompts are the fixable violations of that run. When the command ends the exit status is 0 -- whatever was found --, what is printed is the
report of every result and then the summary: files seen, files with something to report, fixable violations seen, and fixes accepted (or, when automatic, fixable
violations seen). It ends when the run does or where the user quits; it raises where the run does, where a result cannot be printed, or where the user aborts. -/
theorem C57_session (flag diff hook : Bool) (fmt : OutputFormat) (template : Toml) (args : List Path) (replies : List Reply) (w : World) (c : List Out) :
    let paths := if args = [] then [con.cwd] else args
    let stdin := paths.head? == some [py "-"]
    let interactive := flag && !stdin
    let out := (fixCommand env con walk flag diff hook (.ok (fmt, template)) args).run replies (w, c)
    ∃ ss : List Answer,
      let under := (fixitPaths env walk (!interactive) hook paths).run ss w
      let printed := c ++ printedFor con (interactive || diff) stdin fmt template under.1
      let stopsAt := fun (reply : Option Reply) => interactive = true ∧ under.2.1 = .suspended ∧
        ∃ r before, under.1 = before ++ [r] ∧ r.fixable = true ∧ replies[(before.filter Result.fixable).length]? = reply
      ss = answersTo (printable con fmt template) interactive under.1 replies ∧
      out.1 = under.1.filter (fun r => interactive && printable con fmt template r && r.fixable) ∧
      out.2.2.1 = under.2.2 ∧
      (match out.2.1 with
        | .returned code => code = 0 ∧ (under.2.1 = .returned () ∨ stopsAt (some .quit)) ∧
            ∃ visited dirty, Lists visited (fun p => ∃ r ∈ under.1, r.path = p) ∧ Lists dirty (fun p => ∃ r ∈ under.1, r.path = p ∧ Dirty r) ∧
              out.2.2.2 = printed ++ [⟨true, summary visited.length dirty.length (under.1.filter Result.fixable).length
                (if interactive then ss.count (some true) else (under.1.filter Result.fixable).length)⟩]
        | .raised e => out.2.2.2 = printed ∧ (under.2.1 = .raised e ∨ (e = abortError ∧ stopsAt (some .abort)) ∨
            (under.2.1 = .suspended ∧ ∃ r before, under.1 = before ++ [r] ∧ printResult con (interactive || diff) stdin fmt template r = .error e))
        | .suspended => out.2.2.2 = printed ∧ stopsAt none) := by
  intro paths stdin interactive out
  have hout : out = ((forCapture (fixBody con interactive diff stdin fmt template) (onFirst (fixitPaths env walk (!interactive) hook paths)) {}).bind (fun t =>
      (printing [splash t.visited t.dirty t.autofixes t.fixed]).bind (fun _ => .ret t.exitCode))).run replies (w, c) := by
    show (fixCommand env con walk flag diff hook (.ok (fmt, template)) args).run replies (w, c) = _
    unfold fixCommand
    simp only [defaultPaths_eq, Gen.ofExcept, Gen.bind]
    rfl
  obtain ⟨ss, s1, s2, s3, s4⟩ := fix_session con interactive diff stdin fmt template (fixitPaths env walk (!interactive) hook paths) {} replies w c
    (fun _ => False) (fun _ => False) ⟨List.nodup_nil, by simp⟩ ⟨List.nodup_nil, by simp⟩
  refine ⟨ss, ?_⟩
  intro under printed stopsAt
  have hpr : c ++ printedFor con (interactive || diff) stdin fmt template ((fixitPaths env walk (!interactive) hook paths).run ss w).1 = printed := rfl
  have hu : (fixitPaths env walk (!interactive) hook paths).run ss w = under := rfl
  rw [hpr] at s3
  rw [hu] at s1 s2 s3 s4
  rw [run_bind] at hout
  rcases hl : (forCapture (fixBody con interactive diff stdin fmt template) (onFirst (fixitPaths env walk (!interactive) hook paths)) {}).run replies (w, c) with ⟨ys, st, sw⟩
  rw [hl] at hout s2 s3 s4
  simp only at s2 s3 s4
  cases st with
  | raised e =>
    simp only at hout
    rw [hout]
    refine ⟨s1, s2, by rw [s3], by simp only; rw [s3], ?_⟩
    cases hst : under.2.1 with
    | returned u => rw [hst] at s4; obtain ⟨t', h, -⟩ := s4; cases h
    | raised e' => rw [hst] at s4; cases s4; exact Or.inl rfl
    | suspended =>
      rw [hst] at s4
      obtain ⟨r, before, h1, ⟨e', h2, h3⟩ | ⟨hi, hf, -, ⟨-, h⟩ | ⟨-, t', h, -⟩ | ⟨h2, h3⟩⟩⟩ := s4
      · cases h3; exact Or.inr (Or.inr ⟨rfl, r, before, h1, h2⟩)
      · cases h
      · cases h
      · cases h3; exact Or.inr (Or.inl ⟨rfl, hi, hst, r, before, h1, hf, h2⟩)
  | suspended =>
    simp only at hout
    rw [hout]
    refine ⟨s1, s2, by rw [s3], by simp only; rw [s3], ?_⟩
    cases hst : under.2.1 with
    | returned u => rw [hst] at s4; obtain ⟨t', h, -⟩ := s4; cases h
    | raised e' => rw [hst] at s4; cases s4
    | suspended =>
      rw [hst] at s4
      obtain ⟨r, before, h1, ⟨e', h2, h3⟩ | ⟨hi, hf, -, ⟨h2, h⟩ | ⟨-, t', h, -⟩ | ⟨h2, h3⟩⟩⟩ := s4
      · cases h3
      · exact ⟨hi, hst, r, before, h1, hf, h2⟩
      · cases h
      · cases h3
  | returned t =>
    have key : FixCounted interactive {} t (fun _ => False) (fun _ => False) under.1 ss ∧ (under.2.1 = .returned () ∨ stopsAt (some .quit)) := by
      cases hst : under.2.1 with
      | returned u =>
        rw [hst] at s4; obtain ⟨t', h, h'⟩ := s4
        cases h; exact ⟨h', Or.inl rfl⟩
      | raised e' => rw [hst] at s4; cases s4
      | suspended =>
        rw [hst] at s4
        obtain ⟨r, before, h1, ⟨e', h2, h3⟩ | ⟨hi, hf, -, ⟨h2, h⟩ | ⟨h2, t', h, h'⟩ | ⟨h2, h3⟩⟩⟩ := s4
        · cases h3
        · cases h
        · cases h; exact ⟨h', Or.inr ⟨hi, hst, r, before, h1, hf, h2⟩⟩
        · cases h3
    obtain ⟨hk, hend⟩ := key
    have hout' : out = (ys, .returned t.exitCode, (sw.1, sw.2 ++ [splash t.visited t.dirty t.autofixes t.fixed])) := by
      rw [hout]
      simp [printing, Gen.bind, run]
    rw [hout']
    refine ⟨s1, s2, by rw [s3], ?_⟩
    simp only
    refine ⟨hk.code, hend, t.visited, t.dirty, hk.visited.congr (by simp), hk.dirty.congr (by simp), ?_⟩
    rw [s3, splash_summary, hk.autofixes, hk.fixed]
    simp

/-- **C57** A bad configuration of the current directory (only its output format is used) stops `fix` before anything is read, printed or written. -/
theorem C57_bad_config (flag diff hook : Bool) (e : Err) (args : List Path) (replies : List Reply) (w : World) (c : List Out) :
    (fixCommand env con walk flag diff hook (.error e) args).run replies (w, c) = ([], .raised e, (w, c)) := rfl

/-- One file is given. -/
theorem run_one_file (p : Path) (autofix hook : Bool) (ss : List Answer) (w : World) (hp : p ≠ [py "-"]) (hw : walk w.files p = .ok [p]) :
    (fixitPaths env walk autofix hook [p]).run ss w = (fixitFile env p autofix hook).run ss w := by
  rw [C50_files env walk autofix hook [p] ss w [p] (by simpa using hp) (by
    rw [List.filter_cons_of_pos (by simpa using hp)]
    simp [filesUnder, hw])]
  show ((fixitFile env p autofix hook).bind (fun _ => .ret ())).run ss w = _
  rw [run_bind]
  rcases (fixitFile env p autofix hook).run ss w with ⟨ys, st, w'⟩
  cases st <;> simp [run]

theorem accepted_chosen (pr : Result → Bool) (p : Path) (hpr : ∀ r, pr r = true) : ∀ (vs : List LintViolation) (replies : List Reply),
    accepted false vs (answersTo pr true (vs.map (reporting p)) replies) = chosen vs replies
  | [], _ => by simp [accepted, chosen]
  | v :: vs, replies => by
    have hfx : (reporting p v).fixable = v.autofixable := rfl
    have ih := fun rs => accepted_chosen pr p hpr vs rs
    simp only [accepted, Bool.false_or, decide_eq_true_eq] at ih
    simp only [List.map_cons, answersTo, hpr, if_true, Bool.true_and, hfx, chosen]
    by_cases hv : v.autofixable = true
    · simp only [hv, if_true]
      cases replies with
      | nil => simp [accepted]
      | cons r more => cases r <;> simp [accepted, ih]
    · simp only [hv]
      simp [accepted, ih]

/-- **C57** Interactive fixing of one file, end to end (with a built-in output format). If the command ends, then either the user quit, and the file -- like all
others -- is as it was, even though earlier fixes of it may have been accepted; or the file was gone through, and if that gave no error, its new content is the
original with exactly the accepted fixes applied, formatted as configured (unless that is empty), and it is untouched when none was accepted. -/
theorem C57_one_file (diff hook : Bool) (fmt : OutputFormat) (template : Toml) (p : Path) (replies : List Reply) (w w' : World) (c c' : List Out)
    (prompts : List Result) (code : Nat) (hp : p ≠ [py "-"]) (hw : walk w.files p = .ok [p]) (hfmt : fmt ≠ .custom)
    (hrun : (fixCommand env con walk true diff hook (.ok (fmt, template)) [p]).run replies (w, c) = (prompts, .returned code, (w', c'))) :
    ∃ (ys : List Result) (tail : Out), c' = c ++ printedFor con true false fmt template ys ++ [tail] ∧
      ((w' = w ∧ prompts ≠ [] ∧ replies[prompts.length - 1]? = some .quit) ∨
       ((∀ r ∈ ys, r.error = none) → ∃ content cfg, loaded env w.files (env.resolve p) = .ok (content, cfg) ∧
          ys = (if found env w.files (env.resolve p) content cfg = [] then [cleanResult (env.resolve p)] else
            (found env w.files (env.resolve p) content cfg).map (reporting (env.resolve p))) ∧
          (chosen (found env w.files (env.resolve p) content cfg) replies = [] → w'.files = w.files) ∧
          (chosen (found env w.files (env.resolve p) content cfg) replies ≠ [] → ∃ b,
            fixedContent env (env.resolve p) content cfg (chosen (found env w.files (env.resolve p) content cfg) replies) = .ok b ∧
            w'.files (env.resolve p) = some (if b = [] then content else b)))) := by
  have h := C57_session env con walk true diff hook fmt template [p] replies w c
  rw [hrun] at h
  have hpb : (p == [py "-"]) = false := by simpa using hp
  simp only [List.cons_ne_self, reduceIte, List.head?_cons, reduceCtorEq, Option.some_beq_some, hpb, Bool.not_false, Bool.and_self, Bool.not_true, Bool.true_or, Bool.true_and] at h
  obtain ⟨ss, s1, s2, s3, -, s4, visited, dirty, -, -, s5⟩ := h
  rw [run_one_file env walk p false hook ss w hp hw] at *
  have hpr : ∀ r, printable con fmt template r = true := C79_builtin_formats con fmt template hfmt
  rcases hu : (fixitFile env p false hook).run ss w with ⟨ys, st, w''⟩
  rw [hu] at s1 s2 s3 s4 s5
  simp only at s1 s2 s3 s4 s5
  subst s3
  refine ⟨ys, _, s5, ?_⟩
  rcases s4 with hret | ⟨-, hs, r, before, hb, hf, hq⟩
  · right
    intro hne
    subst hret
    obtain ⟨content, cfg, hl, h1, h2, h3⟩ := final_content env p false hook ss w w' ys hu hne
    have hfi : foundIn env w.files (env.resolve p) = found env w.files (env.resolve p) content cfg := by unfold foundIn; rw [hl]
    obtain ⟨k1, k2⟩ := C44_clean_or_violations env p false hook ss w w' ys hu hne
    rw [hfi] at k1 k2
    have hys : ys = (if found env w.files (env.resolve p) content cfg = [] then [cleanResult (env.resolve p)] else
            (found env w.files (env.resolve p) content cfg).map (reporting (env.resolve p))) ∧
        accepted false (found env w.files (env.resolve p) content cfg) ss = chosen (found env w.files (env.resolve p) content cfg) replies := by
      split
      · rename_i hv
        rw [hv]; exact ⟨k1 hv, by simp [accepted, chosen]⟩
      · rename_i hv
        refine ⟨k2 hv, ?_⟩
        rw [s1, k2 hv]; exact accepted_chosen _ _ hpr _ _
    rw [hys.2] at h1 h2
    exact ⟨content, cfg, hl, hys.1, h1, h2⟩
  · left
    have hlast : ys.getLast? = some r := by rw [hb]; simp
    have hfil : prompts = ys.filter Result.fixable := by rw [s2]; congr 1; funext r; simp [hpr]
    rw [hb, List.filter_append, List.filter_cons_of_pos hf, List.filter_nil] at hfil
    have hmem : r ∈ ((fixitFile env p false hook).run ss w).1 := by rw [hu, hb]; simp
    obtain ⟨v, rfl⟩ : ∃ v, r = ⟨env.resolve p, some v, none⟩ := by
      have hrp := C54_results_name_the_file env p false hook ss w r hmem
      rcases C44_result_shape env p false hook ss w with ⟨k, hk, -⟩ | ⟨-, hc⟩ | ⟨e, he⟩
      · rw [hk, List.mem_map] at hmem; obtain ⟨v, -, rfl⟩ := hmem; exact ⟨v, rfl⟩
      · rw [hc, List.mem_singleton] at hmem; subst hmem; cases hf
      · rw [he, List.mem_append, List.mem_map, List.mem_singleton] at hmem
        rcases hmem with ⟨v, -, rfl⟩ | rfl
        · exact ⟨v, rfl⟩
        · cases hf
    refine ⟨C49_stopping_early env p false hook ss w w' ys v (by rw [hu, hs]) hlast, by rw [hfil]; simp, ?_⟩
    rw [hfil]; simpa using hq

/-! ## C80 -/

theorem onStdout_append (a b : List Out) : onStdout (a ++ b) = onStdout a ++ onStdout b := by simp [onStdout]

/-- Reports to standard error, without diffs, leave standard output alone. -/
theorem printedFor_stdout (fmt : OutputFormat) (template : Toml) (rs : List Result) : onStdout (printedFor con false true fmt template rs) = [] := by
  induction rs with
  | nil => rfl
  | cons r rs ih =>
    have : printedFor con false true fmt template (r :: rs) =
        (match printResult con false true fmt template r with | .ok (outs, _) => outs | .error _ => []) ++ printedFor con false true fmt template rs := rfl
    rw [this, onStdout_append, ih, List.append_nil]
    unfold printResult printDiff
    cases r.violation with
    | none => cases r.error <;> simp [onStdout, echoLine]
    | some v => simp only; cases violationLine con fmt template r v <;> simp [onStdout, echoLine]

/-- The arguments `-` and `- name`, possibly followed by more `-`: the name of the file that standard input stands for. -/
inductive StdinArgs : List Path → Path → Prop
  | unnamed (rest : List Path) : (∀ p ∈ rest, p = [py "-"]) → StdinArgs ([py "-"] :: rest) [py "stdin"]
  | named (name : Path) (rest : List Path) : name ≠ [py "-"] → (∀ p ∈ rest, p = [py "-"]) → StdinArgs ([py "-"] :: name :: rest) name

/-- **C80** `fixit fix - [name]` (built-in output format, no `--diff`, no `--print-metrics`): whatever the flags `--interactive`/`--automatic`, there is no prompt,
the command exits with 0, no file is touched, every report goes to standard error, and standard output gets one thing only: the source, either unchanged (always
when nothing was found or an error was reported) or with all the fixes applied -- when standard input and the configuration can be read and standard output
written. -/
theorem C80_fix_stdin (flag : Bool) (fmt : OutputFormat) (template : Toml) (args : List Path) (name : Path) (replies : List Reply) (w : World) (c : List Out)
    (hargs : StdinArgs args name) (hfmt : fmt ≠ .custom) :
    let out := (fixCommand env con walk flag false false (.ok (fmt, template)) args).run replies (w, c)
    out.1 = [] ∧ out.2.1 = .returned 0 ∧ out.2.2.1.files = w.files ∧ onStdout out.2.2.2 = onStdout c ∧ hookCalls (newEvents w out.2.2.1) = [] ∧
    ∃ (ys : List Result) (tail : Out), out.2.2.2 = c ++ printedFor con false true fmt template ys ++ [tail] ∧
      ∀ content cfg, env.stdin = .ok content → env.config w.files (env.resolve name) = .ok cfg → (∀ b, env.stdoutRaises b = none) →
        ∃ b, stdoutWrites (newEvents w out.2.2.1) = [b] ∧
          ((∃ r ∈ ys, r.error ≠ none) ∨ found env w.files (env.resolve name) content cfg = [] → b = content) ∧
          ((∀ r ∈ ys, r.error = none) → found env w.files (env.resolve name) content cfg ≠ [] →
            ∃ fixed, fixedContent env (env.resolve name) content cfg (found env w.files (env.resolve name) content cfg) = .ok fixed ∧
              b = if fixed = [] then content else fixed) := by
  intro out
  have hne : args ≠ [] := by cases hargs <;> simp
  have hhead : (args.head? == some [py "-"]) = true := by cases hargs <;> simp
  have hrunP : ∀ (ss : List Answer), (fixitPaths env walk true false args).run ss w = (fixitStdin env name true false).run ss w := by
    intro ss
    cases hargs with
    | unnamed rest h => exact C50_stdin_unnamed env walk true false rest ss w h
    | named name rest hn h => exact C50_stdin_named env walk true false name rest ss w hn h
  have h := C57_session env con walk flag false false fmt template args replies w c
  simp only [hne, if_false, hhead, Bool.not_true, Bool.and_false, Bool.not_false, Bool.or_false, Bool.false_and] at h
  obtain ⟨ss, s1, s2, s3, s4⟩ := h
  rw [hrunP] at s1 s2 s3 s4
  have hout : (fixCommand env con walk flag false false (.ok (fmt, template)) args).run replies (w, c) = out := rfl
  rw [hout] at s2 s3 s4
  have hnr := C45_stdin_never_raises env name true false ss w
  rcases hu : (fixitStdin env name true false).run ss w with ⟨ys, st, w'⟩
  rw [hu] at s1 s2 s3 s4 hnr
  simp only at s1 s2 s3 s4 hnr
  rcases ho : out with ⟨prompts, st', w'', c''⟩
  rw [ho] at s2 s3 s4
  simp only at s2 s3 s4
  subst s3
  have hend : ∃ visited dirty n m, st' = .returned 0 ∧ st = .returned () ∧ c'' = c ++ printedFor con false true fmt template ys ++ [⟨true, summary visited dirty n m⟩] := by
    cases st' with
    | returned code =>
      obtain ⟨h1, h2, v, d, -, -, h3⟩ := s4
      subst h1
      rcases h2 with h2 | ⟨h2, -⟩
      · exact ⟨_, _, _, _, rfl, h2, h3⟩
      · simp at h2
    | raised e =>
      obtain ⟨-, h | ⟨-, h, -⟩ | ⟨-, r, -, -, h⟩⟩ := s4
      · exact absurd h (hnr e)
      · simp at h
      · exact absurd (C79_raises con _ _ fmt template r e h).1 hfmt
    | suspended => obtain ⟨-, h, -⟩ := s4; simp at h
  obtain ⟨v, d, n, m, rfl, rfl, hc⟩ := hend
  have hw' : w'' ∈ (fixitStdin env name true false).worlds ss w := by
    have := run_world_mem (fixitStdin env name true false) ss w
    rw [hu] at this; exact this
  have hlog : ∃ evs, w''.log = w.log ++ evs ∧ hookCalls evs = [] := by
    refine (stdin_keeps env (fun u => ∃ evs, u.log = w.log ++ evs ∧ hookCalls evs = []) name true false (by simp) ?_).worlds ss w ⟨[], by simp, rfl⟩ w'' hw'
    rintro b u ⟨evs, h1, h2⟩
    refine ⟨evs ++ [.stdout b], by simp [h1], ?_⟩
    unfold hookCalls at h2 ⊢
    rw [List.filterMap_append, h2]; rfl
  obtain ⟨evs, hl1, hl2⟩ := hlog
  refine ⟨by rw [s2]; exact List.filter_eq_nil_iff.mpr (by simp), rfl, C48_files_untouched env name true false ss w w'' hw', ?_, by rw [newEvents_append w w'' evs hl1]; exact hl2, ys, _, hc, ?_⟩
  · simp only [hc]
    rw [onStdout_append, onStdout_append, printedFor_stdout]; simp [onStdout]
  · intro content cfg hin hcfg hso
    rcases C48_prints_once env name false ss w w'' ys _ content cfg hin hcfg hu with ⟨h, -⟩ | ⟨b, h1, -, -, -, h2, h3⟩ | ⟨b, e, h, -⟩
    · cases h
    · exact ⟨b, h1, h2, h3⟩
    · rw [hso b] at h; cases h

/-- **C57** `fixit upgrade` is `fixit fix --automatic` without `--diff` (under the options that enable `fixit.upgrade` only). -/
theorem C57_upgrade (hook : Bool) (cfg : Except Err (OutputFormat × Toml)) (args : List Path) (replies : List Reply) (s : Session) :
    (upgradeCommand env con walk hook cfg args).run replies s = (fixCommand env con walk false false hook cfg args).run replies s := rfl

end Fixit
