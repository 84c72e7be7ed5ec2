import Verif.Props.Output

/-!
# C129: everything an interactive session prints
-/

namespace Py.Gen

theorem run_atmost {W Y S R : Type} : ∀ (g : Gen W Y S R) (ss : List S) (w : W), (g.run ss w).1.length ≤ ss.length + 1
  | .ret _, ss, w => by simp [run]
  | .raise _, ss, w => by simp [run]
  | .yield _ k, [], w => by simp [run]
  | .yield _ k, s :: ss, w => by simpa [run] using run_atmost (k s) ss w
  | .act a k, ss, w => by simpa [run] using run_atmost (k w) ss (a w)

end Py.Gen

namespace Fixit
open Py Py.Gen Spec

/-- The fixes accepted are the replies of yes to the questions asked. -/
theorem answersTo_accepted (pr : Result → Bool) (hpr : ∀ r, pr r = true) : ∀ (rs : List Result) (replies : List Reply),
    rs.length ≤ (answersTo pr true rs replies).length + 1 →
    (answersTo pr true rs replies).count (some true) = (replies.take (rs.filter Result.fixable).length).count .yes
  | [], replies, _ => by simp [answersTo]
  | r :: rs, replies, h => by
    have ih := answersTo_accepted pr hpr rs
    simp only [answersTo, hpr, if_true, Bool.true_and] at h ⊢
    cases hf : r.fixable with
    | false =>
      rw [hf] at h
      simp only [Bool.false_eq_true, if_false, List.length_cons] at h ⊢
      rw [List.filter_cons_of_neg (by simp [hf]), List.count_cons_of_ne (by simp)]
      exact ih replies (by omega)
    | true =>
      rw [hf] at h
      simp only [if_true] at h ⊢
      rw [List.filter_cons_of_pos hf]
      cases replies with
      | nil => simp
      | cons reply more =>
        cases reply with
        | yes =>
          simp only [List.length_cons] at h ⊢
          rw [List.take_succ_cons, List.count_cons_self, List.count_cons_self, ih more (by omega)]
        | no =>
          simp only [List.length_cons] at h ⊢
          rw [List.take_succ_cons, List.count_cons_of_ne (by simp), List.count_cons_of_ne (by simp), ih more (by omega)]
        | quit =>
          simp only [List.length_cons, List.length_nil] at h
          have : rs = [] := List.length_eq_zero_iff.mp (by omega)
          subst this
          simp
        | abort =>
          simp only [List.length_cons, List.length_nil] at h
          have : rs = [] := List.length_eq_zero_iff.mp (by omega)
          subst this
          simp

section
variable {V M : Type} [DecidableEq V] (o : Outside V M) (con : Console) (walk : (Path → Option Bytes) → Path → Except Err (List Path))

/-- **C129** Everything an interactive `fixit fix` prints, with a built-in style, at whatever point it is. Underneath is a sequential run without autofix; each of its results so far has been
reported, with its diff, each fixable one has been asked about; and if the command has ended there is the summary, which counts the fixable ones as available, and those replied to with yes as
applied. -/
theorem C129_interactive (options : Options) (diff hook : Bool) (cfg : Config V) (args : List Path) (replies : List Reply) (w : World) (c : List Out)
    (hh : (if args = [] then [con.cwd] else args).head? ≠ some [py "-"])
    (hcfg : generateConfig o.cfg o.configOrder (o.fs w.files) (o.load w.files) con.cwd none (some options) = .ok cfg) (hfmt : cfg.outputFormat ≠ .custom) :
    let out := (o.fix con walk options true diff hook args w).run replies (w, c)
    ∃ (ss : List Answer) (printed : List Out),
      let seen := ((fixitPaths (o.env (some options)) walk false hook (if args = [] then [con.cwd] else args)).run ss w).1
      ss = answersTo (fun _ => true) true seen replies ∧
      AllWritten con true false cfg.outputFormat cfg.outputTemplate seen printed ∧
      out.1 = seen.filter Result.fixable ∧
      (∀ code, out.2.1 = .returned code → code = 0 ∧ ∃ visited dirty : List Path,
        Lists visited (fun q => ∃ r ∈ seen, r.path = q) ∧ Lists dirty (fun q => ∃ r ∈ seen, r.path = q ∧ Dirty r) ∧
        out.2.2.2 = c ++ printed ++ [⟨true, summary visited.length dirty.length (seen.filter Result.fixable).length ((replies.take (seen.filter Result.fixable).length).count .yes)⟩]) ∧
      ((∀ code, out.2.1 ≠ .returned code) → out.2.2.2 = c ++ printed) := by
  intro out
  have hout : o.output con options w.files = .ok (cfg.outputFormat, cfg.outputTemplate) := by
    unfold Outside.output
    rw [show o.config (some options) w.files con.cwd = .ok cfg from hcfg]
    rfl
  have h := C57_session (o.env (some options)) con walk true diff hook cfg.outputFormat cfg.outputTemplate args replies w c
  have ho : out = (fixCommand (o.env (some options)) con walk true diff hook (.ok (cfg.outputFormat, cfg.outputTemplate)) args).run replies (w, c) := by
    show (Outside.fix o con walk options true diff hook args w).run replies (w, c) = _
    unfold Outside.fix
    rw [hout]
  rw [← ho] at h
  clear_value out
  generalize hp : (if args = [] then [con.cwd] else args) = paths at h hh
  have hb : (paths.head? == some [py "-"]) = false := by simpa using hh
  simp only [hb, Bool.not_false, Bool.true_and, Bool.true_or, if_true, Bool.not_true] at h
  obtain ⟨ss, s1, s2, s3, s4⟩ := h
  have hpr : ∀ r, printable con cfg.outputFormat cfg.outputTemplate r = true := C79_builtin_formats con _ _ hfmt
  refine ⟨ss, printedFor con true false cfg.outputFormat cfg.outputTemplate _, s1.trans (by rw [show printable con cfg.outputFormat cfg.outputTemplate = fun _ => true from funext hpr]), printedFor_written con true false cfg.outputFormat cfg.outputTemplate hpr _, ?_, ?_, ?_⟩
  · rw [s2]
    simp [hpr]
  · intro code hcode
    rw [hcode] at s4
    obtain ⟨h0, -, visited, dirty, hv, hd, htext⟩ := s4
    refine ⟨h0, visited, dirty, hv, hd, ?_⟩
    rw [htext]
    have hlen := run_atmost (fixitPaths (o.env (some options)) walk false hook paths) ss w
    rw [s1] at hlen
    rw [← s1] at hlen
    have := answersTo_accepted _ hpr ((fixitPaths (o.env (some options)) walk false hook paths).run ss w).1 replies (by rw [← s1]; exact hlen)
    rw [← s1] at this
    rw [this]
  · intro hno
    cases hs : out.2.1 with
    | returned code => exact absurd hs (hno code)
    | raised e => rw [hs] at s4; exact s4.1
    | suspended => rw [hs] at s4; exact s4.1

end

/-- C129: the session on the file `abcu` with a yes, from the theorem (the hypotheses hold) and by running it. -/
example :
    (∃ (ss : List Answer) (printed : List Out),
      let out := (toyOutside.fix toyConsole toyWalk {} true false false [[py "f"]] (systemWorld abcu)).run [.yes] (systemWorld abcu, [])
      let seen := ((fixitPaths (toyOutside.env (some {})) toyWalk false false [[py "f"]]).run ss (systemWorld abcu)).1
      AllWritten toyConsole true false .fixit (.str []) seen printed ∧ out.1 = seen.filter Result.fixable) ∧
    ((toyOutside.fix toyConsole toyWalk {} true false false [[py "f"]] (systemWorld abcu)).run [.yes] (systemWorld abcu, [])).2.2.2.getLast?.map (fun o => String.ofList o.text) =
      some "🛠️  1 file checked, 1 file with errors, 1 auto-fix available, 1 fix applied 🛠️\n" := by
  refine ⟨?_, by decide +kernel⟩
  obtain ⟨ss, printed, -, h1, h2, -⟩ := C129_interactive toyOutside toyConsole toyWalk {} false false (abcuConfig [py "root"]) [[py "f"]] [.yes] (systemWorld abcu) [] (by decide)
    (abcu_config _ (.inr rfl)) (by decide)
  exact ⟨ss, printed, h1, h2⟩

end Fixit
