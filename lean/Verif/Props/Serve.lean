import Verif.Model.Serve

/-!
# C124: what `fixit lsp` listens on
-/

namespace Spec
open Fixit

/-- The last `--tcp` among the options. -/
inductive LastTcp : List LspFlag → Int → Prop where
  | here {fs p} : (∀ q, .tcp q ∉ fs) → LastTcp (.tcp p :: fs) p
  | later {f fs p} : LastTcp fs p → LastTcp (f :: fs) p

/-- The last `--ws` among the options. -/
inductive LastWs : List LspFlag → Int → Prop where
  | here {fs p} : (∀ q, .ws q ∉ fs) → LastWs (.ws p :: fs) p
  | later {f fs p} : LastWs fs p → LastWs (f :: fs) p

/-- Whether standard input and output are asked for: unless the last `--stdio` is false. -/
inductive LastStdio : List LspFlag → Bool → Prop where
  | here {fs b} : (∀ q, .stdio q ∉ fs) → LastStdio (.stdio b :: fs) b
  | later {f fs b} : LastStdio fs b → LastStdio (f :: fs) b

/-- A channel that was asked for. -/
inductive Asked (flags : List LspFlag) : Transport → Prop where
  | ws {p} : LastWs flags p → p ≠ 0 → Asked flags (.ws p)
  | tcp {p} : LastTcp flags p → p ≠ 0 → Asked flags (.tcp p)
  | stdio : ¬ LastStdio flags false → Asked flags .stdio

/-- The order in which the channels have their turn. -/
def turn : Transport → Nat
  | .ws _ => 0
  | .tcp _ => 1
  | .stdio => 2

end Spec

namespace Fixit
open Spec

theorem setFlag_tcp : ∀ (fs : List LspFlag) (o : LspOptions), (∀ p, LastTcp fs p → (fs.foldl setFlag o).tcp = some p) ∧
    ((∀ q, .tcp q ∉ fs) → (fs.foldl setFlag o).tcp = o.tcp)
  | [], o => ⟨fun p h => (by cases h), fun _ => rfl⟩
  | f :: fs, o => by
    obtain ⟨h1, h2⟩ := setFlag_tcp fs (setFlag o f)
    refine ⟨fun p h => ?_, fun h => ?_⟩
    · cases h with
      | here hn => rw [List.foldl_cons, h2 hn]; rfl
      | later h => exact h1 p h
    · rw [List.foldl_cons, h2 (fun q hq => h q (List.mem_cons_of_mem _ hq))]
      cases f with
      | tcp p => exact absurd List.mem_cons_self (h p)
      | _ => rfl

theorem setFlag_ws : ∀ (fs : List LspFlag) (o : LspOptions), (∀ p, LastWs fs p → (fs.foldl setFlag o).ws = some p) ∧
    ((∀ q, .ws q ∉ fs) → (fs.foldl setFlag o).ws = o.ws)
  | [], o => ⟨fun p h => (by cases h), fun _ => rfl⟩
  | f :: fs, o => by
    obtain ⟨h1, h2⟩ := setFlag_ws fs (setFlag o f)
    refine ⟨fun p h => ?_, fun h => ?_⟩
    · cases h with
      | here hn => rw [List.foldl_cons, h2 hn]; rfl
      | later h => exact h1 p h
    · rw [List.foldl_cons, h2 (fun q hq => h q (List.mem_cons_of_mem _ hq))]
      cases f with
      | ws p => exact absurd List.mem_cons_self (h p)
      | _ => rfl

theorem setFlag_stdio : ∀ (fs : List LspFlag) (o : LspOptions), (∀ p, LastStdio fs p → (fs.foldl setFlag o).stdio = p) ∧
    ((∀ q, .stdio q ∉ fs) → (fs.foldl setFlag o).stdio = o.stdio)
  | [], o => ⟨fun p h => (by cases h), fun _ => rfl⟩
  | f :: fs, o => by
    obtain ⟨h1, h2⟩ := setFlag_stdio fs (setFlag o f)
    refine ⟨fun p h => ?_, fun h => ?_⟩
    · cases h with
      | here hn => rw [List.foldl_cons, h2 hn]; rfl
      | later h => exact h1 p h
    · rw [List.foldl_cons, h2 (fun q hq => h q (List.mem_cons_of_mem _ hq))]
      cases f with
      | stdio p => exact absurd List.mem_cons_self (h p)
      | _ => rfl

theorem lastTcp_total : ∀ fs : List LspFlag, (∃ p, LastTcp fs p) ∨ ∀ q, .tcp q ∉ fs
  | [] => .inr (fun _ h => (by cases h))
  | f :: fs => by
    rcases lastTcp_total fs with ⟨p, h⟩ | h
    · exact .inl ⟨p, .later h⟩
    · cases f with
      | tcp p => exact .inl ⟨p, .here h⟩
      | _ => exact .inr (fun q hq => h q (by simpa using hq))

theorem lastWs_total : ∀ fs : List LspFlag, (∃ p, LastWs fs p) ∨ ∀ q, .ws q ∉ fs
  | [] => .inr (fun _ h => (by cases h))
  | f :: fs => by
    rcases lastWs_total fs with ⟨p, h⟩ | h
    · exact .inl ⟨p, .later h⟩
    · cases f with
      | ws p => exact .inl ⟨p, .here h⟩
      | _ => exact .inr (fun q hq => h q (by simpa using hq))

theorem lastStdio_total : ∀ fs : List LspFlag, (∃ p, LastStdio fs p) ∨ ∀ q, .stdio q ∉ fs
  | [] => .inr (fun _ h => (by cases h))
  | f :: fs => by
    rcases lastStdio_total fs with ⟨p, h⟩ | h
    · exact .inl ⟨p, .later h⟩
    · cases f with
      | stdio p => exact .inl ⟨p, .here h⟩
      | _ => exact .inr (fun q hq => h q (by simpa using hq))

theorem lastTcp_mem {fs : List LspFlag} {p : Int} (h : LastTcp fs p) : ∃ q, .tcp q ∈ fs := by
  induction h with
  | here _ => exact ⟨_, List.mem_cons_self⟩
  | later _ ih => obtain ⟨q, h⟩ := ih; exact ⟨q, List.mem_cons_of_mem _ h⟩

theorem lastWs_mem {fs : List LspFlag} {p : Int} (h : LastWs fs p) : ∃ q, .ws q ∈ fs := by
  induction h with
  | here _ => exact ⟨_, List.mem_cons_self⟩
  | later _ ih => obtain ⟨q, h⟩ := ih; exact ⟨q, List.mem_cons_of_mem _ h⟩

theorem lastStdio_mem {fs : List LspFlag} {b : Bool} (h : LastStdio fs b) : ∃ q, .stdio q ∈ fs := by
  induction h with
  | here _ => exact ⟨_, List.mem_cons_self⟩
  | later _ ih => obtain ⟨q, h⟩ := ih; exact ⟨q, List.mem_cons_of_mem _ h⟩

theorem tcp_iff (fs : List LspFlag) (p : Int) : (lspOptions fs).tcp = some p ↔ LastTcp fs p := by
  unfold lspOptions
  obtain ⟨h1, h2⟩ := setFlag_tcp fs ⟨none, none, true⟩
  refine ⟨fun h => ?_, fun h => h1 p h⟩
  rcases lastTcp_total fs with ⟨q, hq⟩ | hn
  · rw [h1 q hq] at h; cases h; exact hq
  · rw [h2 hn] at h; cases h

theorem ws_iff (fs : List LspFlag) (p : Int) : (lspOptions fs).ws = some p ↔ LastWs fs p := by
  unfold lspOptions
  obtain ⟨h1, h2⟩ := setFlag_ws fs ⟨none, none, true⟩
  refine ⟨fun h => ?_, fun h => h1 p h⟩
  rcases lastWs_total fs with ⟨q, hq⟩ | hn
  · rw [h1 q hq] at h; cases h; exact hq
  · rw [h2 hn] at h; cases h

theorem stdio_iff (fs : List LspFlag) : (lspOptions fs).stdio = true ↔ ¬ LastStdio fs false := by
  unfold lspOptions
  obtain ⟨h1, h2⟩ := setFlag_stdio fs ⟨none, none, true⟩
  refine ⟨fun h hf => (by rw [h1 _ hf] at h; cases h), fun h => ?_⟩
  rcases lastStdio_total fs with ⟨q, hq⟩ | hn
  · cases q with
    | false => exact absurd hq h
    | true => exact h1 _ hq
  · exact h2 hn

/-- The list of channels `start` goes through. -/
def planned (o : LspOptions) : List Transport := (givenPort o.ws).map .ws ++ (givenPort o.tcp).map .tcp ++ (if o.stdio then [.stdio] else [])

theorem mem_givenPort (o : Option Int) (p : Int) : p ∈ givenPort o ↔ o = some p ∧ p ≠ 0 := by
  cases o with
  | none => simp [givenPort]
  | some q =>
    by_cases h : q = 0
    · subst h
      simp only [givenPort, if_true, List.not_mem_nil, false_iff, Option.some.injEq, not_and]
      intro h h'; exact h' h.symm
    · simp only [givenPort, h, if_false, List.mem_singleton, Option.some.injEq]
      exact ⟨fun e => ⟨e.symm, by rw [e]; exact h⟩, fun e => e.1.symm⟩

theorem mem_planned (fs : List LspFlag) (c : Transport) : c ∈ planned (lspOptions fs) ↔ Asked fs c := by
  unfold planned
  simp only [List.mem_append, List.mem_map, mem_givenPort, ws_iff, tcp_iff]
  constructor
  · rintro ((⟨p, ⟨h, h0⟩, rfl⟩ | ⟨p, ⟨h, h0⟩, rfl⟩) | h)
    · exact .ws h h0
    · exact .tcp h h0
    · by_cases hs : (lspOptions fs).stdio = true
      · rw [if_pos hs, List.mem_singleton] at h
        subst h
        exact .stdio ((stdio_iff fs).1 hs)
      · rw [if_neg hs] at h; cases h
  · intro h
    cases h with
    | ws h h0 => exact .inl (.inl ⟨_, ⟨h, h0⟩, rfl⟩)
    | tcp h h0 => exact .inl (.inr ⟨_, ⟨h, h0⟩, rfl⟩)
    | stdio h => rw [if_pos ((stdio_iff fs).2 h)]; exact .inr List.mem_cons_self

theorem givenPort_cases (o : Option Int) : givenPort o = [] ∨ ∃ p, givenPort o = [p] := by
  cases o with
  | none => exact .inl rfl
  | some p =>
    by_cases h : p = 0
    · exact .inl (by simp [givenPort, h])
    · exact .inr ⟨p, by simp [givenPort, h]⟩

theorem planned_sorted (o : LspOptions) : (planned o).Pairwise (fun a b => turn a < turn b) := by
  unfold planned
  rcases givenPort_cases o.ws with h1 | ⟨p, h1⟩ <;> rcases givenPort_cases o.tcp with h2 | ⟨q, h2⟩ <;> cases h3 : o.stdio <;> simp [h1, h2, turn]

theorem serveAll_prefix (serve : List Transport → Transport → Except Err Unit) : ∀ (cs past : List Transport),
    ∃ done rest, cs = done ++ rest ∧ (serveAll serve past cs).1 = past ++ done ∧
      (∀ i c, done[i]? = some c → i + 1 < done.length → serve (past ++ done.take i) c = .ok ()) ∧
      ((serveAll serve past cs).2 = .ok () ∧ rest = [] ∧ (∀ i c, done[i]? = some c → serve (past ++ done.take i) c = .ok ()) ∨
        ∃ e c, (serveAll serve past cs).2 = .error e ∧ done.getLast? = some c ∧ serve (past ++ done.dropLast) c = .error e)
  | [], past => ⟨[], [], rfl, by simp [serveAll], by simp, .inl ⟨rfl, rfl, by simp⟩⟩
  | c :: cs, past => by
    cases h : serve past c with
    | error e =>
      refine ⟨[c], cs, rfl, by simp [serveAll, h], ?_, .inr ⟨e, c, by simp [serveAll, h], rfl, by simpa using h⟩⟩
      intro i c' _ hi
      simp at hi
    | ok u =>
      obtain ⟨done, rest, h1, h2, h3, h4⟩ := serveAll_prefix serve cs (past ++ [c])
      have hs : serveAll serve past (c :: cs) = serveAll serve (past ++ [c]) cs := by simp [serveAll, h]
      refine ⟨c :: done, rest, by rw [h1]; rfl, by rw [hs, h2]; simp, ?_, ?_⟩
      · intro i c' hc hi
        cases i with
        | zero =>
          simp only [List.getElem?_cons_zero, Option.some.injEq] at hc
          subst hc
          simpa using h
        | succ i =>
          have := h3 i c' (by simpa using hc) (by simpa using hi)
          simpa using this
      · rw [hs]
        rcases h4 with ⟨h5, h6, h7⟩ | ⟨e, c', h5, h6, h7⟩
        · refine .inl ⟨h5, h6, ?_⟩
          intro i c' hc
          cases i with
          | zero =>
            simp only [List.getElem?_cons_zero, Option.some.injEq] at hc
            subst hc
            simpa using h
          | succ i => simpa using h7 i c' (by simpa using hc)
        · have hne : done ≠ [] := by rintro rfl; cases h6
          refine .inr ⟨e, c', h5, by rw [List.getLast?_cons, h6]; rfl, ?_⟩
          rw [List.dropLast_cons_of_ne_nil hne]
          simpa using h7

/-- C124: `fixit lsp` serves only channels that were asked for: a WebSocket port and a TCP port that is not zero, and standard input and output unless
`--stdio false`. -/
theorem C124_only_asked (serve : List Transport → Transport → Except Err Unit) (flags : List LspFlag) (c : Transport) (h : c ∈ (lspCommand serve flags).1) :
    Asked flags c := by
  obtain ⟨done, rest, h1, h2, _⟩ := serveAll_prefix serve (planned (lspOptions flags)) []
  rw [← mem_planned, h1]
  have h' : c ∈ (serveAll serve [] (planned (lspOptions flags))).1 := h
  rw [h2] at h'
  exact List.mem_append_left _ h'

/-- C124: each is served once, one after the other: WebSocket, then TCP, then standard input and output. -/
theorem C124_in_turn (serve : List Transport → Transport → Except Err Unit) (flags : List LspFlag) :
    (lspCommand serve flags).1.Pairwise (fun a b => turn a < turn b) := by
  obtain ⟨done, rest, h1, h2, _⟩ := serveAll_prefix serve (planned (lspOptions flags)) []
  show (serveAll serve [] (planned (lspOptions flags))).1.Pairwise _
  rw [h2]
  have := planned_sorted (lspOptions flags)
  rw [h1] at this
  exact (List.pairwise_append.1 this).1

/-- C124: if the command returns, every channel asked for was served, and each of them ended in peace. -/
theorem C124_all_served (serve : List Transport → Transport → Except Err Unit) (flags : List LspFlag) (h : (lspCommand serve flags).2 = .ok ()) :
    (∀ c, Asked flags c → c ∈ (lspCommand serve flags).1) ∧
    ∀ i c, (lspCommand serve flags).1[i]? = some c → serve ((lspCommand serve flags).1.take i) c = .ok () := by
  obtain ⟨done, rest, h1, h2, _, h4⟩ := serveAll_prefix serve (planned (lspOptions flags)) []
  have h' : (lspCommand serve flags).1 = done := by
    show (serveAll serve [] (planned (lspOptions flags))).1 = done
    rw [h2]; rfl
  rcases h4 with ⟨_, h6, h7⟩ | ⟨e, c, h5, _⟩
  · rw [h']
    refine ⟨fun c hc => ?_, fun i c hc => h7 i c hc⟩
    rw [← mem_planned, h1, h6, List.append_nil] at hc
    exact hc
  · have h'' : (serveAll serve [] (planned (lspOptions flags))).2 = .ok () := h
    rw [h5] at h''; cases h''

/-- C124: an exception while a channel is served ends the command: nothing is served after it, and all that had their turn before it ended in peace. -/
theorem C124_failure_ends (serve : List Transport → Transport → Except Err Unit) (flags : List LspFlag) (e : Err) (h : (lspCommand serve flags).2 = .error e) :
    ∃ done c, (lspCommand serve flags).1 = done ++ [c] ∧ serve done c = .error e ∧ (∀ i d, done[i]? = some d → serve (done.take i) d = .ok ()) ∧
      ∀ d, Asked flags d → turn d < turn c → d ∈ done := by
  obtain ⟨done, rest, h1, h2, h3, h4⟩ := serveAll_prefix serve (planned (lspOptions flags)) []
  have h' : (lspCommand serve flags).1 = done := by
    show (serveAll serve [] (planned (lspOptions flags))).1 = done
    rw [h2]; rfl
  have h'' : (serveAll serve [] (planned (lspOptions flags))).2 = .error e := h
  rcases h4 with ⟨h5, _⟩ | ⟨e', c, h5, h6, h7⟩
  · rw [h5] at h''; cases h''
  · rw [h5] at h''; cases h''
    have hd : done = done.dropLast ++ [c] := by
      obtain ⟨ys, hy⟩ := List.getLast?_eq_some_iff.1 h6
      rw [hy]; simp
    refine ⟨done.dropLast, c, h'.trans hd, h7, ?_, ?_⟩
    · intro i d hi
      have hlen : i < done.dropLast.length := by
        rcases Nat.lt_or_ge i done.dropLast.length with hl | hl
        · exact hl
        · rw [List.getElem?_eq_none hl] at hi; cases hi
      have h8 := h3 i d (by rw [hd, List.getElem?_append_left hlen]; exact hi) (by rw [List.length_dropLast] at hlen; omega)
      rw [List.nil_append] at h8
      rw [← h8]
      congr 1
      conv => rhs; rw [hd]
      rw [List.take_append_of_le_length (Nat.le_of_lt hlen)]
    · intro d hask ht
      rw [← mem_planned, h1] at hask
      have hp := planned_sorted (lspOptions flags)
      rw [h1] at hp
      rcases List.mem_append.1 hask with hm | hm
      · rw [hd, List.mem_append, List.mem_singleton] at hm
        rcases hm with hm | rfl
        · exact hm
        · exact absurd ht (Nat.lt_irrefl _)
      · have := (List.pairwise_append.1 hp).2.2 c (by rw [hd]; simp) d hm
        omega

/-- C124, **finding**: `--tcp` does not turn standard input and output off: they are served when the TCP server has ended. -/
theorem C124_stdio_too (serve : List Transport → Transport → Except Err Unit) (p : Int) (hp : p ≠ 0) (h : serve [] (.tcp p) = .ok ()) :
    (lspCommand serve [.tcp p]).1 = [.tcp p, .stdio] := by
  simp only [lspCommand, startServer, lspOptions, List.foldl, setFlag, givenPort, if_neg hp, List.map_nil, List.map_cons, List.nil_append, if_true,
    List.singleton_append, serveAll, h]
  cases serve [.tcp p] .stdio <;> rfl

/-- C124, corner: `--stdio false` on its own, or with a port that is zero, serves nothing, and the command returns at once. -/
theorem C124_nothing (serve : List Transport → Transport → Except Err Unit) :
    lspCommand serve [.stdio false] = ([], .ok ()) ∧ lspCommand serve [.stdio false, .tcp 0, .ws 0] = ([], .ok ()) := ⟨rfl, rfl⟩

example : (lspCommand (fun _ _ => .ok ()) [.tcp 80, .ws 8080, .tcp 81]).1 = [.ws 8080, .tcp 81, .stdio] := by decide
example : lspCommand (fun _ c => if c = .tcp 81 then .error .os else .ok ()) [.tcp 81, .ws 8080] = ([.ws 8080, .tcp 81], .error .os) := by decide

end Fixit
