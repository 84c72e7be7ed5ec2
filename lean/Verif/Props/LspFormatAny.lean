import Verif.Props.LspFormat

/-!
# C67: formatting any text
-/

namespace Fixit
open Py Py.Gen Spec

theorem break_iff (c : Char) : isLineBreak c = true ↔ c = '\n' ∨ c = '\r' ∨ c ∈ otherBreaks := by
  simp only [isLineBreak, otherBreaks, List.mem_cons, List.not_mem_nil, or_false, Bool.or_eq_true, beq_iff_eq]
  constructor
  · rintro (((((((((h | h) | h) | h) | h) | h) | h) | h) | h) | h) <;> simp [h]
  · rintro (h | h | h | h | h | h | h | h | h | h) <;> simp [h]

theorem otherBreak_plain {c : Char} (h : c ∈ otherBreaks) : ¬ (c = '\n' ∨ c = '\r') := by
  simp only [otherBreaks, List.mem_cons, List.not_mem_nil, or_false] at h
  rcases h with rfl | rfl | rfl | rfl | rfl | rfl | rfl | rfl <;> decide

theorem consLine_length {c : Char} {ls : List PStr} (h : ls ≠ []) : (consLine c ls).length = ls.length := by
  cases ls with
  | nil => exact absurd rfl h
  | cons a b => rfl

theorem splitLines_pos (c : Char) (cs : PStr) : 1 ≤ (splitLines (c :: cs)).length := by
  have := splitLines_ne_nil c cs
  cases h : splitLines (c :: cs) with
  | nil => exact absurd h this
  | cons a b => simp

/-- A position beyond Python's last line is the end of the text. -/
theorem offset_beyond : ∀ (text : PStr) (n k : Nat), (splitLines text).length ≤ n → offset text n k = text.length
  | [], 0, k, _ => rfl
  | [], n + 1, k, _ => rfl
  | [c], 0, k, h => by simp [splitLines] at h
  | [c], n + 1, k, _ => by
    unfold offset
    rw [afterLine]
    by_cases hc : c = '\n' ∨ c = '\r'
    · rw [if_pos hc]
      simp only
      cases n <;> rfl
    · rw [if_neg hc]
  | c :: d :: cs, 0, k, h => by have := splitLines_pos c (d :: cs); omega
  | c :: d :: cs, n + 1, k, h => by
    by_cases hcr : c = '\r' ∧ d = '\n'
    · obtain ⟨rfl, rfl⟩ := hcr
      have hsplit : splitLines ('\r' :: '\n' :: cs) = ['\r', '\n'] :: splitLines cs := by rw [splitLines]; rfl
      rw [hsplit] at h
      have := offset_beyond cs n k (by simpa using h)
      unfold offset
      rw [afterLine, if_pos ⟨rfl, rfl⟩]
      simp only [List.length_cons, this]
      omega
    · have hcr' : (c == '\r' && d == '\n') = false := by simpa using hcr
      by_cases hc : c = '\n' ∨ c = '\r'
      · have hbr : isLineBreak c = true := (break_iff c).2 (hc.elim Or.inl (fun h => Or.inr (Or.inl h)))
        have hsplit : splitLines (c :: d :: cs) = [c] :: splitLines (d :: cs) := by rw [splitLines, hcr', hbr]; rfl
        rw [hsplit] at h
        have := offset_beyond (d :: cs) n k (by simpa using h)
        unfold offset
        rw [afterLine, if_neg hcr, if_pos hc]
        simp only [List.length_cons] at this ⊢
        omega
      · have hlen : (splitLines (d :: cs)).length ≤ n + 1 := by
          by_cases hbr : isLineBreak c = true
          · have hsplit : splitLines (c :: d :: cs) = [c] :: splitLines (d :: cs) := by rw [splitLines, hcr', hbr]; rfl
            rw [hsplit] at h
            simp only [List.length_cons] at h
            omega
          · have hsplit : splitLines (c :: d :: cs) = consLine c (splitLines (d :: cs)) := by rw [splitLines, hcr']; simp [hbr]
            rw [hsplit, consLine_length (splitLines_ne_nil d cs)] at h
            exact h
        rw [offset_cons c d cs n k hc, offset_beyond (d :: cs) (n + 1) k hlen]
        simp only [List.length_cons]
        omega

theorem inside_tail {c : Char} {cs : PStr} (h : OtherBreakInside (c :: cs)) (hc : c ∉ otherBreaks) : OtherBreakInside cs := by
  obtain ⟨pre, b, post, e, hb, hp⟩ := h
  cases pre with
  | nil => simp only [List.nil_append, List.cons.injEq] at e; rw [e.1] at hc; exact absurd hb hc
  | cons a as =>
    simp only [List.cons_append, List.cons.injEq] at e
    exact ⟨as, b, post, e.2, hb, hp⟩

theorem inside_two : ∀ (text : PStr), OtherBreakInside text → 2 ≤ (splitLines text).length
  | [], h => by obtain ⟨pre, b, post, e, -⟩ := h; cases pre <;> simp at e
  | [c], h => by
    obtain ⟨pre, b, post, e, -, hp⟩ := h
    have := congrArg List.length e
    cases post with
    | nil => exact absurd rfl hp
    | cons x xs => simp at this; omega
  | c :: d :: cs, h => by
    by_cases hcr : c = '\r' ∧ d = '\n'
    · obtain ⟨rfl, rfl⟩ := hcr
      have hsplit : splitLines ('\r' :: '\n' :: cs) = ['\r', '\n'] :: splitLines cs := by rw [splitLines]; rfl
      have := inside_two cs (inside_tail (inside_tail h (by decide)) (by decide))
      rw [hsplit, List.length_cons]; omega
    · have hcr' : (c == '\r' && d == '\n') = false := by simpa using hcr
      by_cases hbr : isLineBreak c = true
      · have hsplit : splitLines (c :: d :: cs) = [c] :: splitLines (d :: cs) := by rw [splitLines, hcr', hbr]; rfl
        have := splitLines_pos d cs
        rw [hsplit, List.length_cons]; omega
      · have hsplit : splitLines (c :: d :: cs) = consLine c (splitLines (d :: cs)) := by rw [splitLines, hcr']; simp [hbr]
        have := inside_two (d :: cs) (inside_tail h (fun hc => hbr ((break_iff c).2 (Or.inr (Or.inr hc)))))
        rw [hsplit, consLine_length (splitLines_ne_nil d cs)]; exact this

/-- With such a break inside, Python's last line starts no sooner than the protocol's, and the range ends where the text ends. -/
theorem offset_inside : ∀ (text : PStr) (k : Nat), OtherBreakInside text → offset text ((splitLines text).length - 1) k = text.length
  | [], k, h => by obtain ⟨pre, b, post, e, -⟩ := h; cases pre <;> simp at e
  | [c], k, h => by have := inside_two _ h; simp [splitLines] at this
  | c :: d :: cs, k, h => by
    by_cases hcr : c = '\r' ∧ d = '\n'
    · obtain ⟨rfl, rfl⟩ := hcr
      have hsplit : splitLines ('\r' :: '\n' :: cs) = ['\r', '\n'] :: splitLines cs := by rw [splitLines]; rfl
      have hin := inside_tail (inside_tail h (by decide)) (by decide)
      have h2 := inside_two cs hin
      have ih := offset_inside cs k hin
      have hn : (['\r', '\n'] :: splitLines cs).length - 1 = ((splitLines cs).length - 1) + 1 := by simp only [List.length_cons]; omega
      rw [hsplit, hn]
      unfold offset
      rw [afterLine, if_pos ⟨rfl, rfl⟩]
      simp only [List.length_cons, ih]
      omega
    · have hcr' : (c == '\r' && d == '\n') = false := by simpa using hcr
      have hpos := splitLines_pos d cs
      by_cases hc : c = '\n' ∨ c = '\r'
      · have hbr : isLineBreak c = true := (break_iff c).2 (hc.elim Or.inl (fun h => Or.inr (Or.inl h)))
        have hsplit : splitLines (c :: d :: cs) = [c] :: splitLines (d :: cs) := by rw [splitLines, hcr', hbr]; rfl
        have hin := inside_tail h (fun hb => otherBreak_plain hb hc)
        have ih := offset_inside (d :: cs) k hin
        have hn : ([c] :: splitLines (d :: cs)).length - 1 = ((splitLines (d :: cs)).length - 1) + 1 := by simp only [List.length_cons]; omega
        rw [hsplit, hn]
        unfold offset
        rw [afterLine, if_neg hcr, if_pos hc]
        simp only [List.length_cons] at ih ⊢
        omega
      · by_cases hbr : isLineBreak c = true
        · have hsplit : splitLines (c :: d :: cs) = [c] :: splitLines (d :: cs) := by rw [splitLines, hcr', hbr]; rfl
          have hn : ([c] :: splitLines (d :: cs)).length - 1 = ((splitLines (d :: cs)).length - 1) + 1 := by simp only [List.length_cons]; omega
          rw [hsplit, hn, offset_cons c d cs _ k hc, offset_beyond (d :: cs) _ k (by omega)]
          simp only [List.length_cons]; omega
        · have hsplit : splitLines (c :: d :: cs) = consLine c (splitLines (d :: cs)) := by rw [splitLines, hcr']; simp [hbr]
          have hin := inside_tail h (fun hb => hbr ((break_iff c).2 (Or.inr (Or.inr hb))))
          have h2 := inside_two (d :: cs) hin
          have ih := offset_inside (d :: cs) k hin
          have hn : (splitLines (d :: cs)).length - 1 = ((splitLines (d :: cs)).length - 2) + 1 := by omega
          rw [hsplit, consLine_length (splitLines_ne_nil d cs), hn, offset_cons c d cs _ k hc, ← hn, ih]
          simp only [List.length_cons]; omega

theorem LastLine.cons {c : Char} {text l : PStr} (h : LastLine text l) (hpre : text ≠ l) : LastLine (c :: text) l := by
  obtain ⟨⟨pre, e, hp⟩, hne, hs⟩ := h
  refine ⟨⟨c :: pre, by rw [e]; rfl, Or.inr ?_⟩, hne, hs⟩
  rcases hp with rfl | ⟨p, t, rfl, ht⟩
  · exact absurd e hpre
  · exact ⟨c :: p, t, rfl, ht⟩

theorem LastLine.after {t text l : PStr} (h : LastLine text l) (ht : IsTerminator t) (hj : ¬ (t = ['\r'] ∧ text.head? = some '\n')) : LastLine (t ++ text) l := by
  obtain ⟨⟨pre, e, hp⟩, hne, hs⟩ := h
  refine ⟨⟨t ++ pre, by rw [e]; simp, Or.inr ?_⟩, hne, hs⟩
  rcases hp with rfl | ⟨p, t', rfl, ht'⟩
  · exact ⟨[], t, by simp, ht, by simpa [e] using hj⟩
  · exact ⟨t ++ p, t', by simp, ht'⟩

/-- Otherwise the lines are those of the protocol. -/
theorem offset_last : ∀ (text : PStr), ¬ OtherBreakInside text → text ≠ [] → ∃ l, (splitLines text).getLast? = some l ∧ LastLine text l ∧
    offset text ((splitLines text).length - 1) l.length + l.length = text.length + inLine l l.length ∧ ((splitLines text).length = 1 → l = text) ∧
    ((splitLines text).length ≠ 1 → l ≠ text)
  | [], _, h => absurd rfl h
  | [c], _, _ => by
    refine ⟨[c], rfl, ⟨⟨[], rfl, Or.inl rfl⟩, by simp, ?_⟩, ?_, by simp, by simp [splitLines]⟩
    · by_cases hc : c = '\n' ∨ c = '\r'
      · exact ⟨[], [c], rfl, Or.inr (by rcases hc with rfl | rfl <;> simp [IsTerminator]), by simp, by simp⟩
      · exact ⟨[c], [], rfl, Or.inl rfl, by simpa using fun h => hc (Or.inl h.symm), by simpa using fun h => hc (Or.inr h.symm)⟩
    · simp only [splitLines, List.length_cons, List.length_nil, Nat.zero_add, Nat.sub_self, offset]; omega
  | c :: d :: cs, hno, _ => by
    have hno' : ¬ OtherBreakInside (d :: cs) := by
      rintro ⟨pre, b, post, e, h⟩; exact hno ⟨c :: pre, b, post, by rw [e]; rfl, h⟩
    by_cases hcr : c = '\r' ∧ d = '\n'
    · obtain ⟨rfl, rfl⟩ := hcr
      have hsplit : splitLines ('\r' :: '\n' :: cs) = ['\r', '\n'] :: splitLines cs := by rw [splitLines]; rfl
      cases cs with
      | nil => exact ⟨['\r', '\n'], by decide, ⟨⟨[], rfl, Or.inl rfl⟩, by simp, ⟨[], ['\r', '\n'], rfl, Or.inr (by simp [IsTerminator]), by simp, by simp⟩⟩, by decide, by simp, by decide⟩
      | cons e es =>
        have hno'' : ¬ OtherBreakInside (e :: es) := by
          rintro ⟨pre, b, post, e, h⟩; exact hno' ⟨'\n' :: pre, b, post, by rw [e]; rfl, h⟩
        obtain ⟨l, hl, hll, ho, -, -⟩ := offset_last (e :: es) hno'' (by simp)
        have hpos := splitLines_pos e es
        refine ⟨l, by rw [hsplit, List.getLast?_cons, hl]; simp, LastLine.after (t := ['\r', '\n']) hll (by simp [IsTerminator]) (by simp), ?_, ?_, ?_⟩
        · have hn : (['\r', '\n'] :: splitLines (e :: es)).length - 1 = ((splitLines (e :: es)).length - 1) + 1 := by simp only [List.length_cons]; omega
          rw [hsplit, hn]
          unfold offset
          rw [afterLine, if_pos ⟨rfl, rfl⟩]
          simp only [List.length_cons] at ho ⊢
          omega
        · intro h1; rw [hsplit, List.length_cons] at h1; omega
        · rintro - rfl
          obtain ⟨⟨pre, e', -⟩, -⟩ := hll
          have := congrArg List.length e'
          simp at this; omega
    · have hcr' : (c == '\r' && d == '\n') = false := by simpa using hcr
      have hpos := splitLines_pos d cs
      obtain ⟨l, hl, hll, ho, h1, h2⟩ := offset_last (d :: cs) hno' (by simp)
      have hshort : l.length ≤ (d :: cs).length := by
        obtain ⟨⟨pre, e', -⟩, -⟩ := hll
        rw [e']; simp
      by_cases hc : c = '\n' ∨ c = '\r'
      · have hbr : isLineBreak c = true := (break_iff c).2 (hc.elim Or.inl (fun h => Or.inr (Or.inl h)))
        have hsplit : splitLines (c :: d :: cs) = [c] :: splitLines (d :: cs) := by rw [splitLines, hcr', hbr]; rfl
        refine ⟨l, by rw [hsplit, List.getLast?_cons, hl]; simp, ?_, ?_, ?_, ?_⟩
        · exact LastLine.after (t := [c]) hll (by rcases hc with rfl | rfl <;> simp [IsTerminator]) (by
            rintro ⟨e1, e2⟩
            simp only [List.cons.injEq, and_true, List.head?_cons, Option.some.injEq] at e1 e2
            exact hcr ⟨e1, e2⟩)
        · have hn : ([c] :: splitLines (d :: cs)).length - 1 = ((splitLines (d :: cs)).length - 1) + 1 := by simp only [List.length_cons]; omega
          rw [hsplit, hn]
          unfold offset
          rw [afterLine, if_neg hcr, if_pos hc]
          simp only [List.length_cons] at ho ⊢
          omega
        · intro h1; rw [hsplit, List.length_cons] at h1; omega
        · rintro - rfl; simp only [List.length_cons] at hshort; omega
      · have hbr : ¬ isLineBreak c = true := by
          intro hbr
          rcases (break_iff c).1 hbr with h | h | h
          · exact hc (Or.inl h)
          · exact hc (Or.inr h)
          · exact hno ⟨[], c, d :: cs, rfl, h, by simp⟩
        have hsplit : splitLines (c :: d :: cs) = consLine c (splitLines (d :: cs)) := by rw [splitLines, hcr']; simp [hbr]
        have hlen : (splitLines (c :: d :: cs)).length = (splitLines (d :: cs)).length := by rw [hsplit, consLine_length (splitLines_ne_nil d cs)]
        by_cases hone : (splitLines (d :: cs)).length = 1
        · have hl' := h1 hone
          refine ⟨c :: d :: cs, ?_, ⟨⟨[], rfl, Or.inl rfl⟩, by simp, ?_⟩, ?_, fun _ => rfl, fun h => absurd (hlen ▸ hone) h⟩
          · rw [hsplit]
            cases hs : splitLines (d :: cs) with
            | nil => exact absurd hs (splitLines_ne_nil d cs)
            | cons a b =>
              rw [hs] at hone hl
              have hb : b = [] := by simpa using hone
              subst hb
              simp only [List.getLast?_singleton, Option.some.injEq] at hl
              simp only [consLine, List.getLast?_singleton, hl, hl']
          · obtain ⟨body, t, e, ht, hn, hr⟩ := hll.single
            rw [hl'] at e
            exact ⟨c :: body, t, by rw [e]; rfl, ht, by simpa using ⟨fun h => hc (Or.inl h.symm), hn⟩, by simpa using ⟨fun h => hc (Or.inr h.symm), hr⟩⟩
          · rw [hlen, hone]
            show inLine _ _ + _ = _
            omega
        · refine ⟨l, ?_, LastLine.cons hll (fun e => h2 hone e.symm), ?_, fun h => absurd (hlen ▸ h) hone, ?_⟩
          · rw [hsplit]
            cases hs : splitLines (d :: cs) with
            | nil => exact absurd hs (splitLines_ne_nil d cs)
            | cons a b =>
              rw [hs] at hone hl
              cases b with
              | nil => simp at hone
              | cons x xs => rw [← hl]; simp [consLine, List.getLast?_cons]
          · have hn : (splitLines (d :: cs)).length - 1 = ((splitLines (d :: cs)).length - 2) + 1 := by omega
            rw [hlen, hn, offset_cons c d cs _ _ hc, ← hn]
            simp only [List.length_cons] at ho ⊢
            omega
          · rintro - rfl; simp only [List.length_cons] at hshort; omega

theorem offset_zero (text : PStr) : offset text 0 0 = 0 := by
  unfold offset
  cases text with
  | nil => rfl
  | cons c cs =>
    unfold inLine
    split
    · rfl
    · rw [if_neg]; unfold utf16Units; split <;> simp

theorem inLine_le : ∀ (l : PStr) (k : Nat), inLine l k ≤ l.length
  | [], _ => Nat.le_refl _
  | c :: cs, k => by
    unfold inLine
    split
    · simp
    · split
      · have := inLine_le cs (k - utf16Units c); simp only [List.length_cons]; omega
      · simp

/-- The range of a text that is not empty. -/
theorem wholeEnd_some {text : PStr} (h : text ≠ []) : ∃ l, (splitLines text).getLast? = some l ∧ wholeEnd text = .ok ((splitLines text).length - 1, l.length) := by
  cases text with
  | nil => exact absurd rfl h
  | cons c cs =>
    have hne := splitLines_ne_nil c cs
    refine ⟨(splitLines (c :: cs)).getLast hne, List.getLast?_eq_some_getLast hne, ?_⟩
    unfold wholeEnd
    rw [List.getLast?_eq_some_getLast hne]

variable {C : Type} (env : Env C) (client : Client)

/-- **C67** What the edit does to any text: with one of Python's other line breaks before the end of it, the text becomes the result; otherwise what
the range leaves out of the last line stays behind the result: its terminator, and characters at its end if it has some beyond the Basic Multilingual Plane. -/
theorem C67_edit_any (s : Server C) (u : Uri) (path : Path) (text : PStr) (content : Bytes) (cfg : C) (hp : client.fsPath u = some path)
    (ht : s.docs u = some text) (henc : client.encode text = .ok content) (hc : usesConfig env s path cfg)
    (hfound : found env s.files path content cfg ≠ []) (herr : ∀ r ∈ autofixResults env s path content cfg, r.error = none) :
    ∃ b, fixedContent env path content cfg (found env s.files path content cfg) = .ok b ∧
      ∀ new, b ≠ [] → client.decode b = .ok new → text ≠ [] → ∃ e : TextEdit,
        (s.next env client (.format u)).edits = s.edits ++ [(u, .ok (some e))] ∧ e.newText = new ∧
        (OtherBreakInside text → applyEdit text e = new) ∧
        (¬ OtherBreakInside text → ∃ l, LastLine text l ∧ applyEdit text e = new ++ l.drop (inLine l l.length)) := by
  have hs : s.source client u = .ok content := by simp only [Server.source, ht, henc]
  have hshow : (s.next env client (.format u)).edits = s.edits ++ [(u, replyOf env client s u)] := format_edits env client s u
  obtain ⟨b, hfix, hret⟩ := autofix_returns env s path content cfg hfound herr
  rw [hshow, replyOf_open env client s u path content cfg hp hs hc, hret]
  refine ⟨b, hfix, ?_⟩
  intro new hne hdec htext
  obtain ⟨l, hl, hwe⟩ := wholeEnd_some htext
  refine ⟨⟨0, 0, (splitLines text).length - 1, l.length, new⟩, ?_, rfl, ?_, ?_⟩
  · rw [editFor_some client s u b hne]
    have htxt : s.text client u = .ok text := by simp only [Server.text, ht]
    rw [htxt]
    simp only [Bind.bind, Except.bind, hwe, hdec]
    rfl
  · intro hin
    simp only [applyEdit, offset_zero, offset_inside text l.length hin, List.take_zero, List.nil_append, List.drop_length, List.append_nil]
  · intro hno
    obtain ⟨l', hl', hll, ho, -⟩ := offset_last text hno htext
    rw [hl] at hl'
    cases hl'
    refine ⟨l, hll, ?_⟩
    simp only [applyEdit, offset_zero, List.take_zero, List.nil_append]
    congr 1
    obtain ⟨⟨pre, e, -⟩, -⟩ := hll
    have hle := inLine_le l l.length
    have hoff : offset text ((splitLines text).length - 1) l.length = pre.length + inLine l l.length := by
      have := congrArg List.length e
      rw [List.length_append] at this
      omega
    rw [hoff]
    conv => lhs; rw [e]
    rw [List.drop_append]
    simp

/-- A form feed inside: the text becomes the result. -/
example : OtherBreakInside (py "a\x0cb\n") ∧ applyEdit (py "a\x0cb\n") ⟨0, 0, 1, 2, py "new\n"⟩ = py "new\n" ∧ wholeEnd (py "a\x0cb\n") = .ok (1, 2) :=
  ⟨⟨py "a", '\x0c', py "b\n", rfl, by decide, by decide⟩, by decide, by decide⟩
/-- None: the terminator stays, and the last character after one beyond the Basic Multilingual Plane. -/
example : LastLine (py "a\nb\n") (py "b\n") ∧ (py "b\n").drop (inLine (py "b\n") 2) = py "\n" :=
  ⟨⟨⟨py "a\n", rfl, Or.inr ⟨py "a", py "\n", rfl, by simp [IsTerminator], by decide⟩⟩, by decide, ⟨py "b", py "\n", rfl, Or.inr (by simp [IsTerminator]), by decide, by decide⟩⟩, by decide⟩
example : ([Char.ofNat 0x1f600, 'b'] : PStr).drop (inLine [Char.ofNat 0x1f600, 'b'] 2) = ['b'] := by decide

end Fixit
