import Verif.Scanner.PropsNumber

/-!
C08: identifiers and reserved words.  C43: string literals, and the token stream of a whole text.
-/
namespace Verif.Scanner

/-! ### C08 -/

theorem identChar_ascii {c : Nat} (h : c < 128) : identChar c = true ↔ (IsLetter c ∨ IsDec c) := by
  revert h
  simp only [IsLetter, IsDec]
  intro h
  interval_cases c <;> decide

theorem letter_lt {c : Nat} (h : IsLetter c) : c < 128 := by unfold IsLetter at h; omega

/-- The keyword tests decide exactly whether the spelling is a reserved word. -/
theorem keyword_eq (a : Nat) (as : List Nat) : keyword a (a :: as) = reservedSym (a :: as) := by
  by_cases h : (a :: as) ∈ reserved.map (fun p => p.1)
  · simp only [reserved, List.map_cons, List.map_nil, List.mem_cons, List.not_mem_nil, or_false] at h
    rcases h with h | h | h | h | h | h | h | h | h | h | h | h | h | h | h | h | h | h | h | h | h |
      h | h | h | h | h | h | h | h | h | h | h | h | h <;>
    · have ha : a = (a :: as).headD 0 := rfl
      rw [h] at ha ⊢
      rw [ha]
      decide
  · have hn : reservedSym (a :: as) = none := by
      unfold reservedSym
      rw [Option.map_eq_none_iff, List.find?_eq_none]
      intro p hp heq
      simp only [decide_eq_true_eq] at heq
      exact h (List.mem_map.2 ⟨p, hp, heq⟩)
    rw [hn]
    simp only [reserved, List.map_cons, List.map_nil, List.mem_cons, List.not_mem_nil, or_false,
      not_or] at h
    unfold keyword
    simp only [h, if_false, ite_self]

theorem identLoop_append (as rest : List Nat) (n : Nat) (hn : as.length < n)
    (h : ∀ c ∈ as, identChar c = true) (hr : identChar (ch rest) = false) :
    identLoop n (as ++ rest) = (as, rest) := by
  induction as generalizing n with
  | nil =>
    obtain ⟨n, rfl⟩ : ∃ m, n = m + 1 := ⟨n - 1, by simp at hn; omega⟩
    cases rest with
    | nil => rfl
    | cons c t => simp only [ch, List.headD_cons] at hr; simp [identLoop, hr]
  | cons a as ih =>
    obtain ⟨n, rfl⟩ : ∃ m, n = m + 1 := ⟨n - 1, by simp at hn; omega⟩
    simp only [List.cons_append, identLoop, h a (by simp), if_true]
    rw [ih n (by simp at hn; omega) (fun c hc => h c (by simp [hc]))]

theorem identLoop_full (as rest : List Nat) (h : ∀ c ∈ as, identChar c = true) :
    identLoop as.length (as ++ rest) = (as, rest) := by
  induction as with
  | nil => rfl
  | cons a as ih =>
    simp only [List.length_cons, List.cons_append, identLoop, h a (by simp), if_true]
    rw [ih (fun c hc => h c (by simp [hc]))]

theorem scan_letter {a : Nat} {t : List Nat} (ha : IsLetter a) :
    scan (a :: t) = some (match keyword a (identifier (a :: t)).1 with
      | some k => (.sym k, (identifier (a :: t)).2)
      | none => (.ident (identifier (a :: t)).1, (identifier (a :: t)).2)) := by
  unfold IsLetter at ha
  have h1 : ¬ (a ≤ 32) := by omega
  have h2 : ¬ (a = 34 ∨ a = 39) := by omega
  have h3 : ¬ (a = 40 ∧ ch t = 42) := by omega
  have h4 : isDigit a = false := by simp [isDigit]; omega
  have h5 : isLetter a = true := by simp [isLetter]; omega
  simp only [scan, get, skipBlanks, h1, h2, h3, h4, h5, if_false, if_true, Bool.false_eq_true]
  split <;> rename_i h <;> simp [h]

/-- **C08.**  For every string that starts with a letter and continues with letters and digits, of at
most 255 characters, followed by anything that is not a letter or digit (an ASCII character or the
end of the text): the symbol is the reserved word it spells, or else an identifier with exactly that
spelling; exactly these characters are consumed, and no error is reported. -/
theorem C08_identifier {a : Nat} {as rest : List Nat} (ha : IsLetter a)
    (has : ∀ c ∈ as, IsLetter c ∨ IsDec c) (hlen : as.length < 255)
    (hr : ch rest < 128 ∧ ¬ IsLetter (ch rest) ∧ ¬ IsDec (ch rest)) :
    scan (a :: as ++ rest) = some
      (match reservedSym (a :: as) with
        | some k => .sym k
        | none => .ident (a :: as), rest, []) := by
  have hid : identifier (a :: as ++ rest) = (a :: as, rest, []) := by
    have hrf : identChar (ch rest) = false := by
      by_contra hc
      rcases (identChar_ascii hr.1).1 (by simpa using hc) with h | h
      · exact hr.2.1 h
      · exact hr.2.2 h
    have := identLoop_append as rest 255 hlen (fun c hc => (identChar_ascii (by
      rcases has c hc with h | h
      · exact letter_lt h
      · unfold IsDec at h; omega)).2 (has c hc)) hrf
    simp only [identifier, List.cons_append, List.tail_cons, this, List.length_cons, ch, List.headD_cons]
    rw [if_neg (by omega)]
  rw [List.cons_append, scan_letter ha]
  rw [List.cons_append] at hid
  rw [hid]
  simp only
  rw [keyword_eq]
  cases reservedSym (a :: as) <;> rfl

/-- **C08, over-long identifiers.**  256 or more letters and digits: error 240, an identifier of the
first 255 characters, and scanning resumes after the 256th. -/
theorem C08_identifier_too_long {a : Nat} {as rest : List Nat} (ha : IsLetter a)
    (has : ∀ c ∈ as, IsLetter c ∨ IsDec c) (hlen : as.length = 255) :
    ∃ k, scan (a :: as ++ rest) = some (k, rest, [240]) := by
  have hid : identifier (a :: as ++ rest) = ((a :: as).dropLast, rest, [240]) := by
    have := identLoop_full as rest (fun c hc => (identChar_ascii (by
      rcases has c hc with h | h
      · exact letter_lt h
      · unfold IsDec at h; omega)).2 (has c hc))
    rw [hlen] at this
    simp only [identifier, List.cons_append, List.tail_cons, this, List.length_cons, ch, List.headD_cons]
    rw [if_pos (by omega)]
  rw [List.cons_append, scan_letter ha]
  rw [List.cons_append] at hid
  rw [hid]
  split
  · exact ⟨_, rfl⟩
  · exact ⟨_, rfl⟩

/-- **C08 fails beyond ASCII**: the byte 0C1X, no letter or digit, continues an identifier. -/
theorem C08_counterexample : scan [97, 0xC1, 59] = some (.ident [97, 0xC1], [59], []) := by decide

/-! ### C43: strings -/

theorem strLoop_append (q : Nat) (s rest : List Nat) (i : Nat) (hi : i + s.length ≤ 255)
    (hs : ∀ c ∈ s, c ≠ q ∧ 32 ≤ c) : strLoop q (s ++ q :: rest) i = (s, q :: rest, []) := by
  induction s generalizing i with
  | nil => simp [strLoop]
  | cons a s ih =>
    have h := hs a (by simp)
    simp only [List.length_cons] at hi
    simp only [List.cons_append, strLoop, if_neg h.1]
    rw [if_neg (by omega), if_neg (by omega), ih (i + 1) (by omega) (fun c hc => hs c (by simp [hc]))]

/-- **C43, string literals.**  A string of at most 255 characters, none of them a control character
or the quote it is enclosed in (`"` or `'`), is delivered unchanged; a string of one character is a
character constant. -/
theorem C43_string {q : Nat} {s rest : List Nat} (hq : q = 34 ∨ q = 39) (hl : s.length ≤ 255)
    (hs : ∀ c ∈ s, c ≠ q ∧ 32 ≤ c) :
    scan (q :: s ++ q :: rest) = some
      (if s.length = 1 then .char (s.headD 0) else .string s, rest, []) := by
  have h1 : ¬ (q ≤ 32) := by omega
  have h := strLoop_append q s rest 0 (by omega) hs
  simp only [scan, List.cons_append, get, skipBlanks, h1, hq, if_false, if_true, str, ch,
    List.headD_cons, List.tail_cons, h]
  by_cases hl1 : s.length = 1 <;> simp [hl1]

/-- A string without its closing quote on the same line, or too long, is reported. -/
theorem C43_string_unterminated {q : Nat} {s rest : List Nat} (hq : q = 34 ∨ q = 39)
    (hl : s.length ≤ 255) (hs : ∀ c ∈ s, c ≠ q ∧ 32 ≤ c) (hr : ch rest < 32) :
    ∃ k t, scan (q :: s ++ rest) = some (k, t, [3]) := by
  have h1 : ¬ (q ≤ 32) := by omega
  have h : ∀ i, i + s.length ≤ 255 → (strLoop q (s ++ rest) i).2.2 = [3] := by
    clear hl
    induction s with
    | nil =>
      intro i _
      cases rest with
      | nil => rfl
      | cons c t =>
        simp only [ch, List.headD_cons] at hr
        simp only [List.nil_append, strLoop]
        rw [if_neg (by omega), if_pos hr]
    | cons a s ih =>
      intro i hi
      have h := hs a (by simp)
      simp only [List.length_cons] at hi
      simp only [List.cons_append, strLoop, if_neg h.1]
      rw [if_neg (by omega), if_neg (by omega)]
      exact ih (fun c hc => hs c (by simp [hc])) (i + 1) (by omega)
  simp only [scan, List.cons_append, get, skipBlanks, h1, hq, if_false, if_true, str, ch,
    List.headD_cons, List.tail_cons]
  rw [h 0 (by omega)]
  exact ⟨_, _, rfl⟩

/-! ### C43: the token stream -/

/-- Symbols written with special characters, and their spelling. -/
def opSpelling : List (Nat × List Nat) :=
  [(1, w! "*"), (2, w! "/"), (5, w! "&"), (6, w! "+"), (7, w! "-"), (9, w! "="), (10, w! "#"), (11, w! "<"),
   (12, w! "<="), (13, w! ">"), (14, w! ">="), (17, w! "^"), (18, w! "."), (19, w! ","), (20, w! ":"),
   (21, w! ".."), (22, w! ")"), (23, w! "]"), (24, w! "}"), (30, w! "("), (31, w! "["), (32, w! "{"),
   (33, w! "~"), (34, w! ":="), (39, w! ";"), (40, w! "|")]

/-- The ways to write a token. -/
inductive Spells : Tok → List Nat → Prop
  | op {k s} : (k, s) ∈ opSpelling → Spells (.sym k) s
  | word {s k} : (s, k) ∈ reserved → Spells (.sym k) s
  | ident {a as} : IsLetter a → (∀ c ∈ as, IsLetter c ∨ IsDec c) → as.length < 255 →
      reservedSym (a :: as) = none → Spells (.ident (a :: as)) (a :: as)
  | string {q s} : q = 34 ∨ q = 39 → s.length ≤ 255 → s.length ≠ 1 → (∀ c ∈ s, c ≠ q ∧ 32 ≤ c) →
      Spells (.string s) (q :: s ++ [q])
  | char1 {q c : Nat} : q = 34 ∨ q = 39 → c ≠ q → 32 ≤ c → Spells (.char c) [q, c, q]
  | charX {c ds} : IsDec c → (∀ c ∈ ds, IsHex c) → valOf 16 (c :: ds) < 256 →
      Spells (.char (valOf 16 (c :: ds))) (c :: ds ++ [88])
  | dec {ds} : ds ≠ [] → (∀ c ∈ ds, IsDec c) → valOf 10 ds < 2 ^ 63 → Spells (.int (valOf 10 ds)) ds
  | hex {c ds} : IsDec c → (∀ c ∈ ds, IsHex c) → valOf 16 (c :: ds) < 2 ^ 64 →
      Spells (.int (signed64 (valOf 16 (c :: ds)))) (c :: ds ++ [72])

/-- The text between tokens: blanks, line breaks, other control characters and complete comments. -/
inductive Gap : List Nat → Prop
  | nil : Gap []
  | blank {c g} : 0 < c → c ≤ 32 → Gap g → Gap (c :: g)
  | comment {t g} : close 0 t = some [] → 0 ∉ t → Gap g → Gap (40 :: 42 :: t ++ g)

theorem close_append {d : Nat} {t r : List Nat} (h : close d t = some []) : close d (t ++ r) = some r := by
  fun_induction close d t with
  | case1 => cases h
  | case2 => cases h
  | case3 d a b t h' ih => simp only [List.cons_append]; rw [close, if_pos h', ih h]
  | case4 a b t h1 h2 => cases h; simp only [List.cons_append]; rw [close, if_neg h1, if_pos h2]; rfl
  | case5 d a b t h1 h2 hk ih =>
    simp only [List.cons_append]; rw [close, if_neg h1, if_pos h2, if_neg hk, ih h]
  | case6 d a b t h1 h2 ih =>
    simp only [List.cons_append] at ih ⊢; rw [close, if_neg h1, if_neg h2, ih h]

theorem gap_noZero {g : List Nat} (h : Gap g) : 0 ∉ g := by
  induction h with
  | nil => simp
  | blank h1 h2 h3 ih =>
    intro h; rcases List.mem_cons.1 h with h | h
    · omega
    · exact ih h
  | comment h1 h2 h3 ih =>
    intro h
    simp only [List.cons_append, List.mem_cons, List.mem_append] at h
    rcases h with h | h | h | h
    · omega
    · omega
    · exact h2 h
    · exact ih h

theorem scan_gap {g t : List Nat} (h : Gap g) (h0 : 0 ∉ t) : scan (g ++ t) = scan t := by
  induction h with
  | nil => rfl
  | @blank c g h1 h2 h3 ih =>
    rw [← ih]
    have hz : 0 ∉ g ++ t := by
      intro h; rcases List.mem_append.1 h with h | h
      · exact gap_noZero h3 h
      · exact h0 h
    simp only [scan, List.cons_append, List.length_cons]
    rw [← get_fuel ((g ++ t).length + 2) (g ++ t) ((g ++ t).length + 1 + 1) _ hz (by omega) (by omega)
      (by omega)]
    have hc : c ≠ 0 := by omega
    simp only [get, skipBlanks, h2, hc, if_true, if_false]
  | @comment b g h1 h2 h3 ih =>
    rw [← ih]
    have hz : 0 ∉ b ++ (g ++ t) := by
      intro h
      rcases List.mem_append.1 h with h | h
      · exact h2 h
      · rcases List.mem_append.1 h with h | h
        · exact gap_noZero h3 h
        · exact h0 h
    have := C07_comments (b ++ (g ++ t)) hz
    rw [close_append h1] at this
    simpa using this

theorem scan_op {k : Nat} {s rest : List Nat} (h : (k, s) ∈ opSpelling) (hr : ch rest ≤ 32) :
    scan (s ++ rest) = some (.sym k, rest, []) := by
  have h46 : ch rest ≠ 46 := by omega
  have h42 : ch rest ≠ 42 := by omega
  have h61 : ch rest ≠ 61 := by omega
  simp only [opSpelling, List.mem_cons, List.not_mem_nil, or_false, Prod.mk.injEq] at h
  rcases h with h | h | h | h | h | h | h | h | h | h | h | h | h | h | h | h | h | h | h | h | h |
    h | h | h | h | h <;>
  · obtain ⟨rfl, rfl⟩ := h
    simp [scan, get, skipBlanks, isDigit, isLetter, operator, ch] at h46 h42 h61 ⊢
    try simp [h46, h42, h61]

theorem scan_spells {k : Tok} {s rest : List Nat} (h : Spells k s) (hr : ch rest ≤ 32) :
    scan (s ++ rest) = some (k, rest, []) := by
  have hw : ch rest < 128 ∧ ¬ IsLetter (ch rest) ∧ ¬ IsDec (ch rest) := by
    unfold IsLetter IsDec; omega
  cases h with
  | op h => exact scan_op h hr
  | @word n k h =>
    simp only [reserved, List.mem_cons, List.not_mem_nil, or_false, Prod.mk.injEq] at h
    rcases h with h | h | h | h | h | h | h | h | h | h | h | h | h | h | h | h | h | h | h | h | h |
      h | h | h | h | h | h | h | h | h | h | h | h | h <;>
    · obtain ⟨rfl, rfl⟩ := h
      exact C08_identifier (by unfold IsLetter; decide) (by unfold IsLetter IsDec; decide) (by decide) hw
  | @ident a as h1 h2 h3 h4 =>
    have := C08_identifier h1 h2 h3 hw
    rw [h4] at this
    exact this
  | @string q s h1 h2 h3 h4 =>
    have := C43_string (rest := rest) h1 h2 h4
    rw [if_neg h3] at this
    simpa using this
  | @char1 q c h1 h2 h3 =>
    have := C43_string (s := [c]) (rest := rest) h1 (by simp) (by simp [h2, h3])
    simpa using this
  | @charX c ds h1 h2 h3 =>
    have := (C06_char (rest := rest) h1 h2).1 h3
    simpa using this
  | @dec ds h1 h2 h3 =>
    exact (C06_decimal h1 h2 (by unfold EndsDec IsHex; omega)).1 h3
  | @hex c ds h1 h2 h3 =>
    have := (C06_hex (rest := rest) h1 h2).1 h3
    simpa using this

theorem spells_noZero {k : Tok} {s : List Nat} (h : Spells k s) : 0 ∉ s := by
  intro h0
  cases h with
  | op h =>
    simp only [opSpelling, List.mem_cons, List.not_mem_nil, or_false, Prod.mk.injEq] at h
    rcases h with h | h | h | h | h | h | h | h | h | h | h | h | h | h | h | h | h | h | h | h | h |
      h | h | h | h | h <;>
    · obtain ⟨-, rfl⟩ := h
      revert h0; decide
  | word h =>
    simp only [reserved, List.mem_cons, List.not_mem_nil, or_false, Prod.mk.injEq] at h
    rcases h with h | h | h | h | h | h | h | h | h | h | h | h | h | h | h | h | h | h | h | h | h |
      h | h | h | h | h | h | h | h | h | h | h | h | h <;>
    · obtain ⟨rfl, -⟩ := h
      revert h0; decide
  | ident h1 h2 _ _ =>
    rcases List.mem_cons.1 h0 with h | h
    · rw [← h] at h1; unfold IsLetter at h1; omega
    · have := h2 0 h; unfold IsLetter IsDec at this; omega
  | string h1 _ _ h4 =>
    simp only [List.cons_append, List.mem_cons, List.mem_append, List.not_mem_nil, or_false] at h0
    rcases h0 with h | h | h
    · omega
    · have := h4 0 h; omega
    · omega
  | char1 h1 h2 h3 =>
    simp only [List.mem_cons, List.not_mem_nil, or_false] at h0
    omega
  | charX h1 h2 _ =>
    simp only [List.cons_append, List.mem_cons, List.mem_append, List.not_mem_nil, or_false] at h0
    unfold IsDec at h1
    rcases h0 with h | h | h
    · omega
    · have := h2 0 h; unfold IsHex at this; omega
    · omega
  | dec _ h2 _ => have := h2 0 h0; unfold IsDec at this; omega
  | hex h1 h2 _ =>
    simp only [List.cons_append, List.mem_cons, List.mem_append, List.not_mem_nil, or_false] at h0
    unfold IsDec at h1
    rcases h0 with h | h | h
    · omega
    · have := h2 0 h; unfold IsHex at this; omega
    · omega

theorem spells_ne_eof {s : List Nat} : ¬ Spells .eof s := by intro h; cases h

/-- A text: for each token its spelling and the blank character and gap that follow it. -/
def render : List (Tok × List Nat × Nat × List Nat) → List Nat
  | [] => []
  | (_, s, c, g) :: r => s ++ (c :: g ++ render r)

/-- **C43, token streams.**  Any sequence of tokens, each written in any of its spellings, separated
by a blank (or line break) and any further blanks and nested comments: the scanner delivers exactly
these tokens, then the end of the text, without an error. -/
theorem C43_token_stream (items : List (Tok × List Nat × Nat × List Nat))
    (h : ∀ i ∈ items, Spells i.1 i.2.1 ∧ 0 < i.2.2.1 ∧ i.2.2.1 ≤ 32 ∧ Gap i.2.2.2)
    (g : List Nat) (hg : Gap g) (f : Nat) (hf : items.length < f) :
    scanAll f (g ++ render items) = some (items.map (·.1), []) := by
  have hz : ∀ items : List (Tok × List Nat × Nat × List Nat),
      (∀ i ∈ items, Spells i.1 i.2.1 ∧ 0 < i.2.2.1 ∧ i.2.2.1 ≤ 32 ∧ Gap i.2.2.2) → 0 ∉ render items := by
    intro items h
    induction items with
    | nil => simp [render]
    | cons i r ih =>
      obtain ⟨k, s, c, g⟩ := i
      have h1 := h _ (by simp : (k, s, c, g) ∈ (k, s, c, g) :: r)
      simp only [render, List.mem_append, List.cons_append, List.mem_cons, not_or]
      exact ⟨spells_noZero h1.1, by have := h1.2.1; simp only at this; omega, gap_noZero h1.2.2.2,
        ih (fun i hi => h i (by simp [hi]))⟩
  induction items generalizing g f with
  | nil =>
    obtain ⟨f, rfl⟩ : ∃ m, f = m + 1 := ⟨f - 1, by omega⟩
    have : scan (g ++ render []) = some (.eof, [], []) := by
      rw [scan_gap hg (by simp [render])]; rfl
    simp [scanAll, this]
  | cons i r ih =>
    obtain ⟨k, s, c, g'⟩ := i
    obtain ⟨f, rfl⟩ : ∃ m, f = m + 1 := ⟨f - 1, by omega⟩
    have h1 := h _ (by simp : (k, s, c, g') ∈ (k, s, c, g') :: r)
    simp only at h1
    have hs : scan (g ++ render ((k, s, c, g') :: r)) = some (k, c :: g' ++ render r, []) := by
      rw [scan_gap hg (hz _ h)]
      simp only [render]
      exact scan_spells h1.1 (by simp [ch]; omega)
    have hk : k ≠ .eof := by rintro rfl; exact spells_ne_eof h1.1
    have := ih (fun i hi => h i (by simp [hi])) (c :: g') (Gap.blank h1.2.1 h1.2.2.1 h1.2.2.2) f
      (by simp at hf; omega)
    simp only [scanAll, hs, bind, Option.bind, hk, if_false]
    rw [this]
    simp

/- Non-vacuity: the text `x := (* c *) 12 DIV 0FFH ;` -/
example : scanAll 9 (w! "x := (* c *) 12 DIV 0FFH ;\n") = some
    ([.ident (w! "x"), .sym 34, .int 12, .sym 3, .int 255, .sym 39], []) := by decide
example : Gap (w! " (* a (* b *) *)\n") :=
  .blank (by decide) (by decide) (.comment (t := w! " a (* b *) *)") (by decide) (by decide)
    (.blank (by decide) (by decide) .nil))

end Verif.Scanner
