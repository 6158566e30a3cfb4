import Verif.Ocat.Model

/-!
# C95: what ocat writes
-/
namespace Verif.Ocat

/-! ## Specification -/

/-- What is shown for one character: itself; two blanks for a tabulator, or itself with the option; a line feed for the end of a
line; nothing for other control characters. -/
def shown (tab : Bool) (c : Nat) : List Nat :=
  if 32 ≤ c then [c] else if c = 13 then [10] else if c = 9 then (if tab then [9] else [32, 32]) else []

/-- The message for a name without file. -/
def message (path : List Nat) : List Nat := "ocat: cannot open ".toList.map Char.toNat ++ (path ++ [10])

/-- What is shown for a name. -/
def shownFile (old : List Nat → Option (List Nat)) (tab : Bool) (path : List Nat) : List Nat :=
  match old path with
  | some text => text.flatMap (shown tab)
  | none => message path

/-- A name that fits into the variable. -/
def NameOk (p : List Nat) : Prop := p ≠ [] ∧ p.length ≤ 127 ∧ 0 ∉ p

/-- The written text with what the Console keeps. -/
def Con.total (s : Con) : List Nat := s.out ++ s.line

/-- At the beginning: an array of 1024 characters of any values. -/
def start (buf : List Nat) : State := ⟨buf, 0, ⟨[], []⟩⟩

/-! ## Lemmas -/

/-- The Console keeps only characters of a line that is not ended. -/
def Con.Ok (s : Con) : Prop :=
  10 ∉ s.line ∧ s.line.length ≤ 128 ∧ (10 ∉ s.total → s.total.length ≤ 128 → s.out = [])

theorem flush_total (s : Con) : (flush s).total = s.total := by simp [flush, Con.total]

theorem char_ok {s : Con} (h : s.Ok) (c : Nat) : (char s c).Ok ∧ (char s c).total = s.total ++ [c] := by
  obtain ⟨h1, h2, h3⟩ := h
  have key : ∀ s : Con, 10 ∉ s.line → s.line.length < 128 → (10 ∉ s.total → s.total.length < 128 → s.out = []) →
      (if c = 10 then flush ⟨s.line ++ [c], s.out⟩ else ⟨s.line ++ [c], s.out⟩ : Con).Ok ∧
      (if c = 10 then flush ⟨s.line ++ [c], s.out⟩ else ⟨s.line ++ [c], s.out⟩ : Con).total = s.total ++ [c] := by
    intro s g1 g2 g3
    by_cases hc : c = 10
    · rw [if_pos hc]
      have e : (flush ⟨s.line ++ [c], s.out⟩).total = s.total ++ [c] := by rw [flush_total]; simp [Con.total]
      refine ⟨⟨by simp [flush], by simp [flush], fun n _ => ?_⟩, e⟩
      rw [e, hc] at n
      exact absurd (by simp) n
    · rw [if_neg hc]
      have e : Con.total ⟨s.line ++ [c], s.out⟩ = s.total ++ [c] := by simp [Con.total]
      refine ⟨⟨?_, ?_, fun n l => ?_⟩, e⟩
      · simp only [List.mem_append, List.mem_singleton, not_or]
        exact ⟨g1, fun e => hc e.symm⟩
      · simp only [List.length_append, List.length_singleton]; omega
      · rw [e] at n l
        simp only [List.length_append, List.length_singleton] at l
        exact g3 (fun m => n (List.mem_append_left _ m)) (by omega)
  unfold char
  by_cases hl : s.line.length = 128
  · simp only [if_pos hl]
    have := key (flush s) (by simp [flush]) (by simp [flush]) (fun _ l => by
      rw [flush_total, Con.total, List.length_append] at l; omega)
    rw [flush_total] at this
    exact this
  · simp only [if_neg hl]
    exact key s h1 (by omega) (fun n l => h3 n (by omega))

theorem string_ok : ∀ (p rest : List Nat) (s : Con), 0 ∉ p → s.Ok →
    ∃ s', string (p ++ 0 :: rest) s = some s' ∧ s'.Ok ∧ s'.total = s.total ++ p
  | [], rest, s, _, h => ⟨s, by rw [List.nil_append, string, if_neg (by simp)], h, by simp⟩
  | c :: p, rest, s, hp, h => by
    have hc : c ≠ 0 := fun e => hp (by simp [e])
    obtain ⟨k1, k2⟩ := char_ok h c
    obtain ⟨s', e1, e2, e3⟩ := string_ok p rest (char s c) (fun m => hp (by simp [m])) k1
    exact ⟨s', by rw [List.cons_append, string, if_pos hc, e1], e2, by rw [e3, k2]; simp⟩

/-- The buffer: characters that were not given to the Console, and others behind. -/
structure Inv (s : State) (pre : List Nat) : Prop where
  len : s.buf.length = 1024
  take : s.buf.take s.bufpos = pre
  pos : s.bufpos < 1023
  zero : 0 ∉ pre
  con : s.con.Ok

theorem wr_split {a : List Nat} {i : Nat} (c : Nat) (h : i < a.length) : ∃ r, wr a i c = some (a.take i ++ c :: r) ∧ r.length + i + 1 = a.length := by
  refine ⟨a.drop (i + 1), ?_, by simp; omega⟩
  rw [wr, if_pos h, List.set_eq_take_append_cons_drop, if_pos h]

theorem consoleChar_ok {s : State} {pre : List Nat} (h : Inv s pre) {c : Nat} (hc : c ≠ 0) :
    ∃ s' pre', consoleChar s c = some s' ∧ Inv s' pre' ∧ s'.con.total ++ pre' = s.con.total ++ pre ++ [c] := by
  obtain ⟨hl, ht, hp, hz, hcon⟩ := h
  obtain ⟨r, e1, e2⟩ := wr_split (a := s.buf) (i := s.bufpos) c (by omega)
  have hpl : pre.length = s.bufpos := by rw [← ht, List.length_take]; omega
  rw [ht] at e1
  unfold consoleChar
  rw [e1]
  simp only [Option.bind_eq_bind, Option.bind_some]
  have hbl : (pre ++ c :: r).length = 1024 := by simp; omega
  have hz' : 0 ∉ pre ++ [c] := by
    simp only [List.mem_append, List.mem_singleton, not_or]
    exact ⟨hz, fun e => hc e.symm⟩
  have ht' : (pre ++ c :: r).take (s.bufpos + 1) = pre ++ [c] := by
    have : pre ++ c :: r = (pre ++ [c]) ++ r := by simp
    rw [this, List.take_left' (by simp; omega)]
  by_cases hf : s.bufpos + 1 = (pre ++ c :: r).length - 1
  · rw [if_pos hf]
    obtain ⟨r', f1, f2⟩ := wr_split (a := pre ++ c :: r) (i := s.bufpos + 1) 0 (by omega)
    rw [ht'] at f1
    rw [f1]
    obtain ⟨s', g1, g2, g3⟩ := string_ok (pre ++ [c]) r' s.con hz' hcon
    rw [Option.bind_some, g1, Option.bind_some]
    refine ⟨_, [], rfl, ⟨?_, by simp, by dsimp only; omega, by simp, g2⟩, ?_⟩
    · dsimp only; simp; omega
    · dsimp only; rw [g3]; simp
  · rw [if_neg hf]
    refine ⟨_, pre ++ [c], rfl, ⟨hbl, ht', by dsimp only; omega, hz', hcon⟩, ?_⟩
    simp

theorem one_ok (tab : Bool) {s : State} {pre : List Nat} (h : Inv s pre) (c : Nat) :
    ∃ s' pre', one tab s c = some s' ∧ Inv s' pre' ∧ s'.con.total ++ pre' = s.con.total ++ pre ++ shown tab c := by
  unfold one shown
  by_cases h1 : 32 ≤ c
  · rw [if_pos h1, if_pos h1]
    exact consoleChar_ok h (by omega)
  · rw [if_neg (by omega), if_neg h1]
    by_cases h2 : c = 9
    · rw [if_pos h2, if_neg (by omega : ¬ c = 13), if_pos h2]
      cases tab with
      | true =>
        rw [if_pos rfl, if_pos rfl, h2]
        exact consoleChar_ok h (by omega)
      | false =>
        rw [if_neg (by decide), if_neg (by decide)]
        obtain ⟨s1, p1, e1, i1, t1⟩ := consoleChar_ok h (c := 32) (by omega)
        obtain ⟨s2, p2, e2, i2, t2⟩ := consoleChar_ok i1 (c := 32) (by omega)
        refine ⟨s2, p2, ?_, i2, ?_⟩
        · rw [e1]; exact e2
        · rw [t2, t1]; simp
    · rw [if_neg h2]
      by_cases h3 : c = 13
      · rw [if_pos h3, if_pos h3]
        exact consoleChar_ok h (by omega)
      · rw [if_neg h3, if_neg h3, if_neg h2]
        exact ⟨s, pre, rfl, h, by simp⟩

theorem body_ok (tab : Bool) : ∀ (t : List Nat) (s : State) (pre : List Nat), Inv s pre →
    ∃ s', body tab t s = some s' ∧ s'.buf.length = 1024 ∧ s'.con.Ok ∧
      s'.con.total = s.con.total ++ pre ++ t.flatMap (shown tab)
  | [], s, pre, h => by
    obtain ⟨r, e1, e2⟩ := wr_split (a := s.buf) (i := s.bufpos) 0 (by have := h.len; have := h.pos; omega)
    rw [h.take] at e1
    obtain ⟨s', g1, g2, g3⟩ := string_ok pre r s.con h.zero h.con
    have hpl : pre.length = s.bufpos := by
      rw [← h.take, List.length_take]; have := h.len; have := h.pos; omega
    refine ⟨⟨pre ++ 0 :: r, s.bufpos, s'⟩, ?_, ?_, g2, ?_⟩
    · unfold body
      rw [e1]
      simp only [Option.bind_eq_bind, Option.bind_some]
      rw [g1]
      rfl
    · have := h.len
      dsimp only; simp; omega
    · dsimp only; rw [g3]; simp
  | c :: t, s, pre, h => by
    obtain ⟨s1, p1, e1, i1, t1⟩ := one_ok tab h c
    obtain ⟨s2, e2, k1, k2, t2⟩ := body_ok tab t s1 p1 i1
    refine ⟨s2, ?_, k1, k2, ?_⟩
    · unfold body
      rw [e1]
      exact e2
    · rw [t2, t1]; simp

theorem file_ok (old : List Nat → Option (List Nat)) (tab : Bool) {path : List Nat} (hp : NameOk path) {s : State}
    (hl : s.buf.length = 1024) (hc : s.con.Ok) :
    ∃ s', file old tab path s = some s' ∧ s'.buf.length = 1024 ∧ s'.con.Ok ∧ s'.con.total = s.con.total ++ shownFile old tab path := by
  unfold file shownFile
  cases old path with
  | some text =>
    obtain ⟨s', e1, e2, e3, e4⟩ := body_ok tab text { s with bufpos := 0 } [] ⟨hl, by simp, by dsimp only; omega, by simp, hc⟩
    exact ⟨s', e1, e2, e3, by simpa using e4⟩
  | none =>
    have h0 : cannot = "ocat: cannot open ".toList.map Char.toNat ++ 0 :: [] := by decide
    have hz : 0 ∉ "ocat: cannot open ".toList.map Char.toNat := by decide
    unfold message
    generalize "ocat: cannot open ".toList.map Char.toNat = msg at h0 hz
    obtain ⟨c1, e1, k1, t1⟩ := string_ok msg [] s.con hz hc
    obtain ⟨c2, e2, k2, t2⟩ := string_ok path [] c1 hp.2.2 k1
    obtain ⟨k3, t3⟩ := char_ok k2 10
    refine ⟨{ s with con := char c2 10 }, ?_, hl, k3, ?_⟩
    · dsimp only
      rw [h0, e1]
      simp only [Option.bind_eq_bind, Option.bind_some]
      rw [e2]
      rfl
    · dsimp only
      rw [t3, t2, t1]
      simp

theorem get_eq (args : List (List Nat)) (hn : ∀ p ∈ args, NameOk p) (k : Nat) (h : k < args.length) (q : List Nat) :
    get args (k + 1) q = args[k] := by
  unfold get
  rw [Nat.add_sub_cancel, List.getElem?_eq_getElem h]
  exact List.take_of_length_le (hn _ (List.getElem_mem h)).2.1

theorem loop_ok (old : List Nat → Option (List Nat)) (args : List (List Nat)) (tab : Bool) : ∀ (f k : Nat) (s : State),
    (∀ p ∈ args.drop k, NameOk p) → args.length < f + k → s.buf.length = 1024 → s.con.Ok →
    ∃ s', loop old args tab f (k + 1) (get args (k + 1) []) s = some s' ∧ s'.con.Ok ∧
      s'.con.total = s.con.total ++ (args.drop k).flatMap (shownFile old tab)
  | 0, k, s, hn, hf, hl, hc => ⟨s, rfl, hc, by rw [List.drop_eq_nil_of_le (by omega)]; simp⟩
  | f + 1, k, s, hn, hf, hl, hc => by
    by_cases hk : k < args.length
    · have hd := List.drop_eq_getElem_cons hk
      have hnk : NameOk args[k] := hn _ (by rw [hd]; exact List.mem_cons_self)
      have hg : get args (k + 1) [] = args[k] := by
        unfold get
        rw [Nat.add_sub_cancel, List.getElem?_eq_getElem hk]
        exact List.take_of_length_le hnk.2.1
      obtain ⟨s1, e1, l1, c1, t1⟩ := file_ok old tab hnk hl hc
      obtain ⟨s2, e2, c2, t2⟩ := loop_ok old args tab f (k + 1) s1 (fun p hp => hn p (by rw [hd]; exact List.mem_cons_of_mem _ hp))
        (by omega) l1 c1
      refine ⟨s2, ?_, c2, ?_⟩
      · rw [hg, loop, if_pos hnk.1, e1]
        exact e2
      · rw [t2, t1, hd, List.flatMap_cons, List.append_assoc]
    · have hg : get args (k + 1) [] = [] := by
        unfold get
        rw [Nat.add_sub_cancel, List.getElem?_eq_none (by omega)]
      refine ⟨s, ?_, hc, by rw [List.drop_eq_nil_of_le (by omega)]; simp⟩
      rw [hg, loop, if_neg (by simp)]

/-! ## Theorems -/

theorem cat_ok (old : List Nat → Option (List Nat)) (args : List (List Nat)) (buf : List Nat) (hb : buf.length = 1024)
    (hn : ∀ p ∈ args, NameOk p) (ht : args.head? ≠ some optT) :
    ∃ s, cat old args (start buf) = some s ∧ s.con.Ok ∧ s.con.total = args.flatMap (shownFile old false) := by
  obtain ⟨s, e, c, t⟩ := loop_ok old args false (args.length + 1) 0 (start buf) (by simpa using hn) (by omega) hb
    ⟨by simp [start], by simp [start], by simp [start]⟩
  refine ⟨s, ?_, c, by simpa [start, Con.total] using t⟩
  have hne : get args 1 [] ≠ optT := by
    cases args with
    | nil => decide
    | cons a args =>
      rw [get_eq (a :: args) hn 0 (by simp)]
      simpa using ht
  unfold cat
  dsimp only
  rw [if_neg hne]
  exact e

/-- C95: for all files of all lengths, and all names that fit, the texts of the files (and the messages for names without
files) are written one behind the other, without a trap: nothing is lost at the ends of the buffers or between files.  Without the
option. -/
theorem C95_ocat (old : List Nat → Option (List Nat)) (args : List (List Nat)) (buf : List Nat) (hb : buf.length = 1024)
    (hn : ∀ p ∈ args, NameOk p) (ht : args.head? ≠ some optT) :
    ∃ s, cat old args (start buf) = some s ∧ s.con.total = args.flatMap (shownFile old false) := by
  obtain ⟨s, e, _, t⟩ := cat_ok old args buf hb hn ht
  exact ⟨s, e, t⟩

/-- C95: the same with the option `-t` and at least one name: tabulators are kept. -/
theorem C95_ocat_t (old : List Nat → Option (List Nat)) (args : List (List Nat)) (buf : List Nat) (hb : buf.length = 1024)
    (hn : ∀ p ∈ args, NameOk p) (hne : args ≠ []) :
    ∃ s, cat old (optT :: args) (start buf) = some s ∧ s.con.total = args.flatMap (shownFile old true) := by
  obtain ⟨s, e, _, t⟩ := loop_ok old (optT :: args) true (args.length + 2) 1 (start buf) (by simpa using hn) (by simp) hb
    ⟨by simp [start], by simp [start], by simp [start]⟩
  refine ⟨s, ?_, by simpa [start, Con.total] using t⟩
  have h1 : get (optT :: args) 1 [] = optT := by simp [get, optT]
  have h2 : get (optT :: args) 2 optT = get (optT :: args) 2 [] := by
    cases args with
    | nil => exact absurd rfl hne
    | cons a args => rfl
  unfold cat
  dsimp only
  rw [h1, if_pos rfl, h2]
  exact e

/-- C95: if what is shown ends with the end of a line, then all of it is given to the operating system. -/
theorem C95_delivered (old : List Nat → Option (List Nat)) (args : List (List Nat)) (buf : List Nat) (hb : buf.length = 1024)
    (hn : ∀ p ∈ args, NameOk p) (ht : args.head? ≠ some optT) (hl : (args.flatMap (shownFile old false)).getLast? = some 10) :
    ∃ s, cat old args (start buf) = some s ∧ s.con.out = args.flatMap (shownFile old false) := by
  obtain ⟨s, e, c, t⟩ := cat_ok old args buf hb hn ht
  refine ⟨s, e, ?_⟩
  have hline : s.con.line = [] := by
    by_contra hne
    rw [← t, Con.total, List.getLast?_append_of_ne_nil _ hne] at hl
    exact c.1 (List.mem_of_getLast? hl)
  rw [← t, Con.total, hline, List.append_nil]

/-- Deviation: what follows the last end of a line stays in the Console and is never written, for all texts of up to 128 characters
that can be shown, without the end of a line (Console.Mod 17-22: nothing flushes the line when the program ends). -/
theorem C95_last_line (text path : List Nat) (buf : List Nat) (hb : buf.length = 1024) (hp : NameOk path) (ht : path ≠ optT)
    (hx : ∀ c ∈ text, 32 ≤ c) (hlen : text.length ≤ 128) :
    ∃ s, cat (fun _ => some text) [path] (start buf) = some s ∧ s.con.total = text ∧ s.con.out = [] := by
  obtain ⟨s, e, c, t⟩ := cat_ok (fun _ => some text) [path] buf hb (by simpa using hp) (by simpa using ht)
  have hs : text.flatMap (shown false) = text := by
    clear e t c hlen
    induction text with
    | nil => rfl
    | cons c text ih =>
      rw [List.flatMap_cons, ih (fun d hd => hx d (by simp [hd])), shown, if_pos (hx c (by simp))]
      rfl
  have ht' : s.con.total = text := by
    rw [t]
    simpa [shownFile] using hs
  refine ⟨s, e, ht', ?_⟩
  exact c.2.2 (by rw [ht']; exact fun m => absurd (hx 10 m) (by decide)) (by rw [ht']; exact hlen)

/-- Deviation: ocat with the option and no names tries to open a file with the name `-t` (OCatCmd.Mod 19: `path` keeps its value). -/
theorem C95_only_option (old : List Nat → Option (List Nat)) (buf : List Nat) :
    cat old [optT] (start buf) = (file old true optT (start buf)) := by
  unfold cat
  have h1 : get [optT] 1 [] = optT := rfl
  have h2 : get [optT] 2 optT = optT := rfl
  have h3 : get [optT] (2 + 1) [] = [] := rfl
  dsimp only
  rw [h1, if_pos rfl, h2, List.length_singleton, loop, if_pos (by decide), h3]
  cases file old true optT (start buf) with
  | none => rfl
  | some s => rw [Option.bind_eq_bind, Option.bind_some, loop, if_neg (by simp)]

/-- Deviation: an empty argument ends the list of names: what follows it is not shown (OCatCmd.Mod 22). -/
theorem C95_empty_argument (old : List Nat → Option (List Nat)) (args : List (List Nat)) (buf : List Nat) :
    cat old ([] :: args) (start buf) = some (start buf) := rfl

/-! ## Examples -/

example : NameOk [97, 46, 84] := by unfold NameOk; decide
example : shown false 9 = [32, 32] ∧ shown true 9 = [9] ∧ shown true 13 = [10] ∧ shown true 0 = [] := by decide
example : shownFile (fun _ => none) false [97] = [111, 99, 97, 116, 58, 32, 99, 97, 110, 110, 111, 116, 32, 111, 112, 101, 110, 32, 97, 10] := by
  decide
/-- A text that ends with the end of a line. -/
example : ([[97]].flatMap (shownFile (fun _ => some [65, 9, 66, 13]) false)).getLast? = some 10 := by decide

end Verif.Ocat
