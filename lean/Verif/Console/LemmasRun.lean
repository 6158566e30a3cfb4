import Verif.Common
import Verif.Console.Lemmas

/-!
# C29, C30, C47: console output and input
-/
namespace Verif.Console

open Spec (dec hexa pad clamp delivered received value digitVal isHex blank text reads Legal wrap)
open Verif.Arith (wrap64 ck)

/-! ## Output -/

/-- Bytes in the buffer. -/
def buffered (s : State) : List Nat := (List.range s.n).map s.buf

theorem delivered_append (a b : List Ev) : delivered (a ++ b) = delivered a ++ delivered b := List.filterMap_append

theorem received_append (a b : List Ev) : received (a ++ b) = received a ++ received b := List.filterMap_append

theorem delivered_out (b : List Nat) : delivered (b.map .out) = b := by
  induction b with
  | nil => rfl
  | cons c t ih => simp only [delivered, List.map_cons, List.filterMap_cons] at ih ⊢; rw [ih]

theorem received_out (b : List Nat) : received (b.map .out) = [] := by
  induction b with
  | nil => rfl
  | cons c t ih => simp only [received, List.map_cons, List.filterMap_cons] at ih ⊢; rw [ih]

/-- `s'` is `s` after the bytes `t` were written. -/
structure Wrote (s s' : State) (t : List Nat) : Prop where
  bytes : delivered s'.ev ++ buffered s' = delivered s.ev ++ buffered s ++ t
  bound : s'.n ≤ 128
  rcv : received s'.ev = received s.ev
  inp : s'.input = s.input
  nextch : s'.nextch = s.nextch
  rs : s'.rs = s.rs

theorem flush_ok {s : State} : Wrote s (flush none s) [] ∧ (flush none s).n = 0 ∧ (flush none s).ev = s.ev ++ (buffered s).map .out := by
  unfold flush
  by_cases h : 0 < s.n
  · simp only [if_pos h]
    refine ⟨⟨?_, Nat.zero_le _, ?_, rfl, rfl, rfl⟩, trivial, rfl⟩
    · simp only [deliver, delivered_append, delivered_out, buffered, List.range_zero, List.map_nil, List.append_nil]
    · simp only [deliver, received_append, received_out, List.append_nil]
  · simp only [if_neg h]
    have h0 : s.n = 0 := by omega
    have hb : buffered s = [] := by unfold buffered; rw [h0]; rfl
    refine ⟨⟨?_, by simp, rfl, rfl, rfl, rfl⟩, trivial, ?_⟩
    · rw [hb]; simp [buffered]
    · rw [hb]; simp

theorem Wrote.trans {s s' s'' : State} {t t' : List Nat} (h : Wrote s s' t) (h' : Wrote s' s'' t') : Wrote s s'' (t ++ t') :=
  ⟨by rw [h'.bytes, h.bytes, List.append_assoc], h'.bound, h'.rcv.trans h.rcv, h'.inp.trans h.inp, h'.nextch.trans h.nextch, h'.rs.trans h.rs⟩

theorem Wrote.refl {s : State} (h : s.n ≤ 128) : Wrote s s [] := ⟨by simp, h, rfl, rfl, rfl, rfl⟩

/-- Bytes are put behind the others in the buffer. -/
theorem put_ok {s s' : State} {t : List Nat} (hb : s.n + t.length ≤ 128) (hn : s'.n = s.n + t.length)
    (hbuf : ∀ i, s'.buf i = if s.n ≤ i ∧ i < s.n + t.length then (t[i - s.n]?).getD 0 else s.buf i)
    (hev : s'.ev = s.ev) (hi : s'.input = s.input) (hc : s'.nextch = s.nextch) (hr : s'.rs = s.rs) : Wrote s s' t := by
  refine ⟨?_, by omega, by rw [hev], hi, hc, hr⟩
  rw [hev, List.append_assoc]
  congr 1
  unfold buffered
  apply List.ext_getElem?
  intro i
  rw [List.getElem?_map, hn]
  by_cases h1 : i < s.n
  · rw [List.getElem?_range (by omega), List.getElem?_append_left (by simpa using h1), List.getElem?_map, List.getElem?_range h1]
    simp only [Option.map_some]
    rw [hbuf, if_neg (by omega)]
  · rw [List.getElem?_append_right (by simp; omega)]
    simp only [List.length_map, List.length_range]
    by_cases h2 : i < s.n + t.length
    · rw [List.getElem?_range h2]
      simp only [Option.map_some]
      rw [hbuf, if_pos (by omega), List.getElem?_eq_getElem (by omega)]
      rfl
    · rw [List.getElem?_eq_none (by simp; omega), List.getElem?_eq_none (by omega)]
      rfl

theorem char_ok {s : State} (c : Nat) (hs : s.n ≤ 128) : ∃ s', char none c s = some s' ∧ Wrote s s' [c] := by
  unfold char
  obtain ⟨s1, h1, h2⟩ : ∃ s1, s1 = (if 128 ≤ s.n then flush none s else s) ∧ Wrote s s1 [] ∧ s1.n < 128 := by
    by_cases h : 128 ≤ s.n
    · exact ⟨_, by rw [if_pos h], flush_ok.1, by rw [flush_ok.2.1]; omega⟩
    · exact ⟨_, by rw [if_neg h], Wrote.refl hs, by omega⟩
  rw [← h1]
  simp only []
  rw [if_pos h2.2]
  obtain ⟨s2, hs2⟩ : ∃ s2 : State, s2 = { s1 with buf := fun i => if i = s1.n then c else s1.buf i, n := s1.n + 1 } := ⟨_, rfl⟩
  rw [← hs2]
  have hw : Wrote s1 s2 [c] := by
    apply put_ok (t := [c]) (by simp; omega) (by rw [hs2]; rfl)
    · intro i
      rw [hs2]
      simp only [List.length_cons, List.length_nil]
      by_cases hi : i = s1.n
      · subst hi; simp
      · rw [if_neg hi, if_neg (by omega)]
    all_goals rw [hs2]
  refine ⟨_, rfl, ?_⟩
  have := h2.1.trans hw
  rw [List.nil_append] at this
  by_cases h : c = 10
  · rw [if_pos h]
    have := this.trans flush_ok.1
    rwa [List.append_nil] at this
  · rw [if_neg h]; exact this

theorem length_eq (str : List Nat) : length str = (str.takeWhile (· ≠ 0)).length ∧ str.take (length str) = str.takeWhile (· ≠ 0) := by
  induction str with
  | nil => exact ⟨rfl, rfl⟩
  | cons c t ih =>
    unfold length
    by_cases h : c = 0
    · simp [h]
    · obtain ⟨i1, i2⟩ := ih
      rw [List.takeWhile_cons_of_pos (by simpa using h), if_neg h, List.take_succ_cons, i2, List.length_cons, i1]
      exact ⟨rfl, rfl⟩

theorem string_ok {s : State} (str : List Nat) (hs : s.n ≤ 128) : ∃ s', string none str s = some s' ∧ Wrote s s' (str.takeWhile (· ≠ 0)) := by
  unfold string
  obtain ⟨l1, l2⟩ := length_eq str
  obtain ⟨s1, h1, h2⟩ : ∃ s1, s1 = (if 128 < s.n + length str then flush none s else s) ∧ Wrote s s1 [] ∧
      (128 < s.n + length str → s1.n = 0) ∧ (¬ 128 < s.n + length str → s1 = s) := by
    by_cases h : 128 < s.n + length str
    · exact ⟨_, by rw [if_pos h], flush_ok.1, fun _ => flush_ok.2.1, fun hc => absurd h hc⟩
    · exact ⟨_, by rw [if_neg h], Wrote.refl hs, fun hc => absurd hc h, fun _ => rfl⟩
  simp only []
  rw [← h1]
  by_cases hl : 128 < length str
  · rw [if_pos hl]
    refine ⟨_, rfl, ?_⟩
    have hn : s1.n = 0 := h2.2.1 (by omega)
    have hb : buffered s1 = [] := by unfold buffered; rw [hn]; rfl
    have hw := h2.1
    refine ⟨?_, by simp only [deliver]; omega, ?_, hw.inp, hw.nextch, hw.rs⟩
    · have e : buffered (deliver none s1 (str.take (length str))) = [] := hb
      rw [e, List.append_nil]
      simp only [deliver, delivered_append, delivered_out, l2]
      have := hw.bytes
      rw [hb, List.append_nil, List.append_nil] at this
      rw [this]
    · simp only [deliver, received_append, received_out, List.append_nil]
      exact hw.rcv
  · rw [if_neg hl]
    have hfit : s1.n + length str ≤ 128 := by
      by_cases h : 128 < s.n + length str
      · rw [h2.2.1 h]; omega
      · rw [h2.2.2 h]; omega
    rw [if_pos hfit]
    refine ⟨_, rfl, ?_⟩
    have := h2.1.trans (put_ok (s := s1) (t := str.takeWhile (· ≠ 0))
      (s' := { s1 with buf := fun i => if s1.n ≤ i ∧ i < s1.n + length str then (str[i - s1.n]?).getD 0 else s1.buf i, n := s1.n + length str })
      (by rw [← l1]; exact hfit) (by simp only []; rw [l1]) (by
        intro i
        simp only []
        rw [← l1]
        by_cases hi : s1.n ≤ i ∧ i < s1.n + length str
        · rw [if_pos hi, if_pos hi, ← l2, List.getElem?_take_of_lt (by omega)]
        · rw [if_neg hi, if_neg hi]) rfl rfl rfl rfl)
    simpa using this

theorem chars_ok : ∀ (t : List Nat) {s : State}, s.n ≤ 128 → ∃ s', chars none t s = some s' ∧ Wrote s s' t
  | [], s, hs => ⟨s, rfl, Wrote.refl hs⟩
  | c :: t, s, hs => by
    obtain ⟨s1, h1, h2⟩ := char_ok c hs
    obtain ⟨s2, h3, h4⟩ := chars_ok t h2.bound
    exact ⟨s2, by simp only [chars, h1, Option.bind_some, h3], by simpa using h2.trans h4⟩

theorem int_ok {s : State} {x : Int} (n : Int) (hx : -2 ^ 63 ≤ x ∧ x < 2 ^ 63) (hs : s.n ≤ 128) :
    ∃ s', int none x n s = some s' ∧ Wrote s s' (pad 32 n (dec x)) := by
  unfold int
  rw [intChars_ok hx, Option.bind_some]
  obtain ⟨s1, h1, h2⟩ := chars_ok (List.replicate (n - (dec x).reverse.length).toNat 32) hs
  obtain ⟨s2, h3, h4⟩ := chars_ok (dec x) h2.bound
  rw [h1, Option.bind_some, List.reverse_reverse]
  refine ⟨s2, h3, ?_⟩
  have := h2.trans h4
  rw [List.length_reverse] at this
  exact this

/-! ## Input -/

/-- The bytes not read yet by the program. -/
def rem (s : State) : List Nat :=
  match s.rs with
  | .pending => s.input
  | .ready => s.nextch :: s.input
  | .eof => []

/-- `s'` is `s` after some bytes were requested. -/
structure Reads (s s' : State) : Prop where
  buf : s'.buf = s.buf
  n : s'.n = s.n
  ev : ∃ es, s'.ev = s.ev ++ es ∧ delivered es = []
  rcv : received s'.ev ++ s'.input = received s.ev ++ s.input

theorem Reads.refl (s : State) : Reads s s := ⟨rfl, rfl, ⟨[], by simp, rfl⟩, rfl⟩

theorem Reads.trans {s s' s'' : State} (h : Reads s s') (h' : Reads s' s'') : Reads s s'' := by
  obtain ⟨e, he, hd⟩ := h.ev
  obtain ⟨e', he', hd'⟩ := h'.ev
  exact ⟨h'.buf.trans h.buf, h'.n.trans h.n, ⟨e ++ e', by rw [he', he, List.append_assoc], by rw [delivered_append, hd, hd']; rfl⟩, h'.rcv.trans h.rcv⟩

theorem Reads.congr {s s' s'' : State} (h : Reads s s') (hb : s''.buf = s'.buf) (hn : s''.n = s'.n) (he : s''.ev = s'.ev)
    (hi : s''.input = s'.input) : Reads s s'' :=
  ⟨hb.trans h.buf, hn.trans h.n, by rw [he]; exact h.ev, by rw [he, hi]; exact h.rcv⟩

/-- At the end of the input nothing is left. -/
def EofOk (s : State) : Prop := s.rs = .eof → s.input = []

theorem readChar_ok (s : State) : Reads s (readChar s) ∧ rem (readChar s) = s.input ∧ (readChar s).rs ≠ .pending ∧ EofOk (readChar s) ∧
    (readChar s).input = s.input.tail := by
  unfold readChar
  cases h : s.input with
  | nil =>
    refine ⟨⟨rfl, rfl, ⟨_, rfl, rfl⟩, ?_⟩, rfl, by simp, fun _ => rfl, rfl⟩
    simp only [received_append, h]
    simp [received]
  | cons c t =>
    refine ⟨⟨rfl, rfl, ⟨_, rfl, rfl⟩, ?_⟩, rfl, by simp, by simp [EofOk], rfl⟩
    simp only [received_append, h, List.append_assoc]
    rfl

/-- A state in which the next character is known. -/
structure Ready (s : State) : Prop where
  np : s.rs ≠ .pending
  eof : EofOk s

theorem Ready.iff {s : State} (h : Ready s) : s.rs = .ready ↔ rem s ≠ [] := by
  unfold rem
  cases hr : s.rs with
  | pending => exact absurd hr h.np
  | ready => simp
  | eof => simp

theorem Ready.cons {s : State} (h : s.rs = .ready) : rem s = s.nextch :: s.input := by unfold rem; rw [h]

theorem Ready.step {s : State} (h : s.rs = .ready) : Ready (readChar s) ∧ rem (readChar s) = (rem s).tail ∧ Reads s (readChar s) := by
  obtain ⟨h1, h2, h3, h4, _⟩ := readChar_ok s
  exact ⟨⟨h3, h4⟩, by rw [h2, Ready.cons h]; rfl, h1⟩

theorem Ready.nil {s : State} (h : Ready s) (hr : s.rs ≠ .ready) : rem s = [] := by
  by_contra hc
  exact hr (h.iff.2 hc)

theorem startRead_ok {s : State} (he : EofOk s) : Ready (startRead none s) ∧ rem (startRead none s) = rem s ∧
    Reads (flush none s) (startRead none s) ∧ (startRead none s).input.length ≤ s.input.length := by
  have hf := (flush_ok (s := s)).1
  unfold startRead
  simp only []
  by_cases h : (flush none s).rs = .pending
  · rw [if_pos h]
    obtain ⟨h1, h2, h3, h4, h5⟩ := readChar_ok (flush none s)
    refine ⟨⟨h3, h4⟩, ?_, h1, ?_⟩
    · rw [h2, hf.inp]
      rw [hf.rs] at h
      unfold rem; rw [h]
    · rw [h5, hf.inp, List.length_tail]; omega
  · rw [if_neg h]
    refine ⟨⟨h, ?_⟩, ?_, Reads.refl _, ?_⟩
    · intro hr; rw [hf.inp]; rw [hf.rs] at hr; exact he hr
    · unfold rem; rw [hf.rs, hf.inp, hf.nextch]
    · rw [hf.inp]

theorem rem_length {s : State} : (rem s).length ≤ s.input.length + 1 := by
  unfold rem
  cases s.rs <;> simp

theorem skip_ok : ∀ (f : Nat) {s : State}, Ready s → (rem s).length < f →
    ∃ s', skip f s = some s' ∧ Ready s' ∧ rem s' = (rem s).dropWhile blank ∧ Reads s s'
  | 0, s, _, h => by omega
  | f + 1, s, hs, hf => by
    simp only [skip]
    by_cases hr : s.rs = .ready
    · by_cases hc : s.nextch ≤ 32
      · rw [if_pos ⟨hr, hc⟩]
        obtain ⟨h1, h2, h3⟩ := Ready.step hr
        have hcons := Ready.cons hr
        rw [hcons] at h2 hf
        obtain ⟨s', g1, g2, g3, g4⟩ := skip_ok f h1 (by rw [h2]; simpa using hf)
        refine ⟨s', g1, g2, ?_, h3.trans g4⟩
        rw [g3, h2, hcons]
        simp [blank, hc]
      · rw [if_neg (fun h => hc h.2)]
        refine ⟨s, rfl, hs, ?_, Reads.refl s⟩
        rw [Ready.cons hr]
        simp [blank, hc]
    · rw [if_neg (fun h => hr h.1)]
      refine ⟨s, rfl, hs, ?_, Reads.refl s⟩
      rw [hs.nil hr]; rfl

theorem startAndSkip_ok {s : State} (he : EofOk s) : ∃ s', startAndSkip none s = some s' ∧ Ready s' ∧ rem s' = (rem s).dropWhile blank ∧
    Reads (flush none s) s' := by
  obtain ⟨h1, h2, h3, h4⟩ := startRead_ok he
  obtain ⟨s', g1, g2, g3, g4⟩ := skip_ok (s.input.length + 2) h1 (by have := rem_length (s := startRead none s); omega)
  exact ⟨s', g1, g2, by rw [g3, h2], h3.trans g4⟩

theorem lineLoop_ok {len : Nat} : ∀ (f : Nat) {s : State} (i : Nat), Ready s → (rem s).length < f →
    ∃ s' t, lineLoop len f s i = some (s', t) ∧ t = ((rem s).takeWhile fun c => c ≠ 13 ∧ c ≠ 10).take (len - 1 - i) ∧
      Ready s' ∧ rem s' = (rem s).drop t.length ∧ Reads s s'
  | 0, s, _, _, h => by omega
  | f + 1, s, i, hs, hf => by
    simp only [lineLoop]
    by_cases hr : s.rs = .ready
    · have hcons := Ready.cons hr
      by_cases hc : s.nextch ≠ 13 ∧ s.nextch ≠ 10
      · by_cases hi : i + 1 < len
        · rw [if_pos ⟨hr, hc.1, hc.2, hi⟩]
          obtain ⟨h1, h2, h3⟩ := Ready.step hr
          rw [hcons] at h2 hf
          obtain ⟨s', t, g1, g2, g3, g4, g5⟩ := lineLoop_ok (len := len) f (i + 1) h1 (by rw [h2]; simpa using hf)
          rw [g1]
          refine ⟨s', s.nextch :: t, rfl, ?_, g3, ?_, h3.trans g5⟩
          · rw [g2, h2, hcons]
            have : len - 1 - i = (len - 1 - (i + 1)) + 1 := by omega
            rw [this]
            simp [hc.1, hc.2]
          · rw [g4, h2, hcons]; simp
        · rw [if_neg (fun h => hi h.2.2.2)]
          refine ⟨s, [], rfl, ?_, hs, by simp, Reads.refl s⟩
          have : len - 1 - i = 0 := by omega
          rw [this]; simp
      · rw [if_neg (fun h => hc ⟨h.2.1, h.2.2.1⟩)]
        refine ⟨s, [], rfl, ?_, hs, by simp, Reads.refl s⟩
        rw [hcons, List.takeWhile_cons_of_neg (by simpa using hc)]; simp
    · rw [if_neg (fun h => hr h.1)]
      refine ⟨s, [], rfl, ?_, hs, by simp, Reads.refl s⟩
      rw [hs.nil hr]; simp

theorem strLoop_ok {len : Nat} : ∀ (f : Nat) {s : State} (i : Nat), Ready s → (rem s).length < f →
    ∃ s' t, strLoop len f s i = some (s', t) ∧ t = ((rem s).takeWhile fun c => 32 ≤ c ∧ c ≠ 34).take (len - 1 - i) ∧
      Ready s' ∧ rem s' = (rem s).drop t.length ∧ Reads s s'
  | 0, s, _, _, h => by omega
  | f + 1, s, i, hs, hf => by
    simp only [strLoop]
    by_cases hr : s.rs = .ready
    · have hcons := Ready.cons hr
      by_cases hc : 32 ≤ s.nextch ∧ s.nextch ≠ 34
      · by_cases hi : i + 1 < len
        · rw [if_pos ⟨hr, hi, hc.1, hc.2⟩]
          obtain ⟨h1, h2, h3⟩ := Ready.step hr
          rw [hcons] at h2 hf
          obtain ⟨s', t, g1, g2, g3, g4, g5⟩ := strLoop_ok (len := len) f (i + 1) h1 (by rw [h2]; simpa using hf)
          rw [g1]
          refine ⟨s', s.nextch :: t, rfl, ?_, g3, ?_, h3.trans g5⟩
          · rw [g2, h2, hcons]
            have : len - 1 - i = (len - 1 - (i + 1)) + 1 := by omega
            rw [this]
            simp [hc.1, hc.2]
          · rw [g4, h2, hcons]; simp
        · rw [if_neg (fun h => hi h.2.1)]
          refine ⟨s, [], rfl, ?_, hs, by simp, Reads.refl s⟩
          have : len - 1 - i = 0 := by omega
          rw [this]; simp
      · rw [if_neg (fun h => hc ⟨h.2.2.1, h.2.2.2⟩)]
        refine ⟨s, [], rfl, ?_, hs, by simp, Reads.refl s⟩
        rw [hcons, List.takeWhile_cons_of_neg (by simpa using hc)]; simp
    · rw [if_neg (fun h => hr h.1)]
      refine ⟨s, [], rfl, ?_, hs, by simp, Reads.refl s⟩
      rw [hs.nil hr]; simp

theorem digit_ok (c : Nat) : digit c = if isHex c then some (digitVal c, decide (57 < c)) else none := by
  unfold digit
  by_cases h1 : 48 ≤ c ∧ c ≤ 57
  · rw [if_pos h1, if_pos (show isHex c from Or.inl h1), digitVal, if_pos h1.2, decide_eq_false (by omega)]
    congr 2
    omega
  · rw [if_neg h1]
    by_cases h2 : 97 ≤ c ∧ c ≤ 102 ∨ 65 ≤ c ∧ c ≤ 70
    · have hh : isHex c := by
        rcases h2 with h2 | h2
        · exact Or.inr (Or.inr h2)
        · exact Or.inr (Or.inl h2)
      have h3 : ¬ c ≤ 57 := by omega
      rw [if_pos h2, if_pos hh, digitVal, if_neg h3, decide_eq_true (by omega)]
      congr 2
      by_cases h4 : c ≤ 70
      · rw [if_pos h4]; omega
      · rw [if_neg h4]; omega
    · have hh : ¬ isHex c := by
        rintro (h | h | h)
        · exact h1 h
        · exact h2 (Or.inr h)
        · exact h2 (Or.inl h)
      rw [if_neg h2, if_neg hh]

theorem wrap64_eq (x : Int) : wrap64 x = wrap x := rfl

theorem wrap_step (x : Int) (b k : Nat) : wrap64 (wrap64 (wrap64 x * b) + k) = wrap64 (x * b + k) := by
  unfold wrap64
  obtain ⟨q, hq⟩ : ∃ q, (x + 2 ^ 63) % 2 ^ 64 - 2 ^ 63 = x + 2 ^ 64 * q := ⟨-((x + 2 ^ 63) / 2 ^ 64), by omega⟩
  rw [hq]
  obtain ⟨q', hq'⟩ : ∃ q', ((x + 2 ^ 64 * q) * b + 2 ^ 63) % 2 ^ 64 - 2 ^ 63 = (x + 2 ^ 64 * q) * b + 2 ^ 64 * q' :=
    ⟨-(((x + 2 ^ 64 * q) * b + 2 ^ 63) / 2 ^ 64), by omega⟩
  rw [hq']
  have : (x + 2 ^ 64 * q) * b + 2 ^ 64 * q' + k + 2 ^ 63 = (x * b + k + 2 ^ 63) + 2 ^ 64 * (q * b + q') := by ring
  rw [this, Int.add_mul_emod_self_left]

/-- The machine wraps. -/
def W (x : Int) : Option Int := some (wrap64 x)

theorem hugeLoop_ok : ∀ (f : Nat) {s : State} (d h : Bool) (x y : Nat), Ready s → (rem s).length < f →
    ∃ s', hugeLoop W f s d h (wrap64 x) (wrap64 y) = some (s', d || decide ((rem s).takeWhile isHex ≠ []),
        h || decide (((rem s).drop ((rem s).takeWhile isHex).length).head? = some 72) || ((rem s).takeWhile isHex).any (fun c => decide (57 < c)),
        wrap64 (((rem s).takeWhile isHex).foldl (fun v c => v * 10 + digitVal c) x : Nat),
        wrap64 (((rem s).takeWhile isHex).foldl (fun v c => v * 16 + digitVal c) y : Nat)) ∧
      Ready s' ∧ rem s' = Spec.optional 72 ((rem s).drop ((rem s).takeWhile isHex).length) ∧ Reads s s'
  | 0, s, _, _, _, _, _, hf => by omega
  | f + 1, s, d, h, x, y, hs, hf => by
    simp only [hugeLoop]
    by_cases hr : s.rs = .ready
    · rw [if_pos hr]
      have hcons := Ready.cons hr
      rw [digit_ok]
      obtain ⟨h1, h2, h3⟩ := Ready.step hr
      by_cases hx : isHex s.nextch
      · rw [if_pos hx]
        simp only [W, Option.bind_some]
        rw [hcons] at h2 hf
        have e1 := wrap_step x 10 (digitVal s.nextch)
        have e2 := wrap_step y 16 (digitVal s.nextch)
        push_cast at e1 e2
        obtain ⟨s', g1, g2, g3, g4⟩ := hugeLoop_ok f true (h || decide (57 < s.nextch)) (x * 10 + digitVal s.nextch) (y * 16 + digitVal s.nextch)
          h1 (by rw [h2]; simpa using hf)
        push_cast at g1
        rw [e1, e2]
        have hW : (fun x => some (wrap64 x)) = W := rfl
        refine ⟨s', ?_, g2, ?_, h3.trans g4⟩
        · refine g1.trans ?_
          rw [h2, hcons]
          simp [hx, Bool.or_assoc, Bool.or_comm, Bool.or_left_comm]
        · rw [g3, h2, hcons]; simp [hx]
      · rw [if_neg hx]
        have htw : (rem s).takeWhile isHex = [] := by rw [hcons]; simp [hx]
        rw [htw]
        simp only [List.length_nil, List.drop_zero, List.foldl_nil, List.any_nil, Bool.or_false, ne_eq, not_true_eq_false, decide_false]
        by_cases hH : s.nextch = 72
        · rw [if_pos hH]
          refine ⟨_, ?_, h1, ?_, h3⟩
          · rw [hcons]; simp [hH]
          · rw [h2, hcons, hH]; simp [Spec.optional]
        · rw [if_neg hH]
          refine ⟨_, ?_, hs, ?_, Reads.refl s⟩
          · rw [hcons]; simp [hH]
          · rw [hcons]; simp [Spec.optional, hH]
    · rw [if_neg hr]
      have := hs.nil hr
      refine ⟨s, ?_, hs, ?_, Reads.refl s⟩
      · rw [this]; simp
      · rw [this]; simp [Spec.optional]

/-! ## One operation -/

/-- What holds between operations. -/
structure Inv (input : List Nat) (s : State) : Prop where
  bound : s.n ≤ 128
  eof : EofOk s
  rcv : received s.ev ++ s.input = input

/-- An operation that reads. -/
def IsIn : Op → Prop
  | .inChar | .line _ | .inString _ | .huge => True
  | _ => False

theorem Inv.reads {input : List Nat} {s s' : State} (h : Inv input s) (hr : Reads (flush none s) s') (he : EofOk s') : Inv input s' := by
  have hf := (flush_ok (s := s)).1
  exact ⟨by rw [hr.n]; exact hf.bound, he, by rw [hr.rcv, hf.rcv, hf.inp]; exact h.rcv⟩

theorem optional_ready {s : State} (c : Nat) (hs : Ready s) (s' : State) (h' : s' = if s.rs = .ready ∧ s.nextch = c then readChar s else s) :
    Ready s' ∧ rem s' = Spec.optional c (rem s) ∧ Reads s s' := by
  subst h'
  unfold Spec.optional
  by_cases hr : s.rs = .ready
  · have hcons := Ready.cons hr
    by_cases hc : s.nextch = c
    · rw [if_pos ⟨hr, hc⟩, if_pos (by rw [hcons, hc]; rfl)]
      exact Ready.step hr
    · rw [if_neg (fun h => hc h.2), if_neg (by rw [hcons]; simpa using hc)]
      exact ⟨hs, rfl, Reads.refl s⟩
  · rw [if_neg (fun h => hr h.1), if_neg (by rw [hs.nil hr]; simp)]
    exact ⟨hs, rfl, Reads.refl s⟩

/-- Each operation reads what the specification says, and does not wait for a byte behind the end of a line. -/
theorem step_in {input : List Nat} {s : State} (h : Inv input s) (op : Op) (hi : IsIn op) (hl : Legal op) :
    ∃ s', step none W s op = some (s', (Spec.read (rem s) op).1) ∧ rem s' = (Spec.read (rem s) op).2 ∧ EofOk s' ∧ Reads (flush none s) s' ∧
      ((op = .inChar ∧ (Spec.read (rem s) op).1 = .ch true 10) ∨
       ((∃ len, op = .line len) ∧ (Spec.optional 13 ((rem s).drop ((match (Spec.read (rem s) op).1 with | .str _ t => t | _ => [])).length)).head? = some 10) →
        s'.rs = .pending) := by
  cases op with
  | char _ => exact absurd hi id
  | string _ => exact absurd hi id
  | int _ _ => exact absurd hi id
  | hex _ _ => exact absurd hi id
  | ln => exact absurd hi id
  | flush => exact absurd hi id
  | inChar =>
    obtain ⟨h1, h2, h3, _⟩ := startRead_ok h.eof
    simp only [step, inChar, Spec.read]
    by_cases hr : (startRead none s).rs = .ready
    · rw [if_pos hr]
      have hcons := Ready.cons hr
      rw [← h2, hcons]
      by_cases hc : (startRead none s).nextch = 10
      · rw [if_pos hc]
        refine ⟨_, rfl, ?_, ?_, h3.congr rfl rfl rfl rfl, ?_⟩
        · simp [rem]
        · simp [EofOk]
        · intro _; rfl
      · rw [if_neg hc]
        obtain ⟨g1, g2, g3⟩ := Ready.step hr
        refine ⟨_, rfl, ?_, g1.eof, h3.trans g3, ?_⟩
        · rw [g2, hcons]; rfl
        · rintro (⟨_, hh⟩ | ⟨⟨l, hh⟩, _⟩)
          · simp only [Out.ch.injEq, true_and] at hh; exact absurd hh hc
          · exact absurd hh (by simp)
    · rw [if_neg hr]
      have hn := h1.nil hr
      rw [← h2, hn]
      refine ⟨_, rfl, hn, h1.eof, h3, ?_⟩
      rintro (⟨_, hh⟩ | ⟨⟨l, hh⟩, _⟩)
      · simp at hh
      · exact absurd hh (by simp)
  | line len =>
    have hlen : 1 ≤ len := hl
    obtain ⟨h1, h2, h3, h4⟩ := startRead_ok h.eof
    simp only [step, line, Spec.read]
    obtain ⟨s1, t, g1, g2, g3, g4, g5⟩ := lineLoop_ok (len := len) ((startRead none s).input.length + 2) 0 h1
      (by have := rem_length (s := startRead none s); omega)
    rw [g1, Option.bind_some]
    simp only []
    rw [h2, Nat.sub_zero] at g2
    rw [h2] at g4
    have htl : t.length < len := by
      have : t.length ≤ len - 1 := by rw [g2]; exact List.length_take_le _ _
      omega
    rw [if_pos htl]
    obtain ⟨s2, hs2⟩ : ∃ s2, s2 = if s1.rs = .ready ∧ s1.nextch = 13 then readChar s1 else s1 := ⟨_, rfl⟩
    obtain ⟨k1, k2, k3⟩ := optional_ready 13 g3 s2 hs2
    rw [← hs2, ← g2]
    rw [g4] at k2
    have hdone : decide ((startRead none s).rs = .ready) = decide (rem s ≠ []) := by
      rw [decide_eq_decide, h1.iff, h2]
    simp only [Option.map_some, hdone]
    by_cases h10 : s2.rs = .ready ∧ s2.nextch = 10
    · rw [if_pos h10]
      refine ⟨_, rfl, ?_, ?_, ((h3.trans g5).trans k3).congr rfl rfl rfl rfl, fun _ => rfl⟩
      · have hc := Ready.cons h10.1
        rw [← k2, hc, h10.2]
        simp [rem, Spec.optional]
      · simp [EofOk]
    · rw [if_neg h10]
      have hne : ¬ (Spec.optional 13 ((rem s).drop t.length)).head? = some 10 := by
        rw [← k2]
        intro hh
        by_cases hr : s2.rs = .ready
        · rw [Ready.cons hr] at hh
          exact h10 ⟨hr, by simpa using hh⟩
        · rw [k1.nil hr] at hh; simp at hh
      refine ⟨_, rfl, ?_, k1.eof, (h3.trans g5).trans k3, ?_⟩
      · rw [k2]
        obtain ⟨w, hw⟩ : ∃ w, w = Spec.optional 13 ((rem s).drop t.length) := ⟨_, rfl⟩
        rw [← hw] at hne ⊢
        unfold Spec.optional
        rw [if_neg hne]
      · rintro (⟨hh, _⟩ | ⟨_, hh⟩)
        · exact absurd hh (by simp)
        · exact absurd hh hne
  | inString len =>
    have hlen : 1 ≤ len := hl
    obtain ⟨s1, g1, g2, g3, g4⟩ := startAndSkip_ok h.eof
    simp only [step, inString, Spec.read]
    rw [g1, Option.bind_some]
    by_cases hr : s1.rs = .ready ∧ s1.nextch = 34
    · rw [if_pos hr]
      have hcons := Ready.cons hr.1
      rw [hr.2, g3] at hcons
      rw [if_pos (by rw [hcons]; rfl)]
      obtain ⟨k1, k2, k3⟩ := Ready.step hr.1
      rw [g3] at k2
      obtain ⟨s2, t, q1, q2, q3, q4, q5⟩ := strLoop_ok (len := len) ((readChar s1).input.length + 2) 0 k1
        (by have := rem_length (s := readChar s1); omega)
      rw [q1, Option.bind_some]
      simp only []
      rw [k2, Nat.sub_zero] at q2
      rw [k2] at q4
      rw [← q2]
      by_cases hd : s2.rs = .ready ∧ t.length + 1 < len ∧ s2.nextch = 34
      · have hc2 := Ready.cons hd.1
        rw [q4] at hc2
        rw [if_pos hd, if_pos ⟨hd.2.1, by rw [hc2, hd.2.2]; rfl⟩]
        obtain ⟨r1, r2, r3⟩ := Ready.step hd.1
        refine ⟨_, rfl, by rw [r2, q4], r1.eof, ((g4.trans k3).trans q5).trans r3, ?_⟩
        rintro (⟨hh, _⟩ | ⟨⟨_, hh⟩, _⟩) <;> exact absurd hh (by simp)
      · rw [if_neg hd, if_neg]
        · refine ⟨_, rfl, q4, q3.eof, (g4.trans k3).trans q5, ?_⟩
          rintro (⟨hh, _⟩ | ⟨⟨_, hh⟩, _⟩) <;> exact absurd hh (by simp)
        · rintro ⟨p1, p2⟩
          rw [← q4] at p2
          by_cases hr2 : s2.rs = .ready
          · rw [Ready.cons hr2] at p2
            exact hd ⟨hr2, p1, by simpa using p2⟩
          · rw [q3.nil hr2] at p2; simp at p2
    · rw [if_neg hr, Option.bind_some]
      simp only []
      rw [if_neg (fun hh => hr ⟨hh.1, hh.2.2⟩), if_neg]
      · refine ⟨_, rfl, g3, g2.eof, g4, ?_⟩
        rintro (⟨hh, _⟩ | ⟨⟨_, hh⟩, _⟩) <;> exact absurd hh (by simp)
      · intro hh
        rw [← g3] at hh
        by_cases hr2 : s1.rs = .ready
        · rw [Ready.cons hr2] at hh
          exact hr ⟨hr2, by simpa using hh⟩
        · rw [g2.nil hr2] at hh; simp at hh
  | huge =>
    obtain ⟨s1, g1, g2, g3, g4⟩ := startAndSkip_ok h.eof
    simp only [step, huge, Spec.read]
    rw [g1, Option.bind_some]
    by_cases hr : s1.rs = .ready
    · rw [if_pos hr]
      have hne := g2.iff.1 hr
      rw [g3] at hne
      rw [if_neg hne]
      obtain ⟨s2, hs2⟩ : ∃ s2, s2 = if s1.rs = .ready ∧ s1.nextch = 45 then readChar s1 else s1 := ⟨_, rfl⟩
      obtain ⟨k1, k2, k3⟩ := optional_ready 45 g2 s2 hs2
      have hs2' : (if s1.nextch = 45 then readChar s1 else s1) = s2 := by rw [hs2]; simp [hr]
      rw [hs2']
      rw [g3] at k2
      obtain ⟨s3, q1, q2, q3, q4⟩ := hugeLoop_ok (s2.input.length + 2) false false 0 0 k1 (by have := rem_length (s := s2); omega)
      have hw0 : wrap64 ((0 : Nat) : Int) = 0 := by decide
      rw [hw0] at q1
      rw [q1, Option.bind_some]
      simp only []
      rw [← k2]
      simp only [Bool.false_or, decide_eq_true_eq]
      have hneg : (s1.nextch = 45) ↔ ((rem s).dropWhile blank).head? = some 45 := by
        rw [← g3, Ready.cons hr]; simp
      by_cases hds : (rem s2).takeWhile isHex = []
      · rw [if_neg (by simpa using hds), if_pos hds]
        refine ⟨_, rfl, q3, q2.eof, (g4.trans k3).trans q4, ?_⟩
        rintro (⟨hh, _⟩ | ⟨⟨_, hh⟩, _⟩) <;> exact absurd hh (by simp)
      · rw [if_pos hds, if_neg hds]
        obtain ⟨ds, hds'⟩ : ∃ ds : List Nat, ds = (rem s2).takeWhile (fun b => decide (isHex b)) := ⟨_, rfl⟩
        have hv : ∀ P : Prop, ∀ [Decidable P], (if (decide P || ds.any (fun c => decide (57 < c))) = true
              then wrap64 ((ds.foldl (fun v c => v * 16 + digitVal c) 0 : Nat) : Int)
              else wrap64 ((ds.foldl (fun v c => v * 10 + digitVal c) 0 : Nat) : Int)) =
            wrap64 (if P ∨ (∃ c ∈ ds, 57 < c) then (value 16 ds : Int) else value 10 ds) := by
          intro P _
          have e : (decide P || ds.any (fun c => decide (57 < c))) = true ↔ P ∨ (∃ c ∈ ds, 57 < c) := by
            simp only [Bool.or_eq_true, decide_eq_true_eq, List.any_eq_true]
          by_cases hc : P ∨ (∃ c ∈ ds, 57 < c)
          · rw [if_pos hc, if_pos (e.2 hc), value]
          · rw [if_neg hc, if_neg (fun h => hc (e.1 h)), value]
        rw [← hds'] at q3 ⊢
        refine ⟨s3, ?_, q3, q2.eof, (g4.trans k3).trans q4, ?_⟩
        · rw [hv]
          by_cases hn : s1.nextch = 45
          · rw [if_pos hn, if_pos (hneg.1 hn)]
            simp only [W, Option.map_some, wrap64_eq]
            have hw : ∀ z : Int, wrap (-wrap z) = wrap (-z) := by intro z; unfold wrap; omega
            rw [hw]
          · rw [if_neg hn, if_neg (fun hh => hn (hneg.2 hh))]
            rfl
        · rintro (⟨hh, _⟩ | ⟨⟨_, hh⟩, _⟩) <;> exact absurd hh (by simp)
    · rw [if_neg hr]
      have hn := g2.nil hr
      rw [g3] at hn
      rw [if_pos hn]
      refine ⟨_, rfl, by rw [g3, hn], g2.eof, g4, ?_⟩
      rintro (⟨hh, _⟩ | ⟨⟨_, hh⟩, _⟩) <;> exact absurd hh (by simp)

/-- An operation that writes. -/
theorem step_out {input : List Nat} {s : State} (h : Inv input s) (op : Op) (hi : ¬ IsIn op) (hl : Legal op) :
    ∃ s', step none W s op = some (s', (Spec.read (rem s) op).1) ∧ (Spec.read (rem s) op).2 = rem s ∧ Wrote s s' (text op) := by
  cases op with
  | inChar => exact absurd trivial hi
  | line _ => exact absurd trivial hi
  | inString _ => exact absurd trivial hi
  | huge => exact absurd trivial hi
  | char c =>
    obtain ⟨s', h1, h2⟩ := char_ok c h.bound
    exact ⟨s', by simp only [step, h1]; rfl, rfl, h2⟩
  | string str =>
    obtain ⟨s', h1, h2⟩ := string_ok str h.bound
    exact ⟨s', by simp only [step, h1]; rfl, rfl, h2⟩
  | int x n =>
    obtain ⟨s', h1, h2⟩ := int_ok n hl h.bound
    exact ⟨s', by simp only [step, h1]; rfl, rfl, h2⟩
  | hex x n =>
    obtain ⟨s', h1, h2⟩ := chars_ok (Spec.hexText x n) h.bound
    exact ⟨s', by simp only [step, hex, hexText_ok hl.1 hl.2.1 hl.2.2, Option.bind_some, h1]; rfl, rfl, h2⟩
  | ln =>
    obtain ⟨s', h1, h2⟩ := string_ok [10, 0] h.bound
    refine ⟨flush none s', by simp only [step, ln, h1]; rfl, rfl, ?_⟩
    have := h2.trans (flush_ok (s := s')).1
    exact this
  | flush => exact ⟨_, rfl, rfl, flush_ok.1⟩

theorem rem_wrote {s s' : State} {t : List Nat} (h : Wrote s s' t) : rem s' = rem s := by
  unfold rem; rw [h.rs, h.inp, h.nextch]

theorem text_in {op : Op} (h : IsIn op) : text op = [] := by cases op <;> first | rfl | exact absurd h id

/-- Histories. -/
theorem run_ok {input : List Nat} : ∀ (ops : List Op) {s : State}, Inv input s → (∀ op ∈ ops, Legal op) →
    ∃ s', run none W s ops = some (s', (reads (rem s) ops).1) ∧ Inv input s' ∧ rem s' = (reads (rem s) ops).2 ∧
      delivered s'.ev ++ buffered s' = delivered s.ev ++ buffered s ++ ops.flatMap text
  | [], s, h, _ => ⟨s, rfl, h, rfl, by simp⟩
  | op :: ops, s, h, hl => by
    have hl1 := hl op (by simp)
    have hl2 : ∀ op ∈ ops, Legal op := fun o ho => hl o (by simp [ho])
    simp only [run, reads]
    by_cases hi : IsIn op
    · obtain ⟨s1, e1, e2, e3, e4, _⟩ := step_in h op hi hl1
      have h1 := h.reads e4 e3
      obtain ⟨s2, g1, g2, g3, g4⟩ := run_ok ops h1 hl2
      rw [e1, Option.bind_some, g1, Option.map_some, e2]
      rw [e2] at g3
      refine ⟨s2, rfl, g2, g3, ?_⟩
      rw [g4, List.flatMap_cons, text_in hi, List.nil_append]
      congr 1
      obtain ⟨es, k1, k2⟩ := e4.ev
      have hf := (flush_ok (s := s)).1.bytes
      rw [List.append_nil] at hf
      rw [k1, delivered_append, k2, List.append_nil, ← hf]
      congr 1
      unfold buffered
      rw [e4.n, e4.buf]
    · obtain ⟨s1, e1, e2, e3⟩ := step_out h op hi hl1
      have h1 : Inv input s1 := ⟨e3.bound, fun hr => by rw [e3.inp]; exact h.eof (by rw [← e3.rs]; exact hr), by rw [e3.rcv, e3.inp]; exact h.rcv⟩
      obtain ⟨s2, g1, g2, g3, g4⟩ := run_ok ops h1 hl2
      rw [rem_wrote e3] at g1 g3
      rw [e1, Option.bind_some, g1, Option.map_some, e2]
      refine ⟨s2, rfl, g2, g3, ?_⟩
      rw [g4, e3.bytes, List.flatMap_cons, List.append_assoc, List.append_assoc]

theorem init_ok (input : List Nat) : Inv input (init input) := ⟨by simp [init], by simp [EofOk, init], rfl⟩

end Verif.Console
