import Verif.Common
import Verif.FileNum.Model

/-!
# C18: fixed width values, strings and lines through files
-/
namespace Verif.FileNum
open Verif.Arith

theorem bytesOf_length {r : Bool} {n : Nat} : ∀ {x : Int} {bs : List Nat},
    bytesOf r x n = some bs → bs.length = n := by
  induction n with
  | zero => intro x bs h; simp only [bytesOf, Option.some.injEq] at h; subst h; rfl
  | succ n ih =>
    intro x bs h
    simp only [bytesOf, bind, Option.bind_eq_some_iff, Option.some.injEq] at h
    obtain ⟨b, _, bs', h', rfl⟩ := h
    simp [ih h']

theorem sum_bytesOf (n : Nat) : ∀ (x : Int), ∃ bs, bytesOf false x n = some bs ∧ bs.length = n ∧
    sumBytes bs = x % 256 ^ n ∧ ∀ b ∈ bs, b < 256 := by
  induction n with
  | zero => intro x; exact ⟨[], rfl, rfl, by simp [sumBytes, Int.emod_one], by simp⟩
  | succ n ih =>
    intro x
    obtain ⟨bs, h1, h2, h3, h4⟩ := ih (x / 256)
    have hb : chr false x = some (x % 256).toNat := by simp [chr, toChar]
    refine ⟨(x % 256).toNat :: bs, by simp [bytesOf, hb, h1], by simp [h2], ?_, ?_⟩
    · rw [sumBytes, h3]
      have e : ((x % 256).toNat : Int) = x % 256 := by omega
      have e2 : (256 : Int) ^ (n + 1) = 256 * 256 ^ n := by ring
      rw [e, e2]
      have hp : (0 : Int) < 256 ^ n := by positivity
      have := Int.emod_add_mul_ediv (x / 256) (256 ^ n)
      have h5 := Int.emod_add_mul_ediv x 256
      have h6 := Int.emod_nonneg (x / 256) hp.ne'
      have h7 := Int.emod_lt_of_pos (x / 256) hp
      have h8 := Int.emod_nonneg x (show (256 : Int) ≠ 0 by decide)
      have h9 := Int.emod_lt_of_pos x (show (0 : Int) < 256 by decide)
      have hx : x = (x % 256 + 256 * (x / 256 % 256 ^ n)) + (256 * 256 ^ n) * (x / 256 / 256 ^ n) := by
        calc x = x % 256 + 256 * (x / 256) := h5.symm
          _ = x % 256 + 256 * (x / 256 % 256 ^ n + 256 ^ n * (x / 256 / 256 ^ n)) := by rw [this]
          _ = _ := by ring
      rw [eq_comm]
      conv_lhs => rw [hx]
      rw [Int.add_mul_emod_self_left]
      apply Int.emod_eq_of_lt
      · omega
      · nlinarith
    · intro b hb
      rcases List.mem_cons.1 hb with rfl | hb
      · omega
      · exact h4 b hb

theorem readBytes_append {bs rest : List Nat} {n : Nat} (h : bs.length = n) :
    readBytes n (bs ++ rest) = some (bs, rest) := by
  subst h
  simp [readBytes]

/-- **C18, INTEGER, default size model** (16 bits).  `ReadInt` delivers what `WriteInt` wrote. -/
theorem C18_int_partial {x : Int} (h : InRange 16 x) :
    ∃ bs, writeInt false x = some bs ∧ ∀ rest, readInt o2 (bs ++ rest) = some (x, rest) := by
  obtain ⟨bs, h1, h2, h3, _⟩ := sum_bytesOf 2 x
  refine ⟨bs, h1, fun rest => ?_⟩
  rw [readInt, readBytes_append h2]
  simp only [InRange] at h
  simp only [Option.map_some, h3, wrapW, o2, Option.some.injEq, Prod.mk.injEq, and_true]
  norm_num at *
  omega

/-- **C18, LONGINT, default size model** (32 bits). -/
theorem C18_lint_partial {x : Int} (h : InRange 32 x) :
    ∃ bs, writeLInt false x = some bs ∧ ∀ rest, readLInt o2 (bs ++ rest) = some (x, rest) := by
  obtain ⟨bs, h1, h2, h3, _⟩ := sum_bytesOf 4 x
  refine ⟨bs, h1, fun rest => ?_⟩
  rw [readLInt, readBytes_append h2]
  simp only [InRange] at h
  simp only [Option.map_some, h3, wrapW, o2, Option.some.injEq, Prod.mk.injEq, and_true]
  norm_num at *
  omega

/-- **C18 in the large size models** (`-OC`, `-OV`): the values that fit in the bytes written, as
unsigned numbers, come back. -/
theorem C18_large_partial {m : Sizes} (hm : m = oC ∨ m = oV) {x : Int} :
    (0 ≤ x ∧ x < 2 ^ 16 →
      ∃ bs, writeInt false x = some bs ∧ ∀ rest, readInt m (bs ++ rest) = some (x, rest)) ∧
    (0 ≤ x ∧ x < 2 ^ 32 →
      ∃ bs, writeLInt false x = some bs ∧ ∀ rest, readLInt m (bs ++ rest) = some (x, rest)) := by
  constructor
  · intro h
    obtain ⟨bs, h1, h2, h3, _⟩ := sum_bytesOf 2 x
    refine ⟨bs, h1, fun rest => ?_⟩
    rw [readInt, readBytes_append h2]
    rcases hm with rfl | rfl <;>
    · simp only [Option.map_some, h3, wrapW, oC, oV, Option.some.injEq, Prod.mk.injEq, and_true]
      norm_num at *
      omega
  · intro h
    obtain ⟨bs, h1, h2, h3, _⟩ := sum_bytesOf 4 x
    refine ⟨bs, h1, fun rest => ?_⟩
    rw [readLInt, readBytes_append h2]
    rcases hm with rfl | rfl <;>
    · simp only [Option.map_some, h3, wrapW, oC, oV, Option.some.injEq, Prod.mk.injEq, and_true]
      norm_num at *
      omega

/-- **C18 fails in the large size models for negative numbers**: they come back as positive ones,
because the bytes are added up without sign and the variable is wider than the bytes. -/
theorem C18_large_negative {m : Sizes} (hm : m = oC ∨ m = oV) {x : Int} :
    (-(2 ^ 15) ≤ x ∧ x < 0 → ∃ bs, writeInt false x = some bs ∧
      ∀ rest, readInt m (bs ++ rest) = some (x + 2 ^ 16, rest)) ∧
    (-(2 ^ 31) ≤ x ∧ x < 0 → ∃ bs, writeLInt false x = some bs ∧
      ∀ rest, readLInt m (bs ++ rest) = some (x + 2 ^ 32, rest)) := by
  constructor
  · intro h
    obtain ⟨bs, h1, h2, h3, _⟩ := sum_bytesOf 2 x
    refine ⟨bs, h1, fun rest => ?_⟩
    rw [readInt, readBytes_append h2]
    rcases hm with rfl | rfl <;>
    · simp only [Option.map_some, h3, wrapW, oC, oV, Option.some.injEq, Prod.mk.injEq, and_true]
      norm_num at *
      omega
  · intro h
    obtain ⟨bs, h1, h2, h3, _⟩ := sum_bytesOf 4 x
    refine ⟨bs, h1, fun rest => ?_⟩
    rw [readLInt, readBytes_append h2]
    rcases hm with rfl | rfl <;>
    · simp only [Option.map_some, h3, wrapW, oC, oV, Option.some.injEq, Prod.mk.injEq, and_true]
      norm_num at *
      omega

/-- **C18 fails with range checks on** (option `r`): writing any INTEGER above 255 halts. -/
theorem C18_checked_halts {x : Int} (h : 256 ≤ x) : writeInt true x = none := by
  have : chr true x = none := by
    have hr : rMacro x 256 = .halt (-8) := by rw [rMacro, if_neg (by omega)]
    simp [chr, chrMacro, hr]
  simp [writeInt, bytesOf, this]

example : writeInt true 300 = none := C18_checked_halts (by decide)
example : writeInt false 300 = some [44, 1] := by decide

/-- **C18, SET.**  In every size model `ReadSet` delivers what `WriteSet` wrote, for sets with elements
in 0..31 (all sets when SET has 32 bits). -/
theorem C18_set {m : Sizes} (hm : m = o2 ∨ m = oC ∨ m = oV) {x : Nat} (h : x < 2 ^ 32) :
    ∃ bs, writeSet m false x = some bs ∧ ∀ rest, readSet m (bs ++ rest) = some (x, rest) := by
  obtain ⟨bs, h1, h2, h3, _⟩ := sum_bytesOf 4
    (if m.set = m.int then wrapW m.int x else wrapW m.long x)
  refine ⟨bs, by simp only [writeSet]; exact h1, fun rest => ?_⟩
  rw [readSet, readBytes_append h2]
  simp only [Option.map_some, h3, Option.some.injEq, Prod.mk.injEq, and_true]
  clear h1 h2 h3
  rcases hm with rfl | rfl | rfl
  · rw [if_neg (by decide)]
    show ((((((x : Int) + 2147483648) % 4294967296 - 2147483648) % 4294967296 + 2147483648) % 4294967296
      - 2147483648) % 4294967296).toNat = x
    omega
  · rw [if_pos (by decide)]
    show ((((((x : Int) + 2147483648) % 4294967296 - 2147483648) % 4294967296 + 9223372036854775808)
      % 18446744073709551616 - 9223372036854775808) % 4294967296).toNat = x
    omega
  · rw [if_neg (by decide)]
    show ((((((x : Int) + 9223372036854775808) % 18446744073709551616 - 9223372036854775808) % 4294967296
      + 9223372036854775808) % 18446744073709551616 - 9223372036854775808)
      % 18446744073709551616).toNat = x
    omega

/-- **C18, SET, the rest**: with 64-bit sets the elements above 31 are dropped, as documented in the
source ("Reads 32 bits as a SET value"). -/
theorem C18_set_high_dropped {x : Nat} :
    ∃ bs, writeSet oV false x = some bs ∧
      ∀ rest, readSet oV (bs ++ rest) = some (x % 2 ^ 32, rest) := by
  obtain ⟨bs, h1, h2, h3, _⟩ := sum_bytesOf 4 (wrapW 64 x)
  refine ⟨bs, by simpa [writeSet, oV] using h1, fun rest => ?_⟩
  rw [readSet, readBytes_append h2]
  simp only [Option.map_some, h3, Option.some.injEq, Prod.mk.injEq, and_true]
  clear h1 h2 h3
  show ((((((x : Int) + 9223372036854775808) % 18446744073709551616 - 9223372036854775808) % 4294967296
    + 9223372036854775808) % 18446744073709551616 - 9223372036854775808)
    % 18446744073709551616).toNat = x % 4294967296
  omega

/-- **C18, REAL and LONGREAL**, as byte patterns: on either byte order, writing then reading is the
identity, and the file contains the same bytes whatever the machine. -/
theorem C18_real (le : Bool) (b rest : List Nat) :
    (readBytes b.length (flipBytes le b ++ rest)).map (fun p => (flipBytes le p.1, p.2)) =
      some (b, rest) := by
  have : (flipBytes le b).length = b.length := by cases le <;> simp [flipBytes]
  rw [readBytes_append this]
  cases le <;> simp [flipBytes]

/-! ### Strings -/

theorem wrapW_succ {w : Nat} {i : Nat} (hw : 1 ≤ w) (h : i + 1 < 2 ^ (w - 1)) :
    wrapW w ((i : Int) + 1) = ((i + 1 : Nat) : Int) := by
  simp only [wrapW]
  have e : (2 : Int) ^ w = 2 * 2 ^ (w - 1) := by
    conv_lhs => rw [show w = (w - 1) + 1 by omega, pow_succ']
  have h' : ((i + 1 : Nat) : Int) < 2 ^ (w - 1) := by exact_mod_cast h
  rw [e, Int.emod_eq_of_lt] <;> push_cast at * <;> omega

theorem writeStringLoop_eq {w : Nat} (hw : 1 ≤ w) (s t : List Nat) (hs : ∀ c ∈ s, c ≠ 0)
    (hl : s.length < 2 ^ (w - 1)) : ∀ (k fuel : Nat), k ≤ s.length → s.length - k < fuel →
    writeStringLoop w (s ++ 0 :: t) fuel (k : Int) = some (s.length : Int) := by
  intro k fuel
  induction fuel generalizing k with
  | zero => intro _ h; omega
  | succ fuel ih =>
    intro hk hf
    rw [writeStringLoop, if_pos (by omega), Int.toNat_natCast]
    by_cases hlt : k < s.length
    · have e : (s ++ 0 :: t)[k]? = some s[k] := by
        rw [List.getElem?_append_left hlt, List.getElem?_eq_getElem hlt]
      rw [e]
      simp only
      rw [if_pos (hs _ (List.getElem_mem hlt)), wrapW_succ hw (by omega)]
      exact ih (k + 1) (by omega) (by omega)
    · have hke : k = s.length := by omega
      subst hke
      simp

/-- **C18, strings, writing.**  The bytes written are the string and one 0X, wherever the array ends. -/
theorem C18_write_string {w : Nat} (hw : 1 ≤ w) (s t : List Nat) (hs : ∀ c ∈ s, c ≠ 0)
    (hl : s.length < 2 ^ (w - 1)) : writeString w (s ++ 0 :: t) = some (s ++ [0]) := by
  have := writeStringLoop_eq hw s t hs hl 0 ((s ++ 0 :: t).length + 1) (by omega) (by simp; omega)
  rw [writeString, show (0 : Int) = ((0 : Nat) : Int) from rfl, this]
  simp only [Option.map_some, Option.some.injEq]
  rw [show ((s.length : Int) + 1).toNat = s.length + 1 by omega]
  rw [List.take_append]
  simp

theorem readStringLoop_eq {w : Nat} (hw : 1 ≤ w) (rest : List Nat) : ∀ (s : List Nat) (x : List Nat) (k : Nat),
    (∀ c ∈ s, c ≠ 0) → k + s.length < x.length → k + s.length < 2 ^ (w - 1) →
    readStringLoop w x (k : Int) (s ++ 0 :: rest) =
      some (x.take k ++ s ++ 0 :: x.drop (k + s.length + 1), rest) := by
  intro s
  induction s with
  | nil =>
    intro x k _ hx _
    simp only [List.length_nil, Nat.add_zero] at hx
    rw [List.nil_append, readStringLoop, if_pos (by omega), if_pos rfl, Int.toNat_natCast]
    rw [List.set_eq_take_append_cons_drop, if_pos hx]
    simp
  | cons c s ih =>
    intro x k hs hx hl
    simp only [List.length_cons] at hx hl
    rw [List.cons_append, readStringLoop, if_pos (by omega), if_neg (hs c (by simp)),
      Int.toNat_natCast, wrapW_succ hw (by omega),
      ih _ _ (fun d hd => hs d (by simp [hd])) (by simp; omega) (by omega)]
    congr 2
    rw [List.set_eq_take_append_cons_drop, if_pos (by omega)]
    have : k = (x.take k).length := by simp; omega
    rw [List.take_append, List.drop_append]
    simp only [List.length_take, List.take_take, List.length_cons]
    rw [show min k x.length = k by omega, show min (k + 1) k = k by omega,
      show k + 1 - k = 1 by omega, show k + 1 + s.length + 1 - k = s.length + 2 by omega]
    simp only [List.take_succ_cons, List.take_zero, List.drop_succ_cons, List.drop_drop]
    rw [List.drop_eq_nil_of_le (by simp; omega)]
    simp only [List.append_assoc, List.cons_append, List.nil_append]
    rw [show k + 1 + (s.length + 1) = k + (s.length + 1) + 1 by omega]

/-- **C18, strings, reading.**  A string with its 0X is read into any array that has room for it; what
is beyond the 0X in the array is unchanged, and the rider stands after the 0X. -/
theorem C18_read_string {w : Nat} (hw : 1 ≤ w) (s x rest : List Nat) (hs : ∀ c ∈ s, c ≠ 0)
    (hx : s.length < x.length) (hl : s.length < 2 ^ (w - 1)) :
    readString w x (s ++ 0 :: rest) = some (s ++ 0 :: x.drop (s.length + 1), rest) := by
  have := readStringLoop_eq hw rest s x 0 hs (by omega) (by omega)
  simpa [readString] using this

/-- **C18, strings, round trip.**  `s ++ 0 :: t` is the array written, `x` the array read into. -/
theorem C18_string {w : Nat} (hw : 1 ≤ w) (s t x : List Nat) (hs : ∀ c ∈ s, c ≠ 0)
    (hx : s.length < x.length) (hl : s.length < 2 ^ (w - 1)) :
    ∃ bs, writeString w (s ++ 0 :: t) = some bs ∧ ∀ rest,
      readString w x (bs ++ rest) = some (s ++ 0 :: x.drop (s.length + 1), rest) := by
  refine ⟨_, C18_write_string hw s t hs hl, fun rest => ?_⟩
  rw [List.append_assoc, List.singleton_append]
  exact C18_read_string hw s x rest hs hx hl

theorem readStringLoop_long {w : Nat} (hw : 1 ≤ w) : ∀ (s : List Nat) (x : List Nat) (k : Nat),
    (∀ c ∈ s, c ≠ 0) → x.length ≤ k + s.length → k ≤ x.length → x.length < 2 ^ (w - 1) →
    ∀ rest, readStringLoop w x (k : Int) (s ++ rest) = none := by
  intro s
  induction s with
  | nil =>
    intro x k _ hx hk hl rest
    simp only [List.length_nil, Nat.add_zero] at hx
    cases rest with
    | nil => rw [List.nil_append, readStringLoop, if_neg (by omega)]
    | cons c r => rw [List.nil_append, readStringLoop, if_neg (by omega)]
  | cons c s ih =>
    intro x k hs hx hk hl rest
    simp only [List.length_cons] at hx
    rw [List.cons_append, readStringLoop]
    by_cases h : k = x.length
    · rw [if_neg (by omega)]
    · rw [if_pos (by omega), if_neg (hs c (by simp)), wrapW_succ hw (by omega)]
      exact ih _ _ (fun d hd => hs d (by simp [hd])) (by simp; omega) (by simp; omega)
        (by simpa using hl) rest

/-- **C18, strings too long.**  Reading a string that does not fit halts with an index error; no
element beyond the array is assigned. -/
theorem C18_string_too_long {w : Nat} (hw : 1 ≤ w) (s x rest : List Nat) (hs : ∀ c ∈ s, c ≠ 0)
    (hx : x.length ≤ s.length) (hl : x.length < 2 ^ (w - 1)) :
    readString w x (s ++ rest) = none :=
  readStringLoop_long hw s x 0 hs (by omega) (by omega) hl rest

example : readString 16 [9, 9, 9, 9, 9] [72, 105, 0, 33] = some ([72, 105, 0, 9, 9], [33]) :=
  C18_read_string (by decide) [72, 105] [9, 9, 9, 9, 9] [33] (by decide) (by decide) (by decide)

/-! ### Lines -/

theorem readLineLoop_eq {w : Nat} (hw : 1 ≤ w) (rest : List Nat) : ∀ (s : List Nat) (x : List Nat) (k : Nat),
    (∀ c ∈ s, c ≠ 0 ∧ c ≠ 10) → k + s.length < x.length → k + s.length + 1 < 2 ^ (w - 1) →
    readLineLoop w x (k : Int) (s ++ 10 :: rest) =
      some (x.take k ++ s ++ 10 :: x.drop (k + s.length + 1), ((k + s.length + 1 : Nat) : Int), rest) := by
  intro s
  induction s with
  | nil =>
    intro x k _ hx hl
    simp only [List.length_nil, Nat.add_zero] at hx hl
    rw [List.nil_append, readLineLoop, if_pos (by omega), if_pos (by simp), Int.toNat_natCast]
    rw [List.set_eq_take_append_cons_drop, if_pos hx, wrapW_succ hw (by omega)]
    simp
  | cons c s ih =>
    intro x k hs hx hl
    simp only [List.length_cons] at hx hl
    rw [List.cons_append, readLineLoop, if_pos (by omega), if_neg (by have := hs c (by simp); omega),
      Int.toNat_natCast, wrapW_succ hw (by omega),
      ih _ _ (fun d hd => hs d (by simp [hd])) (by simp; omega) (by omega)]
    congr 2
    · rw [List.set_eq_take_append_cons_drop, if_pos (by omega)]
      rw [List.take_append, List.drop_append]
      simp only [List.length_take, List.take_take, List.length_cons]
      rw [show min k x.length = k by omega, show min (k + 1) k = k by omega,
        show k + 1 - k = 1 by omega, show k + 1 + s.length + 1 - k = s.length + 2 by omega]
      simp only [List.take_succ_cons, List.take_zero, List.drop_succ_cons, List.drop_drop]
      rw [List.drop_eq_nil_of_le (by simp; omega)]
      simp only [List.append_assoc, List.cons_append, List.nil_append]
      rw [show k + 1 + (s.length + 1) = k + (s.length + 1) + 1 by omega]
    · simp only [List.length_cons]
      rw [show k + 1 + s.length + 1 = k + (s.length + 1) + 1 by omega]

theorem set_after {s x : List Nat} {c : Nat} :
    (s ++ c :: x).set s.length 0 = s ++ 0 :: x := by simp

/-- **C18, lines.**  `ReadLine` on a line that ends with LF delivers the line, zero terminated; if the
line does not end in CR nothing is stripped. -/
theorem C18_line {w : Nat} (hw : 1 ≤ w) (s x rest : List Nat) (hs : ∀ c ∈ s, c ≠ 0 ∧ c ≠ 10)
    (hcr : s.getLast? ≠ some 13) (hx : s.length < x.length) (hl : s.length + 1 < 2 ^ (w - 1)) :
    readLine w x (s ++ 10 :: rest) = some (s ++ 0 :: x.drop (s.length + 1), rest) := by
  have h0 := readLineLoop_eq hw rest s x 0 hs (by omega) (by omega)
  simp only [Nat.cast_zero, List.take_zero, List.nil_append, zero_add] at h0
  rw [readLine, h0]
  simp only [Option.bind_eq_bind, Option.bind_some]
  rw [show (((s.length + 1 : Nat) : Int) - 1).toNat = s.length by omega,
    show (s ++ 10 :: x.drop (s.length + 1))[s.length]? = some 10 by simp, if_pos rfl,
    show (((s.length + 1 : Nat) : Int) - 1) = (s.length : Int) by push_cast; ring]
  have hn : ¬ ((s.length : Int) > 0 ∧
      (s ++ 10 :: x.drop (s.length + 1))[((s.length : Int) - 1).toNat]? = some 13) := by
    rintro ⟨hp, h⟩
    have hlt : ((s.length : Int) - 1).toNat < s.length := by omega
    rw [List.getElem?_append_left hlt] at h
    apply hcr
    rw [List.getLast?_eq_getElem?, ← h]
    congr 1; omega
  rw [if_neg hn, if_pos (by simp), Int.toNat_natCast, set_after]

/-- **C18, lines.**  CR LF line ends are stripped altogether. -/
theorem C18_line_crlf {w : Nat} (hw : 1 ≤ w) (s x rest : List Nat) (hs : ∀ c ∈ s, c ≠ 0 ∧ c ≠ 10)
    (hx : s.length + 1 < x.length) (hl : s.length + 2 < 2 ^ (w - 1)) :
    readLine w x (s ++ 13 :: 10 :: rest) =
      some (s ++ 0 :: 10 :: x.drop (s.length + 2), rest) := by
  have h0 := readLineLoop_eq hw rest (s ++ [13]) x 0
    (by intro c hc; rcases List.mem_append.1 hc with h | h
        · exact hs c h
        · simp at h; omega) (by simp; omega) (by simp; omega)
  simp only [Nat.cast_zero, List.take_zero, List.nil_append, zero_add, List.append_assoc,
    List.singleton_append, List.length_append, List.length_singleton] at h0
  rw [readLine, h0]
  simp only [Option.bind_eq_bind, Option.bind_some]
  rw [show (((s.length + 1 + 1 : Nat) : Int) - 1).toNat = s.length + 1 by omega,
    show (s ++ 13 :: 10 :: x.drop (s.length + 1 + 1))[s.length + 1]? = some 10 by
      rw [List.getElem?_append_right (by omega)]; simp, if_pos rfl,
    show (((s.length + 1 + 1 : Nat) : Int) - 1) = ((s.length + 1 : Nat) : Int) by push_cast; ring,
    show (((s.length + 1 : Nat) : Int) - 1).toNat = s.length by omega,
    show (s ++ 13 :: 10 :: x.drop (s.length + 1 + 1))[s.length]? = some 13 by simp,
    if_pos (show (((s.length + 1 : Nat) : Int) > 0 ∧ some 13 = some 13) from ⟨by omega, rfl⟩),
    show (((s.length + 1 : Nat) : Int) - 1) = (s.length : Int) by push_cast; ring,
    if_pos (by simp; omega), Int.toNat_natCast, set_after]

example : readLine 16 [9, 9, 9, 9] [72, 105, 10, 33] = some ([72, 105, 0, 9], [33]) :=
  C18_line (by decide) [72, 105] [9, 9, 9, 9] [33] (by decide) (by decide) (by decide) (by decide)

end Verif.FileNum
