import Verif.Reals.Spec
import Verif.Common

/-!
# C93: parts and digits of real numbers
-/
namespace Verif.Reals
open Verif.Str (wr)

theorem bytes4 (x : Nat) : bytes 4 x = [x % 256, x / 256 % 256, x / 65536 % 256, x / 16777216 % 256] := by
  simp [bytes, List.range, List.range.loop]

theorem bytes8 (x : Nat) : bytes 8 x = [x % 256, x / 256 % 256, x / 65536 % 256, x / 16777216 % 256, x / 4294967296 % 256,
    x / 1099511627776 % 256, x / 281474976710656 % 256, x / 72057594037927936 % 256] := by
  simp [bytes, List.range, List.range.loop]

/-- An INTEGER in memory, as seen by a division: 16 bits of it are the first two bytes. -/
theorem getInt_ok {size : Nat} (hs : size = 2 ∨ size = 4) (pre : List Nat) (a b : Nat) (rest : List Nat) (ha : a < 256) (hb : b < 256)
    (hr : size ≤ 2 + rest.length) (hrb : ∀ y ∈ rest, y < 256) :
    ∃ q : Int, getInt size (pre ++ a :: b :: rest) pre.length = a + 256 * b + 65536 * q := by
  unfold getInt
  rw [List.drop_left]
  dsimp only
  rcases hs with rfl | rfl
  · have e : le ((a :: b :: rest).take 2) = a + 256 * b := by simp [le]
    rw [e]
    split
    · exact ⟨0, by push_cast; omega⟩
    · exact ⟨-1, by push_cast; norm_num; omega⟩
  · match rest, hr with
    | c :: d :: rest, _ =>
      have e : le ((a :: b :: c :: d :: rest).take 4) = a + 256 * (b + 256 * (c + 256 * d)) := by simp [le]
      rw [e]
      split
      · exact ⟨c + 256 * d, by push_cast; omega⟩
      · exact ⟨c + 256 * d - 65536, by push_cast; norm_num; omega⟩
    | [], h => simp at h
    | [_], h => simp at h

/-- C93: `Expo` gives the exponent field of a REAL: bits 23 to 30, for each size of INTEGER, whatever lies behind the number in
memory. -/
theorem C93_expo {size : Nat} (hs : size = 2 ∨ size = 4) (x : Nat) (after : List Nat) (ha : size ≤ 2 + after.length)
    (hb : ∀ y ∈ after, y < 256) : expo size (bytes 4 x ++ after) = ((x / 2 ^ 23 % 2 ^ 8 : Nat) : Int) := by
  obtain ⟨q, hq⟩ := getInt_ok hs [x % 256, x / 256 % 256] (x / 65536 % 256) (x / 16777216 % 256) after (by omega) (by omega) ha hb
  have hq : getInt size (bytes 4 x ++ after) 2 =
      ((x / 65536 % 256 : Nat) : Int) + 256 * ((x / 16777216 % 256 : Nat) : Int) + 65536 * q := by rw [bytes4]; exact hq
  unfold expo
  rw [hq]
  norm_num
  omega

/-- C93: `ExpoL` gives the exponent field of a LONGREAL: bits 52 to 62. -/
theorem C93_expoL {size : Nat} (hs : size = 2 ∨ size = 4) (x : Nat) (after : List Nat) (ha : size ≤ 2 + after.length)
    (hb : ∀ y ∈ after, y < 256) : expoL size (bytes 8 x ++ after) = ((x / 2 ^ 52 % 2 ^ 11 : Nat) : Int) := by
  obtain ⟨q, hq⟩ := getInt_ok hs [x % 256, x / 256 % 256, x / 65536 % 256, x / 16777216 % 256, x / 4294967296 % 256,
    x / 1099511627776 % 256] (x / 281474976710656 % 256) (x / 72057594037927936 % 256) after (by omega) (by omega) ha hb
  have hq : getInt size (bytes 8 x ++ after) 6 =
      ((x / 281474976710656 % 256 : Nat) : Int) + 256 * ((x / 72057594037927936 % 256 : Nat) : Int) + 65536 * q := by
    rw [bytes8]; exact hq
  unfold expoL
  rw [hq]
  norm_num
  omega

/-- C93: `SetExpo` replaces the exponent field, by the 8 lowest bits of its argument, and changes neither the sign nor the
significand nor another byte. -/
theorem C93_set_expo (x : Nat) (hx : x < 2 ^ 32) (ex : Int) (after : List Nat) :
    ∃ y, setExpo (bytes 4 x ++ after) ex = some (bytes 4 y ++ after) ∧ y < 2 ^ 32 ∧
      y / 2 ^ 31 = x / 2 ^ 31 ∧ ((y / 2 ^ 23 % 2 ^ 8 : Nat) : Int) = ex % 256 ∧ y % 2 ^ 23 = x % 2 ^ 23 := by
  have hx' : x < 4294967296 := by simpa using hx
  obtain ⟨e, he⟩ : ∃ e : Nat, (e : Int) = ex % 256 := ⟨(ex % 256).toNat, by omega⟩
  have he2 : ((ex / 2) % 128).toNat = e / 2 := by omega
  have he3 : ((ex % 2) * 128).toNat = e % 2 * 128 := by omega
  have hel : e < 256 := by omega
  refine ⟨x / 2147483648 * 2147483648 + e * 8388608 + x % 8388608, ?_, ?_, ?_, ?_, ?_⟩
  · rw [bytes4, bytes4]
    simp only [setExpo, List.cons_append, List.nil_append, List.getElem?_cons_succ, List.getElem?_cons_zero, Option.bind_some,
      List.set_cons_succ, List.set_cons_zero, Option.map_some, he2, he3, Option.some.injEq, List.cons.injEq, and_true]
    refine ⟨?_, ?_, ?_, ?_⟩ <;> omega
  · norm_num; omega
  · norm_num; omega
  · rw [← he]; norm_num; omega
  · norm_num; omega

theorem wr_mid (p r : List Nat) (y c : Nat) : wr (p ++ y :: r) (p.length : Nat) c = some (p ++ c :: r) := by
  unfold wr
  rw [if_pos ⟨by omega, by simp⟩]
  simp

theorem lowDigits_succ (n x : Nat) : lowDigits (n + 1) x = (x % 10 + 48) :: lowDigits n (x / 10) := by
  unfold lowDigits
  rw [List.range_succ_eq_map, List.map_cons, List.map_map]
  congr 1
  · simp
  · apply List.map_congr_left
    intro k _
    simp only [Function.comp_apply, Nat.succ_eq_add_one]
    rw [Nat.pow_succ', Nat.div_div_eq_div_mul]

theorem conv_ok (m : Nat) : ∀ (p r : List Nat) (i : Nat), m ≤ r.length →
    convLoop m (p ++ r) p.length i = some (p ++ (lowDigits m i ++ r.drop m)) := by
  induction m with
  | zero => intro p r i _; rfl
  | succ m ih =>
    intro p r i h
    cases r with
    | nil => simp at h
    | cons y r =>
      rw [convLoop, wr_mid, Option.bind_some, lowDigits_succ]
      have := ih (p ++ [i % 10 + 48]) r (i / 10) (by simpa using h)
      simp only [List.append_assoc, List.singleton_append, List.length_append, List.length_singleton] at this
      rw [this]
      rfl

theorem conv_trap (m : Nat) : ∀ (d : List Nat) (k i : Nat), k ≤ d.length → d.length < k + m → convLoop m d k i = none := by
  induction m with
  | zero => intro d k i h1 h2; omega
  | succ m ih =>
    intro d k i h1 h2
    rw [convLoop]
    by_cases h : k < d.length
    · unfold wr
      rw [if_pos ⟨by omega, by omega⟩, Option.bind_some]
      exact ih _ _ _ (by simp; omega) (by simp; omega)
    · unfold wr
      rw [if_neg (by omega)]
      rfl

theorem digits_split (n x : Nat) : lowDigits 9 (x % 1000000000) ++ lowDigits n (x / 1000000000) = lowDigits (9 + n) x := by
  unfold lowDigits
  rw [List.range_add, List.map_append, List.map_map]
  congr 1
  · simp [List.range, List.range.loop]
    omega
  · apply List.map_congr_left
    intro k _
    simp only [Function.comp_apply]
    rw [Nat.pow_add, ← Nat.div_div_eq_div_mul]

/-- C93: `ConvertL` writes the `n` lowest decimal digits of the whole part of the number, the lowest first, and leaves the rest of
the array, for every `n` and both sizes of LONGINT; `x` is the whole part, split exactly at 10^9 where LONGINT has 32 bits
(see `C93_convert_rounded`). -/
theorem C93_convert_partial (long x : Nat) (n : Int) (d : List Nat) (h : n ≤ d.length) :
    convertL long x (x / 10 ^ 9) ((x % 10 ^ 9 : Nat) : Int) n d = some (lowDigits n.toNat x ++ d.drop n.toNat) := by
  unfold convertL
  by_cases hb : long < 8 ∧ 9 < n
  · rw [if_pos hb, if_neg (by omega), Int.toNat_natCast]
    have h1 := conv_ok 9 [] d (x % 10 ^ 9) (by omega)
    rw [List.nil_append, List.nil_append, List.length_nil] at h1
    rw [h1, Option.bind_some]
    have hl : (lowDigits 9 (x % 10 ^ 9)).length = 9 := by simp [lowDigits]
    have h2 := conv_ok (n - 9).toNat (lowDigits 9 (x % 10 ^ 9)) (d.drop 9) (x / 10 ^ 9) (by simp; omega)
    rw [hl] at h2
    rw [h2, ← List.append_assoc]
    have e : (10 : Nat) ^ 9 = 1000000000 := by norm_num
    rw [e, digits_split, List.drop_drop]
    have : 9 + (n - 9).toNat = n.toNat := by omega
    rw [this]
  · rw [if_neg hb]
    have h1 := conv_ok n.toNat [] d x (by omega)
    exact h1

/-- Deviation: where LONGINT has 32 bits and the quotient by 10^9 was rounded up to a whole number, the low part is negative; it is
replaced by 0 (Reals.Mod 88), so the digits are those of a greater number. -/
theorem C93_convert_rounded (x high : Nat) (low : Int) (n : Int) (d : List Nat) (hl : low < 0) (h9 : 9 < n) (h : n ≤ d.length) :
    convertL 4 x high low n d = some (lowDigits n.toNat (high * 10 ^ 9) ++ d.drop n.toNat) := by
  have e := C93_convert_partial 4 (high * 10 ^ 9) n d h
  rw [Nat.mul_div_cancel _ (by norm_num), Nat.mul_mod_left] at e
  unfold convertL at e ⊢
  rw [if_pos ⟨by decide, h9⟩] at e ⊢
  rw [if_pos hl]
  exact e

/-- C93: if the array is too short for `n` digits, there is a trap, and nothing is written behind the array. -/
theorem C93_convert_trap (long x high : Nat) (low n : Int) (d : List Nat) (h : d.length < n) : convertL long x high low n d = none := by
  unfold convertL
  by_cases hb : long < 8 ∧ 9 < n
  · rw [if_pos hb]
    generalize (if low < 0 then 0 else low.toNat) = l
    by_cases h9 : 9 ≤ d.length
    · have h1 := conv_ok 9 [] d l h9
      rw [List.nil_append, List.nil_append, List.length_nil] at h1
      have hl : (lowDigits 9 l).length = 9 := by simp [lowDigits]
      rw [h1, Option.bind_some]
      exact conv_trap _ _ _ _ (by simp [hl]) (by simp [hl]; omega)
    · rw [conv_trap 9 d 0 l (by omega) (by omega)]
      rfl
  · rw [if_neg hb]
    exact conv_trap _ _ _ _ (by omega) (by omega)

theorem hex_table : ∀ y < 256, hexVal (toHex (y / 16)) * 16 + hexVal (toHex (y % 16)) = y := by decide +kernel

theorem toHex_isHex {i : Nat} (h : i < 16) : isHex (toHex i) := by
  unfold isHex toHex
  split <;> omega

theorem hex_ok (b : List Nat) : ∀ (p r : List Nat) (i : Nat), p.length = i * 2 → 2 * b.length ≤ r.length →
    hexLoop b (p ++ r) i = some (p ++ (b.flatMap (fun y => [toHex (y / 16), toHex (y % 16)]) ++ r.drop (2 * b.length))) := by
  induction b with
  | nil => intro p r i _ _; simp [hexLoop]
  | cons y b ih =>
    intro p r i hp hr
    match r, hr with
    | u :: v :: r, hr =>
      have w1 : wr (p ++ u :: v :: r) (i * 2 : Nat) (toHex (y / 16)) = some (p ++ toHex (y / 16) :: v :: r) := by
        rw [← hp]; exact wr_mid _ _ _ _
      have w2 : wr (p ++ toHex (y / 16) :: v :: r) (i * 2 + 1 : Nat) (toHex (y % 16)) =
          some (p ++ toHex (y / 16) :: toHex (y % 16) :: r) := by
        have := wr_mid (p ++ [toHex (y / 16)]) r v (toHex (y % 16))
        simp only [List.append_assoc, List.singleton_append, List.length_append, List.length_singleton, hp] at this
        exact this
      rw [hexLoop, w1, Option.bind_some, w2, Option.bind_some]
      have := ih (p ++ [toHex (y / 16), toHex (y % 16)]) r (i + 1) (by simp; omega) (by simp at hr; omega)
      simp only [List.append_assoc, List.cons_append, List.nil_append] at this
      rw [this]
      have e : 2 * (y :: b).length = 2 * b.length + 2 := by simp; omega
      rw [e]
      simp
    | [], hr => simp at hr
    | [_], hr => simp at hr; omega

theorem unhex_ok (b : List Nat) (h : ∀ y ∈ b, y < 256) : unhex (b.flatMap (fun y => [toHex (y / 16), toHex (y % 16)])) = b := by
  induction b with
  | nil => rfl
  | cons y b ih =>
    rw [List.flatMap_cons]
    simp only [List.cons_append, List.nil_append, unhex]
    rw [hex_table y (h y (by simp)), ih (fun z hz => h z (by simp [hz]))]

/-- C93: `ConvertH` and `ConvertHL` write two hexadecimal digits for each byte of the number; the digits determine the bytes; the
rest of the array is left. -/
theorem C93_hex (b d : List Nat) (hb : ∀ y ∈ b, y < 256) (hd : 2 * b.length ≤ d.length) :
    ∃ s, hexLoop b d 0 = some (s ++ d.drop (2 * b.length)) ∧ s.length = 2 * b.length ∧ (∀ c ∈ s, isHex c) ∧ unhex s = b := by
  refine ⟨_, hex_ok b [] d 0 rfl hd, ?_, ?_, unhex_ok b hb⟩
  · clear hb hd
    induction b with
    | nil => rfl
    | cons y b ih => simp at ih ⊢; omega
  · intro c hc
    rw [List.mem_flatMap] at hc
    obtain ⟨y, hy, hc⟩ := hc
    have := hb y hy
    simp only [List.mem_cons, List.not_mem_nil, or_false] at hc
    rcases hc with rfl | rfl
    · exact toHex_isHex (by omega)
    · exact toHex_isHex (by omega)

/-! ## Examples -/

/-- 1.0 has the exponent field 127, and -2.5 has 128. -/
example : expo 2 (bytes 4 0x3F800000) = 127 ∧ expo 4 (bytes 4 0xC0200000 ++ [255, 17]) = 128 ∧
    expoL 2 (bytes 8 0x3FF0000000000000) = 1023 := by decide +kernel
/-- 1.0 with the exponent 128 is 2.0. -/
example : setExpo (bytes 4 0x3F800000) 128 = some (bytes 4 0x40000000) := by decide +kernel
example : convertL 4 123456789012 (123456789012 / 10 ^ 9) ((123456789012 % 10 ^ 9 : Nat) : Int) 12 (List.replicate 13 7) =
    some ("210987654321".toList.map Char.toNat ++ [7]) := by decide +kernel
example : hexLoop (bytes 4 0x3F8000AB) (List.replicate 9 7) 0 = some ("AB00803F".toList.map Char.toNat ++ [7]) := by decide +kernel

end Verif.Reals
