import Verif.Sums.Lemmas
import Mathlib.Algebra.Polynomial.Monic
import Mathlib.Algebra.CharP.Two
import Mathlib.Tactic.ComputeDegree
import Mathlib.RingTheory.Coprime.Lemmas

/-!
# Lemmas about CRC-32
-/
namespace Verif.Sums
open Polynomial

/-! ## The table and the bits -/

theorem crcStep_xor (a b : BitVec 32) : crcStep (a ^^^ b) = crcStep a ^^^ crcStep b := by
  unfold crcStep
  rw [BitVec.ushiftRight_xor_distrib, BitVec.getLsbD_xor]
  generalize a >>> 1 = u
  generalize b >>> 1 = v
  have key : ∀ p u v : BitVec 32, u ^^^ v = (p ^^^ u) ^^^ (p ^^^ v) := by
    intro p u v
    apply BitVec.eq_of_getLsbD_eq
    intro i _
    simp only [BitVec.getLsbD_xor]
    cases p.getLsbD i <;> cases u.getLsbD i <;> cases v.getLsbD i <;> rfl
  cases a.getLsbD 0 <;> cases b.getLsbD 0
  · rfl
  · show poly ^^^ (u ^^^ v) = u ^^^ (poly ^^^ v)
    rw [← BitVec.xor_assoc, ← BitVec.xor_assoc, BitVec.xor_comm poly u]
  · show poly ^^^ (u ^^^ v) = (poly ^^^ u) ^^^ v
    rw [BitVec.xor_assoc]
  · exact key poly u v

theorem crcSteps_xor (k : Nat) : ∀ a b : BitVec 32, crcSteps k (a ^^^ b) = crcSteps k a ^^^ crcSteps k b := by
  induction k with
  | zero => intro a b; rfl
  | succ k ih => intro a b; simp only [crcSteps]; rw [crcStep_xor, ih]

/-- A register with zeros at its end is only shifted. -/
theorem crcSteps_shift (k : Nat) : ∀ c : BitVec 32, (∀ i < k, c.getLsbD i = false) → crcSteps k c = c >>> k := by
  induction k with
  | zero => intro c _; simp [crcSteps]
  | succ k ih =>
    intro c h
    have h0 : crcStep c = c >>> 1 := by unfold crcStep; rw [h 0 (by omega)]; rfl
    simp only [crcSteps]
    rw [h0, ih]
    · rw [← BitVec.shiftRight_add, Nat.add_comm]
    · intro i hi; rw [BitVec.getLsbD_ushiftRight]; exact h _ (by omega)

/-- The part of a register that is looked up in the table. -/
def low (c : BitVec 32) : BitVec 32 := c &&& 0xFF#32
/-- The part of a register that is shifted. -/
def high (c : BitVec 32) : BitVec 32 := c &&& 0xFFFFFF00#32

theorem getLsbD_low (c : BitVec 32) (i : Nat) : (low c).getLsbD i = (c.getLsbD i && decide (i < 8)) := by
  unfold low
  rw [BitVec.getLsbD_and]
  by_cases h : i < 32
  · have : (0xFF#32).getLsbD i = decide (i < 8) := by revert i; decide
    rw [this]
  · simp [BitVec.getLsbD_of_ge c i (by omega)]

theorem getLsbD_high (c : BitVec 32) (i : Nat) : (high c).getLsbD i = (c.getLsbD i && decide (8 ≤ i)) := by
  unfold high
  rw [BitVec.getLsbD_and]
  by_cases h : i < 32
  · have : (0xFFFFFF00#32).getLsbD i = decide (8 ≤ i) := by revert i; decide
    rw [this]
  · simp [BitVec.getLsbD_of_ge c i (by omega)]

theorem low_high (c : BitVec 32) : c = low c ^^^ high c := by
  apply BitVec.eq_of_getLsbD_eq
  intro i hi
  rw [BitVec.getLsbD_xor, getLsbD_low, getLsbD_high]
  by_cases h : i < 8
  · have : ¬ 8 ≤ i := by omega
    simp [h, this]
  · have : 8 ≤ i := by omega
    simp [h, this]

/-- What the table holds. -/
theorem table_low (c : BitVec 32) : crcTable[(c.toInt % 256).toNat]? = some (crcSteps 8 (low c)) := by
  have h1 : (c.toInt % 256).toNat = c.toNat % 256 := by
    rw [BitVec.toInt_eq_toNat_cond]; split <;> omega
  have h2 : c.toNat % 256 < 256 := Nat.mod_lt _ (by omega)
  rw [h1]
  unfold crcTable
  rw [List.getElem?_map, List.getElem?_range h2]
  simp only [Option.map_some, Option.some.injEq]
  congr 1
  apply BitVec.eq_of_toNat_eq
  unfold low
  rw [BitVec.toNat_and, BitVec.toNat_ofNat]
  have : (0xFF#32).toNat = 2 ^ 8 - 1 := rfl
  rw [this, Nat.and_two_pow_sub_one_eq_mod]
  omega

/-- One step of the loop is eight steps of the register. -/
theorem table_step (crc x : BitVec 32) (hx : ∀ i, 8 ≤ i → x.getLsbD i = false) :
    crcSteps 8 (low (crc ^^^ x)) ^^^ (crc >>> 8) = crcSteps 8 (crc ^^^ x) := by
  conv_rhs => rw [low_high (crc ^^^ x), crcSteps_xor]
  congr 1
  rw [crcSteps_shift 8 (high (crc ^^^ x))]
  · apply BitVec.eq_of_getLsbD_eq
    intro i hi
    rw [BitVec.getLsbD_ushiftRight, BitVec.getLsbD_ushiftRight, getLsbD_high, BitVec.getLsbD_xor, hx (8 + i) (by omega)]
    simp
  · intro i hi
    rw [getLsbD_high]
    have : ¬ 8 ≤ i := by omega
    simp [this]

/-- A byte in a register. -/
def wide (x : BitVec 8) : BitVec 32 := BitVec.ofNat 32 x.toNat

theorem getLsbD_wide (x : BitVec 8) (i : Nat) : (wide x).getLsbD i = x.getLsbD i := by
  unfold wide
  rw [BitVec.getLsbD_ofNat]
  by_cases h : i < 32
  · simp [h, BitVec.getLsbD]
  · simp [h, BitVec.getLsbD_of_ge x i (by omega)]

/-- The register after the bytes of a message. -/
def reg (c : BitVec 32) : List (BitVec 8) → BitVec 32
  | [] => c
  | x :: xs => reg (crcSteps 8 (c ^^^ wide x)) xs

theorem crcLoop_ok (buf : List (BitVec 8)) : ∀ (len o : Nat) (c : BitVec 32), o + len ≤ buf.length →
    crcLoop buf len o c = .ok (reg c ((buf.drop o).take len)) := by
  intro len
  induction len with
  | zero => intro o c _; simp [crcLoop, reg]
  | succ len ih =>
    intro o c h
    have ho : o < buf.length := by omega
    have hx : buf[o]? = some buf[o] := List.getElem?_eq_getElem ho
    simp only [crcLoop]
    have hw : BitVec.ofNat 32 buf[o].toNat = wide buf[o] := rfl
    rw [at_ok hx, Out.bind_ok, hw, table_low]
    simp only [Out.bind_ok]
    rw [table_step c (wide buf[o]) (fun i hi => by rw [getLsbD_wide]; exact BitVec.getLsbD_of_ge _ _ hi)]
    have e3 : ((o : Int) + 1) = ((o + 1 : Nat) : Int) := by omega
    rw [e3, ih (o + 1) _ (by omega), List.drop_eq_getElem_cons ho, List.take_succ_cons]
    rfl

theorem reg_append (xs ys : List (BitVec 8)) : ∀ c, reg c (xs ++ ys) = reg (reg c xs) ys := by
  induction xs with
  | nil => intro c; rfl
  | cons x xs ih => intro c; exact ih _

/-! ## Registers as polynomials -/

theorem bit_xor (a b : Bool) : bit (a ^^ b) = bit a + bit b := by
  cases a <;> cases b <;> simp [bit, CharTwo.add_self_eq_zero]

theorem regPoly_xor (a b : BitVec 32) : regPoly (a ^^^ b) = regPoly a + regPoly b := by
  unfold regPoly
  rw [← Finset.sum_add_distrib]
  apply Finset.sum_congr rfl
  intro i _
  rw [BitVec.getLsbD_xor, bit_xor, add_mul]

theorem regPoly_shift (c : BitVec 32) : regPoly (c >>> 1) + bit (c.getLsbD 0) * X ^ 32 = X * regPoly c := by
  unfold regPoly
  rw [Finset.sum_range_succ, Finset.sum_range_succ' (fun i => bit (c.getLsbD i) * X ^ (31 - i)), mul_add, Finset.mul_sum]
  have h31 : (c >>> 1).getLsbD 31 = false := by rw [BitVec.getLsbD_ushiftRight]; exact BitVec.getLsbD_of_ge c _ (by omega)
  rw [h31]
  have hs : ∑ x ∈ Finset.range 31, bit ((c >>> 1).getLsbD x) * X ^ (31 - x) =
      ∑ i ∈ Finset.range 31, X * (bit (c.getLsbD (i + 1)) * X ^ (31 - (i + 1))) := by
    apply Finset.sum_congr rfl
    intro i hi
    have hi' : i < 31 := Finset.mem_range.mp hi
    rw [BitVec.getLsbD_ushiftRight, Nat.add_comm 1 i]
    have : 31 - i = (31 - (i + 1)) + 1 := by omega
    rw [this, pow_succ]; ring
  rw [hs]
  have : bit false = 0 := rfl
  rw [this]; ring

/-- The generator without its highest power. -/
noncomputable def genLow : P2 :=
  X ^ 26 + X ^ 23 + X ^ 22 + X ^ 16 + X ^ 12 + X ^ 11 + X ^ 10 + X ^ 8 + X ^ 7 + X ^ 5 + X ^ 4 + X ^ 2 + X + 1

theorem regPoly_poly : regPoly poly = genLow := by
  unfold regPoly genLow
  have h : ∀ i ∈ Finset.range 32, bit (poly.getLsbD i) * X ^ (31 - i) =
      (if i ∈ [5, 8, 9, 15, 19, 20, 21, 23, 24, 26, 27, 29, 30, 31] then (X : P2) ^ (31 - i) else 0) := by
    intro i hi
    have hb : poly.getLsbD i = decide (i ∈ [5, 8, 9, 15, 19, 20, 21, 23, 24, 26, 27, 29, 30, 31]) := by
      have hi' : i < 32 := Finset.mem_range.mp hi
      clear hi; revert i; decide
    rw [hb]
    by_cases hm : i ∈ [5, 8, 9, 15, 19, 20, 21, 23, 24, 26, 27, 29, 30, 31]
    · rw [if_pos hm, decide_eq_true hm]; simp [bit]
    · rw [if_neg hm, decide_eq_false hm]; simp [bit]
  rw [Finset.sum_congr rfl h]
  simp only [Finset.sum_range_succ, Finset.sum_range_zero, List.mem_cons, List.not_mem_nil]
  norm_num

theorem gen_eq : gen = X ^ 32 + genLow := rfl

theorem genLow_degree : genLow.degree < 32 := by
  unfold genLow
  refine lt_of_le_of_lt (b := ((26 : Nat) : WithBot Nat)) ?_ (by norm_cast)
  compute_degree
  norm_cast

theorem gen_monic : gen.Monic := by
  rw [gen_eq]
  exact monic_X_pow_add (by simpa using genLow_degree)

theorem gen_degree : gen.degree = 32 := by
  rw [gen_eq, degree_add_eq_left_of_degree_lt]
  · simp
  · simpa using genLow_degree

/-- One step multiplies by `X`, up to a multiple of the generator. -/
theorem regPoly_step (c : BitVec 32) : regPoly (crcStep c) + bit (c.getLsbD 0) * gen = X * regPoly c := by
  rw [← regPoly_shift, gen_eq]
  unfold crcStep
  cases h : c.getLsbD 0
  · simp [bit]
  · simp only [if_true]
    rw [regPoly_xor, regPoly_poly]
    have h2 : genLow + genLow = 0 := CharTwo.add_self_eq_zero _
    simp only [bit, if_true, one_mul]
    calc genLow + regPoly (c >>> 1) + (X ^ 32 + genLow) = regPoly (c >>> 1) + X ^ 32 + (genLow + genLow) := by ring
      _ = _ := by rw [h2, add_zero]

/-- Congruence modulo the generator. -/
def Cong (p q : P2) : Prop := gen ∣ p - q

theorem Cong.refl (p : P2) : Cong p p := by unfold Cong; simp
theorem Cong.trans {p q r : P2} (h : Cong p q) (h' : Cong q r) : Cong p r := by
  unfold Cong at *; have := dvd_add h h'; simpa using this
theorem Cong.symm {p q : P2} (h : Cong p q) : Cong q p := by
  unfold Cong at *; rw [← neg_sub]; exact (dvd_neg).mpr h
theorem Cong.mul (r : P2) {p q : P2} (h : Cong p q) : Cong (r * p) (r * q) := by
  unfold Cong at *; rw [← mul_sub]; exact Dvd.dvd.mul_left h r
theorem Cong.add {p q r s : P2} (h : Cong p q) (h' : Cong r s) : Cong (p + r) (q + s) := by
  unfold Cong at *; have := dvd_add h h'; rwa [show p + r - (q + s) = p - q + (r - s) by ring]

theorem cong_step (c : BitVec 32) : Cong (regPoly (crcStep c)) (X * regPoly c) := by
  unfold Cong
  rw [← regPoly_step]
  exact ⟨-bit (c.getLsbD 0), by ring⟩

theorem cong_steps (k : Nat) : ∀ c : BitVec 32, Cong (regPoly (crcSteps k c)) (X ^ k * regPoly c) := by
  induction k with
  | zero => intro c; simp only [crcSteps, pow_zero, one_mul]; exact Cong.refl _
  | succ k ih =>
    intro c
    have h := (ih (crcStep c)).trans (Cong.mul (X ^ k) (cong_step c))
    rw [pow_succ, mul_assoc]; exact h

theorem bitsPoly_append (xs ys : List Bool) : bitsPoly (xs ++ ys) = bitsPoly xs * X ^ ys.length + bitsPoly ys := by
  induction xs with
  | nil => simp [bitsPoly]
  | cons x xs ih =>
    simp only [List.cons_append, bitsPoly, ih, List.length_append, pow_add]; ring

theorem regPoly_wide (x : BitVec 8) : regPoly (wide x) = X ^ 24 * bitsPoly (byteBits x) := by
  unfold regPoly
  have h : ∀ i ∈ Finset.range 32, bit ((wide x).getLsbD i) * X ^ (31 - i) =
      (if i < 8 then X ^ 24 * (bit (x.getLsbD i) * X ^ (7 - i)) else 0) := by
    intro i _
    rw [getLsbD_wide]
    by_cases hi : i < 8
    · rw [if_pos hi]
      have : 31 - i = 24 + (7 - i) := by omega
      rw [this, pow_add]; ring
    · rw [if_neg hi, BitVec.getLsbD_of_ge x i (by omega)]; simp [bit]
  rw [Finset.sum_congr rfl h]
  simp only [Finset.sum_range_succ, Finset.sum_range_zero]
  norm_num
  simp only [byteBits, List.range, List.range.loop, List.map_cons, List.map_nil, bitsPoly, List.length_cons, List.length_nil]
  norm_num
  ring

theorem length_byteBits (x : BitVec 8) : (byteBits x).length = 8 := by simp [byteBits]

theorem length_bitsOf (m : List (BitVec 8)) : (bitsOf m).length = 8 * m.length := by
  induction m with
  | nil => rfl
  | cons x m ih =>
    simp only [bitsOf, List.flatMap_cons, List.length_append, length_byteBits, List.length_cons] at *
    omega

/-- The register after a message, as a polynomial. -/
theorem cong_reg (m : List (BitVec 8)) : ∀ c : BitVec 32,
    Cong (regPoly (reg c m)) (X ^ (8 * m.length) * regPoly c + bitsPoly (bitsOf m) * X ^ 32) := by
  induction m with
  | nil =>
    intro c
    simp only [reg, List.length_nil, Nat.mul_zero, pow_zero, one_mul, bitsOf, List.flatMap_nil, bitsPoly, zero_mul, add_zero]
    exact Cong.refl _
  | cons x m ih =>
    intro c
    have h1 := cong_steps 8 (c ^^^ wide x)
    rw [regPoly_xor, regPoly_wide] at h1
    have h2 := (ih (crcSteps 8 (c ^^^ wide x))).trans (Cong.add (Cong.mul (X ^ (8 * m.length)) h1) (Cong.refl _))
    have e : X ^ (8 * m.length) * (X ^ 8 * (regPoly c + X ^ 24 * bitsPoly (byteBits x))) + bitsPoly (bitsOf m) * X ^ 32 =
        X ^ (8 * (x :: m).length) * regPoly c + bitsPoly (bitsOf (x :: m)) * X ^ 32 := by
      have hb : bitsOf (x :: m) = byteBits x ++ bitsOf m := rfl
      rw [hb, bitsPoly_append, length_bitsOf]
      have : 8 * (x :: m).length = 8 * m.length + 8 := by simp; omega
      rw [this, pow_add]; ring
    rw [← e]
    exact h2

theorem degree_regPoly (c : BitVec 32) : (regPoly c).degree < 32 := by
  unfold regPoly
  refine lt_of_le_of_lt (b := ((31 : Nat) : WithBot Nat)) ?_ (by norm_cast)
  refine (degree_sum_le _ _).trans (Finset.sup_le ?_)
  intro i _
  cases c.getLsbD i
  · simp [bit]
  · simp only [bit, if_true, one_mul, degree_X_pow]
    norm_cast; omega

/-- A polynomial of low degree that is congruent is the remainder. -/
theorem cong_rem {p q : P2} (h : Cong p q) (hd : p.degree < 32) : p = q %ₘ gen := by
  obtain ⟨d, hd'⟩ := h.symm
  have := (div_modByMonic_unique (f := q) (g := gen) d p gen_monic ⟨by rw [← hd']; ring, by rw [gen_degree]; exact hd⟩).2
  exact this.symm

theorem regPoly_ones : regPoly (BitVec.allOnes 32) = ∑ i ∈ Finset.range 32, X ^ i := by
  unfold regPoly
  rw [← Finset.sum_range_reflect (fun i => (X : P2) ^ i) 32]
  apply Finset.sum_congr rfl
  intro i hi
  have hi' : i < 32 := Finset.mem_range.mp hi
  rw [BitVec.getLsbD_allOnes]
  simp [hi', bit]

/-! ## Bursts -/

theorem gen_coprime (n : Nat) : IsCoprime gen (X ^ n : P2) := by
  apply IsCoprime.pow_right
  let q : P2 := X ^ 31 + X ^ 25 + X ^ 22 + X ^ 21 + X ^ 15 + X ^ 11 + X ^ 10 + X ^ 9 + X ^ 7 + X ^ 6 + X ^ 4 + X ^ 3 + X + 1
  refine ⟨1, q, ?_⟩
  have h : q * X + q * X = 0 := CharTwo.add_self_eq_zero _
  have e : gen = q * X + 1 := by unfold gen; simp only [q]; ring
  rw [e, one_mul]
  calc q * X + 1 + q * X = q * X + q * X + 1 := by ring
    _ = 1 := by rw [h, zero_add]

theorem bitsPoly_degree (w : List Bool) : (bitsPoly w).degree < w.length := by
  induction w with
  | nil => simp [bitsPoly]
  | cons b w ih =>
    simp only [bitsPoly, List.length_cons]
    refine lt_of_le_of_lt (degree_add_le _ _) (max_lt ?_ ?_)
    · cases b
      · simp [bit]
      · simp only [bit, if_true, one_mul, degree_X_pow]; norm_cast; omega
    · refine lt_trans ih ?_; norm_cast; omega

theorem bitsPoly_inj : ∀ w w' : List Bool, w.length = w'.length → bitsPoly w = bitsPoly w' → w = w' := by
  intro w
  induction w with
  | nil => intro w' h _; exact (List.length_eq_zero_iff.mp h.symm).symm
  | cons b w ih =>
    intro w' hl h
    cases w' with
    | nil => simp at hl
    | cons b' w' =>
      have hl' : w.length = w'.length := by simpa using hl
      simp only [bitsPoly] at h
      have hc := congrArg (fun p => p.coeff w.length) h
      have z1 : (bitsPoly w).coeff w.length = 0 := coeff_eq_zero_of_degree_lt (bitsPoly_degree w)
      have z2 : (bitsPoly w').coeff w.length = 0 := by rw [hl']; exact coeff_eq_zero_of_degree_lt (bitsPoly_degree w')
      have hbb : b = b' := by
        rw [← hl'] at hc
        simp only [coeff_add, z1, z2, add_zero] at hc
        cases b <;> cases b' <;> simp [bit] at hc ⊢
      subst hbb
      rw [hl'] at h
      rw [ih w' hl' (add_left_cancel h)]

theorem byteBits_inj (x y : BitVec 8) (h : byteBits x = byteBits y) : x = y := by
  apply BitVec.eq_of_getLsbD_eq
  intro i hi
  have := congrArg (fun l => l[i]?) h
  simp only [byteBits, List.getElem?_map, List.getElem?_range hi, Option.map_some, Option.some.injEq] at this
  exact this

theorem bitsOf_inj : ∀ m m' : List (BitVec 8), m.length = m'.length → bitsOf m = bitsOf m' → m = m' := by
  intro m
  induction m with
  | nil => intro m' h _; exact (List.length_eq_zero_iff.mp h.symm).symm
  | cons x m ih =>
    intro m' hl h
    cases m' with
    | nil => simp at hl
    | cons y m' =>
      have h' : byteBits x ++ bitsOf m = byteBits y ++ bitsOf m' := h
      obtain ⟨h1, h2⟩ := List.append_inj h' (by rw [length_byteBits, length_byteBits])
      rw [byteBits_inj x y h1, ih m' (by simpa using hl) h2]

/-- The difference of two messages is a burst, then their registers differ. -/
theorem reg_burst (k : Nat) (m m' : List (BitVec 8)) (c : BitVec 32) (h : Burst k m m') (hne : m ≠ m') : reg c m ≠ reg c m' := by
  intro he
  obtain ⟨hl, hb⟩ := h
  have h1 := cong_reg m c
  have h2 := cong_reg m' c
  rw [he, hl] at h1
  have h3 := h1.symm.trans h2
  unfold Cong at h3
  have e1 : (X ^ (8 * m'.length) * regPoly c + bitsPoly (bitsOf m) * X ^ 32 - (X ^ (8 * m'.length) * regPoly c + bitsPoly (bitsOf m') * X ^ 32) : P2) =
      (bitsPoly (bitsOf m) - bitsPoly (bitsOf m')) * X ^ 32 := by ring
  rw [e1] at h3
  have h4 := (gen_coprime 32).dvd_of_dvd_mul_right h3
  generalize hB : bitsOf m = B at *
  generalize hB' : bitsOf m' = B' at *
  have hlen : B.length = B'.length := by rw [← hB, ← hB', length_bitsOf, length_bitsOf, hl]
  have ht : B.take k = B'.take k := by
    apply List.ext_getElem?
    intro i
    rw [List.getElem?_take, List.getElem?_take]
    by_cases hi : i < k
    · rw [if_pos hi, if_pos hi]; exact hb i (Or.inl hi)
    · rw [if_neg hi, if_neg hi]
  have hd : (B.drop k).drop 32 = (B'.drop k).drop 32 := by
    apply List.ext_getElem?
    intro i
    rw [List.drop_drop, List.drop_drop, List.getElem?_drop, List.getElem?_drop]
    exact hb _ (Or.inr (by omega))
  have s1 : B = B.take k ++ ((B.drop k).take 32 ++ (B.drop k).drop 32) := by rw [List.take_append_drop, List.take_append_drop]
  have s2 : B' = B.take k ++ ((B'.drop k).take 32 ++ (B.drop k).drop 32) := by rw [ht, hd, List.take_append_drop, List.take_append_drop]
  have hw : ((B.drop k).take 32).length = ((B'.drop k).take 32).length := by simp [hlen]
  have hw32 : ((B'.drop k).take 32).length ≤ 32 := by simp
  generalize (B.drop k).take 32 = w at *
  generalize (B'.drop k).take 32 = w' at *
  generalize (B.drop k).drop 32 = t at *
  generalize B.take k = u at *
  have e2 : bitsPoly B - bitsPoly B' = (bitsPoly w - bitsPoly w') * X ^ t.length := by
    rw [s1, s2, bitsPoly_append, bitsPoly_append, bitsPoly_append, bitsPoly_append, List.length_append, List.length_append, hw]; ring
  rw [e2] at h4
  have h5 := (gen_coprime t.length).dvd_of_dvd_mul_right h4
  have hdeg : (bitsPoly w - bitsPoly w').degree < gen.degree := by
    rw [gen_degree]
    have a1 := bitsPoly_degree w
    have a2 := bitsPoly_degree w'
    rw [hw] at a1
    have a3 : ((w'.length : Nat) : WithBot Nat) ≤ 32 := by exact_mod_cast hw32
    exact lt_of_le_of_lt (degree_sub_le _ _) (max_lt (lt_of_lt_of_le a1 a3) (lt_of_lt_of_le a2 a3))
  have h6 : bitsPoly w - bitsPoly w' = 0 := by
    by_contra hz
    exact (gen_monic.not_dvd_of_degree_lt hz hdeg) h5
  have h7 := bitsPoly_inj w w' hw (sub_eq_zero.mp h6)
  apply hne
  apply bitsOf_inj m m' hl
  rw [hB, hB', s1, s2, h7]

theorem regPoly_bits (r : BitVec 32) : regPoly r = bitsPoly ((List.range 32).map fun i => r.getLsbD i) := by
  have key : ∀ n, n ≤ 32 → bitsPoly ((List.range n).map fun i => r.getLsbD i) * X ^ (32 - n) = ∑ i ∈ Finset.range n, bit (r.getLsbD i) * X ^ (31 - i) := by
    intro n
    induction n with
    | zero => intro _; simp [bitsPoly]
    | succ n ih =>
      intro hn
      rw [List.range_succ, List.map_append, bitsPoly_append, Finset.sum_range_succ, ← ih (by omega)]
      have e1 : 32 - n = (32 - (n + 1)) + 1 := by omega
      have e2 : 31 - n = 32 - (n + 1) := by omega
      rw [e1, e2]
      simp only [List.map_cons, List.map_nil, List.length_cons, List.length_nil, bitsPoly]
      ring
  have := key 32 (by omega)
  rw [Nat.sub_self, pow_zero, mul_one] at this
  exact this.symm

theorem regPoly_inj (a b : BitVec 32) (h : regPoly a = regPoly b) : a = b := by
  rw [regPoly_bits, regPoly_bits] at h
  have h' := bitsPoly_inj _ _ (by simp) h
  apply BitVec.eq_of_getLsbD_eq
  intro i hi
  have := congrArg (fun l => l[i]?) h'
  simp only [List.getElem?_map, List.getElem?_range hi, Option.map_some, Option.some.injEq] at this
  exact this

end Verif.Sums
