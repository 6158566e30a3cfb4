import Verif.Common
import Verif.Console.Spec
import Verif.Arith.PropsBits

/-! Lemmas for C29, C30, C47. -/
namespace Verif.Console

open Spec (dec hexa pad clamp delivered received value digitVal isHex optional blank)
open Verif.Arith (pat sgn bit rot lsh)

/-! ## Numbers as text -/

theorem digitChar10 {d : Nat} (h : d < 10) : d.digitChar.toNat = 48 + d := by
  interval_cases d <;> rfl

theorem digitChar16 {d : Nat} (h : d < 16) : d.digitChar.toUpper.toNat = hexChar d := by
  interval_cases d <;> rfl

theorem digits_ok : ∀ (k x : Nat), x < 10 ^ (k + 1) → digits (k + 1) x = some ((Nat.toDigits 10 x).map Char.toNat).reverse
  | 0, x, h => by
    have hx : x < 10 := by simpa using h
    simp only [digits]
    rw [if_pos (by omega), Nat.toDigits_of_lt_base hx]
    simp [digitChar10 hx, Nat.mod_eq_of_lt hx]
  | k + 1, x, h => by
    by_cases hx : x < 10
    · simp only [digits]
      rw [if_pos (by omega), Nat.toDigits_of_lt_base hx]
      simp [digitChar10 hx, Nat.mod_eq_of_lt hx]
    · rw [digits]
      rw [if_neg (by omega), digits_ok k (x / 10) (by rw [Nat.div_lt_iff_lt_mul (by omega), ← pow_succ]; exact h)]
      rw [Nat.toDigits_of_base_le (b := 10) (n := x) (by omega) (by omega)]
      simp [digitChar10 (Nat.mod_lt x (by omega : 0 < 10))]

theorem textDigits_eq : ∀ (k x : Nat), textDigits k x = digits k x
  | 0, _ => rfl
  | k + 1, x => by
    simp only [textDigits, digits]
    rw [textDigits_eq k]
    simp only [Nat.add_comm]

theorem dec_nonneg {x : Int} (h : 0 ≤ x) : dec x = (Nat.toDigits 10 x.natAbs).map Char.toNat := by
  unfold dec
  rw [Int.toString_eq_repr, Int.repr_eq_if, if_pos h, Nat.toList_repr]
  congr 2
  omega

theorem dec_neg {x : Int} (h : x < 0) : dec x = 45 :: (Nat.toDigits 10 x.natAbs).map Char.toNat := by
  unfold dec
  rw [Int.toString_eq_repr, Int.repr_eq_if, if_neg (by omega), String.toList_append, Nat.toList_repr, List.map_append]
  have : (-x).toNat = x.natAbs := by omega
  rw [this]
  rfl

theorem intChars_ok {x : Int} (h : -2 ^ 63 ≤ x ∧ x < 2 ^ 63) : intChars x = some (dec x).reverse := by
  unfold intChars
  by_cases hm : x = -2 ^ 63
  · subst hm
    decide +kernel
  · rw [if_neg hm, digits_ok 21 _ (by have : (2 : Nat) ^ 63 ≤ 10 ^ 22 := by decide
                                      omega), Option.bind_some]
    by_cases h0 : x < 0
    · rw [if_pos h0, dec_neg h0, if_pos]
      · simp
      · have hb : x.natAbs < 10 ^ 20 := by
          have : (2 : Nat) ^ 63 ≤ 10 ^ 20 := by decide
          omega
        have : ((Nat.toDigits 10 x.natAbs)).length ≤ 20 := by
          have := Nat.length_toDigits_le_iff (b := 10) (n := x.natAbs) (k := 20) (by omega) (by omega)
          exact this.2 hb
        simp only [List.length_reverse, List.length_map]
        omega
    · rw [if_neg h0, dec_nonneg (by omega)]


/-! ## Hexadecimal -/

theorem bits16 {x : Int} {u m : Nat} (h : ∀ k, k < 4 → bit x k = u.testBit (4 * m + k)) : (x % 16).toNat = u / 16 ^ m % 16 := by
  have e : (x % 16).toNat = pat 4 x := by unfold pat; norm_num
  have e2 : u / 16 ^ m % 16 = (u >>> (4 * m)) % 2 ^ 4 := by
    rw [Nat.shiftRight_eq_div_pow, pow_mul]; rfl
  rw [e, e2]
  apply Nat.eq_of_testBit_eq
  intro k
  rw [Verif.Arith.pat_testBit, Nat.testBit_mod_two_pow, Nat.testBit_shiftRight]
  by_cases hk : k < 4
  · rw [h k hk]
  · simp [hk]

theorem hexDigits_ok {x0 : Int} : ∀ (n : Nat) (x : Int), n ≤ 15 →
    (∀ k, k < 64 → bit x k = bit x0 (((k : Int) + 4 * n) % 64).toNat) →
    hexDigits x n = some ((List.range n).reverse.map fun m => hexChar (pat 64 x0 / 16 ^ m % 16))
  | 0, x, _, _ => rfl
  | n + 1, x, hn, h => by
    simp only [hexDigits]
    obtain ⟨y, h1, h2, h3⟩ := Verif.Arith.C05_rot_partial (s := 64) (Or.inr (Or.inr (Or.inr rfl))) (x := x) (n := 4) (by omega) (Or.inl (by omega))
    have hy : ∀ k, k < 64 → bit y k = bit x0 (((k : Int) + 4 * n) % 64).toNat := by
      intro k hk
      rw [h3 k hk, h _ (by omega)]
      congr 1
      omega
    rw [h1, Option.bind_some, hexDigits_ok n y (by omega) hy]
    simp only [Option.map_some, List.range_succ, List.reverse_append, List.reverse_cons, List.reverse_nil, List.nil_append,
      List.cons_append, List.map_cons]
    have : (y % 16).toNat = pat 64 x0 / 16 ^ n % 16 := by
      apply bits16
      intro k hk
      rw [hy k (by omega), Verif.Arith.pat_testBit]
      have e : (((k : Int) + 4 * n) % 64).toNat = 4 * n + k := by omega
      rw [e]
      simp only [show 4 * n + k < 64 by omega, decide_true, Bool.true_and]
    rw [this]

/-- The last `n` digits of `u`. -/
def tail16 (u n : Nat) : List Nat := (List.range n).reverse.map fun m => hexChar (u / 16 ^ m % 16)

theorem rotate_ok {x : Int} {n : Nat} (h1 : 1 ≤ n) (h2 : n ≤ 15) :
    ((rot 64 x (4 * ((16 : Int) - n))).bind fun x => hexDigits x n) = some (tail16 (pat 64 x) n) := by
  obtain ⟨y, e1, _, e3⟩ := Verif.Arith.C05_rot_partial (s := 64) (Or.inr (Or.inr (Or.inr rfl))) (x := x) (n := 4 * ((16 : Int) - n)) (by omega) (Or.inl (by omega))
  rw [e1, Option.bind_some]
  apply hexDigits_ok n y h2
  intro k hk
  rw [e3 k hk]
  congr 1
  omega

theorem tail16_succ (u n : Nat) : tail16 u (n + 1) = tail16 (u / 16) n ++ [hexChar (u % 16)] := by
  unfold tail16
  rw [List.range_succ_eq_map, List.reverse_cons, List.map_append, ← List.map_reverse, List.map_map]
  congr 1
  · apply List.map_congr_left
    intro m _
    simp only [Function.comp]
    rw [Nat.div_div_eq_div_mul, ← pow_succ']
  · simp

theorem hexa_lt {u : Nat} (h : u < 16) : hexa u = [hexChar u] := by
  unfold hexa
  rw [Nat.toDigits_of_lt_base h]
  simp [digitChar16 h]

theorem hexa_ge {u : Nat} (h : 16 ≤ u) : hexa u = hexa (u / 16) ++ [hexChar (u % 16)] := by
  unfold hexa
  rw [Nat.toDigits_of_base_le (by omega) h]
  simp [digitChar16 (Nat.mod_lt u (by omega : 0 < 16))]

theorem hexa_pos (u : Nat) : 1 ≤ (hexa u).length := by
  by_cases h : u < 16
  · rw [hexa_lt h]; simp
  · rw [hexa_ge (by omega)]; simp

theorem tail16_zero (n : Nat) : tail16 0 n = List.replicate n 48 := by
  unfold tail16
  simp only [Nat.zero_div, Nat.zero_mod]
  rw [List.map_const', List.length_reverse, List.length_range]
  rfl

/-- With enough digits, all are written. -/
theorem tail16_all : ∀ (n u : Nat), 1 ≤ n → u < 16 ^ n → tail16 u n = pad 48 n (hexa u)
  | 0, u, h, _ => by omega
  | n + 1, u, _, h => by
    rw [tail16_succ]
    by_cases hu : u < 16
    · rw [hexa_lt hu, Nat.div_eq_of_lt hu, tail16_zero, Nat.mod_eq_of_lt hu]
      unfold pad
      congr 2
      simp
    · have hn : 1 ≤ n := by
        rcases Nat.eq_zero_or_pos n with rfl | h0
        · simp at h; omega
        · exact h0
      rw [tail16_all n (u / 16) hn (by rw [Nat.div_lt_iff_lt_mul (by omega), ← pow_succ]; exact h), hexa_ge (u := u) (by omega)]
      unfold pad
      rw [List.append_assoc]
      congr 2
      simp only [List.length_append, List.length_cons, List.length_nil]
      push_cast
      omega

/-- The number of digits. -/
theorem hexa_length : ∀ (n u : Nat), 1 ≤ n → ((hexa u).length ≤ n ↔ u < 16 ^ n)
  | 0, u, h => by omega
  | n + 1, u, _ => by
    by_cases hu : u < 16
    · rw [hexa_lt hu]
      have : 16 ^ 1 ≤ 16 ^ (n + 1) := Nat.pow_le_pow_right (by omega) (by omega)
      simp only [List.length_cons, List.length_nil]
      omega
    · rw [hexa_ge (by omega), List.length_append]
      rcases Nat.eq_zero_or_pos n with rfl | h0
      · have := hexa_pos (u / 16)
        simp only [List.length_cons, List.length_nil]
        omega
      · have := hexa_length n (u / 16) h0
        rw [Nat.div_lt_iff_lt_mul (by omega), ← pow_succ] at this
        simp only [List.length_cons, List.length_nil]
        omega

theorem tail16_drop (u n k : Nat) (h : k ≤ n) : (tail16 u n).drop (n - k) = tail16 u k := by
  unfold tail16
  rw [← List.map_drop]
  congr 1
  rw [List.drop_reverse, List.length_range]
  congr 1
  rw [List.take_range]
  congr 1
  omega

theorem lsh_zero {x : Int} (h0 : 0 ≤ x) (h1 : x < 2 ^ 63) {n : Nat} (hn : 1 ≤ n) (hn2 : n ≤ 15) :
    ∃ y, lsh 64 x (-4 * (n : Int)) = some y ∧ (y = 0 ↔ x.toNat < 16 ^ n) := by
  unfold lsh Verif.Arith.lshr Verif.Arith.cshr
  rw [if_neg (by omega)]
  have hp : Verif.Arith.promW 64 = 64 := rfl
  rw [hp, if_pos (by omega)]
  refine ⟨_, rfl, ?_⟩
  have e : pat 64 x = x.toNat := by unfold pat; rw [Int.emod_eq_of_lt h0 (by omega)]
  have e2 : (-(-4 * (n : Int))).toNat = 4 * n := by omega
  rw [e, e2, Nat.shiftRight_eq_div_pow, pow_mul]
  have hlt : x.toNat / (2 ^ 4) ^ n ≤ x.toNat := Nat.div_le_self _ _
  unfold sgn
  have : (2 ^ 4 : Nat) = 16 := rfl
  rw [this] at hlt ⊢
  obtain ⟨q, hq⟩ : ∃ q, q = x.toNat / 16 ^ n := ⟨_, rfl⟩
  rw [← hq] at hlt ⊢
  rw [Int.emod_eq_of_lt (by omega) (by omega)]
  simp only []
  rw [if_pos (by omega), hq]
  constructor
  · intro h
    have : x.toNat / 16 ^ n = 0 := by exact_mod_cast h
    rcases Nat.div_eq_zero_iff.1 this with h | h
    · have : 0 < 16 ^ n := Nat.pow_pos (by omega)
      omega
    · exact h
  · intro h
    rw [Nat.div_eq_of_lt h]; rfl

theorem hexLen_ok {x : Int} (h0 : 0 ≤ x) (h1 : x < 2 ^ 63) : ∀ (k : Nat), k ≤ 15 → 
    hexLen x k = some (if x.toNat < 16 ^ (16 - k) then 16 - k else (hexa x.toNat).length)
  | 0, _ => by
    have : x.toNat < 16 ^ 16 := by
      have : (2 : Nat) ^ 63 ≤ 16 ^ 16 := by decide
      omega
    simp only [hexLen]
    rw [if_pos this]
  | k + 1, hk => by
    simp only [hexLen]
    obtain ⟨y, e1, e2⟩ := lsh_zero h0 h1 (n := 16 - (k + 1)) (by omega) (by omega)
    have : (-4 * (((16 - (k + 1) : Nat)) : Int)) = -4 * ((16 : Int) - (k + 1 : Nat)) := by omega
    rw [this] at e1
    rw [e1, Option.bind_some]
    by_cases hy : y = 0
    · rw [if_neg (by simp [hy]), if_pos (e2.1 hy)]
    · rw [if_pos hy, hexLen_ok h0 h1 k (by omega), if_neg (fun h => hy (e2.2 h))]
      congr 1
      by_cases hs : x.toNat < 16 ^ (16 - k)
      · rw [if_pos hs]
        have a1 := (hexa_length (16 - k) x.toNat (by omega)).2 hs
        have a2 := (hexa_length (16 - (k + 1)) x.toNat (by omega)).1
        by_contra hc
        exact hy (e2.2 (a2 (by omega)))
      · rw [if_neg hs]

theorem hexText_ok {x n : Int} (h0 : -2 ^ 63 ≤ x) (h1 : x < 2 ^ 60) (h2 : n < 16) : hexText x n = some (Spec.hexText x n) := by
  unfold hexText
  have hcl : (if n < 1 then 1 else if 16 < n then 16 else n.toNat) = clamp n := by
    unfold clamp; split <;> [skip; split] <;> omega
  simp only [hcl]
  have hc1 : 1 ≤ clamp n := by unfold clamp; omega
  have hc2 : clamp n ≤ 15 := by unfold clamp; omega
  obtain ⟨c, hc⟩ : ∃ c, c = clamp n := ⟨_, rfl⟩
  unfold Spec.hexText
  rw [← hc] at hc1 hc2 ⊢
  by_cases hx : 0 ≤ x
  · rw [if_pos hx, if_pos hx, hexLen_ok hx (by omega) _ (by omega), Option.bind_some]
    have e16 : 16 - (16 - c) = c := by omega
    rw [e16]
    have hpat : pat 64 x = x.toNat := by unfold pat; rw [Int.emod_eq_of_lt hx (by omega)]
    by_cases hs : x.toNat < 16 ^ c
    · rw [if_pos hs, rotate_ok hc1 hc2, hpat, tail16_all c _ hc1 hs]
    · rw [if_neg hs]
      have hb : x.toNat < 16 ^ 15 := by
        have : (16 : Nat) ^ 15 = 2 ^ 60 := by decide
        omega
      have l1 := (hexa_length 15 x.toNat (by omega)).2 hb
      have l0 := hexa_pos x.toNat
      have l2 : ¬ (hexa x.toNat).length ≤ c := fun h => hs ((hexa_length c x.toNat hc1).1 h)
      rw [rotate_ok l0 l1, hpat, tail16_all _ _ l0 ((hexa_length _ x.toNat l0).1 (Nat.le_refl _))]
      unfold pad
      congr 2
      congr 1
      omega
  · rw [if_neg hx, if_neg hx, Option.bind_some, rotate_ok hc1 hc2]
    have hpat : pat 64 x = (x + 2 ^ 64).toNat := by
      unfold pat
      rw [← Int.add_emod_right, Int.emod_eq_of_lt (by omega) (by omega)]
    rw [hpat]
    have hlen : (hexa (x + 2 ^ 64).toNat).length = 16 := by
      have b1 : (x + 2 ^ 64).toNat < 16 ^ 16 := by
        have : (16 : Nat) ^ 16 = 2 ^ 64 := by decide
        omega
      have a1 := (hexa_length 16 (x + 2 ^ 64).toNat (by omega)).2 b1
      have a2 := (hexa_length 15 (x + 2 ^ 64).toNat (by omega)).1
      have b2 : ¬ (x + 2 ^ 64).toNat < 16 ^ 15 := by
        have : (16 : Nat) ^ 15 = 2 ^ 60 := by decide
        omega
      by_contra hne
      exact b2 (a2 (by omega))
    have hall := tail16_all 16 (x + 2 ^ 64).toNat (by omega) (by
      have : (16 : Nat) ^ 16 = 2 ^ 64 := by decide
      omega)
    have hp : pad 48 (16 : Nat) (hexa (x + 2 ^ 64).toNat) = hexa (x + 2 ^ 64).toNat := by
      unfold pad; rw [hlen]; simp
    rw [hp] at hall
    rw [← hall, tail16_drop _ _ _ (by omega)]

end Verif.Console
