import Verif.Common
import Verif.LongInts.Spec
import Verif.LongInts.Model
import Mathlib.Tactic.Ring

/-!
# C58: long integers
-/
namespace Verif.LongInts
open Verif.Sums (Out)

theorem bind_ok {α β : Type} (a : α) (f : α → Out β) : (Out.ok a).bind f = f a := rfl

theorem chkN_ok {t : Nat} (h : t ≤ 2147483647) : chkN t = .ok t := if_pos h

theorem B_eq : B = 32768 := rfl

theorem val_append (a b : List Nat) : val (a ++ b) = val a * 32768 ^ b.length + val b := by
  induction a with
  | nil => simp [val]
  | cons x a ih => simp only [List.cons_append, val, ih, List.length_append, Nat.pow_add]; ring

theorem val_lt (w : List Nat) (h : Digits w) : val w < 32768 ^ w.length := by
  induction w with
  | nil => simp [val]
  | cons x w ih =>
    have hx : x < 32768 := h x (by simp)
    have := ih fun y hy => h y (by simp [hy])
    simp only [val, List.length_cons, Nat.pow_succ]
    have h2 : x * 32768 ^ w.length ≤ 32767 * 32768 ^ w.length := Nat.mul_le_mul_right _ (by omega)
    omega

theorem val_zeros (w : List Nat) (h : ∀ x ∈ w, x = 0) : val w = 0 := by
  induction w with
  | nil => rfl
  | cons x w ih =>
    simp only [val, h x (by simp), ih fun y hy => h y (by simp [hy])]; simp

/-! ### The first digit that is not zero -/

theorem minLoop_spec (w : List Nat) : ∀ (n m : Nat), m ≤ minLoop w n m ∧ minLoop w n m ≤ m + n ∧ ∀ i, m ≤ i → i < minLoop w n m → w.getD i 0 = 0 := by
  intro n
  induction n with
  | zero => intro m; exact ⟨Nat.le_refl _, Nat.le_refl _, fun i h1 h2 => by simp only [minLoop] at h2; omega⟩
  | succ n ih =>
    intro m
    simp only [minLoop]
    by_cases h : w.getD m 0 = 0
    · rw [if_pos h]
      obtain ⟨h1, h2, h3⟩ := ih (m + 1)
      refine ⟨by omega, by omega, fun i hi1 hi2 => ?_⟩
      by_cases he : i = m
      · subst he; exact h
      · exact h3 i (by omega) hi2
    · rw [if_neg h]; exact ⟨Nat.le_refl _, by omega, fun i h1 h2 => by omega⟩

/-- What the procedures leave alone are zeros, and what they work on begins with one. -/
theorem split_zero (ds : List Nat) (hn : ds ≠ []) : ∃ n : Nat, n = minDigit (0 :: ds) - 1 ∧
    ((0 :: ds).take n = List.replicate n 0) ∧ ∃ xs, xs ≠ [] ∧ (0 :: ds).drop n = 0 :: xs ∧ n + xs.length = ds.length := by
  refine ⟨_, rfl, ?_⟩
  obtain ⟨h1, h2, h3⟩ := minLoop_spec (0 :: ds) ((0 :: ds).length - 1 - 1) 1
  change 1 ≤ minDigit (0 :: ds) at h1
  change minDigit (0 :: ds) ≤ _ at h2
  change ∀ i, 1 ≤ i → i < minDigit (0 :: ds) → _ at h3
  have hl : 1 ≤ ds.length := by cases ds with | nil => exact absurd rfl hn | cons => simp
  simp only [List.length_cons] at h2
  have hz : ∀ i, i < minDigit (0 :: ds) → (0 :: ds).getD i 0 = 0 := by
    intro i hi
    by_cases h0 : i = 0
    · subst h0; rfl
    · exact h3 i (by omega) hi
  generalize minDigit (0 :: ds) = q at *
  constructor
  · apply List.ext_getElem?
    intro i
    rw [List.getElem?_take, List.getElem?_replicate]
    by_cases hi : i < q - 1
    · rw [if_pos hi, if_pos hi]
      have := hz i (by omega)
      rw [List.getD_eq_getElem?_getD] at this
      have hlt : i < (0 :: ds).length := by simp; omega
      rw [List.getElem?_eq_getElem hlt] at this ⊢
      simpa using this
    · rw [if_neg hi, if_neg hi]
  · have hlt : q - 1 < (0 :: ds).length := by simp; omega
    refine ⟨(0 :: ds).drop (q - 1 + 1), ?_, ?_, ?_⟩
    · intro h
      have := congrArg List.length h
      simp at this; omega
    · rw [List.drop_eq_getElem_cons hlt]
      congr 1
      have := hz (q - 1) (by omega)
      rw [List.getD_eq_getElem?_getD, List.getElem?_eq_getElem hlt] at this
      simpa using this
    · simp; omega

/-! ### Multiplication -/

theorem multR_ok (digit k : Nat) (hd : 0 < digit) (hb : digit ≤ 32768) (hk : k < digit) : ∀ xs, Digits xs →
    ∃ c ys, multR digit k xs = .ok (c, ys) ∧ c < digit ∧ Digits ys ∧ ys.length = xs.length ∧ c * 32768 ^ xs.length + val ys = val xs * digit + k := by
  intro xs
  induction xs with
  | nil => intro _; exact ⟨k, [], rfl, hk, fun _ h => by simp at h, rfl, by simp [val]⟩
  | cons x xs ih =>
    intro h
    obtain ⟨c, ys, e, hc, hy, hl, hv⟩ := ih fun y hy => h y (by simp [hy])
    have hx : x < 32768 := h x (by simp)
    have hm : x * digit ≤ 32767 * digit := Nat.mul_le_mul_right _ (by omega)
    have ht : x * digit + c < 32768 * digit := by omega
    refine ⟨(x * digit + c) / B, (x * digit + c) % B :: ys, ?_, ?_, ?_, ?_, ?_⟩
    · simp only [multR, e, bind_ok]
      rw [chkN_ok (by omega), bind_ok]
    · rw [B_eq]; omega
    · intro y hy'
      rcases List.mem_cons.mp hy' with rfl | hy'
      · rw [B_eq]; omega
      · exact hy y hy'
    · simp [hl]
    · simp only [val, List.length_cons, Nat.pow_succ, hl, B_eq]
      have hdm : 32768 * ((x * digit + c) / 32768) + (x * digit + c) % 32768 = x * digit + c := Nat.div_add_mod _ _
      calc (x * digit + c) / 32768 * (32768 ^ xs.length * 32768) + ((x * digit + c) % 32768 * 32768 ^ xs.length + val ys)
          = (32768 * ((x * digit + c) / 32768) + (x * digit + c) % 32768) * 32768 ^ xs.length + val ys := by ring
        _ = (x * digit + c) * 32768 ^ xs.length + val ys := by rw [hdm]
        _ = x * digit * 32768 ^ xs.length + (c * 32768 ^ xs.length + val ys) := by ring
        _ = _ := by rw [hv]; ring

theorem val_replicate (n : Nat) : val (List.replicate n 0) = 0 := val_zeros _ fun _ h => (List.mem_replicate.mp h).2

/-- **C58**.  `MultDigit(w, digit, k)` multiplies by `digit` and adds `k`, exactly, if the first element is free to take the carry. -/
theorem C58_mult (ds : List Nat) (hn : ds ≠ []) (h : Digits ds) (digit k : Nat) (hd : 0 < digit) (hb : digit ≤ 32768) (hk : k < digit) :
    ∃ w', multDigit (0 :: ds) digit k = .ok w' ∧ w'.length = ds.length + 1 ∧ Digits w' ∧ val w' = val ds * digit + k := by
  obtain ⟨n, hnd, ht, xs, hx, hdr, hlen⟩ := split_zero ds hn
  have hD : Digits (0 :: ds) := by
    intro y hy
    rcases List.mem_cons.mp hy with rfl | hy
    · omega
    · exact h y hy
  have hDx : Digits xs := by
    intro y hy
    apply hD
    apply List.mem_of_mem_drop (i := n)
    rw [hdr]; simp [hy]
  obtain ⟨c, ys, e, hc, hy, hl, hv⟩ := multR_ok digit k hd hb hk xs hDx
  have hval : val ds = val xs := by
    have h1 : val (0 :: ds) = val ((0 :: ds).take n ++ (0 :: ds).drop n) := by rw [List.take_append_drop]
    rw [ht, hdr, val_append, val_replicate] at h1
    simpa [val] using h1
  refine ⟨List.replicate n 0 ++ (c :: ys), ?_, by simp; omega, ?_, ?_⟩
  · unfold multDigit
    simp only [← hnd]
    rw [hdr, ht]
    simp only [multR, e, bind_ok, Nat.zero_mul, Nat.zero_add]
    rw [chkN_ok (by omega), bind_ok, bind_ok, B_eq, Nat.mod_eq_of_lt (by omega)]
  · intro y hy'
    rcases List.mem_append.mp hy' with hy' | hy'
    · have := (List.mem_replicate.mp hy').2; omega
    · rcases List.mem_cons.mp hy' with rfl | hy'
      · omega
      · exact hy y hy'
  · rw [val_append, val_replicate]
    simp only [val, Nat.zero_mul, Nat.zero_add, hl]
    rw [hv, hval]

/-! ### Addition -/

theorem addR_ok (k : Nat) (hk : k ≤ 1073709056) : ∀ xs, Digits xs →
    ∃ c ys, addR k xs = .ok (c, ys) ∧ c ≤ k ∧ Digits ys ∧ ys.length = xs.length ∧ c * 32768 ^ xs.length + val ys = val xs + k := by
  intro xs
  induction xs with
  | nil => intro _; exact ⟨k, [], rfl, Nat.le_refl _, fun _ h => by simp at h, rfl, by simp [val]⟩
  | cons x xs ih =>
    intro h
    obtain ⟨c, ys, e, hc, hy, hl, hv⟩ := ih fun y hy => h y (by simp [hy])
    have hx : x < 32768 := h x (by simp)
    refine ⟨(x + c) / B, (x + c) % B :: ys, ?_, ?_, ?_, ?_, ?_⟩
    · simp only [addR, e, bind_ok]
      rw [chkN_ok (by omega), bind_ok]
    · rw [B_eq]; omega
    · intro y hy'
      rcases List.mem_cons.mp hy' with rfl | hy'
      · rw [B_eq]; omega
      · exact hy y hy'
    · simp [hl]
    · simp only [val, List.length_cons, Nat.pow_succ, hl, B_eq]
      have hdm : 32768 * ((x + c) / 32768) + (x + c) % 32768 = x + c := Nat.div_add_mod _ _
      calc (x + c) / 32768 * (32768 ^ xs.length * 32768) + ((x + c) % 32768 * 32768 ^ xs.length + val ys)
          = (32768 * ((x + c) / 32768) + (x + c) % 32768) * 32768 ^ xs.length + val ys := by ring
        _ = (x + c) * 32768 ^ xs.length + val ys := by rw [hdm]
        _ = x * 32768 ^ xs.length + (c * 32768 ^ xs.length + val ys) := by ring
        _ = _ := by rw [hv]; ring

/-- **C58**.  `AddDigit(w, k)` adds `k`, exactly, if the first element is free to take the carry. -/
theorem C58_add (ds : List Nat) (hn : ds ≠ []) (h : Digits ds) (k : Nat) (hk : k ≤ 32767 * 32768) :
    ∃ w', addDigit (0 :: ds) k = .ok w' ∧ w'.length = ds.length + 1 ∧ Digits w' ∧ val w' = val ds + k := by
  obtain ⟨n, hnd, ht, xs, hx, hdr, hlen⟩ := split_zero ds hn
  have hD : Digits (0 :: ds) := by
    intro y hy
    rcases List.mem_cons.mp hy with rfl | hy
    · omega
    · exact h y hy
  have hDx : Digits xs := by
    intro y hy
    apply hD
    apply List.mem_of_mem_drop (i := n)
    rw [hdr]; simp [hy]
  obtain ⟨c, ys, e, hc, hy, hl, hv⟩ := addR_ok k (by omega) xs hDx
  have hval : val ds = val xs := by
    have h1 : val (0 :: ds) = val ((0 :: ds).take n ++ (0 :: ds).drop n) := by rw [List.take_append_drop]
    rw [ht, hdr, val_append, val_replicate] at h1
    simpa [val] using h1
  have hcs : c < 32768 := by
    by_contra hge
    have hvx := val_lt xs hDx
    have hp : 32768 ≤ 32768 ^ xs.length := by
      have : xs.length ≠ 0 := fun h => hx (List.length_eq_zero_iff.mp h)
      calc 32768 = 32768 ^ 1 := rfl
        _ ≤ _ := Nat.pow_le_pow_right (by omega) (by omega)
    have h1 : 32768 * 32768 ^ xs.length ≤ c * 32768 ^ xs.length := Nat.mul_le_mul_right _ (by omega)
    omega
  refine ⟨List.replicate n 0 ++ (c :: ys), ?_, by simp; omega, ?_, ?_⟩
  · unfold addDigit
    simp only [← hnd]
    rw [hdr, ht]
    simp only [addR, e, bind_ok, Nat.zero_add]
    rw [chkN_ok (by omega), bind_ok, bind_ok, B_eq, Nat.mod_eq_of_lt (by omega)]
  · intro y hy'
    rcases List.mem_append.mp hy' with hy' | hy'
    · have := (List.mem_replicate.mp hy').2; omega
    · rcases List.mem_cons.mp hy' with rfl | hy'
      · omega
      · exact hy y hy'
  · rw [val_append, val_replicate]
    simp only [val, Nat.zero_mul, Nat.zero_add, hl]
    rw [hv, hval]

/-! ### Division -/

theorem divL_ok (digit : Nat) (hd : 0 < digit) (hb : digit ≤ 32768) : ∀ xs r, Digits xs → r < digit →
    ∃ ys s, divL digit r xs = .ok (ys, s) ∧ Digits ys ∧ ys.length = xs.length ∧ s < digit ∧ r * 32768 ^ xs.length + val xs = val ys * digit + s := by
  intro xs
  induction xs with
  | nil => intro r _ hr; exact ⟨[], r, rfl, fun _ h => by simp at h, rfl, hr, by simp [val]⟩
  | cons x xs ih =>
    intro r h hr
    have hx : x < 32768 := h x (by simp)
    have hB := B_eq
    have hrm : r * 32768 ≤ (digit - 1) * 32768 := Nat.mul_le_mul_right _ (by omega)
    have ht : r * B + x < digit * 32768 := by rw [hB]; omega
    obtain ⟨ys, s, e, hy, hl, hs, hv⟩ := ih ((r * B + x) % digit) (fun y hy => h y (by simp [hy])) (Nat.mod_lt _ hd)
    have hq : (r * B + x) / digit < 32768 := (Nat.div_lt_iff_lt_mul hd).mpr (by omega)
    refine ⟨(r * B + x) / digit :: ys, s, ?_, ?_, by simp [hl], hs, ?_⟩
    · simp only [divL]
      rw [chkN_ok (by omega), bind_ok, e, bind_ok]
      have : shortN ((r * B + x) / digit) = (r * B + x) / digit := Nat.mod_eq_of_lt (by omega)
      rw [this]
    · intro y hy'
      rcases List.mem_cons.mp hy' with rfl | hy'
      · exact hq
      · exact hy y hy'
    · simp only [val, List.length_cons, Nat.pow_succ, hl]
      have hdm : digit * ((r * B + x) / digit) + (r * B + x) % digit = r * B + x := Nat.div_add_mod _ _
      calc r * (32768 ^ xs.length * 32768) + (x * 32768 ^ xs.length + val xs) = (r * B + x) * 32768 ^ xs.length + val xs := by rw [hB]; ring
        _ = (digit * ((r * B + x) / digit) + (r * B + x) % digit) * 32768 ^ xs.length + val xs := by rw [hdm]
        _ = digit * ((r * B + x) / digit) * 32768 ^ xs.length + ((r * B + x) % digit * 32768 ^ xs.length + val xs) := by ring
        _ = _ := by rw [hv]; ring

/-- **C58**.  `DivDigit(w, digit, r)` divides by `digit` and gives the remainder, exactly. -/
theorem C58_div (ds : List Nat) (hn : ds ≠ []) (h : Digits ds) (digit : Nat) (hd : 0 < digit) (hb : digit ≤ 32768) :
    ∃ ds', divDigit (0 :: ds) digit = .ok (0 :: ds', val ds % digit) ∧ ds'.length = ds.length ∧ Digits ds' ∧ val ds' = val ds / digit := by
  obtain ⟨n, hnd, ht, xs, hx, hdr, hlen⟩ := split_zero ds hn
  have hD : Digits (0 :: ds) := by
    intro y hy
    rcases List.mem_cons.mp hy with rfl | hy
    · omega
    · exact h y hy
  have hDx : Digits xs := by
    intro y hy
    apply hD
    apply List.mem_of_mem_drop (i := n)
    rw [hdr]; simp [hy]
  obtain ⟨ys, s, e, hy, hl, hs, hv⟩ := divL_ok digit hd hb xs 0 hDx hd
  have hval : val ds = val xs := by
    have h1 : val (0 :: ds) = val ((0 :: ds).take n ++ (0 :: ds).drop n) := by rw [List.take_append_drop]
    rw [ht, hdr, val_append, val_replicate] at h1
    simpa [val] using h1
  rw [Nat.zero_mul, Nat.zero_add] at hv
  have hrep : List.replicate n 0 ++ 0 :: ys = 0 :: (List.replicate n 0 ++ ys) := by
    rw [← List.cons_append, ← List.replicate_succ, List.replicate_succ', List.append_assoc]; rfl
  refine ⟨List.replicate n 0 ++ ys, ?_, by simp; omega, ?_, ?_⟩
  · unfold divDigit
    simp only [← hnd]
    rw [hdr, ht]
    simp only [divL, Nat.zero_mul, Nat.zero_add]
    rw [chkN_ok (by omega), bind_ok, Nat.zero_mod, e, bind_ok, bind_ok, Nat.zero_div]
    have h0 : shortN 0 = 0 := rfl
    rw [h0, hrep, hval, hv]
    congr 2
    rw [Nat.mul_comm, Nat.mul_add_mod, Nat.mod_eq_of_lt hs]
  · intro y hy'
    rcases List.mem_append.mp hy' with hy' | hy'
    · have := (List.mem_replicate.mp hy').2; omega
    · exact hy y hy'
  · rw [val_append, val_replicate, Nat.zero_mul, Nat.zero_add, hval, hv, Nat.mul_comm, Nat.mul_add_div hd, Nat.div_eq_of_lt hs, Nat.add_zero]

/-! ### Powers of ten -/

theorem head_zero (w : List Nat) (n : Nat) (hl : w.length = n + 1) (h : val w < 32768 ^ n) : ∃ ds, w = 0 :: ds ∧ ds.length = n ∧ val w = val ds := by
  cases w with
  | nil => simp at hl
  | cons x w =>
    have hl' : w.length = n := by simpa using hl
    simp only [val, hl'] at h
    have hx : x = 0 := by
      by_contra hne
      have : 1 * 32768 ^ n ≤ x * 32768 ^ n := Nat.mul_le_mul_right _ (by omega)
      omega
    subst hx
    exact ⟨w, rfl, hl', by simp [val]⟩

theorem multTimes_ok (digit : Nat) (hd : 0 < digit) (hb : digit ≤ 32768) : ∀ (n : Nat) (ds : List Nat), ds ≠ [] → Digits ds →
    val ds * digit ^ n < 32768 ^ ds.length →
    ∃ ds', multTimes digit n (0 :: ds) = .ok (0 :: ds') ∧ ds'.length = ds.length ∧ Digits ds' ∧ val ds' = val ds * digit ^ n := by
  intro n
  induction n with
  | zero => intro ds _ h _; exact ⟨ds, rfl, rfl, h, by simp⟩
  | succ n ih =>
    intro ds hn h hlt
    obtain ⟨w, e, hl, hD, hv⟩ := C58_mult ds hn h digit 0 hd hb hd
    have h1 : val ds * digit ≤ val ds * digit ^ (n + 1) := Nat.mul_le_mul_left _ (Nat.le_self_pow (by omega) _)
    obtain ⟨ds1, rfl, hl1, hv1⟩ := head_zero w ds.length hl (by omega)
    have hne : ds1 ≠ [] := by
      intro h0; subst h0
      exact hn (List.length_eq_zero_iff.mp (by simpa using hl1.symm))
    have hval1 : val ds1 = val ds * digit := by omega
    obtain ⟨ds', e', hl', hD', hv'⟩ := ih ds1 hne (fun y hy => hD y (by simp [hy]))
      (by rw [hval1, hl1, Nat.mul_assoc, ← Nat.pow_succ']; exact hlt)
    refine ⟨ds', ?_, hl'.trans hl1, hD', ?_⟩
    · simp only [multTimes]; rw [e, bind_ok]; exact e'
    · rw [hv', hval1, Nat.mul_assoc, ← Nat.pow_succ']

theorem divTimes_ok (digit : Nat) (hd : 0 < digit) (hb : digit ≤ 32768) : ∀ (n : Nat) (ds : List Nat), ds ≠ [] → Digits ds →
    ∃ ds', divTimes digit n (0 :: ds) = .ok (0 :: ds') ∧ ds'.length = ds.length ∧ Digits ds' ∧ val ds' = val ds / digit ^ n := by
  intro n
  induction n with
  | zero => intro ds _ h; exact ⟨ds, rfl, rfl, h, by simp⟩
  | succ n ih =>
    intro ds hn h
    obtain ⟨ds1, e, hl, hD, hv⟩ := C58_div ds hn h digit hd hb
    have hne : ds1 ≠ [] := by
      intro h0; subst h0
      exact hn (List.length_eq_zero_iff.mp (by simpa using hl.symm))
    obtain ⟨ds', e', hl', hD', hv'⟩ := ih ds1 hne hD
    refine ⟨ds', ?_, hl'.trans hl, hD', ?_⟩
    · simp only [divTimes]; rw [e, bind_ok]; exact e'
    · rw [hv', hv, Nat.div_div_eq_div_mul, ← Nat.pow_succ']

/-- **C58**.  `TenPower(x, p)` multiplies by the `p`-th power of ten, exactly, if the product fits; for negative `p` it divides and
drops the fraction. -/
theorem C58_ten_power (ds : List Nat) (hn : ds ≠ []) (h : Digits ds) (p : Nat) :
    (val ds * 10 ^ p < 32768 ^ ds.length →
      ∃ ds', tenPower (0 :: ds) p = .ok (0 :: ds') ∧ ds'.length = ds.length ∧ Digits ds' ∧ val ds' = val ds * 10 ^ p) ∧
    ∃ ds', tenPower (0 :: ds) (-(p : Int)) = .ok (0 :: ds') ∧ ds'.length = ds.length ∧ Digits ds' ∧ val ds' = val ds / 10 ^ p := by
  have hp : 10 ^ p = 10000 ^ (p / 4) * 10 ^ (p % 4) := by
    have : (10000 : Nat) = 10 ^ 4 := rfl
    rw [this, ← Nat.pow_mul, ← Nat.pow_add, Nat.div_add_mod]
  have e1 : ((p : Int) / 4).toNat = p / 4 := by omega
  have e2 : ((p : Int) % 4).toNat = p % 4 := by omega
  have ne : ∀ d : List Nat, d.length = ds.length → d ≠ [] := by
    intro d hd h0; subst h0
    exact hn (List.length_eq_zero_iff.mp (by simpa using hd.symm))
  constructor
  · intro hlt
    by_cases h0 : p = 0
    · subst h0; exact ⟨ds, rfl, rfl, h, by simp⟩
    · unfold tenPower
      rw [if_pos (by omega), e1, e2]
      have hle : val ds * 10000 ^ (p / 4) ≤ val ds * 10 ^ p := by
        rw [hp]; exact Nat.mul_le_mul_left _ (Nat.le_mul_of_pos_right _ (Nat.pow_pos (by omega)))
      obtain ⟨d1, f1, l1, D1, v1⟩ := multTimes_ok 10000 (by omega) (by omega) (p / 4) ds hn h (by omega)
      obtain ⟨d2, f2, l2, D2, v2⟩ := multTimes_ok 10 (by omega) (by omega) (p % 4) d1 (ne d1 l1) D1
        (by rw [v1, l1, Nat.mul_assoc, ← hp]; exact hlt)
      refine ⟨d2, ?_, l2.trans l1, D2, ?_⟩
      · rw [f1, bind_ok, f2]
      · rw [v2, v1, Nat.mul_assoc, ← hp]
  · by_cases h0 : p = 0
    · subst h0; exact ⟨ds, rfl, rfl, h, by simp⟩
    · unfold tenPower
      rw [if_neg (by omega), if_pos (by omega), Int.neg_neg, e1, e2]
      obtain ⟨d1, f1, l1, D1, v1⟩ := divTimes_ok 10000 (by omega) (by omega) (p / 4) ds hn h
      obtain ⟨d2, f2, l2, D2, v2⟩ := divTimes_ok 10 (by omega) (by omega) (p % 4) d1 (ne d1 l1) D1
      refine ⟨d2, ?_, l2.trans l1, D2, ?_⟩
      · rw [f1, bind_ok, f2]
      · rw [v2, v1, Nat.div_div_eq_div_mul, ← hp]

/-! ### Powers of the base -/

theorem downLoop_ok (p : Nat) (hp : 0 < p) : ∀ (n i : Nat) (x : List Nat), i + n + p ≤ x.length →
    ∃ y, downLoop p n i x = .ok y ∧ y.length = x.length ∧ ∀ j : Nat, y[j]? = if i ≤ j ∧ j < i + n then x[j + p]? else x[j]? := by
  intro n
  induction n with
  | zero => intro i x _; exact ⟨x, rfl, rfl, fun j => by rw [if_neg (by omega)]⟩
  | succ n ih =>
    intro i x h
    have hlt : i + p < x.length := by omega
    simp only [downLoop, List.getElem?_eq_getElem hlt]
    obtain ⟨y, e, hl, hy⟩ := ih (i + 1) (x.set i x[i + p]) (by simp; omega)
    refine ⟨y, e, by rw [hl]; simp, fun j => ?_⟩
    rw [hy j]
    by_cases h1 : i + 1 ≤ j ∧ j < i + 1 + n
    · rw [if_pos h1, if_pos (by omega), List.getElem?_set_ne (by omega)]
    · rw [if_neg h1]
      by_cases h2 : j = i
      · subst h2
        rw [if_pos (by omega), List.getElem?_set_self (by omega), List.getElem?_eq_getElem hlt]
      · rw [if_neg (by omega), List.getElem?_set_ne (by omega)]

theorem zeroLoop_ok : ∀ (n i : Nat) (x : List Nat), i + n ≤ x.length →
    ∃ y, zeroLoop n i x = .ok y ∧ y.length = x.length ∧ ∀ j : Nat, y[j]? = if i ≤ j ∧ j < i + n then some 0 else x[j]? := by
  intro n
  induction n with
  | zero => intro i x _; exact ⟨x, rfl, rfl, fun j => by rw [if_neg (by omega)]⟩
  | succ n ih =>
    intro i x h
    simp only [zeroLoop]
    rw [if_pos (by omega)]
    obtain ⟨y, e, hl, hy⟩ := ih (i + 1) (x.set i 0) (by simp; omega)
    refine ⟨y, e, by rw [hl]; simp, fun j => ?_⟩
    rw [hy j]
    by_cases h1 : i + 1 ≤ j ∧ j < i + 1 + n
    · rw [if_pos h1, if_pos (by omega)]
    · rw [if_neg h1]
      by_cases h2 : j = i
      · subst h2
        rw [if_pos (by omega), List.getElem?_set_self (by omega)]
      · rw [if_neg (by omega), List.getElem?_set_ne (by omega)]

theorem upLoop_ok (p : Nat) (hp : 0 < p) : ∀ (n : Nat) (x : List Nat), n + p < x.length →
    ∃ y, upLoop p n x = .ok y ∧ y.length = x.length ∧ ∀ j : Nat, y[j]? = if p + 1 ≤ j ∧ j ≤ n + p then x[j - p]? else x[j]? := by
  intro n
  induction n with
  | zero => intro x _; exact ⟨x, rfl, rfl, fun j => by rw [if_neg (by omega)]⟩
  | succ n ih =>
    intro x h
    have hlt : n + 1 < x.length := by omega
    simp only [upLoop, List.getElem?_eq_getElem hlt]
    rw [if_pos (by omega)]
    obtain ⟨y, e, hl, hy⟩ := ih (x.set (n + 1 + p) x[n + 1]) (by simp; omega)
    refine ⟨y, e, by rw [hl]; simp, fun j => ?_⟩
    rw [hy j]
    by_cases h1 : p + 1 ≤ j ∧ j ≤ n + p
    · rw [if_pos h1, if_pos (by omega), List.getElem?_set_ne (by omega)]
    · rw [if_neg h1]
      by_cases h2 : j = n + 1 + p
      · subst h2
        rw [if_pos (by omega), List.getElem?_set_self (by omega)]
        have : n + 1 + p - p = n + 1 := by omega
        rw [this, List.getElem?_eq_getElem hlt]
      · rw [if_neg (by omega), List.getElem?_set_ne (by omega)]

/-- **C58**.  `BPower(x, p)` shifts by `p` digits: it multiplies by the `p`-th power of 8000H if the product fits, and for negative
`p` divides and drops the fraction. -/
theorem C58_base_power (ds : List Nat) (h : Digits ds) (p : Nat) (hp : p ≤ ds.length) :
    (val ds * 32768 ^ p < 32768 ^ ds.length →
      ∃ ds', bPower (0 :: ds) p = .ok (0 :: ds') ∧ ds'.length = ds.length ∧ Digits ds' ∧ val ds' = val ds * 32768 ^ p) ∧
    ∃ ds', bPower (0 :: ds) (-(p : Int)) = .ok (0 :: ds') ∧ ds'.length = ds.length ∧ Digits ds' ∧ val ds' = val ds / 32768 ^ p := by
  have hz : ∀ q : Nat, Digits (List.replicate q 0) := fun q y hy => by have := (List.mem_replicate.mp hy).2; omega
  constructor
  · intro hlt
    by_cases h0 : p = 0
    · subst h0; exact ⟨ds, rfl, rfl, h, by simp⟩
    · refine ⟨ds.drop p ++ List.replicate p 0, ?_, by simp; omega, ?_, ?_⟩
      · unfold bPower
        simp only
        rw [if_pos (by omega), Int.toNat_natCast, if_neg (by simp; omega)]
        obtain ⟨y, e, hl, hy⟩ := downLoop_ok p (by omega) ((0 :: ds).length - 1 - p) 1 (0 :: ds) (by simp; omega)
        rw [e, bind_ok]
        obtain ⟨z, e2, hl2, hz2⟩ := zeroLoop_ok p ((0 :: ds).length - p) y (by rw [hl]; simp; omega)
        rw [e2]
        congr 1
        apply List.ext_getElem?
        intro j
        rw [hz2 j, hy j]
        simp only [List.length_cons]
        cases j with
        | zero => rw [if_neg (by omega), if_neg (by omega)]; rfl
        | succ j =>
          simp only [List.getElem?_cons_succ]
          by_cases h1 : j < ds.length - p
          · rw [if_neg (by omega), if_pos (by omega), List.getElem?_append_left (by simp; omega), List.getElem?_drop]
            have : j + 1 + p = (p + j) + 1 := by omega
            rw [this, List.getElem?_cons_succ]
          · rw [List.getElem?_append_right (by simp; omega)]
            by_cases h2 : j < ds.length
            · rw [if_pos (by omega), List.getElem?_replicate, if_pos (by simp; omega)]
            · rw [if_neg (by omega), if_neg (by omega), List.getElem?_replicate, if_neg (by simp; omega), List.getElem?_eq_none (by omega)]
      · intro y hy
        rcases List.mem_append.mp hy with hy | hy
        · exact h y (List.mem_of_mem_drop hy)
        · exact hz p y hy
      · have hs : val ds = val (ds.take p ++ ds.drop p) := by rw [List.take_append_drop]
        rw [val_append] at hs
        have hlen : (ds.drop p).length = ds.length - p := by simp
        have hpow : 32768 ^ ds.length = 32768 ^ (ds.length - p) * 32768 ^ p := by rw [← Nat.pow_add]; congr 1; omega
        have hvlt : val ds < 32768 ^ (ds.length - p) := by
          rw [hpow] at hlt
          exact Nat.lt_of_mul_lt_mul_right hlt
        have ht : val (ds.take p) = 0 := by
          by_contra hne
          have : 1 * 32768 ^ (ds.length - p) ≤ val (ds.take p) * 32768 ^ (ds.length - p) := Nat.mul_le_mul_right _ (by omega)
          rw [hlen] at hs; omega
        rw [ht, Nat.zero_mul, Nat.zero_add] at hs
        rw [val_append, val_replicate, ← hs]; simp
  · by_cases h0 : p = 0
    · subst h0; exact ⟨ds, rfl, rfl, h, by simp⟩
    · refine ⟨List.replicate p 0 ++ ds.take (ds.length - p), ?_, by simp; omega, ?_, ?_⟩
      · unfold bPower
        simp only
        have hq : (- -(p : Int)).toNat = p := by omega
        rw [if_neg (by omega), if_pos (by omega), hq]
        obtain ⟨y, e, hl, hy⟩ := upLoop_ok p (by omega) ((0 :: ds).length - 1 - p) (0 :: ds) (by simp; omega)
        rw [e, bind_ok]
        obtain ⟨z, e2, hl2, hz2⟩ := zeroLoop_ok p 1 y (by rw [hl]; simp; omega)
        rw [e2]
        congr 1
        apply List.ext_getElem?
        intro j
        rw [hz2 j, hy j]
        simp only [List.length_cons]
        cases j with
        | zero => rw [if_neg (by omega), if_neg (by omega)]; rfl
        | succ j =>
          simp only [List.getElem?_cons_succ]
          by_cases h1 : j < p
          · rw [if_pos (by omega), List.getElem?_append_left (by simp; omega), List.getElem?_replicate, if_pos h1]
          · rw [List.getElem?_append_right (by simp; omega), List.length_replicate, List.getElem?_take]
            by_cases h2 : j < ds.length
            · rw [if_neg (by omega), if_pos (by omega), if_pos (by omega)]
              have : j + 1 - p = (j - p) + 1 := by omega
              rw [this, List.getElem?_cons_succ]
            · rw [if_neg (by omega), if_neg (by omega), if_neg (by omega), List.getElem?_eq_none (by omega)]
      · intro y hy
        rcases List.mem_append.mp hy with hy | hy
        · exact hz p y hy
        · exact h y (List.mem_of_mem_take hy)
      · rw [val_append, val_replicate, Nat.zero_mul, Nat.zero_add]
        have hs : val ds = val (ds.take (ds.length - p) ++ ds.drop (ds.length - p)) := by rw [List.take_append_drop]
        rw [val_append] at hs
        have hlen : (ds.drop (ds.length - p)).length = p := by simp; omega
        rw [hlen] at hs
        have hr : val (ds.drop (ds.length - p)) < 32768 ^ p := by
          have := val_lt (ds.drop (ds.length - p)) fun y hy => h y (List.mem_of_mem_drop hy)
          rwa [hlen] at this
        rw [hs, Nat.mul_comm, Nat.mul_add_div (Nat.pow_pos (by omega)), Nat.div_eq_of_lt hr, Nat.add_zero]

/-! ### Examples, and where the module fails -/

example : val [0, 0, 12345] * 10 ^ 6 < 32768 ^ 3 := by decide +kernel
example : (tenPower [0, 0, 0, 12345] 6).bind (fun w => .ok (val w)) = .ok 12345000000 := by decide +kernel
example : (tenPower [0, 11, 16256, 12345] (-6)).bind (fun w => .ok (val w)) = .ok (val [11, 16256, 12345] / 10 ^ 6) := by decide +kernel
example : bPower [0, 0, 0, 7] 2 = .ok [0, 7, 0, 0] ∧ bPower [0, 7, 8, 9] (-1) = .ok [0, 0, 7, 8] := by decide +kernel
example : multDigit [0, 32767, 32767] 32768 32767 = .ok [32767, 32767, 32767] ∧ divDigit [0, 5, 1] 10 = .ok ([0, 0, 16384], 1) := by decide +kernel

/-- If the first element is not zero while the second is, the procedures overlook it. -/
theorem C58_guard : multDigit [1, 0, 0, 1] 2 0 = .ok [1, 0, 0, 2] ∧ divDigit [1, 0, 0, 1] 2 = .ok ([1, 0, 0, 0], 1) ∧
    val [1, 0, 0, 2] ≠ val [1, 0, 0, 1] * 2 := by decide +kernel

/-- A carry beyond the first element is lost. -/
theorem C58_overflow : multDigit [32767, 1] 2 0 = .ok [32766, 2] ∧ val [32766, 2] ≠ val [32767, 1] * 2 := by decide +kernel

end Verif.LongInts
