import Verif.Sums.Spec
import Verif.Sums.Model

/-!
# Lemmas about the two checksums
-/
namespace Verif.Sums

theorem Out.bind_ok {α β : Type} (a : α) (f : α → Out β) : (Out.ok a).bind f = f a := rfl

/-! ## Adler-32 -/

/-- The sum of the bytes. -/
def total : List (BitVec 8) → Nat
  | [] => 0
  | x :: xs => x.toNat + total xs

/-- The sum of the sums after each byte. -/
def total2 (a : Nat) : List (BitVec 8) → Nat
  | [] => 0
  | x :: xs => (a + x.toNat) + total2 (a + x.toNat) xs

theorem chk_ok {x : Int} (h0 : 0 ≤ x) (h : x ≤ 2147483647) : chk x = .ok x := by
  unfold chk; rw [if_pos ⟨by omega, h⟩]

theorem at_ok {buf : List (BitVec 8)} {o : Nat} {b : BitVec 8} (h : buf[o]? = some b) : at_ buf o = .ok b := by
  unfold at_
  rw [if_pos (by omega)]
  simp [h]

/-- The inner loop without overflow adds up the bytes. -/
theorem adlerRun_ok (buf : List (BitVec 8)) : ∀ (k : Nat) (o : Nat) (xs : List (BitVec 8)) (a b : Nat),
    (buf.drop o).take k = xs → xs.length = k → a + total xs ≤ 2147483647 → b + total2 a xs ≤ 2147483647 →
    adlerRun buf k a b o = .ok (((a + total xs : Nat) : Int), ((b + total2 a xs : Nat) : Int), ((o + k : Nat) : Int)) := by
  intro k
  induction k with
  | zero =>
    intro o xs a b h hl _ _
    have : xs = [] := List.length_eq_zero_iff.mp hl
    subst this
    simp [adlerRun, total, total2]
  | succ k ih =>
    intro o xs a b h hl h1 h2
    cases xs with
    | nil => simp at hl
    | cons x xs =>
      have hx : buf[o]? = some x := by
        have h' := congrArg (fun l => l[0]?) h
        simpa [List.getElem?_take, List.getElem?_drop] using h'
      have ho : o < buf.length := (List.getElem?_eq_some_iff.mp hx).1
      have htl : (buf.drop (o + 1)).take k = xs := by
        rw [List.drop_eq_getElem_cons ho, List.take_succ_cons] at h
        exact (List.cons.inj h).2
      simp only [total] at h1
      simp only [total2] at h2
      have e1 : ((a : Int) + (x.toNat : Int)) = ((a + x.toNat : Nat) : Int) := by omega
      have e2 : ((b : Int) + ((a + x.toNat : Nat) : Int)) = ((b + (a + x.toNat) : Nat) : Int) := by omega
      have e3 : ((o : Int) + 1) = ((o + 1 : Nat) : Int) := by omega
      simp only [adlerRun]
      rw [at_ok hx, Out.bind_ok, e1, chk_ok (by omega) (by omega), Out.bind_ok, e2, chk_ok (by omega) (by omega), Out.bind_ok, e3,
        ih (o + 1) xs (a + x.toNat) (b + (a + x.toNat)) htl (by simpa using hl) (by omega) (by omega)]
      have t1 : a + x.toNat + total xs = a + total (x :: xs) := by simp only [total]; omega
      have t2 : b + (a + x.toNat) + total2 (a + x.toNat) xs = b + total2 a (x :: xs) := by simp only [total2]; omega
      have t3 : o + 1 + k = o + (k + 1) := by omega
      rw [t1, t2, t3]

theorem adlerSpec_mod (xs : List (BitVec 8)) : ∀ a b : Nat,
    adlerSpec (a % 65521) (b % 65521) (xs.map BitVec.toNat) = ((a + total xs) % 65521, (b + total2 a xs) % 65521) := by
  induction xs with
  | nil => intro a b; simp [adlerSpec, total, total2]
  | cons x xs ih =>
    intro a b
    simp only [List.map_cons, adlerSpec, total, total2]
    have e1 : (a % 65521 + x.toNat) % 65521 = (a + x.toNat) % 65521 := by omega
    have e2 : (b % 65521 + (a % 65521 + x.toNat)) % 65521 = (b + (a + x.toNat)) % 65521 := by omega
    rw [e1, e2, ih]
    congr 1 <;> congr 1 <;> omega

theorem adlerSpec_append (xs ys : List Nat) : ∀ a b : Nat,
    adlerSpec a b (xs ++ ys) = adlerSpec (adlerSpec a b xs).1 (adlerSpec a b xs).2 ys := by
  induction xs with
  | nil => intro a b; rfl
  | cons x xs ih => intro a b; simp only [List.cons_append, adlerSpec]; exact ih _ _

theorem adlerSpec_lt (xs : List Nat) : ∀ a b : Nat, a < 65521 → b < 65521 →
    (adlerSpec a b xs).1 < 65521 ∧ (adlerSpec a b xs).2 < 65521 := by
  induction xs with
  | nil => intro a b h1 h2; exact ⟨h1, h2⟩
  | cons x xs ih => intro a b _ _; exact ih _ _ (by omega) (by omega)

/-- Bounds of the two sums by the largest byte. -/
theorem total_le (m : Nat) : ∀ xs : List (BitVec 8), (∀ x ∈ xs, x.toNat ≤ m) → total xs ≤ m * xs.length := by
  intro xs
  induction xs with
  | nil => intro _; simp [total]
  | cons x xs ih =>
    intro h
    have h1 := h x (by simp)
    have h2 := ih fun y hy => h y (by simp [hy])
    simp only [total, List.length_cons, Nat.mul_add]; omega

theorem total2_le (m : Nat) : ∀ (xs : List (BitVec 8)) (a : Nat), (∀ x ∈ xs, x.toNat ≤ m) →
    2 * total2 a xs ≤ 2 * (a * xs.length) + m * (xs.length * (xs.length + 1)) := by
  intro xs
  induction xs with
  | nil => intro a _; simp [total2]
  | cons x xs ih =>
    intro a h
    have h1 := h x (by simp)
    have h2 := ih (a + x.toNat) fun y hy => h y (by simp [hy])
    simp only [total2, List.length_cons]
    have e1 : (a + x.toNat) * xs.length ≤ a * xs.length + m * xs.length := by
      rw [Nat.add_mul]; exact Nat.add_le_add_left (Nat.mul_le_mul_right _ h1) _
    have e2 : a * (xs.length + 1) = a * xs.length + a := by ring
    have e3 : m * ((xs.length + 1) * (xs.length + 1 + 1)) = m * (xs.length * (xs.length + 1)) + 2 * (m * xs.length) + 2 * m := by ring
    omega

/-- `Safe xs`: with any sums to begin with the additions for one block stay within LONGINT. -/
def Safe (xs : List (BitVec 8)) : Prop := 65520 + total xs ≤ 2147483647 ∧ 65520 + total2 65520 xs ≤ 2147483647

theorem total2_mono (xs : List (BitVec 8)) : ∀ a b : Nat, a ≤ b → total2 a xs ≤ total2 b xs := by
  induction xs with
  | nil => intro a b _; simp [total2]
  | cons x xs ih => intro a b h; have := ih (a + x.toNat) (b + x.toNat) (by omega); simp only [total2]; omega

/-- The outer loop, if every block is safe. -/
theorem adlerLoop_ok (buf : List (BitVec 8)) : ∀ (len : Nat) (o : Nat) (a b : Nat), o + len ≤ buf.length →
    (∀ p n, n ≤ 5552 → n ≤ len → p + n ≤ len → Safe (((buf.drop o).drop p).take n)) → a < 65521 → b < 65521 →
    adlerLoop buf len a b o = .ok
      ((((adlerSpec a b (((buf.drop o).take len).map BitVec.toNat)).1 : Nat) : Int),
       (((adlerSpec a b (((buf.drop o).take len).map BitVec.toNat)).2 : Nat) : Int)) := by
  intro len
  induction len using Nat.strongRecOn with
  | _ len ih =>
    intro o a b hlen hsafe ha hb
    rw [adlerLoop]
    by_cases h0 : 0 < len
    · rw [if_pos h0]
      have hk : ∃ k, k = (if len < nmax then len else nmax) ∧ 0 < k ∧ k ≤ len ∧ k ≤ 5552 := by
        refine ⟨_, rfl, ?_⟩
        unfold nmax; split <;> omega
      obtain ⟨k, hkd, hk0, hkl, hkn⟩ := hk
      simp only [← hkd]
      have hs : Safe ((buf.drop o).take k) := by
        have := hsafe 0 k hkn hkl (by omega); simpa using this
      have hl : ((buf.drop o).take k).length = k := by simp; omega
      have hm := total2_mono ((buf.drop o).take k) a 65520 (by omega)
      rw [adlerRun_ok buf k o _ a b rfl hl (by have := hs.1; omega) (by have := hs.2; omega), Out.bind_ok]
      simp only
      have e1 : (((a + total ((buf.drop o).take k) : Nat) : Int)) % 65521 = (((a + total ((buf.drop o).take k)) % 65521 : Nat) : Int) := by omega
      have e2 : (((b + total2 a ((buf.drop o).take k) : Nat) : Int)) % 65521 = (((b + total2 a ((buf.drop o).take k)) % 65521 : Nat) : Int) := by omega
      rw [e1, e2, ih (len - k) (by omega) (o + k) _ _ (by omega) ?_ (Nat.mod_lt _ (by omega)) (Nat.mod_lt _ (by omega))]
      · have hsp := adlerSpec_mod ((buf.drop o).take k) a b
        rw [Nat.mod_eq_of_lt ha, Nat.mod_eq_of_lt hb] at hsp
        have hsplit : (buf.drop o).take len = (buf.drop o).take k ++ (buf.drop (o + k)).take (len - k) := by
          rw [← List.drop_drop, ← List.take_add]; congr 1; omega
        rw [hsplit, List.map_append, adlerSpec_append, hsp]
      · intro p n h1 h2 h3
        have := hsafe (k + p) n h1 (by omega) (by omega)
        rw [← List.drop_drop] at this ⊢
        simpa [List.drop_drop, Nat.add_assoc, Nat.add_comm, Nat.add_left_comm] using this
    · rw [if_neg h0]
      have : len = 0 := by omega
      subst this
      simp [adlerSpec]

theorem pack_parts {a b : Nat} (ha : a < 65521) (hb : b < 65521) :
    pack (a, b) % 65536 = a ∧ lsh (pack (a, b)) (-16) % 65536 = b ∧ chk (lsh b 16 + a) = .ok (pack (a, b)) := by
  have hn : b * 65536 + a < 4294967296 := by omega
  have hp : pack (a, b) = (BitVec.ofNat 32 (b * 65536 + a)).toInt := rfl
  have ht : (BitVec.ofNat 32 (b * 65536 + a)).toNat = b * 65536 + a := by rw [BitVec.toNat_ofNat]; exact Nat.mod_eq_of_lt hn
  refine ⟨?_, ?_, ?_⟩
  · rw [hp, BitVec.toInt_eq_toNat_cond, ht]; split <;> omega
  · unfold lsh
    rw [if_neg (by omega), hp, BitVec.ofInt_toInt]
    have : (-(-16 : Int)).toNat = 16 := rfl
    rw [this, BitVec.toInt_eq_toNat_cond, BitVec.toNat_ushiftRight, ht, Nat.shiftRight_eq_div_pow]
    split <;> omega
  · unfold lsh
    rw [if_pos (by omega)]
    have h16 : ((16 : Int)).toNat = 16 := rfl
    rw [h16, hp]
    have h1 : ((BitVec.ofInt 32 (b : Int)) <<< 16).toNat = b * 65536 := by
      rw [BitVec.toNat_shiftLeft, Nat.shiftLeft_eq]
      have : (BitVec.ofInt 32 (b : Int)).toNat = b := by
        rw [BitVec.toNat_ofInt]; omega
      rw [this]; omega
    rw [BitVec.toInt_eq_toNat_cond, BitVec.toInt_eq_toNat_cond, h1, ht]
    have hc : ∀ x : Int, -2147483648 ≤ x → x ≤ 2147483647 → chk x = .ok x := fun x h1 h2 => if_pos ⟨h1, h2⟩
    have key : ∀ x y : Int, (-2147483648 ≤ x ∧ x ≤ 2147483647) → x = y → chk x = .ok y := fun x y h e => by rw [hc x h.1 h.2, e]
    apply key
    · split <;> omega
    · split <;> split <;> omega

end Verif.Sums
