import Verif.Common
import Verif.Sums.Crc

/-!
# C55: the checksums
-/
namespace Verif.Sums
open Polynomial

/-- The bytes a call is given: `len` bytes of `buf` from `offset` on. -/
def part (buf : List (BitVec 8)) (offset len : Nat) : List (BitVec 8) := (buf.drop offset).take len

theorem mem_part {l : List (BitVec 8)} {p n : Nat} {x : BitVec 8} (h : x ∈ (l.drop p).take n) : x ∈ l :=
  List.mem_of_mem_drop (List.mem_of_mem_take h)

/-- Blocks with small bytes are safe. -/
theorem safe_small {xs : List (BitVec 8)} (hl : xs.length ≤ 5552) (h : ∀ x ∈ xs, x.toNat ≤ 115) : Safe xs := by
  have h1 := total_le 115 xs h
  have h2 := total2_le 115 xs 65520 h
  have h3 : xs.length * (xs.length + 1) ≤ 5552 * 5553 := Nat.mul_le_mul hl (by omega)
  unfold Safe; omega

/-- Short blocks are safe. -/
theorem safe_short {xs : List (BitVec 8)} (hl : xs.length ≤ 3854) : Safe xs := by
  have hb : ∀ x ∈ xs, x.toNat ≤ 255 := fun x _ => by have := x.isLt; omega
  have h1 := total_le 255 xs hb
  have h2 := total2_le 255 xs 65520 hb
  have h3 : xs.length * (xs.length + 1) ≤ 3854 * 3855 := Nat.mul_le_mul hl (by omega)
  unfold Safe; omega

/-- **C55** (partial).  `Adler32(adler, buf, offset, len)` continues the checksum `adler` with the given bytes as RFC 1950 says, if
there are at most 3854 bytes, or any number of bytes up to 115.  Missing: other data, for which the sums overflow
(`C55_adler_overflow`). -/
theorem C55_adler_partial (a b : Nat) (ha : a < 65521) (hb : b < 65521) (buf : List (BitVec 8)) (offset len : Nat)
    (hr : offset + len ≤ buf.length) (hs : len ≤ 3854 ∨ ∀ x ∈ part buf offset len, x.toNat ≤ 115) :
    adler32 (pack (a, b)) buf offset len = .ok (pack (adlerSpec a b ((part buf offset len).map BitVec.toNat))) := by
  obtain ⟨h1, h2, _⟩ := pack_parts ha hb
  unfold adler32
  rw [if_neg (by omega), h1, h2, Int.toNat_natCast, adlerLoop_ok buf len offset a b hr ?_ ha hb, Out.bind_ok]
  · obtain ⟨l1, l2⟩ := adlerSpec_lt ((part buf offset len).map BitVec.toNat) a b ha hb
    exact (pack_parts l1 l2).2.2
  · intro p n hn hnl hpn
    rcases hs with hs | hs
    · exact safe_short (by simp; omega)
    · refine safe_small (by simp; omega) fun x hx => hs x ?_
      have e : ((buf.drop offset).drop p).take n = ((part buf offset len).drop p).take n := by
        unfold part
        rw [List.drop_take, List.take_take, Nat.min_eq_left (by omega)]
      rw [e] at hx
      exact mem_part hx

/-- The checksum of "Wikipedia" is 11E60398H, and can be continued. -/
def wiki : List (BitVec 8) := [0x57, 0x69, 0x6B, 0x69, 0x70, 0x65, 0x64, 0x69, 0x61]
example : pack (adlerSpec 1 0 (wiki.map BitVec.toNat)) = 0x11E60398 := by decide +kernel
example : adler32 (pack (1, 0)) wiki (0 : Nat) (9 : Nat) = .ok 0x11E60398 := by
  have h := C55_adler_partial 1 0 (by omega) (by omega) wiki 0 9 (by decide) (Or.inl (by omega))
  have e : pack (adlerSpec 1 0 ((part wiki 0 9).map BitVec.toNat)) = 0x11E60398 := by decide +kernel
  exact h.trans (congrArg Out.ok e)
example : pack (1, 0) = 1 := by decide +kernel

/-! ### Where Adler32 fails -/

theorem adlerRun_over (buf : List (BitVec 8)) : ∀ (k : Nat) (o : Nat) (xs : List (BitVec 8)) (a b : Nat),
    (buf.drop o).take k = xs → xs.length = k → b ≤ 2147483647 → 2147483647 < b + total2 a xs →
    adlerRun buf k a b o = .overflow := by
  intro k
  induction k with
  | zero =>
    intro o xs a b h hl hb hover
    have : xs = [] := List.length_eq_zero_iff.mp hl
    subst this
    simp only [total2] at hover; omega
  | succ k ih =>
    intro o xs a b h hl hb hover
    cases xs with
    | nil => simp at hl
    | cons x xs =>
      have hx : buf[o]? = some x := by
        have h' := congrArg (fun l => l[0]?) h
        simpa [List.getElem?_take, List.getElem?_drop] using h'
      have ho : o < buf.length := (List.getElem?_eq_some_iff.mp hx).1
      have htl : (buf.drop (o + 1)).take k = xs := by
        rw [List.drop_eq_getElem_cons ho, List.take_succ_cons] at h
        exact (List.cons.inj h).2
      simp only [total2] at hover
      have e1 : ((a : Int) + (x.toNat : Int)) = ((a + x.toNat : Nat) : Int) := by omega
      have e2 : ((b : Int) + ((a + x.toNat : Nat) : Int)) = ((b + (a + x.toNat) : Nat) : Int) := by omega
      have e3 : ((o : Int) + 1) = ((o + 1 : Nat) : Int) := by omega
      have hov : ∀ n : Nat, 2147483647 < n → chk (n : Int) = .overflow := fun n hn => if_neg (by omega)
      simp only [adlerRun]
      rw [at_ok hx, Out.bind_ok, e1]
      by_cases c1 : a + x.toNat ≤ 2147483647
      · rw [chk_ok (by omega) (by omega), Out.bind_ok, e2]
        by_cases c2 : b + (a + x.toNat) ≤ 2147483647
        · rw [chk_ok (by omega) (by omega), Out.bind_ok, e3]
          exact ih (o + 1) xs _ _ htl (by simpa using hl) c2 (by omega)
        · rw [hov _ (by omega)]; rfl
      · rw [hov _ (by omega)]; rfl

theorem total2_replicate (x : BitVec 8) (n : Nat) : ∀ a, 2 * total2 a (List.replicate n x) = 2 * (a * n) + x.toNat * (n * (n + 1)) := by
  induction n with
  | zero => intro a; simp [total2]
  | succ n ih =>
    intro a
    have := ih (a + x.toNat)
    simp only [List.replicate_succ, total2, Nat.mul_add, this]; ring

theorem overflow_of_total2 (n : Nat) (xs : List (BitVec 8)) (hn : xs.length = n) (h0 : 0 < n) (hm : n ≤ nmax) (h : 2147483647 < total2 1 xs) :
    adler32 (pack (1, 0)) xs 0 n = .overflow := by
  obtain ⟨h1, h2, _⟩ := pack_parts (a := 1) (b := 0) (by omega) (by omega)
  unfold adler32
  rw [if_neg (by omega), h1, h2, Int.toNat_natCast, adlerLoop, if_pos h0]
  have hk : (if n < nmax then n else nmax) = n := by split <;> omega
  have := adlerRun_over xs n 0 xs 1 0 (by rw [List.drop_zero, List.take_of_length_le (by omega)]) hn (by omega) (by omega)
  simp only [hk]
  have e0 : ((0 : Nat) : Int) = 0 := rfl
  rw [e0] at this ⊢
  rw [this]; rfl

/-- The sums overflow for one full block of bytes 0FFX: the constant `nmax` is that for sums without sign. -/
theorem C55_adler_overflow : adler32 (pack (1, 0)) (List.replicate nmax 255#8) 0 (nmax : Nat) = .overflow := by
  have key : ∀ n, n = nmax → adler32 (pack (1, 0)) (List.replicate n 255#8) 0 (n : Nat) = .overflow := by
    intro n hn
    have hn' : n = 5552 := hn
    apply overflow_of_total2 n _ List.length_replicate (by omega) (by omega)
    have ht := total2_replicate 255#8 n 1
    have hx : (255#8).toNat = 255 := rfl
    rw [hx] at ht
    have h3 : 5552 * 5553 ≤ n * (n + 1) := Nat.mul_le_mul (by omega) (by omega)
    omega
  exact key nmax rfl

/-! ### CRC32 -/

theorem crc32_eq (c : BitVec 32) (buf : List (BitVec 8)) (offset len : Nat) (hr : offset + len ≤ buf.length) :
    crc32 c buf offset len = .ok (reg (c ^^^ BitVec.allOnes 32) (part buf offset len) ^^^ BitVec.allOnes 32) := by
  unfold crc32
  rw [if_neg (by omega), Int.toNat_natCast, crcLoop_ok buf len offset _ hr]
  rfl

/-- **C55**.  `CRC32(0, buf, offset, len)` is the number of 32 bits whose complement is the remainder the standard defines; there
is no other. -/
theorem C55_crc (buf : List (BitVec 8)) (offset len : Nat) (hr : offset + len ≤ buf.length) (r : BitVec 32) :
    crc32 0 buf offset len = .ok r ↔ regPoly (r ^^^ BitVec.allOnes 32) = crcSpec (part buf offset len) := by
  rw [crc32_eq 0 buf offset len hr]
  have hc := cong_rem (cong_reg (part buf offset len) (0 ^^^ BitVec.allOnes 32)) (degree_regPoly _)
  have hz : (0 : BitVec 32) ^^^ BitVec.allOnes 32 = BitVec.allOnes 32 := BitVec.zero_xor
  have hspec : regPoly (reg (0 ^^^ BitVec.allOnes 32) (part buf offset len)) = crcSpec (part buf offset len) := by
    rw [hc, hz, regPoly_ones]
    unfold crcSpec
    rw [mul_comm (X ^ (8 * (part buf offset len).length)), add_comm]
  have hxx : ∀ x : BitVec 32, x ^^^ BitVec.allOnes 32 ^^^ BitVec.allOnes 32 = x := fun x => by
    rw [BitVec.xor_assoc, BitVec.xor_self, BitVec.xor_zero]
  constructor
  · intro h
    have h' := Out.ok.inj h
    rw [← h', hxx, hspec]
  · intro h
    have h' := regPoly_inj _ _ (hspec.trans h.symm)
    rw [h', hxx]

/-- **C55**.  The checksum can be computed piece by piece. -/
theorem C55_crc_pieces (c : BitVec 32) (buf : List (BitVec 8)) (offset m n : Nat) (hr : offset + (m + n) ≤ buf.length) :
    ((crc32 c buf offset m).bind fun c' => crc32 c' buf ((offset + m : Nat) : Int) n) = crc32 c buf offset ((m + n : Nat) : Int) := by
  rw [crc32_eq c buf offset m (by omega), Out.bind_ok, crc32_eq _ buf (offset + m) n (by omega), crc32_eq c buf offset (m + n) hr]
  congr 2
  have hp : part buf offset (m + n) = part buf offset m ++ part buf (offset + m) n := by
    unfold part; rw [← List.drop_drop, ← List.take_add]
  rw [hp, reg_append, BitVec.xor_assoc, BitVec.xor_self, BitVec.xor_zero]

/-- **C55**.  Two different messages of the same length that differ only within 32 consecutive bits have different checksums. -/
theorem C55_crc_burst (k : Nat) (m m' : List (BitVec 8)) (c : BitVec 32) (h : Burst k m m') (hne : m ≠ m') :
    crc32 c m (0 : Nat) m.length ≠ crc32 c m' (0 : Nat) m'.length := by
  rw [crc32_eq c m 0 m.length (by omega), crc32_eq c m' 0 m'.length (by omega)]
  intro he
  have he' := Out.ok.inj he
  have hx := congrArg (· ^^^ BitVec.allOnes 32) he'
  simp only [BitVec.xor_assoc, BitVec.xor_self, BitVec.xor_zero, part, List.drop_zero, List.take_length] at hx
  exact reg_burst k m m' _ h hne hx

/-- The known value for "123456789" is 0CBF43926H. -/
def digits : List (BitVec 8) := [0x31, 0x32, 0x33, 0x34, 0x35, 0x36, 0x37, 0x38, 0x39]
example : crc32 0 digits 0 9 = .ok 0xCBF43926#32 := by decide +kernel
example : regPoly (0xCBF43926#32 ^^^ BitVec.allOnes 32) = crcSpec digits :=
  (C55_crc digits 0 9 (by decide) _).mp (by decide +kernel)

/-- A flipped bit is a burst. -/
example : Burst 3 digits (0x39 :: digits.tail) ∧ digits ≠ 0x39 :: digits.tail := by
  refine ⟨⟨rfl, fun i hi => ?_⟩, by decide⟩
  by_cases h : i < 72
  · revert hi; revert i; decide +kernel
  · rw [List.getElem?_eq_none (by rw [length_bitsOf]; simp [digits]; omega), List.getElem?_eq_none (by rw [length_bitsOf]; simp [digits]; omega)]

end Verif.Sums
