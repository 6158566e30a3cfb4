import Verif.Common
import Verif.FileNum.Model

/-!
# C17: the compact number encoding
-/
namespace Verif.FileNum
open Verif.Arith

/-- `code` is an encoding of `v`: whatever follows it, reading delivers `v` and consumes exactly
`code`. -/
def Encodes (code : List Nat) (v : Int) : Prop := ∀ rest, readNum 8 (code ++ rest) = some (v, rest)

theorem ash_shift {x : Int} {k : Nat} (hk : k ≤ 9) (h : InI64 (x * 2 ^ (7 * k))) :
    ash x (7 * (k : Int)) = some (x * 2 ^ (7 * k)) := by
  have e : (7 * (k : Int)).toNat = 7 * k := by omega
  simp only [ash, ashl]
  rw [if_pos (by omega), if_pos (by omega), e]
  congr 1
  simp only [InI64] at h
  simp only [wrap64]; omega

theorem ck_some {x : Int} (h : InI64 x) : ck x = some x := by simp [ck, h]

theorem wrapW8 {k : Nat} (hk : k ≤ 8) : wrapW 8 (7 * (k : Int) + 7) = 7 * ((k + 1 : Nat) : Int) := by
  simp only [wrapW]; norm_num; omega

/-- The loop with `7*k` bits already read into `q`. -/
theorem readNumLoop_writeNum (x : Int) : ∀ (k : Nat) (q : Int) (rest : List Nat), k ≤ 9 → 0 ≤ q →
    q < 2 ^ (7 * k) → InI64 (q + x * 2 ^ (7 * k)) →
    readNumLoop (7 * (k : Int)) q (writeNum x ++ rest) = some (q + x * 2 ^ (7 * k), rest) := by
  fun_induction writeNum x with
  | case1 x h ih =>
    intro k q rest hk hq0 hq hr
    have hk8 : k ≤ 8 := by
      by_contra hc
      have : k = 9 := by omega
      subst this
      simp only [InI64] at hr
      omega
    have hb : ((x % 128 + 128).toNat : Int) = x % 128 + 128 := by omega
    have hge : 128 ≤ (x % 128 + 128).toNat := by omega
    have hx1 : InI64 (x % 128 * 2 ^ (7 * k)) := by
      simp only [InI64]
      interval_cases k <;> omega
    have hx2 : InI64 (q + x % 128 * 2 ^ (7 * k)) := by
      simp only [InI64] at *
      interval_cases k <;> omega
    have e1 : x % 128 + 128 - 128 = x % 128 := by omega
    have hs : (x / 128) * 2 ^ (7 * (k + 1)) + x % 128 * 2 ^ (7 * k) = x * 2 ^ (7 * k) := by
      have : (2 : Int) ^ (7 * (k + 1)) = 128 * 2 ^ (7 * k) := by
        rw [show 7 * (k + 1) = 7 * k + 7 by ring, pow_add]; ring
      rw [this]
      have := Int.emod_add_mul_ediv x 128
      nlinarith [congrArg (· * (2 : Int) ^ (7 * k)) this]
    rw [List.cons_append, readNumLoop, if_pos hge, hb, e1, ash_shift hk hx1,
      Option.bind_eq_bind, Option.bind_some, ck_some hx2, Option.bind_some,
      wrapW8 hk8]
    rw [ih (k + 1) _ rest (by omega)]
    · rw [show q + x % 128 * 2 ^ (7 * k) + x / 128 * 2 ^ (7 * (k + 1)) =
        q + (x / 128 * 2 ^ (7 * (k + 1)) + x % 128 * 2 ^ (7 * k)) by ring, hs]
    · have : 0 ≤ x % 128 * 2 ^ (7 * k) := by
        have := Int.emod_nonneg x (show (128 : Int) ≠ 0 by decide); positivity
      omega
    · interval_cases k <;> omega
    · rw [show q + x % 128 * 2 ^ (7 * k) + x / 128 * 2 ^ (7 * (k + 1)) =
        q + (x / 128 * 2 ^ (7 * (k + 1)) + x % 128 * 2 ^ (7 * k)) by ring, hs]
      exact hr
  | case2 x h =>
    intro k q rest hk hq0 hq hr
    have hb : ((x % 128).toNat : Int) = x % 128 := by omega
    have hlt : ¬ 128 ≤ (x % 128).toNat := by omega
    have e1 : (x % 128) % 64 - (x % 128) / 64 * 64 = x := by omega
    have hx1 : InI64 (x * 2 ^ (7 * k)) := by
      simp only [InI64] at *
      interval_cases k <;> omega
    rw [List.cons_append, List.nil_append, readNumLoop, if_neg hlt, hb, e1, ash_shift hk hx1,
      Option.bind_eq_bind, Option.bind_some, ck_some hr, Option.bind_some]

/-- **C17, round trip.**  Reading a number that was written, into a variable of `len` bytes that can
hold it, delivers the number and consumes exactly the bytes written. -/
theorem C17_roundtrip {len : Nat} {x : Int} (hl : 1 ≤ len ∧ len ≤ 8) (h : InRange (8 * len) x)
    (rest : List Nat) : readNum len (writeNum x ++ rest) = some (x, rest) := by
  have h64 : InI64 (0 + x * 2 ^ (7 * 0)) := by
    obtain ⟨h1, h2⟩ := hl
    simp only [InI64, InRange] at *
    interval_cases len <;> simp at h ⊢ <;> omega
  have := readNumLoop_writeNum x 0 0 rest (by omega) (by omega) (by omega) h64
  simp only [Nat.cast_zero, mul_zero, pow_zero, mul_one, zero_add] at this
  rw [readNum, if_pos hl.2, this]
  simp only [Option.map_some, Option.some.injEq, Prod.mk.injEq, and_true]
  obtain ⟨h1, h2⟩ := hl
  simp only [InRange] at h
  simp only [wrapW]
  interval_cases len <;> simp at h ⊢ <;> omega

/-- Non-vacuous: 1000 takes two bytes, and the following byte is left alone. -/
example : readNum 4 (writeNum 1000 ++ [77]) = some (1000, [77]) :=
  C17_roundtrip (by decide) (by decide) _

example : writeNum 1000 = [232, 7] := by simp [writeNum]

/-- **C17.**  Every byte written is a byte. -/
theorem C17_bytes (x : Int) : ∀ b ∈ writeNum x, b < 256 := by
  fun_induction writeNum x with
  | case1 x h ih =>
    intro b hb
    rcases List.mem_cons.1 hb with rfl | hb
    · omega
    · exact ih b hb
  | case2 x h =>
    intro b hb
    rw [List.mem_singleton] at hb
    omega

/-- What `WriteNum` writes is an encoding of the number. -/
theorem C17_encodes {x : Int} (h : InI64 x) : Encodes (writeNum x) x :=
  fun rest => C17_roundtrip (by decide) (by simpa [InI64, InRange] using h) rest

/-- **C17, prefix free.**  No encoding written is the beginning of the encoding of another number. -/
theorem C17_prefix_free {x y : Int} (hx : InI64 x) (hy : InI64 y) (h : writeNum x <+: writeNum y) :
    x = y := by
  obtain ⟨t, ht⟩ := h
  have h1 := C17_encodes hx t
  have h2 := C17_encodes hy []
  rw [List.append_nil, ← ht, h1] at h2
  simp only [Option.some.injEq, Prod.mk.injEq] at h2
  exact h2.1

theorem writeNum_length (x : Int) : ∀ k : Nat, -(64 * 128 ^ k) ≤ x → x < 64 * 128 ^ k →
    (writeNum x).length ≤ k + 1 := by
  fun_induction writeNum x with
  | case1 x h ih =>
    intro k h1 h2
    cases k with
    | zero => simp only [pow_zero, mul_one] at h1 h2; omega
    | succ k =>
      rw [List.length_cons]
      have e : (128 : Int) ^ (k + 1) = 128 * 128 ^ k := by ring
      rw [e] at h1 h2
      have := ih k (by omega) (by omega)
      omega
  | case2 x h => intro k _ _; simp

theorem writeNum_length_le (x : Int) (h : InI64 x) : (writeNum x).length ≤ 10 := by
  apply writeNum_length x 9 <;> simp only [InI64] at h <;> omega

/-- The value read by a code of `n+1` bytes that starts with `7*k` bits already read. -/
theorem readNumLoop_range : ∀ (code : List Nat) (k : Nat) (q v : Int), (∀ b ∈ code, b < 256) →
    k + code.length ≤ 9 → -(0 : Int) ≤ q → q < 2 ^ (7 * k) →
    readNumLoop (7 * (k : Int)) q (code ++ [0]) = some (v, [0]) →
    -(64 * 128 ^ (k + code.length - 1) : Int) ≤ v ∧ v < 64 * 128 ^ (k + code.length - 1) ∧
      code ≠ [] := by
  intro code
  induction code with
  | nil =>
    intro k q v hb hk hq0 hq h
    rw [List.nil_append, readNumLoop, if_neg (by decide)] at h
    simp only [Option.bind_eq_bind, Option.bind_eq_some_iff] at h
    obtain ⟨_, _, _, _, h⟩ := h
    simp at h
  | cons b r ih =>
    intro k q v hb hk hq0 hq h
    have hb' : b < 256 := hb b (by simp)
    simp only [List.length_cons] at hk
    refine ⟨?_, ?_, by simp⟩ <;>
    · rw [List.cons_append, readNumLoop] at h
      by_cases hc : 128 ≤ b
      · have hx1 : InI64 (((b : Int) - 128) * 2 ^ (7 * k)) := by
          simp only [InI64]
          have hk' : k ≤ 8 := by omega
          clear ih hk h
          interval_cases k <;> omega
        have hlt : q + ((b : Int) - 128) * 2 ^ (7 * k) < 2 ^ (7 * (k + 1)) := by
          have hk' : k ≤ 8 := by omega
          clear ih hk h
          interval_cases k <;> omega
        have hge : 0 ≤ ((b : Int) - 128) * 2 ^ (7 * k) := by
          have : (0 : Int) ≤ (b : Int) - 128 := by omega
          positivity
        have hx2 : InI64 (q + ((b : Int) - 128) * 2 ^ (7 * k)) := by
          simp only [InI64]
          have hk' : k ≤ 8 := by omega
          clear ih hk h
          interval_cases k <;> omega
        rw [if_pos hc, ash_shift (by omega) hx1, Option.bind_eq_bind, Option.bind_some, ck_some hx2,
          Option.bind_some, wrapW8 (by omega)] at h
        have := ih (k + 1) _ v (fun c hc => hb c (by simp [hc])) (by omega) (by omega) hlt h
        have e : k + (r.length + 1) - 1 = k + 1 + r.length - 1 := by omega
        simp only [List.length_cons, e]
        first | exact this.1 | exact this.2.1
      · have hx1 : InI64 (((b : Int) % 64 - (b : Int) / 64 * 64) * 2 ^ (7 * k)) := by
          simp only [InI64]
          have hk' : k ≤ 8 := by omega
          clear ih hk h
          interval_cases k <;> omega
        rw [if_neg hc, ash_shift (by omega) hx1, Option.bind_eq_bind, Option.bind_some] at h
        simp only [Option.bind_eq_some_iff, Option.some.injEq, Prod.mk.injEq] at h
        obtain ⟨q', hq', rfl, hr⟩ := h
        have hr0 : r = [] := by
          have := congrArg List.length hr
          simp at this; exact this
        subst hr0
        simp only [ck] at hq'
        split at hq'
        · simp only [Option.some.injEq] at hq'
          subst hq'
          simp only [List.length_cons, List.length_nil, zero_add, Nat.add_sub_cancel]
          have e : (128 : Int) ^ k = 2 ^ (7 * k) := by rw [pow_mul]; norm_num
          rw [e]
          have hk' : k ≤ 8 := by omega
          clear ih hk hr
          interval_cases k <;> omega
        · simp at hq'

/-- **C17, shortest.**  No encoding of a number is shorter than the one `WriteNum` writes. -/
theorem C17_shortest {code : List Nat} {v : Int} (hb : ∀ b ∈ code, b < 256)
    (h : Encodes code v) (hv : InI64 v) : (writeNum v).length ≤ code.length := by
  by_cases hl : code.length ≤ 9
  · have h0 := h [0]
    rw [readNum, if_pos (by decide)] at h0
    simp only [Option.map_eq_some_iff, Prod.mk.injEq, Prod.exists] at h0
    obtain ⟨w, r, h0, hw, rfl⟩ := h0
    have := readNumLoop_range code 0 0 w hb (by omega) (by decide) (by norm_num)
      (by simpa using h0)
    obtain ⟨h1, h2, h3⟩ := this
    have hlen : 1 ≤ code.length := by
      cases code with
      | nil => exact absurd rfl h3
      | cons => simp
    have hwv : v = w := by
      rw [← hw]
      have hp : (64 * 128 ^ (0 + code.length - 1) : Int) ≤ 2 ^ 63 := by
        have : 0 + code.length - 1 ≤ 8 := by omega
        calc (64 * 128 ^ (0 + code.length - 1) : Int) ≤ 64 * 128 ^ 8 := by
              gcongr; norm_num
          _ ≤ 2 ^ 63 := by norm_num
      simp only [wrapW]
      norm_num at *
      omega
    subst hwv
    have := writeNum_length v (0 + code.length - 1) h1 h2
    omega
  · have := writeNum_length_le v hv
    omega

/-- Non-vacuous: a longer encoding of 5 exists, so being shortest says something. -/
example : Encodes [133, 0] 5 := by
  intro rest
  simp [readNum, readNumLoop, ash, ashl, ck, InI64, wrap64, wrapW]

example : (writeNum 5).length ≤ 2 :=
  C17_shortest (code := [133, 0]) (by decide) (by
    intro rest
    simp [readNum, readNumLoop, ash, ashl, ck, InI64, wrap64, wrapW]) (by decide)

end Verif.FileNum
