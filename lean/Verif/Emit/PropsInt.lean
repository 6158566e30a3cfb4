import Verif.Common
import Verif.Emit.Model
import Verif.Emit.Spec

/-!
# C11: emitted integer constants
-/
namespace Verif.Emit
open Verif.Arith CSpec

theorem digitsLE_digit : ∀ {f n : Nat}, ∀ c ∈ digitsLE f n, isDigit c = true := by
  intro f
  induction f with
  | zero => intro n c h; simp [digitsLE] at h
  | succ f ih =>
    intro n c h
    rw [digitsLE, List.mem_cons] at h
    rcases h with rfl | h
    · simp only [isDigit, decide_eq_true_eq]; omega
    · split at h
      · exact ih c h
      · simp at h

theorem digitsLE_val : ∀ {f n : Nat}, n < 10 ^ f →
    (digitsLE f n).foldr (fun d a => 10 * a + (d - 48)) 0 = n := by
  intro f
  induction f with
  | zero => intro n h; simp at h; simp [digitsLE, h]
  | succ f ih =>
    intro n h
    rw [pow_succ] at h
    rw [digitsLE, List.foldr_cons]
    split
    · rw [ih (by omega)]; omega
    · rw [List.foldr_nil]; omega

theorem digitsLE_last : ∀ {f n : Nat}, n < 10 ^ f → 0 < n →
    ∃ c, (digitsLE f n).getLast? = some c ∧ c ≠ 48 := by
  intro f
  induction f with
  | zero => intro n h h0; simp at h; omega
  | succ f ih =>
    intro n h h0
    rw [pow_succ] at h
    rw [digitsLE]
    split
    · next h1 =>
      obtain ⟨c, hc, hn⟩ := ih (n := n / 10) (by omega) h1
      refine ⟨c, ?_, hn⟩
      rw [List.getLast?_cons, hc]; rfl
    · exact ⟨n % 10 + 48, rfl, by omega⟩

theorem digitsLE_ne_nil {f n : Nat} : digitsLE (f + 1) n ≠ [] := by simp [digitsLE]

/-- The text of a natural number. -/
def numText (n : Nat) : Text := (digitsLE 20 n).reverse

theorem numText_digit {n : Nat} : ∀ c ∈ numText n, isDigit c = true := by
  intro c h; exact digitsLE_digit c (List.mem_reverse.1 h)

theorem numText_val {n : Nat} (h : n < 2 ^ 63) : decVal (numText n) = n := by
  rw [decVal, numText, List.foldl_reverse]
  exact digitsLE_val (by omega)

theorem numText_head {n : Nat} (h : n < 2 ^ 63) :
    ¬ (numText n = [] ∨ ((numText n).head? = some 48 ∧ numText n ≠ [48])) := by
  rintro (h1 | ⟨h1, h2⟩)
  · rw [numText, List.reverse_eq_nil_iff] at h1
    exact digitsLE_ne_nil h1
  · rw [numText, List.head?_reverse] at h1
    rcases Nat.eq_zero_or_pos n with rfl | h0
    · exact h2 (by decide)
    · obtain ⟨c, hc, hn⟩ := digitsLE_last (f := 20) (n := n) (by omega) h0
      rw [hc] at h1
      exact hn (by simpa using h1)

theorem takeWhile_all {p : Nat → Bool} {l r : List Nat} (h : ∀ a ∈ l, p a = true)
    (hr : ∀ c, r.head? = some c → p c = false) :
    (l ++ r).takeWhile p = l ∧ (l ++ r).dropWhile p = r := by
  have hr' : r.takeWhile p = [] ∧ r.dropWhile p = r := by
    cases r with
    | nil => simp
    | cons c r => simp [hr c rfl]
  rw [List.takeWhile_append_of_pos h, List.dropWhile_append_of_pos h, hr'.1, hr'.2, List.append_nil]
  exact ⟨rfl, rfl⟩

/-- What may follow a number: not a digit and not an L. -/
def Follow (r : Text) : Prop := ∀ c, r.head? = some c → isDigit c = false ∧ c ≠ 76

theorem cNumber_plain {n : Nat} (h : n < 2 ^ 31) {r : Text} (hr : Follow r) :
    cNumber (numText n ++ r) = some (⟨32, n⟩, r) := by
  obtain ⟨h1, h2⟩ := takeWhile_all (p := isDigit) (l := numText n) (r := r) numText_digit (fun c hc => (hr c hc).1)
  simp only [cNumber, h1, h2]
  rw [if_neg (numText_head (by omega)), numText_val (by omega)]
  split
  · exact absurd rfl (hr 76 rfl).2
  · rw [if_pos h]

theorem cNumber_LL {n : Nat} (h : n < 2 ^ 63) (r : Text) :
    cNumber (numText n ++ (76 :: 76 :: r)) = some (⟨64, n⟩, r) := by
  obtain ⟨h1, h2⟩ := takeWhile_all (p := isDigit) (l := numText n) (r := 76 :: 76 :: r) numText_digit
    (by intro c hc; simp at hc; subst hc; rfl)
  simp only [cNumber, h1, h2]
  rw [if_neg (numText_head (by omega)), numText_val (by omega), if_pos h]

theorem numText_cons (n : Nat) : ∃ d ds, numText n = d :: ds ∧ 48 ≤ d ∧ d ≤ 57 := by
  cases h : numText n with
  | nil => rw [numText, List.reverse_eq_nil_iff] at h; exact absurd h digitsLE_ne_nil
  | cons d ds =>
    have := numText_digit (n := n) d (by rw [h]; simp)
    simp only [isDigit, decide_eq_true_eq] at this
    exact ⟨d, ds, rfl, this⟩

theorem cUnary_number {f n : Nat} {r : Text} : cUnary (f + 1) (numText n ++ r) = cNumber (numText n ++ r) := by
  obtain ⟨d, ds, h, h1, h2⟩ := numText_cons n
  rw [h, List.cons_append, cUnary]
  · intro r' hr; simp at hr; omega
  · intro r' hr; simp at hr; omega
  · intro r' hr; simp at hr; omega
  · intro r' hr; simp at hr; omega

theorem cUnary_minus_number {f n : Nat} {r : Text} : cUnary (f + 1) (45 :: (numText n ++ r)) =
    (cUnary f (numText n ++ r)).bind fun p =>
      if InRange p.1.width (-p.1.val) then some (⟨p.1.width, -p.1.val⟩, p.2) else none := by
  obtain ⟨d, ds, h, h1, h2⟩ := numText_cons n
  rw [h, List.cons_append, cUnary]
  · rfl
  · intro r' hr; simp at hr; omega

/-- The width of the C type of the number: `int` if it fits, else 64 bits. -/
def litWidth (i : Int) : Nat := if i.natAbs < 2 ^ 31 then 32 else 64

theorem writeInt0_eq (i : Int) : writeInt0 i = (if i < 0 then [45] else []) ++ (numText i.natAbs ++
    (if i.natAbs < 2 ^ 31 then [] else [76, 76])) := by
  have hc : (i.natAbs : Int) ≤ 2 ^ 31 - 1 ↔ i.natAbs < 2 ^ 31 := by omega
  simp only [writeInt0, hc, List.reverse_append, numText]
  by_cases h1 : i < 0 <;> by_cases h2 : i.natAbs < 2 ^ 31 <;> simp only [h1, h2, if_true, if_false] <;> rfl

/-- The number text is read as one unary expression with the right value. -/
theorem cUnary_writeInt0 {i : Int} (h : i.natAbs < 2 ^ 63) {f : Nat} {r : Text} (hr : Follow r) :
    cUnary (f + 2) (writeInt0 i ++ r) = some (⟨litWidth i, i⟩, r) := by
  have key : cNumber (numText i.natAbs ++ ((if i.natAbs < 2 ^ 31 then [] else [76, 76]) ++ r)) =
      some (⟨litWidth i, i.natAbs⟩, r) := by
    rw [litWidth]
    split
    · next h1 => exact cNumber_plain h1 hr
    · exact cNumber_LL h r
  rw [writeInt0_eq, List.append_assoc, List.append_assoc]
  by_cases h0 : i < 0
  · rw [if_pos h0, List.singleton_append, cUnary_minus_number, cUnary_number, key]
    simp only [Option.bind_some]
    have hneg : -(i.natAbs : Int) = i := by omega
    rw [hneg, if_pos]
    simp only [InRange, litWidth]
    split <;> omega
  · rw [if_neg h0, List.nil_append, cUnary_number, key]
    have : (i.natAbs : Int) = i := by omega
    rw [this]

theorem cTail_end {f : Nat} {v : CVal} {r : Text} (h : ∀ r', r ≠ 45 :: r') : cTail (f + 1) v r = some (v, r) := by
  rw [cTail]
  exact h

theorem follow_45 (r : Text) : Follow (45 :: r) := by
  intro c hc; simp at hc; subst hc; decide
theorem follow_41 (r : Text) : Follow (41 :: r) := by
  intro c hc; simp at hc; subst hc; decide
theorem follow_nil : Follow [] := by intro c hc; simp at hc

/-- Reading `WriteInt`'s text as a unary expression. -/
theorem cUnary_writeInt {i : Int} (h : InI64 i) {f : Nat} {r : Text} (hr : Follow r) :
    cUnary (f + 6) (writeInt i ++ r) = some (⟨if InRange 32 i then 32 else 64, i⟩, r) := by
  simp only [InI64] at h
  rw [writeInt]
  split
  · next hm =>
    have hn : (i + 1).natAbs < 2 ^ 63 := by omega
    have h0 : writeInt0 (i + 1) = 45 :: (numText (i + 1).natAbs ++
        (if (i + 1).natAbs < 2 ^ 31 then [] else [76, 76])) := by
      rw [writeInt0_eq, if_pos (by omega), List.singleton_append]
    have e1 : cExpr (f + 5) (writeInt0 (i + 1) ++ (45 :: 49 :: 41 :: r)) =
        some (⟨if InRange 32 i then 32 else 64, i⟩, 41 :: r) := by
      rw [cExpr, cUnary_writeInt0 hn (follow_45 _)]
      simp only [Option.bind_eq_bind, Option.bind_some]
      rw [cTail]
      have e2 : cUnary (f + 3) (49 :: 41 :: r) = some (⟨32, 1⟩, 41 :: r) := by
        have h1 : (49 :: 41 :: r : Text) = numText 1 ++ (41 :: r) := rfl
        rw [h1, cUnary_number, cNumber_plain (by decide) (follow_41 _)]; rfl
      rw [e2]
      simp only [Option.bind_eq_bind, Option.bind_some]
      have hv : i + 1 - 1 = i := by omega
      rw [hv]
      have hw : max (litWidth (i + 1)) 32 = if InRange 32 i then 32 else 64 := by
        by_cases hr : InRange 32 i
        · rw [if_pos hr, litWidth, if_pos (by simp only [InRange] at hr; omega)]; rfl
        · rw [if_neg hr, litWidth, if_neg (by simp only [InRange] at hr; omega)]; rfl
      rw [hw, if_pos, cTail_end (by intro r'; simp)]
      split
      · assumption
      · simp only [InRange]; omega
    have e3 : cUnary (f + 6) (40 :: (writeInt0 (i + 1) ++ (45 :: 49 :: 41 :: r))) =
        some (⟨if InRange 32 i then 32 else 64, i⟩, r) := by
      have hne : ∀ r', writeInt0 (i + 1) ++ (45 :: 49 :: 41 :: r) ≠ 73 :: 78 :: 84 :: r' := by
        intro r'; rw [h0]; simp
      rw [cUnary]
      · rw [e1]; rfl
      · intro r' hh; exact hne r' hh
    simpa using e3
  · next hm =>
    rw [cUnary_writeInt0 (by omega) hr]
    congr 3
    by_cases hr : InRange 32 i
    · rw [if_pos hr, litWidth, if_pos (by simp only [InRange] at hr; omega)]
    · rw [if_neg hr, litWidth, if_neg (by simp only [InRange] at hr; omega)]

/-- **C11.**  The text emitted for a 64-bit integer is a C expression without overflow whose value is that
integer; its type is `int` if the integer fits 32 bits, and a 64-bit type otherwise. -/
theorem C11_writeInt {i : Int} (h : InI64 i) :
    CDenotes (writeInt i) (if InRange 32 i then 32 else 64) i := by
  have h1 := cUnary_writeInt h (f := 9) follow_nil
  rw [List.append_nil] at h1
  rw [CDenotes, cExpr, h1]
  simp only [Option.bind_eq_bind, Option.bind_some]
  rw [cTail_end (by intro r'; simp)]

/-- **C11, typed literals.**  For a type of `size` bytes (1, 2, 4 or 8) the text denotes the constant. -/
theorem C11_intLiteral {n : Int} {size : Nat} (hs : size = 1 ∨ size = 2 ∨ size = 4 ∨ size = 8)
    (hn : InRange (8 * size) n) :
    CDenotes (intLiteral n size) (if size = 8 ∧ n ≠ -(2 ^ 31) then 64 else 32) n := by
  have h64 : InI64 n := by
    simp only [InRange, InI64] at *; rcases hs with rfl | rfl | rfl | rfl <;> simp at hn <;> omega
  rw [intLiteral]
  split
  · next hc =>
    have hs8 : size = 8 := by omega
    subst hs8
    rw [if_pos ⟨rfl, by omega⟩]
    have e0 : writeInt ((8 : Nat) * 8) = [54, 52] := by decide
    rw [e0]
    have h1 := cUnary_writeInt h64 (f := 4) (follow_41 [41])
    have hw : InRange 32 n := by simp only [InRange]; omega
    rw [if_pos hw] at h1
    -- the parenthesised number, the cast, the outer parentheses
    have hcast : ∀ r, cUnary 13 (40 :: 73 :: 78 :: 84 :: 54 :: 52 :: 41 :: r) =
        (cUnary 12 r).bind fun p => if InRange 64 p.1.val then some (⟨64, p.1.val⟩, p.2) else none := by
      intro r; rw [cUnary]; rfl
    have hhead : ∀ r', writeInt n ++ [41, 41] ≠ 73 :: r' := by
      intro r'
      rw [writeInt, writeInt0_eq, writeInt0_eq]
      obtain ⟨d, ds, hd, hd1, hd2⟩ := numText_cons (n + 1).natAbs
      obtain ⟨e, es, he, he1, he2⟩ := numText_cons n.natAbs
      rw [hd, he]
      split
      · simp
      · split <;> simp <;> omega
    have hnot : ∀ r', writeInt n ++ [41, 41] ≠ 73 :: 78 :: 84 :: r' := fun r' => hhead _
    have hin : cUnary 12 (40 :: (writeInt n ++ [41, 41])) = some (⟨32, n⟩, [41]) := by
      rw [cUnary]
      · rw [cExpr, h1]
        simp only [Option.bind_eq_bind, Option.bind_some]
        rw [cTail_end (by intro r'; simp)]
        rfl
      · intro r' hh; exact hnot r' hh
    have hin2 : cUnary 13 (40 :: 73 :: 78 :: 84 :: 54 :: 52 :: 41 :: 40 :: (writeInt n ++ [41, 41])) =
        some (⟨64, n⟩, [41]) := by
      rw [hcast, hin]
      simp only [Option.bind_some]
      rw [if_pos (by simp only [InRange, InI64] at *; omega)]
    have hout : cUnary 15 (40 :: 40 :: 73 :: 78 :: 84 :: 54 :: 52 :: 41 :: 40 :: (writeInt n ++ [41, 41])) =
        some (⟨64, n⟩, []) := by
      rw [cUnary]
      · rw [cExpr, hin2]
        simp only [Option.bind_eq_bind, Option.bind_some]
        rw [cTail_end (by intro r'; simp)]
        rfl
      · intro r' hh; simp at hh
    have htext : w! "((INT" ++ [54, 52] ++ w! ")(" ++ writeInt n ++ w! "))" =
        40 :: 40 :: 73 :: 78 :: 84 :: 54 :: 52 :: 41 :: 40 :: (writeInt n ++ [41, 41]) := by simp
    rw [htext, CDenotes, cExpr, hout]
    simp only [Option.bind_eq_bind, Option.bind_some]
    rw [cTail_end (by intro r'; simp)]
  · next hc =>
    have := C11_writeInt h64
    convert this using 1
    have hI : InRange 32 n ↔ -(2 ^ 31) ≤ n ∧ n < 2 ^ 31 := by simp [InRange]
    by_cases hr : InRange 32 n
    · rw [if_pos hr, if_neg]
      rintro ⟨rfl, h8⟩
      rw [hI] at hr; omega
    · rw [if_neg hr, if_pos]
      rw [hI] at hr
      simp only [InRange] at hn
      rcases hs with rfl | rfl | rfl | rfl <;> simp at hn ⊢ <;> omega

/-- The buffer of 26 characters in `WriteInt` is long enough. -/
theorem digitsLE_length : ∀ f n, (digitsLE f n).length ≤ f := by
  intro f
  induction f with
  | zero => intro n; simp [digitsLE]
  | succ f ih =>
    intro n
    rw [digitsLE, List.length_cons]
    split
    · have := ih (n / 10); omega
    · simp

theorem C11_buffer (i : Int) : (writeInt0 i).length ≤ 26 := by
  rw [writeInt0_eq]
  have := digitsLE_length 20 i.natAbs
  simp only [List.length_append, numText, List.length_reverse]
  split <;> split <;> simp <;> omega

example : writeInt (-(2 ^ 31)) = w! "(-2147483647-1)" ∧ writeInt (-(2 ^ 63)) = w! "(-9223372036854775807LL-1)" ∧
    writeInt 2147483648 = w! "2147483648LL" ∧ intLiteral (-7) 8 = w! "((INT64)(-7))" := by decide
/-- The reader is not vacuous: it rejects an overflowing and an octal constant. -/
example : cExpr 16 (w! "-2147483648") = some (⟨64, -2147483648⟩, []) ∧ ∀ w v, ¬ CDenotes (w! "010") w v := by
  refine ⟨by decide, ?_⟩
  intro w v h
  have : cExpr 16 (w! "010") = none := by decide
  rw [CDenotes, this] at h
  simp at h

end Verif.Emit
