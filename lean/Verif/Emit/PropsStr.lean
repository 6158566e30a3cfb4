import Verif.Common
import Verif.Emit.Model
import Verif.Emit.Spec

/-!
# C12: emitted string, character and set constants
-/
namespace Verif.Emit
open Verif.Arith CSpec

theorem trigraphs_cons {c : Nat} {r : Text} (h : c ≠ 63) : trigraphs (c :: r) = c :: trigraphs r := by
  rw [trigraphs.eq_def]
  split
  · next heq => simp at heq; omega
  · next heq => simp at heq; rw [heq.1, heq.2]
  · next heq => simp at heq

theorem trigraphs_q {c : Nat} {r : Text} (h : c ≠ 63) : trigraphs (63 :: c :: r) = 63 :: trigraphs (c :: r) := by
  rw [trigraphs.eq_def]
  split
  · next heq => simp at heq; omega
  · next heq => simp at heq; rw [← heq.1, heq.2]
  · next heq => simp at heq

/-- A character of a string literal never ends in an unescaped question mark, so that trigraph replacement
leaves it as it is. -/
theorem trigraphs_strChar {c : Nat} (hc : c < 256) {r : Text} (hr : r.head? ≠ some 63) :
    trigraphs (strChar c ++ r) = strChar c ++ trigraphs r := by
  rw [strChar]
  split
  · simp only [List.cons_append, List.nil_append]
    rw [trigraphs_cons (by decide), trigraphs_cons (by omega), trigraphs_cons (by omega), trigraphs_cons (by omega)]
  · split
    · simp only [List.cons_append, List.nil_append]
      rw [trigraphs_cons (by decide)]
      by_cases h63 : c = 63
      · subst h63
        cases r with
        | nil => rfl
        | cons d r => rw [trigraphs_q (by intro h; subst h; simp at hr)]
      · rw [trigraphs_cons h63]
    · simp only [List.cons_append, List.nil_append]
      rw [trigraphs_cons (by omega)]

theorem strChar_head {c : Nat} (r : Text) : (strChar c ++ r).head? ≠ some 63 := by
  rw [strChar]
  split
  · simp
  · split
    · simp
    · next h => simp; omega

theorem flatMap_head (s : Text) (r : Text) (hr : r.head? ≠ some 63) : (s.flatMap strChar ++ r).head? ≠ some 63 := by
  cases s with
  | nil => exact hr
  | cons c s =>
    rw [List.flatMap_cons, List.append_assoc]
    exact strChar_head _

theorem trigraphs_body : ∀ {s : Text}, (∀ c ∈ s, c < 256) → ∀ {r : Text}, r.head? ≠ some 63 →
    trigraphs (s.flatMap strChar ++ r) = s.flatMap strChar ++ trigraphs r := by
  intro s
  induction s with
  | nil => intro _ r _; rfl
  | cons c s ih =>
    intro h r hr
    rw [List.flatMap_cons, List.append_assoc, trigraphs_strChar (h c (by simp)) (flatMap_head s r hr),
      ih (fun d hd => h d (by simp [hd])) hr, List.append_assoc]

/-- One emitted character is read back, whatever follows. -/
theorem cChar_strChar {c : Nat} (hc : c < 256) {r : Text} (hr : r ≠ []) :
    cChar 34 (strChar c ++ r) = some (c, r) := by
  rw [strChar]
  split
  · simp only [List.cons_append, List.nil_append]
    rw [cChar]
    have h1 : isOct (48 + c / 64) = true := by simp only [isOct, decide_eq_true_eq]; omega
    have h2 : isOct (48 + c % 64 / 8) = true := by simp only [isOct, decide_eq_true_eq]; omega
    have h3 : isOct (48 + c % 64 % 8) = true := by simp only [isOct, decide_eq_true_eq]; omega
    rw [if_pos h1, if_pos h2, if_pos h3]
    have : (48 + c / 64 - 48) * 64 + (48 + c % 64 / 8 - 48) * 8 + (48 + c % 64 % 8 - 48) = c := by omega
    simp only [this]
    rw [if_pos hc]
  · split
    · next hq =>
      simp only [List.cons_append, List.nil_append]
      have ho : isOct c = false := by
        simp only [isOct, decide_eq_false_iff_not]; omega
      have hs : simpleEsc c = some c := by
        rw [simpleEsc, if_pos (by omega)]
      match r, hr with
      | [b], _ =>
        rw [cChar, ho, hs]
        · rfl
        · intro c r h; simp at h
      | b :: d :: r, _ => rw [cChar, ho, hs]; rfl
    · next h1 h2 =>
      simp only [List.cons_append, List.nil_append]
      rw [cChar, if_neg (by omega)]
      all_goals (intros; omega)

theorem cChars_body : ∀ {s : Text}, (∀ c ∈ s, c < 256) → ∀ {r : Text} {f : Nat}, s.length < f →
    cChars f (s.flatMap strChar ++ (34 :: r)) = some (s, r) := by
  intro s
  induction s with
  | nil =>
    intro _ r f hf
    obtain ⟨f, rfl⟩ : ∃ g, f = g + 1 := ⟨f - 1, by omega⟩
    rfl
  | cons c s ih =>
    intro h r f hf
    obtain ⟨f, rfl⟩ : ∃ g, f = g + 1 := ⟨f - 1, by omega⟩
    simp only [List.length_cons] at hf
    rw [List.flatMap_cons, List.append_assoc, cChars]
    · rw [cChar_strChar (h c (by simp)) (by simp)]
      simp only [Option.bind_eq_bind, Option.bind_some]
      rw [ih (fun d hd => h d (by simp [hd])) (by omega)]
      rfl
    · intro r' hr'
      rw [strChar] at hr'
      split at hr'
      · simp at hr'
      · split at hr'
        · simp at hr'
        · simp at hr'; omega

theorem strChar_length (c : Nat) : 1 ≤ (strChar c).length := by
  rw [strChar]; split <;> [simp; split <;> simp]

theorem flatMap_length (s : Text) : s.length ≤ (s.flatMap strChar).length := by
  induction s with
  | nil => simp
  | cons c s ih =>
    rw [List.flatMap_cons, List.length_append, List.length_cons]
    have := strChar_length c; omega

/-- **C12, strings.**  Read by C's rules - trigraphs first, then escapes - the emitted literal gives exactly
the bytes of the string, and reading goes on just after the literal, whatever follows it. -/
theorem C12_string {s : Text} (hs : ∀ c ∈ s, c < 256) (rest : Text) :
    cString (trigraphs (stringLiteral s ++ rest)) = some (s, trigraphs rest) := by
  have e : stringLiteral s ++ rest = 34 :: (s.flatMap strChar ++ (34 :: rest)) := by
    simp [stringLiteral]
  rw [e, trigraphs_cons (by decide), trigraphs_body hs (by simp), trigraphs_cons (by decide), cString]
  apply cChars_body hs
  have := flatMap_length s
  simp only [List.length_append]; omega

/-- **C12, characters.** -/
theorem C12_character {c : Nat} (hc : c < 256) : cCharConst (trigraphs (characterLiteral c)) = some c := by
  rw [characterLiteral]
  split
  · next h =>
    simp only [writeHex, List.cons_append, List.nil_append]
    have hd : ∀ d, d < 16 → hexDigit d ≠ 63 ∧ hexVal (hexDigit d) = some d := by
      intro d hd
      simp only [hexDigit, hexVal]
      split
      · rw [if_pos (by omega)]; exact ⟨by omega, by congr 1; omega⟩
      · rw [if_neg (by omega), if_pos (by omega)]; exact ⟨by omega, by congr 1; omega⟩
    have h1 := hd (c / 16) (by omega)
    have h2 := hd (c % 16) (by omega)
    rw [trigraphs_cons (by decide), trigraphs_cons (by decide), trigraphs_cons h1.1, trigraphs_cons h2.1]
    rw [cCharConst]
    · rw [trigraphs, cHex, hexNum, h1.2, Option.bind_some, hexNum, h2.2, Option.bind_some, hexNum]
      congr 1; omega
    · intro r hr; simp at hr
  · next h =>
    split
    · next hq =>
      rcases hq with rfl | rfl | rfl <;> decide
    · next hq =>
      simp only [List.cons_append, List.nil_append]
      rw [trigraphs_cons (by decide), trigraphs_cons (by omega), trigraphs_cons (by decide)]
      have : cChar 39 (c :: 39 :: trigraphs []) = some (c, [39]) := by
        rw [cChar, if_neg (by omega)]
        · rfl
        all_goals (intros; omega)
      rw [cCharConst, this]; rfl

theorem hexVal_digit {d : Nat} (hd : d < 16) : hexVal (hexDigit d) = some d := by
  simp only [hexDigit, hexVal]
  split
  · rw [if_pos (by omega)]; congr 1; omega
  · rw [if_neg (by omega), if_pos (by omega)]; congr 1; omega

theorem setByte_eq (s k : Nat) : setByte s k = s / 2 ^ (8 * k) % 256 := by
  have ht : ∀ j, s.testBit (8 * k + j) = decide ((s / 2 ^ (8 * k)) / 2 ^ j % 2 = 1) := by
    intro j
    rw [Nat.testBit_eq_decide_div_mod_eq, pow_add, Nat.div_div_eq_div_mul]
  have hb : ∀ j, (if s.testBit (8 * k + j) then 1 else 0) = (s / 2 ^ (8 * k)) / 2 ^ j % 2 := by
    intro j
    rw [ht]
    simp only [decide_eq_true_eq]
    split <;> omega
  simp only [setByte, List.foldl, hb]
  generalize s / 2 ^ (8 * k) = t
  simp only [Nat.reducePow, Nat.div_one]
  omega

theorem hexNum_writeHex {b : Nat} (hb : b < 256) (r : Text) (a : Nat) :
    hexNum (writeHex b ++ r) a = hexNum r (256 * a + b) := by
  rw [writeHex, List.cons_append, List.cons_append, List.nil_append, hexNum, hexVal_digit (by omega),
    Option.bind_some, hexNum, hexVal_digit (by omega), Option.bind_some]
  congr 1; omega

/-- The digits written for the bytes `ks`, most significant first. -/
theorem hexNum_setLoop (s : Nat) : ∀ (ks : List Nat) (skip : Bool) (a : Nat), (skip = true → a = 0) →
    hexNum (setLoop s ks skip) a =
      some (ks.foldl (fun a k => 256 * a + s / 2 ^ (8 * k) % 256) a) := by
  intro ks
  induction ks with
  | nil =>
    intro skip a ha
    cases skip with
    | true => rw [ha rfl]; rfl
    | false => rfl
  | cons k ks ih =>
    intro skip a ha
    rw [setLoop]
    split
    · rw [hexNum_writeHex (by rw [setByte_eq]; omega), ih false _ (by simp), List.foldl_cons, setByte_eq]
    · next hc =>
      have h0 : setByte s k = 0 := by omega
      have hsk : skip = true := by
        cases skip with
        | true => rfl
        | false => exact absurd (Or.inr rfl) hc
      rw [ih skip a ha, List.foldl_cons]
      rw [setByte_eq] at h0
      rw [h0, ha hsk]

theorem setLoop_ne_nil (s : Nat) : ∀ ks skip, (skip = true ∨ ks ≠ []) → setLoop s ks skip ≠ [] := by
  intro ks
  induction ks with
  | nil => intro skip h; cases skip <;> simp_all [setLoop]
  | cons k ks ih =>
    intro skip h
    rw [setLoop]
    split
    · simp [writeHex]
    · next hc =>
      apply ih
      cases skip with
      | true => exact Or.inl rfl
      | false => exact absurd (Or.inr rfl) hc

/-- **C12, sets.**  The emitted hexadecimal constant is the bit pattern of the set. -/
theorem C12_set {s : Nat} (hs : s < 2 ^ 64) : cHex (setLiteral s) = some s := by
  have h1 := hexNum_setLoop s [7, 6, 5, 4, 3, 2, 1, 0] true 0 (fun _ => rfl)
  have h2 := setLoop_ne_nil s [7, 6, 5, 4, 3, 2, 1, 0] true (Or.inl rfl)
  rw [setLiteral]
  obtain ⟨c, r, hcr⟩ : ∃ c r, setLoop s [7, 6, 5, 4, 3, 2, 1, 0] true = c :: r := by
    cases h : setLoop s [7, 6, 5, 4, 3, 2, 1, 0] true with
    | nil => exact absurd h h2
    | cons c r => exact ⟨c, r, rfl⟩
  rw [hcr] at h1 ⊢
  simp only [List.cons_append, List.nil_append, cHex]
  rw [h1]
  simp only [List.foldl]
  congr 1
  omega

/-- A string with a quote, a trigraph, a control character followed by a digit and a high byte. -/
example : stringLiteral [34, 63, 63, 61, 7, 49, 255] = w! "\"\\\"\\?\\?=\\0071\\377\"" := by decide
example : characterLiteral 39 = w! "'\\''" ∧ characterLiteral 200 = w! "0xc8" ∧
    setLiteral 0 = w! "0x0" ∧ setLiteral (2 ^ 63 + 5) = w! "0x8000000000000005" ∧ setLiteral 256 = w! "0x0100" := by
  decide
/-- Without the escape of `?` the literal would be read differently. -/
example : cString (trigraphs (w! "\"??/0\"x")) = some ([0], w! "x") := by decide

end Verif.Emit
