import Verif.Common
import Verif.FPrint.Model

/-!
# C16, C44: what fingerprints detect

A user relies on the fingerprint of an exported object changing when the object changes.  A 32-bit hash
cannot detect every change; the theorems say exactly which single changes it detects.
-/
namespace Verif.FPrint

theorem rot1_inj {a b : Word} (h : a.rotateLeft 1 = b.rotateLeft 1) : a = b := by
  apply BitVec.eq_of_getLsbD_eq
  intro i hi
  have h2 := congrArg (fun x : Word => x.getLsbD ((i + 1) % 32)) h
  simp only [BitVec.getLsbD_rotateLeft] at h2
  by_cases hi31 : i = 31
  · subst hi31; simpa using h2
  · have e : (i + 1) % 32 = i + 1 := by omega
    rw [e] at h2
    have e2 : ¬ (i + 1 < 1 % 32) := by omega
    simp only [e2, decide_false, cond_false] at h2
    simpa [show i + 1 < 32 by omega] using h2

theorem xor_cancel {w : Nat} {a b c : BitVec w} : (a ^^^ b = a ^^^ c) ↔ b = c := BitVec.xor_right_inj a

theorem step_inj_left {a b w : Word} : step a w = step b w ↔ a = b := by
  constructor
  · intro h
    have := rot1_inj h
    rwa [BitVec.xor_comm a, BitVec.xor_comm b, xor_cancel] at this
  · rintro rfl; rfl

theorem step_inj_right {fp a b : Word} : step fp a = step fp b ↔ a = b := by
  constructor
  · intro h
    exact xor_cancel.1 (rot1_inj h)
  · rintro rfl; rfl

theorem fpWords_inj (ws : List Word) : ∀ {a b : Word}, fpWords a ws = fpWords b ws ↔ a = b := by
  induction ws with
  | nil => intro a b; rfl
  | cons w ws ih =>
    intro a b
    simp only [fpWords, List.foldl_cons] at ih ⊢
    rw [ih, step_inj_left]

/-- **C16.**  Replacing exactly one word of the hashed data by a different one always changes the
fingerprint, whatever comes before and after. -/
theorem C16_one_word (fp : Word) (pre post : List Word) (a b : Word) :
    fpWords fp (pre ++ a :: post) = fpWords fp (pre ++ b :: post) ↔ a = b := by
  simp only [fpWords, List.foldl_append, List.foldl_cons]
  rw [show (List.foldl step (step (List.foldl step fp pre) a) post =
    List.foldl step (step (List.foldl step fp pre) b) post) ↔ _ from fpWords_inj post]
  exact step_inj_right

/-- **C16.**  Two starting fingerprints never merge: what is hashed afterwards cannot hide an earlier
difference. -/
theorem C16_no_merge (ws : List Word) (a b : Word) : fpWords a ws = fpWords b ws ↔ a = b :=
  fpWords_inj ws

/-- The low and the high word of a hashed 64-bit value. -/
def lo (v : BitVec 64) : Word := v.setWidth 32
@[inherit_doc lo] def hi (v : BitVec 64) : Word := (v >>> 32).setWidth 32

theorem rot1_xor (a b : Word) : (a ^^^ b).rotateLeft 1 = a.rotateLeft 1 ^^^ b.rotateLeft 1 := by
  apply BitVec.eq_of_getLsbD_eq
  intro i hi
  simp only [BitVec.getLsbD_rotateLeft, BitVec.getLsbD_xor]
  by_cases h : i < 1 % 32 <;> simp [h, hi]

theorem fprint_eq (fp : Word) (v : BitVec 64) :
    fprint fp v = ((fp ^^^ lo v).rotateLeft 1 ^^^ hi v).rotateLeft 1 := rfl

/-- **C16, one 64-bit value.**  Exactly which pairs of values are confused: those for which the low word
rotated by one and the high word have the same exclusive or. -/
theorem C16_one_value (fp : Word) (a b : BitVec 64) :
    fprint fp a = fprint fp b ↔ (lo a).rotateLeft 1 ^^^ hi a = (lo b).rotateLeft 1 ^^^ hi b := by
  rw [fprint_eq, fprint_eq]
  constructor
  · intro h
    have := rot1_inj h
    rwa [rot1_xor, rot1_xor, BitVec.xor_assoc, BitVec.xor_assoc, xor_cancel] at this
  · intro h
    rw [rot1_xor fp, rot1_xor fp, BitVec.xor_assoc, BitVec.xor_assoc, h]

theorem fprint_inj_left {a b : Word} {v : BitVec 64} : fprint a v = fprint b v ↔ a = b :=
  fpWords_inj _

theorem hi_huge_nonneg {x : Int} (h0 : 0 ≤ x) (h1 : x < 2 ^ 32) : hi (huge x) = 0 := by
  apply BitVec.eq_of_toNat_eq
  simp only [hi, huge, BitVec.toNat_setWidth, BitVec.toNat_ushiftRight, BitVec.toNat_ofInt,
    Nat.shiftRight_eq_div_pow]
  have : (x % (2 ^ 64 : Nat)).toNat = x.toNat := by norm_num at *; omega
  rw [this]
  have : x.toNat / 2 ^ 32 = 0 := by apply Nat.div_eq_of_lt; omega
  rw [this]; rfl

theorem lo_huge_nonneg {x : Int} (h0 : 0 ≤ x) (h1 : x < 2 ^ 32) : (lo (huge x)).toNat = x.toNat := by
  simp only [lo, huge, BitVec.toNat_setWidth, BitVec.toNat_ofInt]
  have : (x % (2 ^ 64 : Nat)).toNat = x.toNat := by norm_num at *; omega
  rw [this]
  apply Nat.mod_eq_of_lt; omega

/-- Small non-negative values (modes, forms, characters, offsets, lengths) are never confused. -/
theorem C16_small_value (fp : Word) {x y : Int} (hx : 0 ≤ x ∧ x < 2 ^ 32) (hy : 0 ≤ y ∧ y < 2 ^ 32) :
    fprint fp (huge x) = fprint fp (huge y) ↔ x = y := by
  rw [C16_one_value, hi_huge_nonneg hx.1 hx.2, hi_huge_nonneg hy.1 hy.2]
  constructor
  · intro h
    simp only [BitVec.ofNat_eq_ofNat, BitVec.xor_zero] at h
    have h2 := congrArg BitVec.toNat (rot1_inj h)
    rw [lo_huge_nonneg hx.1 hx.2, lo_huge_nonneg hy.1 hy.2] at h2
    omega
  · rintro rfl; rfl

/-- **C44, integer constants, partial**: changing an exported non-negative constant below 2^32 to another
such value changes its fingerprint.  (See `C44_const_collision` for what is missing.) -/
theorem C44_const_partial {x y : Int} (hx : 0 ≤ x ∧ x < 2 ^ 32) (hy : 0 ≤ y ∧ y < 2 ^ 32) :
    fpIntConst x = fpIntConst y ↔ x = y := C16_small_value _ hx hy

theorem huge_not (x : Int) : huge (-1 - x) = ~~~ (huge x) := by
  apply BitVec.eq_of_toInt_eq
  rw [BitVec.toInt_not]
  simp only [huge, BitVec.toInt_ofInt, BitVec.toNat_ofInt]
  simp only [Int.bmod]
  norm_num
  omega

theorem lo_not (v : BitVec 64) : lo (~~~ v) = ~~~ (lo v) := by
  apply BitVec.eq_of_getLsbD_eq
  intro i hi
  simp [lo, hi, show i < 64 by omega]

theorem hi_not (v : BitVec 64) : hi (~~~ v) = ~~~ (hi v) := by
  apply BitVec.eq_of_getLsbD_eq
  intro i hi'
  simp [hi, hi', show 32 + i < 64 by omega]

theorem rot1_not (a : Word) : (~~~ a).rotateLeft 1 = ~~~ (a.rotateLeft 1) := by
  apply BitVec.eq_of_getLsbD_eq
  intro i hi
  simp only [BitVec.getLsbD_rotateLeft, BitVec.getLsbD_not]
  by_cases h : i < 1 % 32 <;> simp [h, hi] <;> omega

theorem fprint_not (fp : Word) (v : BitVec 64) : fprint fp (~~~ v) = fprint fp v := by
  rw [C16_one_value, lo_not, hi_not, rot1_not]
  apply BitVec.eq_of_getLsbD_eq
  intro i hi
  simp only [BitVec.getLsbD_xor, BitVec.getLsbD_not, hi, decide_true, Bool.true_and]
  cases ((lo v).rotateLeft 1).getLsbD i <;> cases (FPrint.hi v).getLsbD i <;> rfl

/-- **C44 fails for constants of opposite sign**: an exported constant `x` can be changed to `-1-x`
(for instance 0 to -1, or TRUE's 1 to -2) without changing its fingerprint, so such a change of an
interface is not detected. -/
theorem C44_const_collision (x : Int) : fpIntConst (-1 - x) = fpIntConst x := by
  simp only [fpIntConst, huge_not, fprint_not]

example : fpIntConst (-1) = fpIntConst 0 := C44_const_collision 0
example : fpIntConst 5 ≠ fpIntConst 6 := by
  rw [Ne, C44_const_partial (by decide) (by decide)]; decide

/-- **C44, names.**  Two names of the same length that differ in exactly one character have different
fingerprints. -/
theorem C44_name (fp : Word) (pre post : List Nat) {c d : Nat} (hc : c < 256) (hd : d < 256) :
    fprintName fp (pre ++ c :: post) = fprintName fp (pre ++ d :: post) ↔ c = d := by
  have key : ∀ (l : List Nat) {a b : Word},
      List.foldl (fun fp (c : Nat) => fprint fp (huge c)) a l = List.foldl (fun fp (c : Nat) => fprint fp (huge c)) b l ↔
        a = b := by
    intro l
    induction l with
    | nil => intro a b; rfl
    | cons x l ih => intro a b; rw [List.foldl_cons, List.foldl_cons, ih, fprint_inj_left]
  simp only [fprintName, List.append_assoc, List.cons_append, List.foldl_append, List.foldl_cons,
    List.foldl_nil]
  rw [fprint_inj_left, key, C16_small_value _ (by omega) (by omega)]
  omega

/-- **C44, signatures.**  Turning a value parameter into a VAR parameter, or a parameter's type into one
with a fingerprint that differs (and is not the complement), changes the fingerprint of the procedure. -/
theorem C44_param (result : Word) (pre post : List Par) (p q : Par)
    (hp : p.mode < 256) (hq : q.mode < 256)
    (h : (p.mode ≠ q.mode ∧ p.idfp = q.idfp) ∨
      (p.mode = q.mode ∧ p.idfp ≠ q.idfp ∧ p.idfp.msb = q.idfp.msb)) :
    fpProc result (pre ++ p :: post) ≠ fpProc result (pre ++ q :: post) := by
  have key : ∀ (l : List Par) {a b : Word},
      List.foldl (fun fp p => fprint (fprint fp (huge p.mode)) (p.idfp.signExtend 64)) a l =
      List.foldl (fun fp p => fprint (fprint fp (huge p.mode)) (p.idfp.signExtend 64)) b l ↔ a = b := by
    intro l
    induction l with
    | nil => intro a b; rfl
    | cons x l ih =>
      intro a b
      rw [List.foldl_cons, List.foldl_cons, ih, fprint_inj_left, fprint_inj_left]
  simp only [fpProc, fprintSign, List.foldl_append, List.foldl_cons]
  rw [Ne, key]
  rcases h with ⟨h1, h2⟩ | ⟨h1, h2, h3⟩
  · rw [h2, fprint_inj_left, C16_small_value _ (by omega) (by omega)]
    omega
  · rw [h1, C16_one_value]
    have hlo : ∀ w : Word, lo (w.signExtend 64) = w := by
      intro w
      apply BitVec.eq_of_getLsbD_eq
      intro i hi
      rw [lo, BitVec.getLsbD_setWidth, BitVec.getLsbD_signExtend]
      simp [hi, show i < 64 by omega]
    have hhi : ∀ w : Word, hi (w.signExtend 64) = if w.msb then BitVec.allOnes 32 else 0 := by
      intro w
      apply BitVec.eq_of_getLsbD_eq
      intro i hi'
      by_cases hm : w.msb = true
      · rw [hi, BitVec.getLsbD_setWidth, BitVec.getLsbD_ushiftRight, BitVec.getLsbD_signExtend, if_pos hm,
          BitVec.getLsbD_allOnes]
        simp [hi', show 32 + i < 64 by omega, hm]
      · rw [hi, BitVec.getLsbD_setWidth, BitVec.getLsbD_ushiftRight, BitVec.getLsbD_signExtend, if_neg hm]
        simp [hm]
    rw [hlo, hlo, hhi, hhi, h3]
    intro h4
    exact h2 (rot1_inj ((BitVec.xor_left_inj _).1 h4))

example : fpProc 7 [⟨1, 3⟩, ⟨1, 4⟩] ≠ fpProc 7 [⟨1, 3⟩, ⟨2, 4⟩] :=
  C44_param 7 [⟨1, 3⟩] [] ⟨1, 4⟩ ⟨2, 4⟩ (by decide) (by decide) (Or.inl (by decide))

end Verif.FPrint
