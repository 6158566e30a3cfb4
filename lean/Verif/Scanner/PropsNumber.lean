import Verif.Scanner.Model
import Verif.Scanner.Spec
import Verif.Scanner.PropsComment
import Verif.Common

/-!
C06: integer and character literals.
-/
namespace Verif.Scanner

/-! ### The mantissa loop -/

theorem mantStep_d (s : Mant) (c : Nat) : (mantStep s c).d = s.d ∧ (mantStep s c).errs = s.errs := by
  unfold mantStep; simp only; split <;> simp

theorem mantLoop_append (ds rest : List Nat) (s : Mant) (hd : s.d = 0)
    (h : ∀ c ∈ ds, isDigit c = true ∨ isHexLetter c = true) :
    mantLoop (ds ++ rest) s = mantLoop rest (ds.foldl mantStep s) := by
  induction ds generalizing s with
  | nil => rfl
  | cons c ds ih =>
    rw [List.cons_append, mantLoop, if_pos]
    · rw [ih _ (by rw [(mantStep_d s c).1, hd]) (fun c hc => h c (by simp [hc]))]; rfl
    · rcases h c (by simp) with h | h
      · exact Or.inl h
      · exact Or.inr ⟨hd, h⟩

/-- Leading zeros removed. -/
def sig (ds : List Nat) : List Nat := ds.dropWhile (· = 48)

theorem sig_snoc (ds : List Nat) (c : Nat) :
    sig (ds ++ [c]) = if sig ds = [] then (if c = 48 then [] else [c]) else sig ds ++ [c] := by
  induction ds with
  | nil => simp only [sig, List.nil_append, List.dropWhile]; split <;> simp_all
  | cons a ds ih =>
    simp only [sig, List.cons_append, List.dropWhile_cons] at ih ⊢
    split
    · exact ih
    · simp

/-- What the mantissa loop has collected. -/
def MInv (s : Mant) (ds : List Nat) : Prop :=
  s.d = 0 ∧ s.errs = [] ∧
    (((sig ds).length ≤ 24 ∧ s.dig = sig ds ∧ s.m = (sig ds).length) ∨
      (24 < (sig ds).length ∧ s.dig = (sig ds).take 24))

theorem foldl_inv (ds : List Nat) : MInv (ds.foldl mantStep ⟨0, 0, 0, [], []⟩) ds := by
  induction ds using List.reverseRecOn with
  | nil => exact ⟨rfl, rfl, Or.inl ⟨by simp [sig], rfl, rfl⟩⟩
  | append_singleton ds c ih =>
    rw [List.foldl_append]
    simp only [List.foldl_cons, List.foldl_nil]
    generalize ds.foldl mantStep ⟨0, 0, 0, [], []⟩ = s at ih
    obtain ⟨h1, h2, h3⟩ := ih
    refine ⟨by rw [(mantStep_d s c).1, h1], by rw [(mantStep_d s c).2, h2], ?_⟩
    rw [sig_snoc]
    rcases h3 with ⟨h3, h4, h5⟩ | ⟨h3, h4⟩
    · by_cases he : sig ds = []
      · rw [if_pos he]
        rw [he] at h4 h5
        simp only [List.length_nil, Nat.cast_zero] at h5
        by_cases hc : c = 48
        · left; simp [mantStep, hc, h4, h5]
        · left; simp [mantStep, hc, h4, h5, wrap16]
      · rw [if_neg he]
        have hl : 0 < (sig ds).length := List.length_pos_iff.2 he
        have hm : 0 < s.m ∨ c ≠ 48 := Or.inl (by omega)
        by_cases hf : (sig ds).length < 24
        · left
          refine ⟨by simp; omega, ?_, ?_⟩
          · simp [mantStep, hm, h4, hf]
          · have : (mantStep s c).m = wrap16 (s.m + 1) := by simp [mantStep, hm]
            rw [this, h5, wrap16, List.length_append]
            simp only [List.length_cons, List.length_nil]
            omega
        · right
          refine ⟨by simp; omega, ?_⟩
          have : (sig ds).length = 24 := by omega
          simp only [mantStep, hm, if_true, h4, hf, if_false]
          rw [List.take_append_of_le_length (by omega), List.take_of_length_le (by omega)]
    · have he : sig ds ≠ [] := by rintro he; rw [he] at h3; simp at h3
      have hdl : s.dig.length = 24 := by rw [h4]; simp; omega
      rw [if_neg he]
      right
      refine ⟨by simp; omega, ?_⟩
      have : (mantStep s c).dig = s.dig := by
        simp only [mantStep]; split <;> simp [hdl]
      rw [this, h4, List.take_append_of_le_length (by omega)]

/-! ### Values -/

theorem foldl_val (b : Nat) (ds : List Nat) (a : Nat) :
    ds.foldl (fun a c => a * b + digitVal c) a = a * b ^ ds.length + valOf b ds := by
  unfold valOf
  induction ds generalizing a with
  | nil => simp
  | cons c ds ih =>
    simp only [List.foldl_cons, List.length_cons]
    rw [ih, ih (0 * b + digitVal c)]
    ring

theorem valOf_cons (b c : Nat) (ds : List Nat) :
    valOf b (c :: ds) = digitVal c * b ^ ds.length + valOf b ds := by
  have := foldl_val b ds (0 * b + digitVal c)
  unfold valOf at *
  simp only [List.foldl_cons, this]; ring

theorem valOf_append (b : Nat) (xs ys : List Nat) :
    valOf b (xs ++ ys) = valOf b xs * b ^ ys.length + valOf b ys := by
  unfold valOf
  rw [List.foldl_append, foldl_val]; rfl

theorem valOf_sig (b : Nat) (ds : List Nat) : valOf b (sig ds) = valOf b ds := by
  induction ds with
  | nil => rfl
  | cons c ds ih =>
    unfold sig at *
    rw [List.dropWhile_cons]
    split
    · next h => simp at h; rw [ih, valOf_cons, h]; simp [digitVal]
    · rfl

theorem valOf_lt {b : Nat} {ds : List Nat} (h : ∀ c ∈ ds, digitVal c < b) :
    valOf b ds < b ^ ds.length := by
  induction ds with
  | nil => simp [valOf]
  | cons c ds ih =>
    have h1 := ih (fun c hc => h c (by simp [hc]))
    have h2 := h c (by simp)
    rw [valOf_cons, List.length_cons, pow_succ]
    calc digitVal c * b ^ ds.length + valOf b ds < digitVal c * b ^ ds.length + b ^ ds.length := by omega
      _ = (digitVal c + 1) * b ^ ds.length := by ring
      _ ≤ b * b ^ ds.length := Nat.mul_le_mul_right _ h2
      _ = _ := by ring

theorem sig_head {ds : List Nat} {c : Nat} {r : List Nat} (h : sig ds = c :: r) : c ≠ 48 := by
  unfold sig at h
  intro hc
  have := List.head_dropWhile_not (fun x => decide (x = 48)) (l := ds) (by rw [h]; simp)
  simp [h, hc] at this

theorem le_valOf_sig {b : Nat} {ds : List Nat} (h : ∀ c ∈ ds, IsHex c) (hn : sig ds ≠ []) :
    b ^ ((sig ds).length - 1) ≤ valOf b ds := by
  rw [← valOf_sig]
  cases hs : sig ds with
  | nil => exact absurd hs hn
  | cons c r =>
    have hc := sig_head hs
    have hx : c ∈ ds := (List.dropWhile_sublist (fun x => decide (x = 48))).subset (by
      show c ∈ sig ds; rw [hs]; simp)
    have h1 : 1 ≤ digitVal c := by
      have := h c hx; unfold IsHex at this; unfold digitVal; split <;> omega
    rw [valOf_cons, List.length_cons, Nat.add_sub_cancel]
    nlinarith [Nat.zero_le (valOf b r), Nat.zero_le (b ^ r.length)]

theorem sig_mem {ds : List Nat} {c : Nat} (h : c ∈ sig ds) : c ∈ ds :=
  (List.dropWhile_sublist (fun x => decide (x = 48))).subset h

theorem dec_hex {c : Nat} (h : IsDec c) : IsHex c := Or.inl h

theorem digitVal_dec {c : Nat} (h : IsDec c) : digitVal c < 10 := by
  unfold IsDec at h; unfold digitVal; split <;> omega

theorem digitVal_hex {c : Nat} (h : IsHex c) : digitVal c < 16 := by
  unfold IsHex at h; unfold digitVal; split <;> omega

theorem ord_hex {c : Nat} (h : IsHex c) : ord c true = ((digitVal c : Int), []) := by
  unfold IsHex at h; unfold ord digitVal
  split
  · congr 1; omega
  · simp only [if_true]; congr 1; omega

theorem ord_dec {c : Nat} (h : IsDec c) : ord c false = ((digitVal c : Int), []) := by
  unfold IsDec at h; unfold ord digitVal
  rw [if_pos h.2, if_pos h.2]; congr 1; omega

/-! ### The decimal loop -/

theorem decLoop_step {v c d : Nat} {ds e : List Nat} (ho : ord c false = ((d : Int), []))
    (h : v * 10 + d < 2 ^ 63) : decLoop (c :: ds) v e = decLoop ds ((v * 10 + d : Nat) : Int) e := by
  have k0 : (v : Int) ≤ (2 ^ 63 - 1 - (d : Int)) / 10 := by omega
  have k1 : ck64 ((v : Int) * 10) = some ((v : Int) * 10) := by unfold ck64; rw [if_pos (by omega)]
  have k2 : ck64 ((v : Int) * 10 + d) = some ((v * 10 + d : Nat) : Int) := by
    unfold ck64; rw [if_pos (by omega)]; simp
  rw [decLoop, ho]
  dsimp only
  rw [if_pos k0, k1, Option.bind_eq_bind, Option.bind_some, k2, Option.bind_some, List.append_nil]

theorem decLoop_err {v c d : Nat} {ds e : List Nat} (ho : ord c false = ((d : Int), []))
    (h : ¬ v * 10 + d < 2 ^ 63) : decLoop (c :: ds) v e = decLoop ds v (e ++ [203]) := by
  have k0 : ¬ (v : Int) ≤ (2 ^ 63 - 1 - (d : Int)) / 10 := by omega
  rw [decLoop, ho]
  dsimp only
  rw [if_neg k0, List.append_nil]

theorem hexLoop_step {v : Int} {c d : Nat} {ds : List Nat} (ho : ord c true = ((d : Int), []))
    (h1 : -(2 ^ 63) ≤ v * 16) (h2 : v * 16 + d < 2 ^ 63) :
    hexLoop (c :: ds) v = hexLoop ds (v * 16 + d) := by
  have k1 : ck64 (v * 16) = some (v * 16) := by unfold ck64; rw [if_pos (by omega)]
  have k2 : ck64 (v * 16 + d) = some (v * 16 + d) := by unfold ck64; rw [if_pos (by omega)]
  rw [hexLoop, ho]
  dsimp only
  rw [k1, Option.bind_eq_bind, Option.bind_some, k2, Option.bind_some]

theorem decLoop_ok (ds : List Nat) (hd : ∀ c ∈ ds, IsDec c) (v : Nat) (e : List Nat)
    (h : v * 10 ^ ds.length + valOf 10 ds < 2 ^ 63) :
    decLoop ds v e = some (((v * 10 ^ ds.length + valOf 10 ds : Nat) : Int), e) := by
  induction ds generalizing v with
  | nil => simp [decLoop, valOf]
  | cons c ds ih =>
    have hc := hd c (by simp)
    have hdv := digitVal_dec hc
    rw [valOf_cons, List.length_cons] at h ⊢
    have e1 : v * 10 ^ (ds.length + 1) + (digitVal c * 10 ^ ds.length + valOf 10 ds)
        = (v * 10 + digitVal c) * 10 ^ ds.length + valOf 10 ds := by ring
    rw [e1] at h ⊢
    have hp : 0 < 10 ^ ds.length := Nat.pow_pos (by omega)
    have h2 : v * 10 + digitVal c < 2 ^ 63 := by nlinarith
    have ih' := ih (fun c hc => hd c (by simp [hc])) (v * 10 + digitVal c) h
    rw [decLoop_step (ord_dec hc) h2, ih']

theorem decLoop_bad (ds : List Nat) (hd : ∀ c ∈ ds, IsDec c) (v : Nat) (hv : v < 2 ^ 63) (e : List Nat) :
    ∃ v' e', decLoop ds v e = some (v', e ++ e') ∧ (∀ x ∈ e', x = 203) ∧
      (2 ^ 63 ≤ v * 10 ^ ds.length + valOf 10 ds → e' ≠ []) := by
  induction ds generalizing v e with
  | nil => exact ⟨v, [], by simp [decLoop], by simp, fun h => by simp [valOf] at h; omega⟩
  | cons c ds ih =>
    have hc := hd c (by simp)
    have hdv := digitVal_dec hc
    have hd' : ∀ c ∈ ds, IsDec c := fun c hc => hd c (by simp [hc])
    rw [valOf_cons, List.length_cons]
    have e1 : v * 10 ^ (ds.length + 1) + (digitVal c * 10 ^ ds.length + valOf 10 ds)
        = (v * 10 + digitVal c) * 10 ^ ds.length + valOf 10 ds := by ring
    rw [e1]
    by_cases h2 : v * 10 + digitVal c < 2 ^ 63
    · obtain ⟨v', e', h3, h4, h5⟩ := ih hd' (v * 10 + digitVal c) h2 e
      exact ⟨v', e', by rw [decLoop_step (ord_dec hc) h2, h3], h4, h5⟩
    · obtain ⟨v', e', h3, h4, -⟩ := ih hd' v hv (e ++ [203])
      refine ⟨v', 203 :: e', ?_, ?_, by simp⟩
      · rw [decLoop_err (ord_dec hc) h2, h3]; simp
      · intro x hx
        rcases List.mem_cons.1 hx with h | h
        · exact h
        · exact h4 x h

/-! ### The hexadecimal loop -/

theorem hexLoop_ok (ds : List Nat) (hd : ∀ c ∈ ds, IsHex c) (v : Int)
    (hlo : -(2 ^ 63) ≤ v * 16 ^ ds.length) (hhi : (v + 1) * 16 ^ ds.length ≤ 2 ^ 63) :
    hexLoop ds v = some (v * 16 ^ ds.length + valOf 16 ds) := by
  induction ds generalizing v with
  | nil => simp [hexLoop, valOf]
  | cons c ds ih =>
    have hc := hd c (by simp)
    have hdv := digitVal_hex hc
    have hp : (1 : Int) ≤ 16 ^ ds.length := by
      have : (0 : Int) < 16 ^ ds.length := by positivity
      omega
    rw [List.length_cons, show (16 : Int) ^ (ds.length + 1) = 16 * 16 ^ ds.length from pow_succ' _ _] at hlo hhi
    have e1 : v * (16 * 16 ^ ds.length) = (v * 16) * 16 ^ ds.length := by ring
    have e2 : (v + 1) * (16 * 16 ^ ds.length) = (v * 16 + 16) * 16 ^ ds.length := by ring
    rw [e1] at hlo
    rw [e2] at hhi
    have b1 : -(2 ^ 63) ≤ v * 16 := by
      by_contra hcon
      have : v * 16 * 16 ^ ds.length ≤ v * 16 := by nlinarith
      omega
    have b2 : v * 16 + 16 ≤ 2 ^ 63 := by
      by_contra hcon
      have : v * 16 + 16 ≤ (v * 16 + 16) * 16 ^ ds.length := by nlinarith
      omega
    rw [hexLoop_step (ord_hex hc) b1 (by omega)]
    rw [ih (fun c hc => hd c (by simp [hc])) _ (by nlinarith) (by nlinarith)]
    rw [valOf_cons, List.length_cons]
    congr 1
    push_cast
    ring

/-! ### C06 -/

/-- A character that ends a decimal literal: not a digit, not a letter `A`..`F`, `H`, `X`, not a
point. -/
def EndsDec (rest : List Nat) : Prop := ¬ IsHex (ch rest) ∧ ch rest ≠ 46 ∧ ch rest ≠ 72 ∧ ch rest ≠ 88

theorem isDigit_iff {c : Nat} : isDigit c = true ↔ IsDec c := by simp [isDigit, IsDec]
theorem isHexLetter_iff {c : Nat} : (isDigit c = true ∨ isHexLetter c = true) ↔ IsHex c := by
  simp [isDigit, isHexLetter, IsHex]

theorem scan_number {ds rest : List Nat} {c : Nat} (hc : IsDec c) (hds : ds.head? = some c) :
    scan (ds ++ rest) = number (ds ++ rest) := by
  cases ds with
  | nil => simp at hds
  | cons a ds =>
    simp only [List.head?_cons, Option.some.injEq] at hds
    subst hds
    unfold IsDec at hc
    have h1 : ¬ (a ≤ 32) := by omega
    have h2 : ¬ (a = 34 ∨ a = 39) := by omega
    have h3 : ¬ (a = 40 ∧ ch (ds ++ rest) = 42) := by omega
    have h4 : isDigit a = true := isDigit_iff.2 hc
    simp only [scan, List.cons_append, get, skipBlanks, h1, h2, h3, h4, if_false, if_true]

theorem mantLoop_stop {rest : List Nat} {s : Mant} (h : ¬ IsHex (ch rest)) (h2 : ch rest ≠ 46) :
    mantLoop rest s = (s, rest) := by
  cases rest with
  | nil => rw [mantLoop]
  | cons c t =>
    simp only [ch, List.headD_cons] at h h2
    rw [mantLoop, if_neg, if_neg h2]
    rintro (h' | ⟨-, h'⟩)
    · exact h (isHexLetter_iff.1 (Or.inl h'))
    · exact h (isHexLetter_iff.1 (Or.inr h'))

theorem mantLoop_dots {r : List Nat} {s : Mant} : mantLoop (46 :: 46 :: r) s = (s, 127 :: r) := by
  rw [mantLoop, if_neg (by simp [isDigit, isHexLetter]), if_pos rfl,
    if_pos (show ch (46 :: r) = 46 from rfl), List.tail_cons]

theorem number_eq {ds rest rest' : List Nat} (hd : ∀ c ∈ ds, IsHex c)
    (hstop : ∀ s, mantLoop rest s = (s, rest')) :
    number (ds ++ rest) = integerPart (ds.foldl mantStep ⟨0, 0, 0, [], []⟩) rest' := by
  simp only [number]
  rw [mantLoop_append _ _ _ rfl (fun c hc => isHexLetter_iff.2 (hd c hc)), hstop]
  rw [if_pos (foldl_inv ds).1]

theorem decimal_core {ds rest rest' : List Nat} (hd : ∀ c ∈ ds, IsDec c)
    (hstop : ∀ s, mantLoop rest s = (s, rest')) (hx : ch rest' ≠ 88) (hh : ch rest' ≠ 72) :
    (valOf 10 ds < 2 ^ 63 → number (ds ++ rest) = some (.int (valOf 10 ds), rest', [])) ∧
    (2 ^ 63 ≤ valOf 10 ds → ∃ k e, number (ds ++ rest) = some (k, rest', e) ∧ e ≠ [] ∧
      ∀ x ∈ e, x = 203) := by
  rw [number_eq (fun c hc => dec_hex (hd c hc)) hstop]
  obtain ⟨-, he, hm⟩ := foldl_inv ds
  generalize ds.foldl mantStep ⟨0, 0, 0, [], []⟩ = s at he hm
  have hsd : ∀ c ∈ sig ds, IsDec c := fun c hc => hd c (sig_mem hc)
  simp only [integerPart, if_neg hx, if_neg hh, he]
  rcases hm with ⟨h1, h2, h3⟩ | ⟨h1, h2⟩
  · rw [if_pos (by rw [h2, h3]), h2]
    constructor
    · intro hv
      rw [← valOf_sig] at hv ⊢
      have := decLoop_ok (sig ds) hsd 0 [] (by simpa using hv)
      simp only [Nat.zero_mul, Nat.zero_add, Nat.cast_zero] at this
      rw [this]; rfl
    · intro hv
      obtain ⟨v', e', h4, h5, h6⟩ := decLoop_bad (sig ds) hsd 0 (by omega) []
      refine ⟨.int v', e', ?_, h6 (by rw [valOf_sig]; simpa using hv), h5⟩
      simp only [Nat.cast_zero, List.nil_append] at h4
      rw [h4]; rfl
  · have hne : sig ds ≠ [] := by intro h; rw [h] at h1; simp at h1
    have hbig := le_valOf_sig (b := 10) (fun c hc => dec_hex (hd c hc)) hne
    have : 10 ^ 24 ≤ 10 ^ ((sig ds).length - 1) := Nat.pow_le_pow_right (by omega) (by omega)
    constructor
    · intro hv; omega
    · intro _
      split
      · rw [h2]
        obtain ⟨v', e', h4, h5, h6⟩ := decLoop_bad ((sig ds).take 24)
          (fun c hc => hsd c (List.mem_of_mem_take hc)) 0 (by omega) []
        refine ⟨.int v', e', ?_, h6 ?_, h5⟩
        · simp only [Nat.cast_zero, List.nil_append] at h4
          rw [h4]; rfl
        · have e24 : ((sig ds).take 24).length = 24 := by simp; omega
          have hlow : 10 ^ 23 ≤ valOf 10 ((sig ds).take 24) := by
            cases hs : sig ds with
            | nil => exact absurd hs hne
            | cons c r =>
              have hc := sig_head hs
              have hcd := hsd c (by rw [hs]; simp)
              rw [hs] at e24
              simp only [List.take_succ_cons, List.length_cons, List.length_take] at e24 ⊢
              rw [valOf_cons]
              have : (List.take 23 r).length = 23 := by rw [List.length_take]; omega
              rw [this]
              have : 1 ≤ digitVal c := by unfold IsDec at hcd; unfold digitVal; split <;> omega
              omega
          omega
      · exact ⟨.bad, [203], rfl, by simp, by simp⟩

/-- **C06, decimal literals.**  For every non-empty string of digits `ds`, of any length and with
any number of leading zeros, in every context: if its value is at most MAX(INT64) it yields that
value and no error; otherwise an error 203 and nothing else is reported.  The literal is consumed
in both cases, and no intermediate value overflows. -/
theorem C06_decimal {ds rest : List Nat} (hne : ds ≠ []) (hd : ∀ c ∈ ds, IsDec c) (hr : EndsDec rest) :
    (valOf 10 ds < 2 ^ 63 → scan (ds ++ rest) = some (.int (valOf 10 ds), rest, [])) ∧
    (2 ^ 63 ≤ valOf 10 ds → ∃ k e, scan (ds ++ rest) = some (k, rest, e) ∧ e ≠ [] ∧
      ∀ x ∈ e, x = 203) := by
  obtain ⟨c, ds', rfl⟩ := List.exists_cons_of_ne_nil hne
  rw [scan_number (c := c) (hd c (by simp)) rfl]
  exact decimal_core hd (fun s => mantLoop_stop hr.1 hr.2.1) hr.2.2.2 hr.2.2.1

/-- **C06, decimal literals before an ellipsis**, as in `0..9`: the same value, and the next symbol
is `..` (21). -/
theorem C06_decimal_upto {ds r : List Nat} (hne : ds ≠ []) (hd : ∀ c ∈ ds, IsDec c)
    (hv : valOf 10 ds < 2 ^ 63) :
    ∃ t, scan (ds ++ 46 :: 46 :: r) = some (.int (valOf 10 ds), t, []) ∧
      scan t = some (.sym 21, r, []) := by
  obtain ⟨c, ds', rfl⟩ := List.exists_cons_of_ne_nil hne
  refine ⟨127 :: r, ?_, ?_⟩
  · rw [scan_number (c := c) (hd c (by simp)) rfl]
    exact (decimal_core hd (fun s => mantLoop_dots) (by simp [ch]) (by simp [ch])).1 hv
  · simp [scan, get, skipBlanks, isDigit, isLetter, operator, ch]

/-- The number of significant hexadecimal digits is determined by the value. -/
theorem sig_length_iff {ds : List Nat} (hd : ∀ c ∈ ds, IsHex c) (n : Nat) :
    (sig ds).length ≤ n ↔ valOf 16 ds < 16 ^ n := by
  constructor
  · intro h
    rw [← valOf_sig]
    exact lt_of_lt_of_le (valOf_lt (fun c hc => digitVal_hex (hd c (sig_mem hc))))
      (Nat.pow_le_pow_right (by omega) h)
  · intro h
    by_contra hn
    have hne : sig ds ≠ [] := by intro h'; rw [h'] at hn; simp at hn
    have := le_valOf_sig (b := 16) hd hne
    have : 16 ^ n ≤ 16 ^ ((sig ds).length - 1) := Nat.pow_le_pow_right (by omega) (by omega)
    omega

theorem hexNumber_eq {ds rest : List Nat} {s : Mant} (h : s = ds.foldl mantStep ⟨0, 0, 0, [], []⟩)
    (k : Nat) (hk : k = 72 ∨ k = 88) (hd : ∀ c ∈ ds, IsHex c) :
    number (ds ++ k :: rest) = integerPart s (k :: rest) := by
  rw [h]
  refine number_eq hd (fun s => mantLoop_stop ?_ ?_) <;> rcases hk with rfl | rfl <;>
    simp [ch, IsHex]

/-- **C06, hexadecimal literals** `...H`: for every string of hexadecimal digits that starts with
a decimal digit: if its value is below 2^64 it yields the number whose two's complement
representation that is; otherwise error 203. -/
theorem C06_hex {c : Nat} {ds rest : List Nat} (hc : IsDec c) (hd : ∀ c ∈ ds, IsHex c) :
    (valOf 16 (c :: ds) < 2 ^ 64 →
      scan ((c :: ds) ++ 72 :: rest) = some (.int (signed64 (valOf 16 (c :: ds))), rest, [])) ∧
    (2 ^ 64 ≤ valOf 16 (c :: ds) → ∃ k t, scan ((c :: ds) ++ 72 :: rest) = some (k, t, [203])) := by
  have hd' : ∀ x ∈ c :: ds, IsHex x := by
    intro x hx; rcases List.mem_cons.1 hx with rfl | h
    · exact dec_hex hc
    · exact hd x h
  rw [scan_number (c := c) hc rfl]
  rw [hexNumber_eq rfl 72 (Or.inl rfl) hd']
  generalize hds : c :: ds = es at hd'
  obtain ⟨-, he, hm⟩ := foldl_inv es
  generalize es.foldl mantStep ⟨0, 0, 0, [], []⟩ = s at he hm
  have hn : ¬ ch (72 :: rest) = 88 := by simp [ch]
  have hy : ch (72 :: rest) = 72 := rfl
  simp only [integerPart, if_neg hn, if_pos hy, he, List.tail_cons, List.nil_append]
  have hiff := sig_length_iff hd' 16
  constructor
  · intro hv
    have hl : (sig es).length ≤ 16 := hiff.2 (by simpa using hv)
    rcases hm with ⟨h1, h2, h3⟩ | ⟨h1, -⟩
    · rw [h2, h3, if_pos rfl, if_pos hl]
      have hsd : ∀ c ∈ sig es, IsHex c := fun c hc => hd' c (sig_mem hc)
      have hvs := valOf_sig 16 es
      by_cases h16 : (sig es).length = 16 ∧ (sig es).headD 0 > 55
      · rw [if_pos h16]
        -- the first digit is 8 or more
        cases hs : sig es with
        | nil => rw [hs] at h16; simp at h16
        | cons a r =>
          rw [hs] at h16 hsd hvs
          simp only [List.headD_cons, List.length_cons] at h16
          have ha := hsd a (by simp)
          have hlr : r.length = 15 := by omega
          have hdig : 8 ≤ digitVal a := by unfold IsHex at ha; unfold digitVal; split <;> omega
          have hd16 := digitVal_hex ha
          have hr := hexLoop_ok r (fun c hc => hsd c (by simp [hc])) ((-1) * 16 + digitVal a)
            (by rw [hlr]; norm_num; omega) (by rw [hlr]; norm_num; omega)
          rw [hexLoop_step (ord_hex ha) (by norm_num) (by omega)]
          rw [hr]
          simp only [Option.bind_eq_bind, Option.bind_some, pure, Option.some.injEq, Prod.mk.injEq, and_true, Tok.int.injEq]
          rw [valOf_cons, hlr] at hvs
          rw [hlr]
          have : 2 ^ 63 ≤ valOf 16 es := by rw [← hvs]; omega
          unfold signed64
          rw [if_neg (by omega), ← hvs]
          push_cast
          ring
      · rw [if_neg h16]
        have hlt : valOf 16 es < 2 ^ 63 := by
          rw [← hvs]
          cases hs : sig es with
          | nil => simp [valOf]
          | cons a r =>
            rw [hs] at h16 hsd hl
            simp only [List.headD_cons, List.length_cons] at h16 hl
            have ha := hsd a (by simp)
            have hr := valOf_lt (b := 16) (ds := r) (fun c hc => digitVal_hex (hsd c (by simp [hc])))
            rw [valOf_cons]
            have hd16 := digitVal_hex ha
            by_cases h15 : r.length = 15
            · have : digitVal a ≤ 7 := by unfold IsHex at ha; unfold digitVal; split <;> omega
              rw [h15] at hr ⊢
              omega
            · have : 16 ^ r.length ≤ 16 ^ 14 := Nat.pow_le_pow_right (by omega) (by omega)
              nlinarith
        have hp : (16 : Int) ^ (sig es).length ≤ 16 ^ 16 := by
          exact pow_le_pow_right₀ (by norm_num) hl
        -- one digit at a time is enough: start from 0
        have hr : hexLoop (sig es) 0 = some ((valOf 16 (sig es) : Nat) : Int) := by
          cases hs : sig es with
          | nil => simp [hexLoop, valOf]
          | cons a r =>
            rw [hs] at hsd hl hvs
            simp only [List.length_cons] at hl
            have ha := hsd a (by simp)
            have hd16 := digitVal_hex ha
            have h7 : r.length = 15 → digitVal a ≤ 7 := by
              intro h15
              rw [valOf_cons, h15] at hvs
              omega
            have hb : ((digitVal a : Int) + 1) * 16 ^ r.length ≤ 2 ^ 63 := by
              by_cases h15 : r.length = 15
              · have := h7 h15
                rw [h15]; norm_num; omega
              · have : (16 : Int) ^ r.length ≤ 16 ^ 14 := pow_le_pow_right₀ (by norm_num) (by omega)
                have h0 : (0 : Int) < 16 ^ r.length := by positivity
                nlinarith
            have := hexLoop_ok r (fun c hc => hsd c (by simp [hc])) (digitVal a)
              (by have : (0 : Int) ≤ (digitVal a : Int) * 16 ^ r.length := by positivity
                  omega) hb
            rw [hexLoop_step (ord_hex ha) (by norm_num) (by omega), Int.zero_mul, Int.zero_add]
            rw [this, valOf_cons]
            push_cast; rfl
        rw [hr]
        simp only [bind, Option.bind, pure, Option.some.injEq, Prod.mk.injEq, and_true, Tok.int.injEq]
        unfold signed64
        rw [hvs, if_pos hlt]
    · omega
  · intro hv
    have hl : ¬ (sig es).length ≤ 16 := fun h => by have := hiff.1 h; omega
    rcases hm with ⟨h1, h2, h3⟩ | ⟨h1, h2⟩
    · rw [h2, h3, if_pos rfl, if_neg hl]; exact ⟨_, _, rfl⟩
    · split
      · rw [if_neg (by rw [h2]; simp; omega)]; exact ⟨_, _, rfl⟩
      · exact ⟨_, _, rfl⟩

/-- **C06, character literals** `...X`: exact up to 0FFX, error 203 above. -/
theorem C06_char {c : Nat} {ds rest : List Nat} (hc : IsDec c) (hd : ∀ c ∈ ds, IsHex c) :
    (valOf 16 (c :: ds) < 256 →
      scan ((c :: ds) ++ 88 :: rest) = some (.char (valOf 16 (c :: ds)), rest, [])) ∧
    (256 ≤ valOf 16 (c :: ds) → ∃ k t, scan ((c :: ds) ++ 88 :: rest) = some (k, t, [203])) := by
  have hd' : ∀ x ∈ c :: ds, IsHex x := by
    intro x hx; rcases List.mem_cons.1 hx with rfl | h
    · exact dec_hex hc
    · exact hd x h
  rw [scan_number (c := c) hc rfl]
  rw [hexNumber_eq rfl 88 (Or.inr rfl) hd']
  generalize hds : c :: ds = es at hd'
  obtain ⟨-, he, hm⟩ := foldl_inv es
  generalize es.foldl mantStep ⟨0, 0, 0, [], []⟩ = s at he hm
  have hy : ch (88 :: rest) = 88 := rfl
  simp only [integerPart, if_pos hy, he, List.tail_cons, List.nil_append]
  have hiff := sig_length_iff hd' 2
  constructor
  · intro hv
    have hl : (sig es).length ≤ 2 := hiff.2 (by simpa using hv)
    rcases hm with ⟨h1, h2, h3⟩ | ⟨h1, -⟩
    · rw [h2, h3, if_pos rfl, if_pos hl]
      have hp : (16 : Int) ^ (sig es).length ≤ 16 ^ 2 := pow_le_pow_right₀ (by norm_num) hl
      have := hexLoop_ok (sig es) (fun c hc => hd' c (sig_mem hc)) 0 (by simp) (by norm_num at hp ⊢; omega)
      rw [this, valOf_sig]
      simp
    · omega
  · intro hv
    have hl : ¬ (sig es).length ≤ 2 := fun h => by have := hiff.1 h; omega
    rcases hm with ⟨h1, h2, h3⟩ | ⟨h1, h2⟩
    · rw [h2, h3, if_pos rfl, if_neg hl]; exact ⟨_, _, rfl⟩
    · split
      · rw [if_neg (by rw [h2]; simp; omega)]; exact ⟨_, _, rfl⟩
      · exact ⟨_, _, rfl⟩

/- Non-vacuity. -/
example : scan (w! "0FFFFFFFFFFFFFFFFH") = some (.int (-1), [], []) := by decide
example : scan (w! "1234567890;") = some (.int 1234567890, w! ";", []) := by decide
example : EndsDec (w! " ") := by simp [EndsDec, ch, IsHex]

end Verif.Scanner
