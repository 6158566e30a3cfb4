import Verif.Common
import Verif.OocStr.Lemmas
import Verif.Console.Lemmas
import Verif.CStr.Props
import Verif.IntStr.Model
import Verif.IntStr.Spec

/-! Lemmas for C85. -/
namespace Verif.IntStr
open Verif.OocStr (put length put_ok length_eq)
open Verif.Str (str)

theorem numeric_iff {c : Nat} : isNumeric c = true ↔ Digit c := by simp [isNumeric, Digit]

theorem white_iff {c : Nat} : isWhiteSpace c = true ↔ White c := by
  simp only [isWhiteSpace, White, Bool.or_eq_true, decide_eq_true_eq]; omega

/-- The value of digits behind others with the value `m`. -/
def val (m : Int) (ds : List Nat) : Int := ds.foldl (fun (v : Int) (d : Nat) => 10 * v + ((d : Int) - 48)) m

theorem val_zero (ds : List Nat) : val 0 ds = value ds := rfl

theorem val_mono : ∀ (ds : List Nat) {m : Int}, 0 ≤ m → (∀ d ∈ ds, Digit d) → m ≤ val m ds
  | [], _, _, _ => le_refl _
  | d :: ds, m, hm, h => by
    have hd := h d List.mem_cons_self
    unfold Digit at hd
    have := val_mono ds (m := 10 * m + ((d : Int) - 48)) (by omega) (fun x hx => h x (List.mem_cons_of_mem _ hx))
    have e : val m (d :: ds) = val (10 * m + ((d : Int) - 48)) ds := rfl
    omega

/-- The largest absolute value with a sign. -/
def bound (positive : Bool) : Int := if positive then 2147483647 else 2147483648

/-- A number with a sign. -/
def sgn (positive : Bool) (m : Int) : Int := if positive then m else -m

theorem addDigit_ok (p : Bool) {m d : Int} (hm : 0 ≤ m) (hb : m ≤ bound p) (h0 : 0 ≤ d) (h9 : d ≤ 9) :
    addDigit p (sgn p m) d = if 10 * m + d ≤ bound p then some (some (sgn p (10 * m + d))) else some none := by
  unfold addDigit
  cases p
  · simp only [sgn, bound, minLong, maxLong, long, Bool.false_eq_true, if_false] at *
    by_cases h : 10 * m + d ≤ 2147483648
    · rw [if_pos h]
      by_cases h1 : -m > (-2147483648 + d) / 10
      · rw [if_pos h1, if_pos (by omega), Option.map_some]
        congr 2; omega
      · rw [if_neg h1, if_neg (by omega), if_pos (by omega), Option.map_some]
        congr 2; omega
    · rw [if_neg h, if_neg (by omega), if_pos (by omega)]
  · simp only [sgn, bound, minLong, maxLong, long, if_true] at *
    by_cases h : 10 * m + d ≤ 2147483647
    · rw [if_pos h, if_neg (by omega), if_pos (by omega), Option.map_some]
      congr 2; omega
    · rw [if_neg h, if_pos (by omega)]

/-- What comes out behind a sign and digits. -/
def outcome (p : Bool) (m : Int) (l : List Nat) : Res :=
  if bound p < val m (l.takeWhile isNumeric) then .outOfRange
  else if l.dropWhile isNumeric = [] then .allRight else .wrongFormat

theorem outcome_cons {p : Bool} {m : Int} {c : Nat} {l : List Nat} (hc : Digit c) :
    outcome p m (c :: l) = outcome p (10 * m + ((c : Int) - 48)) l := by
  unfold outcome
  rw [List.takeWhile_cons_of_pos (numeric_iff.2 hc), List.dropWhile_cons_of_pos (numeric_iff.2 hc)]
  rfl

theorem mem_tw {p : Nat → Bool} {d : Nat} : ∀ l : List Nat, d ∈ l.takeWhile p → p d = true
  | [], h => by simp at h
  | c :: l, h => by
    by_cases hc : p c = true
    · rw [List.takeWhile_cons_of_pos hc] at h
      rcases List.mem_cons.1 h with rfl | h
      · exact hc
      · exact mem_tw l h
    · rw [List.takeWhile_cons_of_neg hc] at h
      simp at h

theorem outcome_over {p : Bool} {m : Int} {l : List Nat} (h0 : 0 ≤ m) (h : bound p < m) : outcome p m l = .outOfRange := by
  unfold outcome
  have := val_mono (l.takeWhile isNumeric) h0 (fun d hd => numeric_iff.1 (mem_tw _ hd))
  rw [if_pos (by omega)]

/-- A digit in the states `S` and `W`. -/
theorem format_digit {st : State} (hst : st = .S ∨ st = .W ∨ st = .SI) {c : Nat} (hc : Digit c) (l : List Nat) {i : Nat} (hi : i ≤ 32767) (prev : Class) (p : Bool)
    {m : Int} (hm : 0 ≤ m) (hb : m ≤ bound p) :
    formatLoop (c :: l) i st prev (sgn p m) p =
      if 10 * m + ((c : Int) - 48) ≤ bound p then formatLoop l (i + 1) .W .valid (sgn p (10 * m + ((c : Int) - 48))) p else some .outOfRange := by
  have hs : scan st c = (.valid, some .W) := by
    have hn := numeric_iff.2 hc
    unfold Digit at hc
    rcases hst with rfl | rfl | rfl
    · simp [scan, sState, hn]
    · simp [scan, wState, hn]
    · have hw : isWhiteSpace c = false := by
        rw [Bool.eq_false_iff]
        intro h
        have := white_iff.1 h
        unfold White at this
        omega
      simp only [scan, scanInt, hw, Bool.false_eq_true, if_false]
      rw [if_neg (by omega), if_pos hn]
  unfold Digit at hc
  rw [formatLoop, if_neg (by omega), hs]
  dsimp only
  rw [Option.bind_some, if_neg (by omega), if_neg (by omega), addDigit_ok p hm hb (by omega) (by omega)]
  by_cases h : 10 * m + ((c : Int) - 48) ≤ bound p
  · rw [if_pos h, if_pos h]; rfl
  · rw [if_neg h, if_neg h]; rfl

/-- The digits of a number. -/
theorem format_W (p : Bool) (r : List Nat) : ∀ (l : List Nat) (i : Nat) (m : Int), 0 ∉ l → i + l.length ≤ 32767 → 0 ≤ m → m ≤ bound p →
    formatLoop (l ++ 0 :: r) i .W .valid (sgn p m) p = some (outcome p m l)
  | [], i, m, _, hi, hm, hb => by
    rw [List.nil_append, formatLoop, if_neg (by simp at hi; omega)]
    have : scan .W 0 = (.terminator, none) := rfl
    rw [this]
    have : outcome p m [] = .allRight := by
      unfold outcome
      rw [List.takeWhile_nil, if_neg (by simp [val]; omega)]; rfl
    rw [this]; rfl
  | c :: l, i, m, h0, hi, hm, hb => by
    simp only [List.length_cons] at hi
    by_cases hc : Digit c
    · rw [List.cons_append, format_digit (Or.inr (Or.inl rfl)) hc _ (by omega) _ _ hm hb, outcome_cons hc]
      unfold Digit at hc
      by_cases h : 10 * m + ((c : Int) - 48) ≤ bound p
      · rw [if_pos h]
        exact format_W p r l (i + 1) _ (fun hx => h0 (List.mem_cons_of_mem _ hx)) (by omega) (by omega) h
      · rw [if_neg h, outcome_over (by omega) (by omega)]
    · have hn : ¬ isNumeric c = true := fun h => hc (numeric_iff.1 h)
      have hs : scan .W c = (.terminator, none) := by simp [scan, wState, hn]
      have hc0 : c ≠ 0 := fun h => h0 (h ▸ List.mem_cons_self)
      rw [List.cons_append, formatLoop, if_neg (by omega), hs]
      dsimp only
      rw [if_neg hc0]
      unfold outcome
      rw [List.takeWhile_cons_of_neg hn, List.dropWhile_cons_of_neg hn, if_neg (by simp [val]; omega), if_neg (by simp)]

theorem nonneg_bound (p : Bool) : 0 ≤ bound p := by cases p <;> decide

theorem sgn_zero (p : Bool) : sgn p 0 = 0 := by cases p <;> rfl

/-- Behind a sign, or at the begin of a number. -/
theorem format_digits (p : Bool) {st : State} (hst : st = .S ∨ st = .W ∨ st = .SI) (prev : Class) {c : Nat} (hc : Digit c) (l r : List Nat) {i : Nat} (h0 : 0 ∉ l)
    (hi : i + l.length < 32767) : formatLoop (c :: l ++ 0 :: r) i st prev 0 p = some (outcome p 0 (c :: l)) := by
  have h := format_digit hst hc (l ++ 0 :: r) (i := i) (by omega) prev p (m := 0) (by omega) (nonneg_bound p)
  rw [sgn_zero] at h
  have hd := hc
  unfold Digit at hd
  rw [List.cons_append, h, outcome_cons hc, if_pos (by cases p <;> simp [bound] <;> omega)]
  exact format_W p r l (i + 1) _ h0 (by omega) (by omega) (by cases p <;> simp [bound] <;> omega)

/-- Behind a sign, something else. -/
theorem format_S (p : Bool) {c : Nat} (hc : ¬ Digit c) (l : List Nat) {i : Nat} (hi : i ≤ 32767) : formatLoop (c :: l) i .S .valid 0 p = some .wrongFormat := by
  have hn : ¬ isNumeric c = true := fun h => hc (numeric_iff.1 h)
  have hs : scan .S c = (.invalid, some .S) := by simp [scan, sState, hn]
  rw [formatLoop, if_neg (by omega), hs]
  rfl

/-- A sign. -/
theorem format_sign {c : Nat} (hc : c = 43 ∨ c = 45) (l : List Nat) {i : Nat} (hi : i ≤ 32767) :
    formatLoop (c :: l) i .SI .padding 0 true = formatLoop l (i + 1) .S .valid 0 (decide (c = 43)) := by
  rcases hc with rfl | rfl
  · rw [formatLoop, if_neg (by omega)]; rfl
  · rw [formatLoop, if_neg (by omega)]; rfl

/-- White space. -/
theorem format_white : ∀ (ws l : List Nat) (i : Nat), (∀ c ∈ ws, White c) → i + ws.length ≤ 32768 →
    formatLoop (ws ++ l) i .SI .padding 0 true = formatLoop l (i + ws.length) .SI .padding 0 true
  | [], l, i, _, _ => rfl
  | c :: ws, l, i, h, hi => by
    simp only [List.length_cons] at hi
    have hw := white_iff.2 (h c List.mem_cons_self)
    have hs : scan .SI c = (.padding, some .SI) := by simp [scan, scanInt, hw]
    rw [List.cons_append, formatLoop, if_neg (by omega), hs]
    dsimp only
    rw [Option.bind_some, format_white ws l (i + 1) (fun c hc => h c (List.mem_cons_of_mem _ hc)) (by omega)]
    congr 1
    simp only [List.length_cons]
    omega

/-- Neither white space, nor a sign, nor a digit. -/
theorem format_none {c : Nat} (h1 : c ≠ 43) (h2 : c ≠ 45) (h3 : ¬ Digit c) (h4 : ¬ White c) (l : List Nat) {i : Nat} (hi : i ≤ 32767) :
    formatLoop (c :: l) i .SI .padding 0 true = some .empty := by
  have hw : isWhiteSpace c = false := by rw [Bool.eq_false_iff]; exact fun h => h4 (white_iff.1 h)
  have hn : isNumeric c = false := by rw [Bool.eq_false_iff]; exact fun h => h3 (numeric_iff.1 h)
  have hs : scan .SI c = (.invalid, some .SI) := by
    simp only [scan, scanInt, hw, hn, Bool.false_eq_true, if_false]
    rw [if_neg (by omega)]
  rw [formatLoop, if_neg (by omega), hs]
  rfl

/-- The forms of a string. -/
inductive Form (s : List Nat) : Res → Prop where
  | none : NoNumber s → Form s .empty
  | sign {ws c l} : s = ws ++ c :: l → (∀ x ∈ ws, White x) → c = 43 ∨ c = 45 → (∀ d, l.head? = some d → ¬ Digit d) → Form s .wrongFormat
  | number {ws sg c l p} : s = ws ++ sg ++ c :: l → (∀ x ∈ ws, White x) → (sg = [] ∧ p = true) ∨ (sg = [43] ∧ p = true) ∨ (sg = [45] ∧ p = false) →
      Digit c → Form s (outcome p 0 (c :: l))

theorem split_white : ∀ s : List Nat, ∃ ws r, s = ws ++ r ∧ (∀ c ∈ ws, White c) ∧ ∀ c, r.head? = some c → ¬ White c
  | [] => ⟨[], [], rfl, by simp, by simp⟩
  | c :: s => by
    by_cases h : White c
    · obtain ⟨ws, r, e, h1, h2⟩ := split_white s
      exact ⟨c :: ws, r, by rw [e]; rfl, by intro x hx; rcases List.mem_cons.1 hx with rfl | hx; exacts [h, h1 x hx], h2⟩
    · exact ⟨[], c :: s, rfl, by simp, by intro x hx; simp at hx; rw [← hx]; exact h⟩

/-- The result is that of the form of the string. -/
theorem format_form {a : List Nat} (ha : 0 ∈ a) (hl : (str a).length ≤ 32767) : ∃ r, formatInt a = some r ∧ Form (str a) r := by
  rcases Verif.Str.str_cases a with ⟨_, h⟩ | ⟨rest, h⟩
  · exact absurd ha h
  have hz := Verif.Str.str_nz a
  generalize str a = s at *
  subst h
  obtain ⟨ws, r, e, h1, h2⟩ := split_white s
  subst e
  simp only [List.length_append] at hl
  unfold formatInt
  rw [List.append_assoc, format_white ws _ 0 h1 (by omega), Nat.zero_add]
  cases r with
  | nil =>
    refine ⟨_, format_none (by decide) (by decide) (by unfold Digit; decide) (by unfold White; decide) _ (by omega), Form.none ⟨ws, [], rfl, h1, by simp⟩⟩
  | cons c r =>
    have hw : ¬ White c := h2 c rfl
    have h0 : 0 ∉ r := fun h => hz (by simp [h])
    simp only [List.length_cons] at hl
    by_cases hd : Digit c
    · refine ⟨_, format_digits true (Or.inr (Or.inr rfl)) _ hd r rest h0 (by omega), ?_⟩
      exact Form.number (ws := ws) (sg := []) (by simp) h1 (Or.inl ⟨rfl, rfl⟩) hd
    · by_cases hsg : c = 43 ∨ c = 45
      · rw [List.cons_append, format_sign hsg _ (by omega)]
        cases r with
        | nil =>
          refine ⟨_, format_S _ (by unfold Digit; decide) _ (by simp at hl; omega), Form.sign rfl h1 hsg (by simp)⟩
        | cons d r =>
          simp only [List.length_cons] at hl
          by_cases hd2 : Digit d
          · refine ⟨_, format_digits _ (Or.inl rfl) _ hd2 r rest (fun h => h0 (List.mem_cons_of_mem _ h)) (by omega), ?_⟩
            rcases hsg with rfl | rfl
            · exact Form.number (ws := ws) (sg := [43]) (by simp) h1 (Or.inr (Or.inl ⟨rfl, rfl⟩)) hd2
            · exact Form.number (ws := ws) (sg := [45]) (by simp) h1 (Or.inr (Or.inr ⟨rfl, rfl⟩)) hd2
          · refine ⟨_, format_S _ hd2 _ (by omega), Form.sign rfl h1 hsg ?_⟩
            intro x hx
            simp at hx
            rw [← hx]; exact hd2
      · rw [List.cons_append, not_or] at *
        exact ⟨_, format_none hsg.1 hsg.2 hd hw _ (by omega), Form.none ⟨ws, c :: r, rfl, h1, by
          intro x hx
          simp at hx
          subst hx
          exact ⟨hsg.1, hsg.2, hd, hw⟩⟩⟩

/-! ### The value -/

theorem value_digits (p : Bool) : ∀ (ds : List Nat) (st : State) (m : Int), st = .S ∨ st = .W ∨ st = .SI → (∀ d ∈ ds, Digit d) → 0 ≤ m → val m ds ≤ bound p →
    valueLoop ds (some st) (sgn p m) p = some (sgn p (val m ds))
  | [], _, m, _, _, _, _ => rfl
  | c :: ds, st, m, hst, h, hm, hb => by
    have hc := h c List.mem_cons_self
    have hn := numeric_iff.2 hc
    have hs : scan st c = (.valid, some .W) := by
      unfold Digit at hc
      rcases hst with rfl | rfl | rfl
      · simp [scan, sState, hn]
      · simp [scan, wState, hn]
      · have hw : isWhiteSpace c = false := by
          rw [Bool.eq_false_iff]
          intro h
          have := white_iff.1 h
          unfold White at this
          omega
        simp only [scan, scanInt, hw, Bool.false_eq_true, if_false]
        rw [if_neg (by omega), if_pos hn]
    unfold Digit at hc
    have e : val m (c :: ds) = val (10 * m + ((c : Int) - 48)) ds := rfl
    rw [e] at hb ⊢
    have hmono := val_mono ds (m := 10 * m + ((c : Int) - 48)) (by omega) (fun d hd => h d (List.mem_cons_of_mem _ hd))
    have hlong : long (if p = true then sgn p m * 10 + ((c : Int) - 48) else sgn p m * 10 - ((c : Int) - 48)) = some (sgn p (10 * m + ((c : Int) - 48))) := by
      unfold long
      cases p
      · simp only [sgn, bound, minLong, maxLong, Bool.false_eq_true, if_false] at *
        rw [if_pos (by omega)]; congr 1; omega
      · simp only [sgn, bound, minLong, maxLong, if_true] at *
        rw [if_pos (by omega)]; congr 1; omega
    simp only [valueLoop]
    rw [Option.bind_some, hs, if_pos rfl, if_neg (by omega), if_neg (by omega), hlong, Option.bind_some]
    exact value_digits p ds .W _ (Or.inr (Or.inl rfl)) (fun d hd => h d (List.mem_cons_of_mem _ hd)) (by omega) hb

theorem value_white : ∀ (ws l : List Nat), (∀ c ∈ ws, White c) → valueLoop (ws ++ l) (some .SI) 0 true = valueLoop l (some .SI) 0 true
  | [], l, _ => rfl
  | c :: ws, l, h => by
    have hw := white_iff.2 (h c List.mem_cons_self)
    have hs : scan .SI c = (.padding, some .SI) := by simp [scan, scanInt, hw]
    rw [List.cons_append, valueLoop, Option.bind_some, hs, if_neg (by decide)]
    exact value_white ws l (fun c hc => h c (List.mem_cons_of_mem _ hc))

theorem value_form {ws sg ds : List Nat} {p : Bool} (hw : ∀ c ∈ ws, White c) (hsg : (sg = [] ∧ p = true) ∨ (sg = [43] ∧ p = true) ∨ (sg = [45] ∧ p = false))
    (hd : ∀ d ∈ ds, Digit d) (hb : value ds ≤ bound p) : valueLoop (ws ++ sg ++ ds) (some .SI) 0 true = some (sgn p (value ds)) := by
  rw [List.append_assoc, value_white ws _ hw]
  rcases hsg with ⟨rfl, rfl⟩ | ⟨rfl, rfl⟩ | ⟨rfl, rfl⟩
  · exact value_digits true ds .SI 0 (Or.inr (Or.inr rfl)) hd (le_refl _) hb
  · exact value_digits true ds .S 0 (Or.inl rfl) hd (le_refl _) hb
  · exact value_digits false ds .S 0 (Or.inl rfl) hd (le_refl _) hb

/-! ### Numbers to strings -/

theorem digitLoop_ok : ∀ (f : Nat) (b : List Nat) (x e : Nat) (ds : List Nat), Verif.Console.digits f x = some ds → e + ds.length ≤ b.length →
    digitLoop f b x e = some (b.take e ++ ds ++ b.drop (e + ds.length), e + ds.length)
  | 0, _, _, _, _, h, _ => by simp [Verif.Console.digits] at h
  | f + 1, b, x, e, ds, h, hl => by
    rw [Verif.Console.digits] at h
    have e1 : ((x : Int) % 10 + 48).toNat = 48 + x % 10 := by omega
    have e2 : ((x : Int) / 10 = 0) ↔ x / 10 = 0 := by omega
    have hset : ∀ (c : Nat) (he : e < b.length), b.set e c = b.take e ++ c :: b.drop (e + 1) := fun c he => List.set_eq_take_append_cons_drop.trans (if_pos he)
    by_cases h0 : x / 10 = 0
    · rw [if_pos h0] at h
      have h := (Option.some.inj h).symm
      subst h
      simp only [List.length_singleton] at hl ⊢
      rw [digitLoop, put_ok _ (by omega), Option.bind_some, if_pos (e2.2 h0), e1, hset _ (by omega)]
      simp
    · rw [if_neg h0] at h
      cases hd : Verif.Console.digits f (x / 10) with
      | none => rw [hd] at h; simp at h
      | some ds' =>
        rw [hd, Option.map_some] at h
        have h := (Option.some.inj h).symm
        subst h
        simp only [List.length_cons] at hl ⊢
        rw [digitLoop, put_ok _ (by omega), Option.bind_some, if_neg (fun h => h0 (e2.1 h)), e1]
        have e3 : ((x : Int) / 10) = ((x / 10 : Nat) : Int) := by omega
        rw [e3, digitLoop_ok f _ (x / 10) (e + 1) ds' hd (by simp; omega)]
        congr 2
        · rw [hset _ (by omega)]
          have ht : (List.take e b ++ (48 + x % 10) :: List.drop (e + 1) b).take (e + 1) = List.take e b ++ [48 + x % 10] := by
            rw [List.take_append, List.take_of_length_le (by simp)]
            congr 1
            rw [List.length_take, show e + 1 - min e b.length = 1 by omega]
            rfl
          have hdr : (List.take e b ++ (48 + x % 10) :: List.drop (e + 1) b).drop (e + 1 + ds'.length) = b.drop (e + (ds'.length + 1)) := by
            rw [List.drop_append, List.drop_eq_nil_of_le (by simp; omega), List.nil_append, List.length_take,
              show e + 1 + ds'.length - min e b.length = ds'.length + 1 by omega, List.drop_succ_cons, List.drop_drop]
            congr 1
            omega
          rw [ht, hdr]
          simp
        · omega

theorem reverse_ok : ∀ (f : Nat) (A M C : List Nat), M.length < 2 * f → 
    reverse f (A ++ M ++ C) A.length (A.length + M.length - 1) = some (A ++ M.reverse ++ C)
  | 0, A, M, C, h => by omega
  | f + 1, A, [], C, h => by
    rw [reverse, if_neg (by simp)]; simp
  | f + 1, A, [x], C, h => by
    rw [reverse, if_neg (by simp)]; simp
  | f + 1, A, x :: y :: M', C, h => by
    obtain ⟨M, z, e⟩ : ∃ M z, y :: M' = M ++ [z] := ⟨_, _, (List.dropLast_append_getLast (l := y :: M') (by simp)).symm⟩
    rw [e] at h ⊢
    simp only [List.length_cons, List.length_append, List.length_nil] at h
    have hl : A.length + (x :: (M ++ [z])).length - 1 = A.length + (M.length + 1) := by simp
    rw [hl, reverse, if_pos (by omega)]
    have g1 : (A ++ x :: (M ++ [z]) ++ C)[A.length]? = some x := by simp
    have g2 : (A ++ x :: (M ++ [z]) ++ C)[A.length + (M.length + 1)]? = some z := by
      rw [List.append_assoc, List.getElem?_append_right (by omega), Nat.add_sub_cancel_left]
      simp
    have s1 : (A ++ x :: (M ++ [z]) ++ C).set A.length z = A ++ z :: (M ++ [z]) ++ C := by simp
    have s2 : (A ++ z :: (M ++ [z]) ++ C).set (A.length + (M.length + 1)) x = (A ++ [z]) ++ M ++ (x :: C) := by
      rw [List.append_assoc, List.set_append_right _ _ (by omega), Nat.add_sub_cancel_left]
      simp
    rw [g1, Option.bind_some, g2, Option.bind_some, put_ok _ (by simp), Option.bind_some, s1, put_ok _ (by simp), Option.bind_some, s2]
    have := reverse_ok f (A ++ [z]) M (x :: C) (by omega)
    rw [List.length_append, List.length_singleton] at this
    rw [show A.length + (M.length + 1) - 1 = A.length + 1 + M.length - 1 by omega, this]
    simp

theorem lengthLoop_ok : ∀ (f x cnt : Nat) (ds : List Nat), Verif.Console.digits f x = some ds → 0 < x →
    lengthLoop (f + 1) x cnt = some (cnt + ds.length)
  | 0, _, _, _, h, _ => by simp [Verif.Console.digits] at h
  | f + 1, x, cnt, ds, h, hx => by
    rw [Verif.Console.digits] at h
    have e3 : ((x : Int) / 10) = ((x / 10 : Nat) : Int) := by omega
    rw [lengthLoop, if_pos (by omega), e3]
    by_cases h0 : x / 10 = 0
    · rw [if_pos h0] at h
      have h := (Option.some.inj h).symm
      subst h
      rw [lengthLoop, if_neg (by omega)]
      simp
    · rw [if_neg h0] at h
      cases hd : Verif.Console.digits f (x / 10) with
      | none => rw [hd] at h; simp at h
      | some ds' =>
        rw [hd, Option.map_some] at h
        have h := (Option.some.inj h).symm
        subst h
        rw [lengthLoop_ok f (x / 10) (cnt + 1) ds' hd (by omega)]
        simp only [List.length_cons]
        congr 1
        omega

end Verif.IntStr
