import Verif.VT100.Spec
import Verif.Str.Props
import Verif.Common
import Mathlib.Data.Nat.Digits.Lemmas

/-!
# C92: control sequences for terminals
-/
namespace Verif.VT100
open Verif.Str (rd wr)

/-- The digits, the lowest first. -/
def low (x : Nat) : Text := if x = 0 then [48] else (Nat.digits 10 x).map (· + 48)

theorem low_step (x : Nat) : low x = (x % 10 + 48) :: (if x / 10 = 0 then [] else low (x / 10)) := by
  unfold low
  by_cases h0 : x = 0
  · subst h0; rfl
  · rw [if_neg h0, Nat.digits_def' (by decide) (by omega), List.map_cons]
    by_cases h1 : x / 10 = 0
    · rw [h1]; rfl
    · rw [if_neg h1, if_neg h1]

theorem low_rev (x : Nat) : (low x).reverse = dec x := by
  unfold low dec
  split
  · rfl
  · rw [List.map_reverse]

theorem low_len (x k : Nat) (h : x < 10 ^ (k + 1)) : (low x).length ≤ k + 1 := by
  unfold low
  split
  · simp
  · rw [List.length_map, Nat.digits_length_le_iff (by decide)]; exact h

theorem low_ne (x : Nat) : low x ≠ [] := by rw [low_step]; simp

theorem wr_mid (p r : List Nat) (y c : Nat) : wr (p ++ y :: r) (p.length : Nat) c = some (p ++ c :: r) := by
  unfold wr
  rw [if_pos ⟨by omega, by simp⟩]
  simp

theorem rd_mid (p r : List Nat) (y : Nat) : rd (p ++ y :: r) (p.length : Nat) = some y := by
  unfold rd
  rw [if_pos (by omega)]
  simp

theorem digits_ok (k : Nat) : ∀ (p r : List Nat) (x : Nat), x < k → (low x).length ≤ r.length →
    digits k (p ++ r) p.length x = some (p ++ (low x ++ r.drop (low x).length), p.length + (low x).length) := by
  induction k with
  | zero => intro p r x h; omega
  | succ k ih =>
    intro p r x hx hr
    rw [low_step] at hr ⊢
    cases r with
    | nil => simp at hr
    | cons y r =>
      rw [digits, wr_mid, Option.bind_some]
      by_cases h : x / 10 = 0
      · rw [if_pos h, if_pos h]
        simp
      · rw [if_neg h] at hr ⊢
        rw [if_neg h]
        have := ih (p ++ [x % 10 + 48]) r (x / 10) (by omega) (by simpa using hr)
        simp only [List.append_assoc, List.singleton_append, List.length_append, List.length_singleton] at this
        rw [this]
        simp only [List.cons_append, List.length_cons, List.drop_succ_cons, Option.some.injEq, Prod.mk.injEq, true_and]
        omega

theorem reverse_ok (k : Nat) : ∀ (p m q : List Nat), m.length < 2 * k →
    reverse0 k (p ++ (m ++ q)) p.length ((p.length : Int) + m.length - 1) = some (p ++ (m.reverse ++ q)) := by
  induction k with
  | zero => intro p m q h; omega
  | succ k ih =>
    intro p m q h
    match m, h with
    | [], _ => rw [reverse0, if_neg (by simp)]; rfl
    | [a], _ => rw [reverse0, if_neg (by simp)]; rfl
    | a :: c :: m, h =>
      obtain ⟨m', z, hm⟩ : ∃ m' z, c :: m = m' ++ [z] := ⟨(c :: m).dropLast, (c :: m).getLast (List.cons_ne_nil c m), (List.dropLast_concat_getLast (List.cons_ne_nil c m)).symm⟩
      rw [hm]
      have hl : m'.length = m.length := by have := congrArg List.length hm; simp at this; omega
      simp only [List.length_cons] at h
      have e1 : p ++ (a :: (m' ++ [z]) ++ q) = (p ++ a :: m') ++ z :: q := by simp
      have e2 : ((p.length : Int) + (a :: (m' ++ [z])).length - 1) = ((p ++ a :: m').length : Nat) := by simp; omega
      rw [reverse0, if_pos (by simp; omega)]
      have r1 : rd (p ++ (a :: (m' ++ [z]) ++ q)) (p.length : Nat) = some a := rd_mid p _ a
      have w1 : wr (p ++ (a :: (m' ++ [z]) ++ q)) (p.length : Nat) z = some (p ++ (z :: (m' ++ [z]) ++ q)) := wr_mid p _ a z
      have e3 : p ++ (z :: (m' ++ [z]) ++ q) = (p ++ z :: m') ++ z :: q := by simp
      have e4 : ((p ++ a :: m').length : Nat) = (p ++ z :: m').length := by simp
      rw [r1, Option.bind_some, e2]
      have r2 : rd (p ++ (a :: (m' ++ [z]) ++ q)) ((p ++ a :: m').length : Nat) = some z := by rw [e1]; exact rd_mid _ _ z
      rw [r2, Option.bind_some, w1, Option.bind_some]
      have w2 : wr (p ++ (z :: (m' ++ [z]) ++ q)) ((p ++ a :: m').length : Nat) a = some ((p ++ z :: m') ++ a :: q) := by
        rw [e3, e4]; exact wr_mid _ _ z a
      rw [w2, Option.bind_some]
      have := ih (p ++ [z]) m' (a :: q) (by omega)
      have e5 : p ++ [z] ++ (m' ++ a :: q) = p ++ z :: m' ++ a :: q := by simp
      have e6 : (((p ++ [z]).length : Nat) : Int) = (p.length : Int) + 1 := by simp
      have e7 : (((p ++ [z]).length : Nat) : Int) + m'.length - 1 = ((p ++ a :: m').length : Nat) - 1 := by simp; omega
      rw [e7, e5, e6] at this
      rw [this]
      simp

theorem low_nz (x : Nat) : 0 ∉ low x := by
  unfold low
  split
  · decide
  · simp

theorem build_ok (p r : List Nat) (x : Nat) (h : (low x).length < r.length) :
    ∃ q, build (p ++ r) p.length x = some (p ++ (dec x ++ 0 :: q)) := by
  unfold build
  rw [digits_ok (x + 1) p r x (by omega) (by omega), Option.bind_some]
  dsimp only
  have hd : r.drop (low x).length ≠ [] := by
    intro e
    have := congrArg List.length e
    simp at this; omega
  obtain ⟨y, q, hq⟩ : ∃ y q, r.drop (low x).length = y :: q := by
    cases hq : r.drop (low x).length with
    | nil => exact absurd hq hd
    | cons y q => exact ⟨y, q, rfl⟩
  have hw : wr (p ++ (low x ++ y :: q)) ((p.length + (low x).length : Nat)) 0 = some (p ++ (low x ++ 0 :: q)) := by
    have := wr_mid (p ++ low x) q y 0
    rw [List.length_append, List.append_assoc, List.append_assoc] at this
    exact this
  rw [hq, hw, Option.bind_some]
  have := reverse_ok (p.length + (low x).length + 1) p (low x) (0 :: q) (by omega)
  rw [Nat.cast_add, this, low_rev]
  exact ⟨q, rfl⟩

theorem dec_nz (x : Nat) : 0 ∉ dec x := by rw [← low_rev, List.mem_reverse]; exact low_nz x

theorem takeWhile_zero {t : List Nat} (h : 0 ∉ t) (q : List Nat) : (t ++ 0 :: q).takeWhile (fun c => decide (c ≠ 0)) = t :=
  Verif.Str.str_append h q

theorem min32 : decInt (-2 ^ (32 - 1)) = "-2147483648".toList.map Char.toNat := by
  have : ((-2 ^ (32 - 1) : Int)).natAbs = 2147483648 := by decide
  unfold decInt dec
  rw [if_pos (by decide), this, if_neg (by decide)]
  norm_num
  decide

theorem min64 : decInt (-2 ^ (64 - 1)) = "-9223372036854775808".toList.map Char.toNat := by
  have : ((-2 ^ (64 - 1) : Int)).natAbs = 9223372036854775808 := by decide
  unfold decInt dec
  rw [if_pos (by decide), this, if_neg (by decide)]
  norm_num
  decide

/-- C92: `IntToStr` gives the number in decimal, for every LONGINT (also the smallest), with no index out of range, whatever is in
the uninitialised array; only if the result is longer than the array allows it is cut off. -/
theorem C92_int_to_str {L : Nat} (hL : L = 32 ∨ L = 64) (b : List Nat) (hb : b.length = 21) (int : Int)
    (h1 : -2 ^ (L - 1) ≤ int) (h2 : int < 2 ^ (L - 1)) (cap : Nat) :
    intToStr L b int cap = some ((decInt int).take (cap - 1)) := by
  have hlt : ∀ i : Int, -2 ^ (L - 1) ≤ i → i < 2 ^ (L - 1) → i ≠ -2 ^ (L - 1) → i.natAbs < 9223372036854775808 := by
    intro i a1 a2 a3
    rcases hL with rfl | rfl <;> norm_num at a1 a2 a3 <;> omega
  unfold intToStr
  by_cases hm : int = -2 ^ (L - 1)
  · rw [if_pos hm, hm]
    rcases hL with rfl | rfl
    · rw [min32]; rfl
    · rw [min64]; rfl
  · have hx := hlt int h1 h2 hm
    have hlen : (low int.natAbs).length ≤ 19 := low_len _ 18 (by norm_num; omega)
    rw [if_neg hm]
    by_cases h0 : int < 0
    · rw [if_pos h0]
      cases b with
      | nil => cases hb
      | cons y b =>
        have hw : wr (y :: b) 0 45 = some (45 :: b) := wr_mid [] b y 45
        have hn : (-int).toNat = int.natAbs := by omega
        obtain ⟨q, hq⟩ := build_ok [45] b int.natAbs (by simp at hb; omega)
        have hq : build (45 :: b) 1 int.natAbs = some (45 :: dec int.natAbs ++ 0 :: q) := hq
        have hz : (0 : Nat) ∉ 45 :: dec int.natAbs := by
          rw [List.mem_cons, not_or]; exact ⟨by decide, dec_nz _⟩
        rw [hw, Option.bind_some, hn, hq, Option.map_some, takeWhile_zero hz, copy, decInt, if_pos h0]
    · rw [if_neg h0]
      have hn : int.toNat = int.natAbs := by omega
      obtain ⟨q, hq⟩ := build_ok [] b int.natAbs (by omega)
      have hq : build b 0 int.natAbs = some (dec int.natAbs ++ 0 :: q) := hq
      rw [hn, hq, Option.map_some, takeWhile_zero (dec_nz _), copy, decInt, if_neg h0]

theorem dec_len (x k : Nat) (h : x < 10 ^ (k + 1)) : (dec x).length ≤ k + 1 := by
  rw [← low_rev, List.length_reverse]; exact low_len x k h

theorem decInt_len {n : Int} (h1 : -999 ≤ n) (h2 : n ≤ 9999) : (decInt n).length ≤ 4 := by
  unfold decInt
  split
  · have := dec_len n.natAbs 2 (by norm_num; omega)
    simp; omega
  · exact dec_len n.natAbs 3 (by norm_num; omega)

theorem small_table : ∀ n : Nat, n ≤ 9 → dec n = [n + 48] := by
  intro n h
  rw [← low_rev, low_step, if_pos (by omega)]
  simp; omega

theorem csi_eq : csi = [27, 91] := by decide

theorem range_small {L : Nat} (hL : L = 32 ∨ L = 64) {n : Int} (h1 : -999 ≤ n) (h2 : n ≤ 9999) : -2 ^ (L - 1) ≤ n ∧ n < 2 ^ (L - 1) := by
  rcases hL with rfl | rfl <;> norm_num <;> omega

theorem one_ok {L : Nat} (hL : L = 32 ∨ L = 64) (b : List Nat) (hb : b.length = 21) {n : Int} (h1 : 0 ≤ n) (h2 : n ≤ 9) (c : Char) :
    escSeq L b n [c.toNat] = some (seq (decInt n) c) := by
  have hr := range_small hL (n := n) (by omega) (by omega)
  unfold escSeq
  rw [C92_int_to_str hL b hb n hr.1 hr.2, Option.map_some, decInt, if_neg (by omega), small_table _ (by omega), csi_eq]
  rfl

theorem two_ok {L : Nat} (hL : L = 32 ∨ L = 64) (b c : List Nat) (hb : b.length = 21) (hc : c.length = 21) {n m : Int}
    (h : (-999 ≤ n ∧ n ≤ 9999) ∧ (-999 ≤ m ∧ m ≤ 9999)) (f : Char) :
    escSeq2 L b c n m [f.toNat] = some (seq (decInt n ++ [';'.toNat] ++ decInt m) f) := by
  have hr := range_small hL h.1.1 h.1.2
  have hs := range_small hL h.2.1 h.2.2
  have hn := decInt_len h.1.1 h.1.2
  have hm := decInt_len h.2.1 h.2.2
  unfold escSeq2
  rw [C92_int_to_str hL b hb n hr.1 hr.2, Option.bind_some, C92_int_to_str hL c hc m hs.1 hs.2, Option.map_some, csi_eq,
    List.take_of_length_le (by omega), List.take_of_length_le (by omega)]
  unfold app copy seq
  have e : ([27, 91] : Text).take (12 - 1) = [27, 91] := rfl
  rw [e, List.take_of_length_le (l := [27, 91] ++ decInt n) (by simp; omega),
    List.take_of_length_le (l := [27, 91] ++ decInt n ++ [59]) (by simp; omega),
    List.take_of_length_le (l := [27, 91] ++ decInt n ++ [59] ++ decInt m) (by simp; omega),
    List.take_of_length_le (by simp; omega)]
  congr 1

/-- C92: each procedure writes exactly its control sequence: for a single parameter from 0 to 9, for two parameters from -999
to 9999, for attributes of at most 14 characters.  For larger ones see `C92_one_digit` and `C92_two_long`. -/
theorem C92_sequence_partial {L : Nat} (hL : L = 32 ∨ L = 64) (b c : List Nat) (hb : b.length = 21) (hc : c.length = 21)
    (cmd : Cmd) (h : Fits cmd) : run L b c cmd = some (wanted cmd) := by
  cases cmd with
  | cuu n => exact one_ok hL b hb h.1 h.2 'A'
  | cud n => exact one_ok hL b hb h.1 h.2 'B'
  | cuf n => exact one_ok hL b hb h.1 h.2 'C'
  | cub n => exact one_ok hL b hb h.1 h.2 'D'
  | cnl n => exact one_ok hL b hb h.1 h.2 'E'
  | cpl n => exact one_ok hL b hb h.1 h.2 'F'
  | cha n => exact one_ok hL b hb h.1 h.2 'G'
  | ed n => exact one_ok hL b hb h.1 h.2 'J'
  | el n => exact one_ok hL b hb h.1 h.2 'K'
  | su n => exact one_ok hL b hb h.1 h.2 'S'
  | sd n => exact one_ok hL b hb h.1 h.2 'T'
  | sgr n => exact one_ok hL b hb h.1 h.2 'm'
  | cup n m => exact two_ok hL b c hb hc h 'H'
  | hvp n m => exact two_ok hL b c hb hc h 'f'
  | sgr2 n m => exact two_ok hL b c hb hc h 'm'
  | dsr n => exact one_ok hL b hb (by decide) (by decide) 'n'
  | scp => rfl
  | rcp => rfl
  | hide => rfl
  | «show» => rfl
  | reset => rfl
  | attr a =>
    have ha : a.length ≤ 14 := h
    have e : ([27, 91] : Text).take (16 - 1) = [27, 91] := rfl
    simp only [run, wanted]
    rw [csi_eq, app, copy, e, List.take_of_length_le (by simp; omega)]

/-- C92: no procedure has an index out of range, whatever its parameters are. -/
theorem C92_no_trap {L : Nat} (hL : L = 32 ∨ L = 64) (b c : List Nat) (hb : b.length = 21) (hc : c.length = 21)
    (cmd : Cmd) (h : ∀ n ∈ params cmd, -2 ^ (L - 1) ≤ n ∧ n < 2 ^ (L - 1)) : (run L b c cmd).isSome := by
  have one : ∀ n l, (-2 ^ (L - 1) ≤ n ∧ n < 2 ^ (L - 1)) → (escSeq L b n l).isSome := by
    intro n l hn
    rw [escSeq, C92_int_to_str hL b hb n hn.1 hn.2]; rfl
  have two : ∀ n m l, (-2 ^ (L - 1) ≤ n ∧ n < 2 ^ (L - 1)) → (-2 ^ (L - 1) ≤ m ∧ m < 2 ^ (L - 1)) → (escSeq2 L b c n m l).isSome := by
    intro n m l hn hm
    rw [escSeq2, C92_int_to_str hL b hb n hn.1 hn.2, Option.bind_some, C92_int_to_str hL c hc m hm.1 hm.2]; rfl
  cases cmd <;> first
    | rfl
    | exact one 6 [110] (range_small hL (by decide) (by decide))
    | exact one _ _ (h _ (by simp [params]))
    | exact two _ _ _ (h _ (by simp [params])) (h _ (by simp [params]))

/-- Deviation: of a single parameter only the first character is written (VT100.Mod 134: an array of 2 characters).  So the
command for every number from 10 on is the command for its first digit, and for a negative number the parameter is `-`. -/
theorem C92_one_digit {L : Nat} (hL : L = 32 ∨ L = 64) (b c : List Nat) (hb : b.length = 21) (n : Int)
    (h1 : n < 0 ∨ 10 ≤ n) (h2 : -2 ^ (L - 1) ≤ n) (h3 : n < 2 ^ (L - 1)) :
    ∀ k ∈ [(Cmd.cuu, 'A'), (Cmd.cud, 'B'), (Cmd.cuf, 'C'), (Cmd.cub, 'D'), (Cmd.cnl, 'E'), (Cmd.cpl, 'F'), (Cmd.cha, 'G'),
      (Cmd.ed, 'J'), (Cmd.el, 'K'), (Cmd.su, 'S'), (Cmd.sd, 'T'), (Cmd.sgr, 'm')],
    run L b c (k.1 n) = some (seq ((decInt n).take 1) k.2) ∧ run L b c (k.1 n) ≠ some (wanted (k.1 n)) := by
  have hlen : 2 ≤ (decInt n).length := by
    unfold decInt
    have hp : ∀ x, 1 ≤ (dec x).length := by
      intro x
      rw [← low_rev, List.length_reverse, low_step]; simp
    split
    · have := hp n.natAbs; simp; omega
    · rw [← low_rev, List.length_reverse, low_step, if_neg (by omega), List.length_cons, low_step]; simp
  have he : ∀ f : Char, escSeq L b n [f.toNat] = some (seq ((decInt n).take 1) f) ∧
      escSeq L b n [f.toNat] ≠ some (seq (decInt n) f) := by
    intro f
    have h : escSeq L b n [f.toNat] = some (seq ((decInt n).take 1) f) := by
      unfold escSeq
      rw [C92_int_to_str hL b hb n h2 h3, Option.map_some, csi_eq]
      generalize decInt n = d at hlen
      match d, hlen with
      | x :: y :: d, _ => rfl
    refine ⟨h, ?_⟩
    rw [h]
    intro e
    have e := congrArg List.length (Option.some.inj e)
    simp [seq] at e
    omega
  intro k hk
  simp only [List.mem_cons, List.not_mem_nil, or_false] at hk
  rcases hk with rfl | rfl | rfl | rfl | rfl | rfl | rfl | rfl | rfl | rfl | rfl | rfl
  · exact he 'A'
  · exact he 'B'
  · exact he 'C'
  · exact he 'D'
  · exact he 'E'
  · exact he 'F'
  · exact he 'G'
  · exact he 'J'
  · exact he 'K'
  · exact he 'S'
  · exact he 'T'
  · exact he 'm'

/-- Deviation: of two parameters, only four characters each are written (VT100.Mod 156). -/
theorem C92_two_long {L : Nat} (hL : L = 32 ∨ L = 64) (b c : List Nat) (hb : b.length = 21) (hc : c.length = 21) (n m : Int)
    (h1 : 10000 ≤ n) (h2 : n < 2 ^ (L - 1)) (h3 : 0 ≤ m) (h4 : m ≤ 9999) :
    run L b c (.cup n m) = some (seq ((decInt n).take 4 ++ [';'.toNat] ++ decInt m) 'H') ∧
    run L b c (.cup n m) ≠ some (wanted (.cup n m)) := by
  have hs := range_small hL (n := m) (by omega) h4
  have hm := decInt_len (n := m) (by omega) h4
  have hlo : -2 ^ (L - 1) ≤ n := by rcases hL with rfl | rfl <;> norm_num <;> omega
  have h10 : 5 ≤ (decInt n).length := by
    rw [decInt, if_neg (by omega), ← low_rev, List.length_reverse]
    by_contra hlt
    have hl : (Nat.digits 10 n.natAbs).length ≤ 4 := by
      unfold low at hlt
      rw [if_neg (by omega), List.length_map] at hlt
      omega
    rw [Nat.digits_length_le_iff (by decide)] at hl
    norm_num at hl
    omega
  have he : run L b c (.cup n m) = some (seq ((decInt n).take 4 ++ [';'.toNat] ++ decInt m) 'H') := by
    simp only [run, escSeq2]
    rw [C92_int_to_str hL b hb n hlo h2, Option.bind_some, C92_int_to_str hL c hc m hs.1 hs.2, Option.map_some, csi_eq,
      List.take_of_length_le (l := decInt m) (by omega)]
    have hn : ((decInt n).take (5 - 1)).length ≤ 4 := by simp
    have e5 : (decInt n).take (5 - 1) = (decInt n).take 4 := rfl
    rw [e5] at hn ⊢
    generalize (decInt n).take 4 = x at hn
    unfold app copy seq
    have e : ([27, 91] : Text).take (12 - 1) = [27, 91] := rfl
    rw [e, List.take_of_length_le (l := [27, 91] ++ x) (by simp; omega),
      List.take_of_length_le (l := [27, 91] ++ x ++ [59]) (by simp; omega),
      List.take_of_length_le (l := [27, 91] ++ x ++ [59] ++ decInt m) (by simp; omega),
      List.take_of_length_le (by simp; omega)]
    congr 1
  refine ⟨he, ?_⟩
  rw [he]
  intro e
  have e := congrArg List.length (Option.some.inj e)
  simp [wanted, seq] at e
  omega

/-- The model of `Strings.Append` here is the string of the model of C31. -/
theorem app_is_append {extra dest : List Nat} (h1 : (Verif.Str.str dest).length ≤ 32767) (h2 : (Verif.Str.str extra).length ≤ 32767) :
    (Verif.Str.append extra dest).map Verif.Str.str = some (app dest.length (Verif.Str.str extra) (Verif.Str.str dest)) := by
  obtain ⟨d, hd, _, hs, _⟩ := Verif.Str.C31_append_partial h1 h2
  rw [hd, Option.map_some, hs, app]

/-! ## Examples -/

/-- `CUU(12)` moves the cursor by 1. -/
example : run 64 (List.replicate 21 7) [] (.cuu 12) = some ([27, 91, 49, 65]) := by decide +kernel
/-- `CUP(24, 80)`. -/
example : run 32 (List.replicate 21 7) (List.replicate 21 9) (.cup 24 80) = some ("\x1b[24;80H".toList.map Char.toNat) := by
  decide +kernel
example : intToStr 32 (List.replicate 21 7) (-120) 32 = some ("-120".toList.map Char.toNat) := by decide +kernel
example : Fits (.cup 24 80) ∧ Fits (.cuu 3) ∧ Fits (.attr [49, 48, 55, 109]) := by simp [Fits]

end Verif.VT100
