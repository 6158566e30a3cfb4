import Verif.Common
import Verif.Predecl.Model
import Verif.Opers.Props

/-!
# C63: predeclared procedures
-/
namespace Verif.Predecl
open Verif.Types Verif.Opers

variable {T : Tab} {S : Std}

theorem isType_iff (e : Ex) : isType e = true ↔ TypeName e := by
  unfold isType TypeName
  cases e.kind <;> simp

theorem variable_iff (e : Ex) : Variable e ↔ notVar e = false ∧ readonly e = false := by
  unfold Variable notVar readonly
  cases e.kind <;> simp

theorem fits_iff (n : Nat) (v : Int) : fits n v = true ↔ Fits n v := by
  unfold fits Fits; simp

theorem convInt_iff (x : Arg) (t : Nat) (hx : SoundArg T x) (hi : Integer T x.ex.typ) :
    convInt T x t = [] ↔ (Constant x.ex → Fits (T t).size x.val) := by
  unfold convInt
  rw [← isConst_iff]
  cases hc : isConst x.ex
  · simp
  · have hf := hx.2.1 ((isConst_iff _).mp hc) hi
    rw [← fits_iff]
    by_cases hl : (T t).size < (T x.ex.typ).size
    · cases hg : fits (T t).size x.val <;> simp [hl]
    · simp only [hl, false_and, and_false, if_false, true_iff]
      intro _
      rw [fits_iff]
      unfold Fits at hf ⊢
      have : (2:Int) ^ (8 * (T x.ex.typ).size - 1) ≤ 2 ^ (8 * (T t).size - 1) := pow_le_pow_right₀ (by omega) (by omega)
      omega

theorem longer_iff (hs : S.Wf T) (t r : Nat) : Longer T S t r ↔ r = longer T S t := by
  obtain ⟨_, _, _, _, _, h1, h2, h3, h4⟩ := hs
  unfold Longer longer Std.Is
  constructor
  · rintro (⟨h, h5, h6⟩ | ⟨rfl, h⟩)
    · have a := h6 S.sint (.inl rfl)
      have b := h6 S.int (.inr (.inl rfl))
      have c := h6 S.lint (.inr (.inr rfl))
      rcases h with rfl | rfl | rfl <;> split_ifs <;> first | rfl | (exfalso; omega)
    · have a := h S.sint (.inl rfl)
      have b := h S.int (.inr (.inl rfl))
      have c := h S.lint (.inr (.inr rfl))
      rw [if_neg (by omega), if_neg (by omega), if_neg (by omega)]
  · rintro rfl
    split_ifs with a b c
    · refine .inl ⟨.inl rfl, a, ?_⟩
      rintro u (rfl | rfl | rfl) _ <;> omega
    · refine .inl ⟨.inr (.inl rfl), b, ?_⟩
      rintro u (rfl | rfl | rfl) _ <;> omega
    · refine .inl ⟨.inr (.inr rfl), c, ?_⟩
      rintro u (rfl | rfl | rfl) _ <;> omega
    · refine .inr ⟨rfl, ?_⟩
      rintro u (rfl | rfl | rfl) <;> omega

theorem shorter_iff (hs : S.Wf T) (t r : Nat) : Shorter T S t r ↔ r = shorter T S t := by
  obtain ⟨_, _, _, _, _, h1, h2, h3, h4⟩ := hs
  unfold Shorter shorter Std.Is
  constructor
  · rintro (⟨h, h5, h6⟩ | ⟨rfl, h⟩)
    · have a := h6 S.sint (.inl rfl)
      have b := h6 S.int (.inr (.inl rfl))
      have c := h6 S.lint (.inr (.inr rfl))
      rcases h with rfl | rfl | rfl <;> split_ifs <;> first | rfl | (exfalso; omega)
    · have a := h S.sint (.inl rfl)
      have b := h S.int (.inr (.inl rfl))
      have c := h S.lint (.inr (.inr rfl))
      rw [if_neg (by omega), if_neg (by omega), if_neg (by omega)]
  · rintro rfl
    split_ifs with a b c
    · refine .inl ⟨.inr (.inr rfl), a, ?_⟩
      rintro u (rfl | rfl | rfl) _ <;> omega
    · refine .inl ⟨.inr (.inl rfl), b, ?_⟩
      rintro u (rfl | rfl | rfl) _ <;> omega
    · refine .inl ⟨.inl rfl, c, ?_⟩
      rintro u (rfl | rfl | rfl) _ <;> omega
    · refine .inr ⟨rfl, ?_⟩
      rintro u (rfl | rfl | rfl) <;> omega

theorem retype_typ (x : Arg) (t : Nat) : (retype x t).ex.typ = t := rfl

/-! ### No argument, and too many -/

theorem stand_nil (f : Fn) (r : Nat) : stand T S f [] ≠ ([], r) := by
  cases f <;> simp [stand, stFct, stat]

theorem parN_many {f : Fn} (hf : f ≠ .new) (p : Arg) (x : Arg) (xs : List Arg) : (parN T S f p (x :: xs)).1 ≠ [] := by
  simp [parN, stParN, hf]

theorem stand_many {f : Fn} (hf : f ≠ .new) (x y z : Arg) (zs : List Arg) (r : Nat) : stand T S f (x :: y :: z :: zs) ≠ ([], r) := by
  intro h
  simp only [stand, Prod.mk.injEq, List.append_eq_nil_iff] at h
  exact parN_many hf _ _ _ h.1.1.2

/-! ### One argument -/

/-- Procedures of one argument. -/
def one (f : Fn) : Bool :=
  match f with
  | .halt | .abs | .cap | .ord | .entier | .odd | .min | .max | .chr | .short | .long | .size => true
  | _ => false

theorem stand_one {f : Fn} (hf : one f = true) (x : Arg) (r : Nat) : stand T S f [x] = ([], r) ↔ (stPar0 T S f x).1 = [] ∧ (stPar0 T S f x).2.ex.typ = r := by
  have : ∀ p, stFct T S f p 1 = ([], p.ex.typ) := by intro p; cases f <;> simp [one] at hf <;> simp [stFct]
  simp only [stand, this, List.append_nil, Prod.mk.injEq]

theorem stand_one_more {f : Fn} (hf : one f = true) (x y : Arg) (zs : List Arg) (r : Nat) : stand T S f (x :: y :: zs) ≠ ([], r) := by
  intro h
  simp only [stand, Prod.mk.injEq, List.append_eq_nil_iff] at h
  have := h.1.1.1.2
  cases f <;> simp [one] at hf <;> simp [stPar1] at this

theorem one_iff (hw : Wf T) (hs : S.Wf T) {f : Fn} (hf : one f = true) (x : Arg) (hx : SoundArg T x) (r : Nat) :
    stand T S f [x] = ([], r) ↔ Call T S f [x] r := by
  rw [stand_one hf]
  have hv := noValue_iff x.ex
  have hc := isConst_iff x.ex
  have ht := isType_iff x.ex
  cases f <;> simp [one] at hf
  case halt =>
    simp only [stPar0, stat]
    constructor
    · rintro ⟨h1, rfl⟩
      split_ifs at h1 with h2 h3
      exact .halt ⟨hc.mp h2.2, h2.1, h3.1, h3.2⟩
    · intro h
      cases h with
      | inc h _ _ => simp at h
      | halt h => 
        obtain ⟨h1, h2, h3, h4⟩ := h
        rw [if_pos ⟨h2, hc.mpr h1⟩, if_pos ⟨h3, h4⟩]
        exact ⟨rfl, rfl⟩
  case abs =>
    simp only [stPar0, List.append_eq_nil_iff]
    rw [show ((mop T (S.ofInt x.val.natAbs) .abs x.ex).1 = [] ∧ _) ↔ _ from Iff.rfl]
    constructor
    · rintro ⟨⟨h1, h2⟩, h3⟩
      have hu := (C62_unary hw (S.ofInt x.val.natAbs) .abs x.ex r).mp (Prod.ext h1 h3)
      refine .abs hu.1 hu.2 ?_
      intro h4 h5 h6
      rw [if_pos ⟨hv.mpr hu.1, hc.mpr h4, h5, h6⟩] at h2
      simp at h2
    · intro h
      cases h with
      | inc h _ _ => simp at h
      | abs h1 h2 h3 =>
        have hu := (C62_unary hw (S.ofInt x.val.natAbs) .abs x.ex r).mpr ⟨h1, h2⟩
        rw [hu]
        refine ⟨⟨rfl, ?_⟩, rfl⟩
        rw [if_neg]
        rintro ⟨_, h4, h5, h6⟩
        exact h3 (hc.mp h4) h5 h6
  case cap =>
    simp only [stPar0]
    constructor
    · rintro ⟨h1, h2⟩
      have hu := (C62_unary hw 0 .cap x.ex r).mp (Prod.ext h1 h2)
      obtain ⟨h3, h4⟩ := hu
      cases h4 with
      | cap h => exact .cap h3 h
    · intro h
      cases h with
      | inc h _ _ => simp at h
      | cap h1 h2 =>
        rw [(C62_unary hw 0 .cap x.ex chartyp).mpr ⟨h1, .cap h2⟩]
        exact ⟨rfl, rfl⟩
  case odd =>
    simp only [stPar0]
    constructor
    · rintro ⟨h1, h2⟩
      have hu := (C62_unary hw 0 .odd x.ex r).mp (Prod.ext h1 h2)
      obtain ⟨h3, h4⟩ := hu
      cases h4 with
      | odd h => exact .odd ⟨h3, h⟩
    · intro h
      cases h with
      | inc h _ _ => simp at h
      | odd h =>
        rw [(C62_unary hw 0 .odd x.ex booltyp).mpr ⟨h.1, .odd h.2⟩]
        exact ⟨rfl, rfl⟩
  case ord =>
    simp only [stPar0, retype_typ]
    constructor
    · rintro ⟨h1, rfl⟩
      split_ifs at h1 with h2 h3
      exact .ord (hv.mp (by simpa using h2)) (hw.char' _ h3)
    · intro h
      cases h with
      | inc h _ _ => simp at h
      | ord h1 h2 => simp [hv.mpr h1, h2, hw.char]
  case entier =>
    simp only [stPar0, retype_typ]
    constructor
    · rintro ⟨h1, rfl⟩
      split_ifs at h1 with h2 h3
      exact .entier (hv.mp (by simpa using h2)) h3
    · intro h
      cases h with
      | inc h _ _ => simp at h
      | entier h1 h2 =>
        unfold Real at h2
        simp [hv.mpr h1, h2]
  case min =>
    simp only [stPar0]
    constructor
    · rintro ⟨h1, h2⟩
      split_ifs at h1 h2 with h3
      · have h3 := ht.mp h3
        cases hg : (T x.ex.typ).form <;> simp only [hg] at h1 h2 <;> (try simp only [constArg] at h2) <;> (try subst h2) <;> (try simp at h1)
        · exact .minBool h3 (hw.bool' _ hg)
        · exact .minChar h3 (hw.char' _ hg)
        · exact .minInt h3 hg
        · rw [← hw.real' _ hg]; exact .minReal h3 (.inl hg)
        · rw [← hw.lreal' _ hg]; exact .minReal h3 (.inr hg)
        · exact .minSet h3 hg
    · intro h
      cases h with
      | inc h _ _ => simp at h
      | minBool h1 h2 => simp [ht.mpr h1, h2, hw.bool, constArg]
      | minChar h1 h2 => simp [ht.mpr h1, h2, hw.char, constArg]
      | minInt h1 h2 => unfold Integer at h2; simp [ht.mpr h1, h2, constArg]
      | minReal h1 h2 =>
        rcases h2 with h2 | h2
        · simp [ht.mpr h1, h2, constArg, hw.real' _ h2]
          rw [hw.real]; simp
        · simp [ht.mpr h1, h2, constArg, hw.lreal' _ h2]
          rw [hw.lreal]; simp
      | minSet h1 h2 => unfold SetType at h2; simp [ht.mpr h1, h2, constArg]
  case max =>
    simp only [stPar0]
    constructor
    · rintro ⟨h1, h2⟩
      split_ifs at h1 h2 with h3
      · have h3 := ht.mp h3
        cases hg : (T x.ex.typ).form <;> simp only [hg] at h1 h2 <;> (try simp only [constArg] at h2) <;> (try subst h2) <;> (try simp at h1)
        · exact .maxBool h3 (hw.bool' _ hg)
        · exact .maxChar h3 (hw.char' _ hg)
        · exact .maxInt h3 hg
        · rw [← hw.real' _ hg]; exact .maxReal h3 (.inl hg)
        · rw [← hw.lreal' _ hg]; exact .maxReal h3 (.inr hg)
        · exact .maxSet h3 hg
    · intro h
      cases h with
      | inc h _ _ => simp at h
      | maxBool h1 h2 => simp [ht.mpr h1, h2, hw.bool, constArg]
      | maxChar h1 h2 => simp [ht.mpr h1, h2, hw.char, constArg]
      | maxInt h1 h2 => unfold Integer at h2; simp [ht.mpr h1, h2, constArg]
      | maxReal h1 h2 =>
        rcases h2 with h2 | h2
        · simp [ht.mpr h1, h2, constArg, hw.real' _ h2]
          rw [hw.real]; simp
        · simp [ht.mpr h1, h2, constArg, hw.lreal' _ h2]
          rw [hw.lreal]; simp
      | maxSet h1 h2 => unfold SetType at h2; simp [ht.mpr h1, h2, constArg]
  case chr =>
    simp only [stPar0, retype_typ]
    constructor
    · rintro ⟨h1, rfl⟩
      split_ifs at h1 with h2 h3 h4
      have h2' := hv.mp (by simpa using h2)
      have hi : Integer T x.ex.typ := by
        rcases h3 with h3 | h3
        · exact absurd (hw.undf' _ h3) (hx.1.1 h2')
        · exact h3
      refine .chr ⟨h2', hi⟩ ?_
      intro h5
      have h6 : ¬ (0 > x.val ∨ x.val > 255) := fun h => h4 ⟨hc.mpr h5, hi, h⟩
      omega
    · intro h
      cases h with
      | inc h _ _ => simp at h
      | chr h1 h2 =>
        have hi : (T x.ex.typ).form = .int := h1.2
        simp only [hv.mpr h1.1, hi]
        simp
        intro h3
        exact h2 (hc.mp h3)
  case short =>
    simp only [stPar0]
    constructor
    · rintro ⟨h1, h2⟩
      split_ifs at h1 h2 with h3 h4 h5
      · simp only [retype_typ] at h2
        subst h2
        have h3 := hv.mp (by simpa using h3)
        exact .short ⟨h3, h4⟩ ((shorter_iff hs _ _).mpr rfl) ((convInt_iff x _ hx h4).mp h1)
      · simp only [retype_typ] at h2
        subst h2
        exact .shortReal (hv.mp (by simpa using h3)) (hw.lreal' _ h5)
    · intro h
      cases h with
      | inc h _ _ => simp at h
      | short h1 h2 h3 =>
        have hi : (T x.ex.typ).form = .int := h1.2
        rw [shorter_iff hs] at h2
        subst h2
        have h4 := (convInt_iff x _ hx h1.2).mpr h3
        simp [hv.mpr h1.1, hi, h4, retype_typ]
      | shortReal h1 h2 => simp [hv.mpr h1, h2, hw.lreal, retype_typ]
  case long =>
    simp only [stPar0]
    constructor
    · rintro ⟨h1, h2⟩
      split_ifs at h1 h2 with h3 h4 h5 h6
      · simp only [retype_typ] at h2
        subst h2
        have h3 := hv.mp (by simpa using h3)
        exact .long ⟨h3, h4⟩ ((longer_iff hs _ _).mpr rfl)
      · simp only [retype_typ] at h2
        subst h2
        exact .longReal (hv.mp (by simpa using h3)) (hw.real' _ h5)
      · simp only [retype_typ] at h2
        subst h2
        exact .longChar (hv.mp (by simpa using h3)) (hw.char' _ h6)
    · intro h
      cases h with
      | inc h _ _ => simp at h
      | long h1 h2 =>
        have hi : (T x.ex.typ).form = .int := h1.2
        rw [longer_iff hs] at h2
        subst h2
        have h4 := (convInt_iff x (longer T S x.ex.typ) hx h1.2).mpr (by
          intro h5
          have hf := hx.2.1 h5 h1.2
          have hl : (T x.ex.typ).size ≤ (T (longer T S x.ex.typ)).size := by
            have := hs.le64 _ hi
            unfold longer
            split_ifs <;> omega
          unfold Fits at hf ⊢
          have : (2:Int) ^ (8 * (T x.ex.typ).size - 1) ≤ 2 ^ (8 * (T (longer T S x.ex.typ)).size - 1) := pow_le_pow_right₀ (by omega) (by omega)
          omega)
        simp [hv.mpr h1.1, hi, h4, retype_typ]
      | longReal h1 h2 => simp [hv.mpr h1, h2, hw.real, retype_typ]
      | longChar h1 h2 => simp [hv.mpr h1, h2, hw.char, retype_typ]
  case size =>
    simp only [stPar0]
    constructor
    · rintro ⟨h1, h2⟩
      split_ifs at h1 h2 with h3 h4
      · simp only [constArg] at h2
        subst h2
        exact .size (ht.mp (by simpa using h3)) (by simpa [or_assoc] using h4)
    · intro h
      cases h with
      | inc h _ _ => simp at h
      | size h1 h2 =>
        rw [if_neg (by simp [ht.mpr h1]), if_pos (by simpa [or_assoc] using h2)]
        exact ⟨rfl, rfl⟩

/-! ### Two arguments -/

theorem stand_two (f : Fn) (x y : Arg) (r : Nat) : stand T S f [x, y] = ([], r) ↔
    (stPar0 T S f x).1 = [] ∧ (stPar1 T S f (stPar0 T S f x).2 y).1 = [] ∧ stFct T S f (stPar1 T S f (stPar0 T S f x).2 y).2 2 = ([], r) := by
  simp only [stand, parN, List.append_nil, List.length_nil, Nat.zero_add, Prod.mk.injEq, List.append_eq_nil_iff]
  constructor
  · rintro ⟨⟨⟨h1, h2⟩, h3⟩, h4⟩; exact ⟨h1, h2, Prod.ext h3 h4⟩
  · rintro ⟨h1, h2, h3⟩; rw [h3]; exact ⟨⟨⟨h1, h2⟩, rfl⟩, rfl⟩

theorem stand_single (f : Fn) (x : Arg) (r : Nat) : stand T S f [x] = ([], r) ↔
    (stPar0 T S f x).1 = [] ∧ stFct T S f (stPar0 T S f x).2 1 = ([], r) := by
  simp only [stand, Prod.mk.injEq, List.append_eq_nil_iff]
  constructor
  · rintro ⟨⟨h1, h2⟩, h3⟩; exact ⟨h1, Prod.ext h2 h3⟩
  · rintro ⟨h1, h2⟩; rw [h2]; exact ⟨⟨h1, rfl⟩, rfl⟩

theorem inc_par0 {f : Fn} (hf : f = .inc ∨ f = .dec) (x : Arg) :
    (stPar0 T S f x).2 = x ∧ ((stPar0 T S f x).1 = [] ↔ Variable x.ex ∧ Integer T x.ex.typ) := by
  rw [variable_iff]
  unfold Integer
  rcases hf with rfl | rfl <;> simp only [stPar0] <;> refine ⟨trivial, ?_⟩ <;>
    cases notVar x.ex <;> cases readonly x.ex <;> by_cases h : (T x.ex.typ).form = .int <;> simp [h]

theorem inc_iff (hw : Wf T) {f : Fn} (hf : f = .inc ∨ f = .dec) (args : List Arg) (r : Nat) (ha : ∀ x ∈ args, SoundArg T x) :
    stand T S f args = ([], r) ↔ Call T S f args r := by
  have hn : f ≠ .new := by rcases hf with rfl | rfl <;> simp
  match args, ha with
  | [], _ =>
    refine ⟨fun h => absurd h (stand_nil f r), fun h => ?_⟩
    cases h
  | [x], ha =>
    rw [stand_single, (inc_par0 hf x).1, (inc_par0 hf x).2]
    have e : stFct T S f x 1 = ([], notyp) := by rcases hf with rfl | rfl <;> simp [stFct]
    rw [e]
    constructor
    · rintro ⟨h, h2⟩
      simp only [Prod.mk.injEq, true_and] at h2
      rw [← h2]
      exact .inc hf h.1 h.2
    · intro h
      cases h with
      | inc _ h1 h2 => exact ⟨⟨h1, h2⟩, rfl⟩
      | _ => simp at hf
  | [v, x], ha =>
    have hx := ha x (by simp)
    have hv := noValue_iff x.ex
    have hc := isConst_iff x.ex
    rw [stand_two, (inc_par0 hf v).1, (inc_par0 hf v).2]
    have e : stFct T S f (stat notyp) 2 = ([], notyp) := by rcases hf with rfl | rfl <;> simp [stFct, stat]
    have e1 : (stPar1 T S f v x).2 = stat notyp := by rcases hf with rfl | rfl <;> rfl
    have e2 : (stPar1 T S f v x).1 = (stPar1 T S .inc v x).1 := by rcases hf with rfl | rfl <;> rfl
    rw [e1, e, e2]
    have key : Integer T v.ex.typ → ((stPar1 T S .inc v x).1 = [] ↔ IntExpr T x ∧ (Constant x.ex → Fits (T v.ex.typ).size x.val) ∧
        (¬ Constant x.ex → (T x.ex.typ).size ≤ (T v.ex.typ).size)) := by
      intro hi
      simp only [stPar1]
      unfold IntExpr
      rw [← hv]
      cases hnv : noValue x.ex
      · simp only [if_neg, Bool.false_eq_true, not_false_eq_true, true_and]
        by_cases ht : x.ex.typ = v.ex.typ
        · simp only [ht, ne_eq, not_true_eq_false, if_false, true_iff]
          refine ⟨hi, ?_, fun _ => Nat.le_refl _⟩
          intro h
          rw [← ht] at hi ⊢
          exact hx.2.1 h hi
        · simp only [ne_eq, ht, not_false_eq_true, if_true]
          by_cases hi2 : (T x.ex.typ).form = .int
          · have hi' : (T v.ex.typ).form = .int := hi
            simp only [hi2, true_and, hi']
            rw [← hc]
            cases hcc : isConst x.ex
            · by_cases hl : (T x.ex.typ).size ≤ (T v.ex.typ).size
              · simp [hl, hi2, convInt, hcc, Integer]
              · simp [hl, hi2]
            · simp only [true_or, if_true]
              rw [convInt_iff x _ hx hi2, ← hc, hcc]
              simp [Integer, hi2]
          · simp [hi2, Integer]
      · simp
    constructor
    · rintro ⟨h, h1, h2⟩
      simp only [Prod.mk.injEq, true_and] at h2
      rw [← h2]
      obtain ⟨k1, k2, k3⟩ := (key h.2).mp h1
      exact .incBy hf h.1 h.2 k1 k2 k3
    · intro h
      cases h with
      | incBy _ h1 h2 h3 h4 h5 => exact ⟨⟨h1, h2⟩, (key h2).mpr ⟨h3, h4, h5⟩, rfl⟩
      | incl h => rcases hf with rfl | rfl <;> simp at h
      | _ => simp at hf
  | x :: y :: z :: zs, _ =>
    refine ⟨fun h => absurd h (stand_many hn x y z zs r), fun h => ?_⟩
    cases h
    simp at hf

theorem incl_iff (hw : Wf T) {f : Fn} (hf : f = .incl ∨ f = .excl) (args : List Arg) (r : Nat) (ha : ∀ x ∈ args, SoundArg T x) :
    stand T S f args = ([], r) ↔ Call T S f args r := by
  have hn : f ≠ .new := by rcases hf with rfl | rfl <;> simp
  match args, ha with
  | [], _ =>
    refine ⟨fun h => absurd h (stand_nil f r), fun h => ?_⟩
    cases h
  | [x], ha =>
    constructor
    · intro h
      rw [stand_single] at h
      rcases hf with rfl | rfl <;> simp [stFct] at h
    · intro h
      cases h with
      | inc h _ _ => rcases hf with rfl | rfl <;> simp at h
      | _ => simp at hf
  | [v, x], ha =>
    have hv := noValue_iff x.ex
    have hc := isConst_iff x.ex
    rw [stand_two]
    have e0 : (stPar0 T S f v).2 = v := by rcases hf with rfl | rfl <;> rfl
    have e3 : (stPar0 T S f v).1 = [] ↔ Variable v.ex ∧ SetType T v.ex.typ := by
      rw [variable_iff]
      unfold SetType
      rcases hf with rfl | rfl <;> simp only [stPar0] <;>
        cases notVar v.ex <;> cases readonly v.ex <;> by_cases h : (T v.ex.typ).form = .set <;> simp [h]
    have e : stFct T S f (stat notyp) 2 = ([], notyp) := by rcases hf with rfl | rfl <;> simp [stFct, stat]
    have e1 : (stPar1 T S f v x).2 = stat notyp := by rcases hf with rfl | rfl <;> rfl
    have e2 : (stPar1 T S f v x).1 = [] ↔ IntExpr T x ∧ (Constant x.ex → 0 ≤ x.val ∧ x.val < 8 * (T v.ex.typ).size) := by
      unfold IntExpr Integer
      rw [← hv, ← hc]
      rcases hf with rfl | rfl <;> simp only [stPar1] <;>
        cases noValue x.ex <;> cases isConst x.ex <;> by_cases h : (T x.ex.typ).form = .int <;> simp [h] <;> omega
    rw [e0, e1, e, e2, e3]
    constructor
    · rintro ⟨h, h1, h2⟩
      simp only [Prod.mk.injEq, true_and] at h2
      rw [← h2]
      exact .incl hf h.1 h.2 h1.1 h1.2
    · intro h
      cases h with
      | incl _ h1 h2 h3 h4 => exact ⟨⟨h1, h2⟩, ⟨h3, h4⟩, rfl⟩
      | incBy h => rcases hf with rfl | rfl <;> simp at h
      | _ => simp at hf
  | x :: y :: z :: zs, _ =>
    refine ⟨fun h => absurd h (stand_many hn x y z zs r), fun h => ?_⟩
    cases h
    simp at hf

theorem charArray_iff (hw : Wf T) (t : Nat) : CharArray T t ↔ ((T t).comp = .array ∨ (T t).comp = .dyn) ∧ (T (baseTyp T t)).form = .char := by
  unfold CharArray IsArray baseTyp
  constructor
  · rintro ⟨h1, h2⟩
    refine ⟨h1, ?_⟩
    rw [h2]; simp [hw.char]
  · rintro ⟨h1, h2⟩
    refine ⟨h1, ?_⟩
    cases hb : (T t).base with
    | none => rw [hb] at h2; simp [hw.undf] at h2
    | some b => rw [hb] at h2; simp at h2; rw [hw.char' _ h2]

theorem copy_iff (hw : Wf T) (args : List Arg) (r : Nat) (ha : ∀ x ∈ args, SoundArg T x) :
    stand T S .copy args = ([], r) ↔ Call T S .copy args r := by
  match args, ha with
  | [], _ =>
    refine ⟨fun h => absurd h (stand_nil _ r), fun h => ?_⟩
    cases h
  | [x], ha =>
    constructor
    · intro h
      rw [stand_single] at h
      simp [stFct] at h
    · intro h
      cases h with
      | inc h _ _ => simp at h
  | [x, v], ha =>
    have hv := noValue_iff x.ex
    have hc := isConst_iff x.ex
    rw [stand_two]
    have e0 : (stPar0 T S .copy x).1 = [] ↔ x.ex.value ∧ StringLike T x.ex := by
      unfold StringLike
      rw [← hv, ← hc]
      have := charArray_iff hw x.ex.typ
      unfold CharArray IsArray at this
      rw [this]
      have hs : (T x.ex.typ).form = .str ↔ x.ex.typ = stringtyp := ⟨hw.str' _, fun h => by rw [h, hw.str]⟩
      have hch : (T x.ex.typ).form = .char ↔ x.ex.typ = chartyp := ⟨hw.char' _, fun h => by rw [h, hw.char]⟩
      rw [← hs, ← hch]
      simp only [stPar0]
      by_cases a : (T x.ex.typ).comp = .array <;> by_cases b : (T x.ex.typ).comp = .dyn <;> by_cases c : (T (baseTyp T x.ex.typ)).form = .char <;>
        by_cases d : (T x.ex.typ).form = .str <;> cases noValue x.ex <;> cases isConst x.ex <;> simp [a, b, c, d]
    have e1 : (stPar1 T S .copy (stPar0 T S .copy x).2 v).1 = [] ↔ Variable v.ex ∧ CharArray T v.ex.typ := by
      rw [variable_iff, charArray_iff hw]
      simp only [stPar1]
      cases notVar v.ex <;> cases readonly v.ex <;> simp
      split_ifs <;> simp
    have e2 : (stPar1 T S .copy (stPar0 T S .copy x).2 v).2 = stat notyp := rfl
    rw [e0, e1, e2]
    constructor
    · rintro ⟨h, h1, h2⟩
      simp [stFct, stat] at h2
      rw [← h2]
      exact .copy h.1 h.2 h1.1 h1.2
    · intro h
      cases h with
      | incBy h => simp at h
      | incl h => simp at h
      | copy h1 h2 h3 h4 => exact ⟨⟨h1, h2⟩, ⟨h3, h4⟩, by simp [stFct, stat]⟩
  | x :: y :: z :: zs, _ =>
    refine ⟨fun h => absurd h (stand_many (by simp) x y z zs r), fun h => ?_⟩
    cases h

theorem ash_iff (hw : Wf T) (args : List Arg) (r : Nat) (ha : ∀ x ∈ args, SoundArg T x) (hm : ∀ x ∈ args, x.val ≠ -(2 ^ 63)) :
    stand T S .ash args = ([], r) ↔ Call T S .ash args r := by
  match args, ha with
  | [], _ =>
    refine ⟨fun h => absurd h (stand_nil _ r), fun h => ?_⟩
    cases h
  | [x], ha =>
    constructor
    · intro h
      rw [stand_single] at h
      simp [stFct] at h
    · intro h
      cases h with
      | inc h _ _ => simp at h
  | [x, n], ha =>
    have hv := noValue_iff x.ex
    have hc := isConst_iff x.ex
    have hvn := noValue_iff n.ex
    have hcn := isConst_iff n.ex
    have hmx := hm x (by simp)
    rw [stand_two]
    have e0 : (stPar0 T S .ash x).1 = [] ↔ IntExpr T x := by
      unfold IntExpr Integer
      rw [← hv]
      simp only [stPar0]
      cases noValue x.ex <;> by_cases h : (T x.ex.typ).form = .int <;> simp [h]
    have e2 : ∀ p : Arg, stFct T S .ash p 2 = ([], p.ex.typ) := fun p => by simp [stFct]
    rw [e0, e2]
    have e1 : IntExpr T x → isConst (stPar0 T S .ash x).2.ex = isConst x.ex ∧ (stPar0 T S .ash x).2.val = x.val ∧
        (stPar0 T S .ash x).2.ex.typ = (if (T x.ex.typ).size < (T S.lint).size then S.lint else x.ex.typ) := by
      rintro ⟨h1, h2⟩
      have h2 : (T x.ex.typ).form = .int := h2
      simp only [stPar0, hv.mpr h1, h2, if_true, Bool.false_eq_true, if_false]
      split_ifs
      · refine ⟨?_, rfl, rfl⟩
        simp only [retype]
        cases h : isConst x.ex
        · simp [isConst]
        · simp only [if_true]
          rw [← h]; rfl
      · exact ⟨rfl, rfl, rfl⟩
    have e3 : ∀ p : Arg, (stPar1 T S .ash p n).2.ex.typ = p.ex.typ := by
      intro p
      simp only [stPar1]
      split_ifs <;> rfl
    have e4 : ∀ p : Arg, p.val ≠ -(2 ^ 63) → ((stPar1 T S .ash p n).1 = [] ↔ IntExpr T n ∧
        (isConst p.ex = true → Constant n.ex → -62 ≤ n.val ∧ n.val ≤ 62 ∧ (0 ≤ n.val → (p.val.natAbs : Int) * 2 ^ n.val.toNat ≤ 2 ^ 63 - 1))) := by
      intro p hp
      unfold IntExpr Integer
      rw [← hvn, ← hcn]
      simp only [stPar1]
      cases noValue n.ex <;> by_cases h : (T n.ex.typ).form = .int <;> cases isConst p.ex <;> cases isConst n.ex <;> simp [h]
      have ea : abs64 p.val = |p.val| := by unfold abs64; rw [if_neg hp]; simp
      rw [ea]
      simp only [Int.le_ediv_iff_mul_le (show (0:Int) < 2 ^ n.val.toNat by positivity)]
      split_ifs with h1 h2 h3
      · simp; omega
      · simp [h3]; omega
      · simp [h3, h2]
      · simp; omega
    constructor
    · rintro ⟨h, h1, h2⟩
      obtain ⟨k1, k2, k3⟩ := e1 h
      simp only [Prod.mk.injEq, true_and] at h2
      rw [e3, k3] at h2
      rw [← h2]
      rw [e4 _ (by rw [k2]; exact hmx), k1, k2, hc] at h1
      exact .ash h h1.1 h1.2
    · intro h
      cases h with
      | incBy h => simp at h
      | incl h => simp at h
      | ash h1 h2 h3 =>
        obtain ⟨k1, k2, k3⟩ := e1 h1
        refine ⟨h1, ?_, by rw [e3, k3]⟩
        rw [e4 _ (by rw [k2]; exact hmx), k1, k2, hc]
        exact ⟨h2, h3⟩
  | x :: y :: z :: zs, _ =>
    refine ⟨fun h => absurd h (stand_many (by simp) x y z zs r), fun h => ?_⟩
    cases h

/-! ### LEN -/

theorem downDim_iff (hw : Wf T) (k : Nat) (t d : Nat) : (downDim T k t = (0, d) ∧ IsArray T d) ↔ Dim T t k d := by
  induction k generalizing t with
  | zero =>
    simp only [downDim, Prod.mk.injEq, true_and]
    constructor
    · rintro ⟨rfl, h⟩; exact .here h
    · intro h
      cases h with
      | here h => exact ⟨rfl, h⟩
  | succ k ih =>
    simp only [downDim]
    by_cases ha : (T t).comp = .dyn ∨ (T t).comp = .array
    · rw [if_pos ha, ih]
      have hb : ∃ b, (T t).base = some b := by
        rcases ha with h | h
        · obtain ⟨b, h, _⟩ := hw.dyn t h; exact ⟨b, h⟩
        · obtain ⟨b, h, _⟩ := hw.array t h; exact ⟨b, h⟩
      obtain ⟨b, hb⟩ := hb
      have e : baseTyp T t = b := by unfold baseTyp; rw [hb]; rfl
      rw [e]
      constructor
      · intro h; exact .next ha.symm hb h
      · intro h
        cases h with
        | next _ h1 h2 => rw [hb] at h1; cases h1; exact h2
    · rw [if_neg ha]
      constructor
      · rintro ⟨h, _⟩; simp at h
      · intro h
        cases h with
        | next h _ _ => exact absurd h.symm ha

theorem len_ok {x : Arg} (hx : SoundArg T x) : IsArray T x.ex.typ → x.ex.value ∨ TypeName x.ex := by
  intro h
  unfold Ex.value TypeName
  by_cases ht : x.ex.kind = .typ
  · exact .inr ht
  · refine .inl ⟨ht, ?_⟩
    intro a r ps hk
    exact hx.2.2 a r ps hk h

theorem len_iff (hw : Wf T) (args : List Arg) (r : Nat) (ha : ∀ x ∈ args, SoundArg T x) :
    stand T S .len args = ([], r) ↔ Call T S .len args r := by
  have e0 : ∀ x, (stPar0 T S .len x).2 = x ∧ ((stPar0 T S .len x).1 = [] ↔ IsArray T x.ex.typ) := by
    intro x
    unfold IsArray
    simp only [stPar0]
    refine ⟨trivial, ?_⟩
    split_ifs with h
    · simp; exact h.symm
    · simp; tauto
  match args, ha with
  | [], _ =>
    refine ⟨fun h => absurd h (stand_nil _ r), fun h => ?_⟩
    cases h
  | [x], ha =>
    rw [stand_single, (e0 x).1, (e0 x).2]
    have e : stFct T S .len x 1 = ([], lenType T S x.ex.typ) := by
      simp only [stFct, lenType, if_true]
      split_ifs <;> rfl
    rw [e]
    constructor
    · rintro ⟨h, h2⟩
      simp only [Prod.mk.injEq, true_and] at h2
      rw [← h2]
      exact .len (len_ok (ha x (by simp)) h) h
    · intro h
      cases h with
      | inc h _ _ => simp at h
      | len _ h => exact ⟨h, rfl⟩
  | [v, x], ha =>
    have hc := isConst_iff x.ex
    rw [stand_two, (e0 v).1, (e0 v).2]
    have e2 : ∀ p : Arg, stFct T S .len p 2 = ([], p.ex.typ) := fun p => by simp [stFct]
    rw [e2]
    constructor
    · rintro ⟨h, h1, h2⟩
      simp only [Prod.mk.injEq, true_and] at h2
      simp only [stPar1] at h1 h2
      split_ifs at h1 h2 with h3 h4 h5 h6
      · rw [not_or] at h3 h5
        have hd : Dim T v.ex.typ x.val.toNat (downDim T x.val.toNat v.ex.typ).2 :=
          (downDim_iff hw _ _ _).mp ⟨Prod.ext (by by_contra hh; exact h5.1 (.inr hh)) rfl, .inr h6⟩
        rw [← h2]
        have hk : x.val = (x.val.toNat : Int) := by
          have := not_or.mp h5.1
          omega
        have := Call.lenDim (S := S) (len_ok (ha v (by simp)) h) (hc.mp (by simpa using h3.2)) (by by_contra hh; exact h3.1 hh) h4 hk hd
        rw [lenType, if_pos h6] at this
        exact this
      · rw [not_or] at h3 h5
        have hd : Dim T v.ex.typ x.val.toNat (downDim T x.val.toNat v.ex.typ).2 :=
          (downDim_iff hw _ _ _).mp ⟨Prod.ext (by by_contra hh; exact h5.1 (.inr hh)) rfl, (not_not.mp h5.2).symm⟩
        rw [← h2]
        have hk : x.val = (x.val.toNat : Int) := by
          have := not_or.mp h5.1
          omega
        have := Call.lenDim (S := S) (len_ok (ha v (by simp)) h) (hc.mp (by simpa using h3.2)) (by by_contra hh; exact h3.1 hh) h4 hk hd
        rw [lenType, if_neg h6] at this
        exact this
    · intro h
      cases h with
      | incBy h => simp at h
      | incl h => simp at h
      | @lenDim _ _ d k h0 h1 h2 h3 h4 h5 =>
        have h2' : (T x.ex.typ).form = .int := h2
        obtain ⟨hd, hda⟩ := (downDim_iff hw k v.ex.typ d).mpr h5
        have hva : IsArray T v.ex.typ := by cases h5 <;> assumption
        refine ⟨hva, ?_⟩
        have hk : x.val.toNat = k := by omega
        simp only [stPar1, hk, hd]
        rw [if_neg (by simp [h2', hc.mpr h1]), if_pos h3, if_neg (by
          rintro ((h | h) | h)
          · omega
          · exact h rfl
          · exact h hda.symm)]
        unfold lenType
        split_ifs <;> exact ⟨rfl, rfl⟩
  | x :: y :: z :: zs, _ =>
    refine ⟨fun h => absurd h (stand_many (by simp) x y z zs r), fun h => ?_⟩
    cases h

/-! ### ASSERT -/

theorem assert_iff (hw : Wf T) (args : List Arg) (r : Nat) :
    stand T S .assert args = ([], r) ↔ Call T S .assert args r := by
  have e0 : ∀ x, ((stPar0 T S .assert x).1 = [] ↔ x.ex.value ∧ x.ex.typ = booltyp) ∧
      (x.ex.value ∧ x.ex.typ = booltyp → (assertErr (stPar0 T S .assert x).2 = [] ↔ (Constant x.ex → x.val ≠ 0))) := by
    intro x
    have hb : (T x.ex.typ).form = .bool ↔ x.ex.typ = booltyp := ⟨hw.bool' _, fun h => by rw [h, hw.bool]⟩
    rw [← noValue_iff, ← hb, ← isConst_iff]
    simp only [stPar0, assertErr]
    constructor
    · split_ifs <;> simp_all
    · rintro ⟨h1, h2⟩
      simp only [h1, h2, ne_eq, not_true_eq_false, if_false, Bool.false_eq_true]
      have : isConst ⟨x.ex.kind, booltyp⟩ = isConst x.ex := rfl
      rw [this]
      cases isConst x.ex <;> by_cases h : x.val = 0 <;> simp [h]
  match args with
  | [] =>
    refine ⟨fun h => absurd h (stand_nil _ r), fun h => ?_⟩
    cases h
  | [x] =>
    rw [stand_single, (e0 x).1]
    simp only [stFct, if_true, Prod.mk.injEq]
    constructor
    · rintro ⟨h, h1, rfl⟩
      exact .assert h.1 h.2 (((e0 x).2 h).mp h1)
    · intro h
      cases h with
      | inc h _ _ => simp at h
      | assert h1 h2 h3 => exact ⟨⟨h1, h2⟩, ((e0 x).2 ⟨h1, h2⟩).mpr h3, rfl⟩
  | [x, n] =>
    rw [stand_two, (e0 x).1]
    have hc := isConst_iff n.ex
    have e1 : ∀ p, (stPar1 T S .assert p n).1 = [] ↔ ConstIn T n 0 255 ∧ assertErr p = [] := by
      intro p
      unfold ConstIn Integer
      rw [← hc]
      simp only [stPar1]
      cases isConst n.ex <;> by_cases h1 : (T n.ex.typ).form = .int <;> by_cases h2 : 0 ≤ n.val <;> by_cases h3 : n.val ≤ 255 <;> simp [h1, h2, h3]
    have e2 : ∀ p, stFct T S .assert p 2 = ([], notyp) := fun p => by simp [stFct]
    rw [e1, e2]
    constructor
    · rintro ⟨h, h1, h2⟩
      simp only [Prod.mk.injEq, true_and] at h2
      rw [← h2]
      exact .assertNo h.1 h.2 (((e0 x).2 h).mp h1.2) h1.1
    · intro h
      cases h with
      | incBy h => simp at h
      | incl h => simp at h
      | assertNo h1 h2 h3 h4 => exact ⟨⟨h1, h2⟩, ⟨h4, ((e0 x).2 ⟨h1, h2⟩).mpr h3⟩, rfl⟩
  | x :: y :: z :: zs =>
    refine ⟨fun h => absurd h (stand_many (by simp) x y z zs r), fun h => ?_⟩
    cases h

/-! ### NEW -/

theorem length_iff (x : Arg) : Length T S x ↔ noValue x.ex = false ∧ (T x.ex.typ).form = .int ∧
    ¬ (isConst x.ex = true ∧ (x.val ≤ 0 ∨ x.val > S.maxIndex)) := by
  unfold Length IntExpr Integer
  rw [noValue_iff, isConst_iff]
  constructor
  · rintro ⟨⟨h1, h2⟩, h3⟩
    exact ⟨h1, h2, fun h => by have := h3 h.1; omega⟩
  · rintro ⟨h1, h2, h3⟩
    refine ⟨⟨h1, h2⟩, fun h => ?_⟩
    have : ¬ (x.val ≤ 0 ∨ x.val > S.maxIndex) := fun hh => h3 ⟨h, hh⟩
    omega

theorem new_par1 (p x : Arg) : (stPar1 T S .new p x).1 = [] ↔ (T p.ex.typ).comp = .dyn ∧ Length T S x := by
  rw [length_iff]
  simp only [stPar1]
  split_ifs <;> simp_all

theorem new_par1_typ (p x : Arg) (h : (stPar1 T S .new p x).1 = []) : (stPar1 T S .new p x).2 = stat (baseTyp T p.ex.typ) := by
  have hd := ((new_par1 p x).mp h)
  rw [length_iff] at hd
  simp only [stPar1, hd.1, hd.2.1, if_true, Bool.false_eq_true, if_false]

theorem new_parN (p x : Arg) : (stParN T S .new p x).1 = [] ↔ (T p.ex.typ).comp = .dyn ∧ Length T S x := by
  rw [length_iff]
  simp only [stParN]
  split_ifs <;> simp_all

theorem new_parN_typ (p x : Arg) (h : (stParN T S .new p x).1 = []) : (stParN T S .new p x).2 = stat (baseTyp T p.ex.typ) := by
  have hd := ((new_parN p x).mp h)
  rw [length_iff] at hd
  simp [stParN, hd.1, hd.2.1, hd.2.2.1]

theorem opens_base (hw : Wf T) {t k : Nat} : Opens T t (k + 1) ↔ (T t).comp = .dyn ∧ Opens T (baseTyp T t) k := by
  constructor
  · intro h
    cases h with
    | dim h1 h2 h3 => exact ⟨h1, by unfold baseTyp; rw [h2]; exact h3⟩
  · rintro ⟨h1, h2⟩
    obtain ⟨b, hb, _⟩ := hw.dyn t h1
    unfold baseTyp at h2
    rw [hb] at h2
    exact .dim h1 hb h2

theorem opens_zero {t : Nat} : Opens T t 0 ↔ (T t).comp ≠ .dyn := by
  constructor
  · intro h
    cases h with
    | none h => exact h
  · exact .none

theorem new_many (hw : Wf T) (t : Nat) (xs : List Arg) : (parN T S .new (stat t) xs).1 = [] ∧ (T (parN T S .new (stat t) xs).2.ex.typ).comp ≠ .dyn ↔
    Opens T t xs.length ∧ ∀ x ∈ xs, Length T S x := by
  induction xs generalizing t with
  | nil => simp [parN, opens_zero, stat]
  | cons x xs ih =>
    simp only [parN, List.append_eq_nil_iff, List.length_cons, opens_base hw, List.forall_mem_cons]
    constructor
    · rintro ⟨⟨h1, h2⟩, h3⟩
      have hd := (new_parN _ _).mp h1
      rw [new_parN_typ _ _ h1] at h2 h3
      have := (ih _).mp ⟨h2, h3⟩
      exact ⟨⟨hd.1, this.1⟩, hd.2, this.2⟩
    · rintro ⟨⟨h1, h2⟩, h3, h4⟩
      have h5 : (stParN T S .new (stat t) x).1 = [] := (new_parN _ _).mpr ⟨h1, h3⟩
      have := (ih (baseTyp T t)).mpr ⟨h2, h4⟩
      rw [new_parN_typ _ _ h5]
      exact ⟨⟨h5, this.1⟩, this.2⟩

theorem new_par0 (hw : Wf T) (v : Arg) : (stPar0 T S .new v).1 = [] ↔
    ∃ b, Variable v.ex ∧ (T v.ex.typ).form = .ptr ∧ (T v.ex.typ).base = some b ∧ (T b).comp ≠ .basic := by
  rw [variable_iff]
  simp only [stPar0]
  by_cases hp : (T v.ex.typ).form = .ptr
  · obtain ⟨b, hb⟩ := hw.ptr _ hp
    have e : baseTyp T v.ex.typ = b := by unfold baseTyp; rw [hb]; rfl
    rw [e]
    cases notVar v.ex <;> cases readonly v.ex <;> cases hc : (T b).comp <;> simp [hp, hb, hc]
  · cases notVar v.ex <;> cases readonly v.ex <;> simp [hp]

theorem new_par0_typ (hw : Wf T) {v : Arg} {b : Nat} (h1 : (stPar0 T S .new v).1 = []) (h2 : (T v.ex.typ).base = some b) :
    (stPar0 T S .new v).2 = stat (if (T b).comp = .dyn then b else notyp) := by
  obtain ⟨b', hv, hp, hb, hc⟩ := (new_par0 hw v).mp h1
  rw [h2] at hb
  cases hb
  rw [variable_iff] at hv
  have e : baseTyp T v.ex.typ = b := by unfold baseTyp; rw [h2]; rfl
  simp only [stPar0, hv.1, hp, e, Bool.false_eq_true, if_false, if_true]
  cases hc' : (T b).comp <;> simp [hc'] at hc ⊢

theorem new_iff (hw : Wf T) (args : List Arg) (r : Nat) :
    stand T S .new args = ([], r) ↔ Call T S .new args r := by
  have hno : (T notyp).comp ≠ .dyn := by rw [hw.no]; simp
  have fct : ∀ p : Arg, ∀ n, 0 < n → (stFct T S .new p n = ([], r) ↔ (T p.ex.typ).comp ≠ .dyn ∧ r = notyp) := by
    intro p n hn
    simp only [stFct]
    by_cases h : p.ex.typ = notyp
    · rw [if_neg (by simp [h]), if_neg (by omega)]
      simp [h, hno, eq_comm]
    · rw [if_pos h]
      by_cases h2 : (T p.ex.typ).comp = .dyn <;> simp [h2, eq_comm]
  have shape : Call T S .new args r ↔ r = notyp ∧ ∃ v xs b, args = v :: xs ∧ Variable v.ex ∧ (T v.ex.typ).form = .ptr ∧ (T v.ex.typ).base = some b ∧
      (T b).comp ≠ .basic ∧ Opens T b xs.length ∧ ∀ x ∈ xs, Length T S x := by
    constructor
    · intro h
      cases h with
      | inc h => simp at h
      | incBy h => simp at h
      | incl h => simp at h
      | @new v b h1 h2 h3 h4 =>
        refine ⟨rfl, v, [], b, rfl, h1, h2, h3, ?_, .none ?_, by simp⟩
        · rcases h4 with h | h <;> rw [h] <;> simp
        · rcases h4 with h | h <;> rw [h] <;> simp
      | @newOpen v b xs h1 h2 h3 h4 h5 h6 => exact ⟨rfl, v, xs, b, rfl, h1, h2, h3, by rw [h4]; simp, h5, h6⟩
    · rintro ⟨rfl, v, xs, b, rfl, h1, h2, h3, h4, h5, h6⟩
      by_cases hd : (T b).comp = .dyn
      · exact .newOpen h1 h2 h3 hd h5 h6
      · cases xs with
        | nil => 
          refine .new h1 h2 h3 ?_
          cases hc : (T b).comp <;> simp_all
        | cons x xs =>
          exact absurd ((opens_base hw).mp h5).1 hd
  rw [shape]
  match args with
  | [] =>
    refine ⟨fun h => absurd h (stand_nil _ r), ?_⟩
    rintro ⟨_, v, xs, b, h, _⟩
    simp at h
  | [v] =>
    rw [stand_single, fct _ _ (by omega)]
    constructor
    · rintro ⟨h1, h2, rfl⟩
      obtain ⟨b, k1, k2, k3, k4⟩ := (new_par0 hw v).mp h1
      rw [new_par0_typ hw h1 k3] at h2
      refine ⟨rfl, v, [], b, rfl, k1, k2, k3, k4, .none ?_, by simp⟩
      intro h
      simp [stat, h] at h2
    · rintro ⟨rfl, v', xs, b, h, k1, k2, k3, k4, k5, k6⟩
      simp only [List.cons.injEq] at h
      obtain ⟨rfl, rfl⟩ := h
      have h1 : (stPar0 T S .new v).1 = [] := (new_par0 hw v).mpr ⟨b, k1, k2, k3, k4⟩
      refine ⟨h1, ?_, rfl⟩
      rw [new_par0_typ hw h1 k3]
      rw [if_neg (opens_zero.mp k5)]
      exact hno
  | v :: x :: xs =>
    have split : stand T S .new (v :: x :: xs) = ([], r) ↔ (stPar0 T S .new v).1 = [] ∧ (stPar1 T S .new (stPar0 T S .new v).2 x).1 = [] ∧
        (parN T S .new (stPar1 T S .new (stPar0 T S .new v).2 x).2 xs).1 = [] ∧
        stFct T S .new (parN T S .new (stPar1 T S .new (stPar0 T S .new v).2 x).2 xs).2 (xs.length + 2) = ([], r) := by
      simp only [stand, Prod.mk.injEq, List.append_eq_nil_iff]
      constructor
      · rintro ⟨⟨⟨⟨h1, h2⟩, h3⟩, h4⟩, h5⟩; exact ⟨h1, h2, h3, Prod.ext h4 h5⟩
      · rintro ⟨h1, h2, h3, h4⟩; rw [h4]; exact ⟨⟨⟨⟨h1, h2⟩, h3⟩, rfl⟩, rfl⟩
    rw [split, fct _ _ (by omega)]
    constructor
    · rintro ⟨h1, h2, h3, h4, rfl⟩
      obtain ⟨b, k1, k2, k3, k4⟩ := (new_par0 hw v).mp h1
      have hd := (new_par1 _ _).mp h2
      rw [new_par1_typ _ _ h2] at h3 h4
      rw [new_par0_typ hw h1 k3] at h3 h4 hd
      by_cases hb : (T b).comp = .dyn
      · rw [if_pos hb] at h3 h4 hd
        obtain ⟨h5, h6⟩ := (new_many hw _ xs).mp ⟨h3, h4⟩
        exact ⟨rfl, v, x :: xs, b, rfl, k1, k2, k3, k4, (opens_base hw).mpr ⟨hb, h5⟩, by
          simp only [List.forall_mem_cons]; exact ⟨hd.2, h6⟩⟩
      · rw [if_neg hb] at hd
        exact absurd hd.1 hno
    · rintro ⟨rfl, v', xs', b, h, k1, k2, k3, k4, k5, k6⟩
      simp only [List.cons.injEq] at h
      obtain ⟨rfl, rfl⟩ := h
      simp only [List.forall_mem_cons] at k6
      obtain ⟨hb, k5⟩ := (opens_base hw).mp k5
      have h1 : (stPar0 T S .new v).1 = [] := (new_par0 hw v).mpr ⟨b, k1, k2, k3, k4⟩
      have e0 := new_par0_typ hw h1 k3
      rw [if_pos hb] at e0
      have h2 : (stPar1 T S .new (stPar0 T S .new v).2 x).1 = [] := by
        rw [new_par1, e0]
        exact ⟨hb, k6.1⟩
      have e1 := new_par1_typ _ _ h2
      refine ⟨h1, h2, ?_⟩
      rw [e1, e0]
      have := (new_many hw (baseTyp T b) xs).mpr ⟨k5, k6.2⟩
      exact ⟨this.1, this.2, rfl⟩

/-! ### The theorem -/

/-- The property: the compiler accepts a call of a predeclared procedure without an error exactly where the report's tables allow it (with what is marked
in the specification as beyond the report), and its result is of the type they give; for all tables of types, procedures, and lists of arguments of
any length. -/
theorem C63_predeclared (hw : Wf T) (hs : S.Wf T) (f : Fn) (args : List Arg) (r : Nat) (ha : ∀ x ∈ args, SoundArg T x)
    (hm : f = .ash → ∀ x ∈ args, x.val ≠ -(2 ^ 63)) : stand T S f args = ([], r) ↔ Call T S f args r := by
  by_cases h1 : one f = true
  · match args, ha with
    | [], _ =>
      refine ⟨fun h => absurd h (stand_nil f r), fun h => ?_⟩
      cases h
    | [x], ha => exact one_iff hw hs h1 x (ha x (by simp)) r
    | x :: y :: zs, _ =>
      refine ⟨fun h => absurd h (stand_one_more h1 x y zs r), fun h => ?_⟩
      cases h with
      | incBy h => rcases h with rfl | rfl <;> simp [one] at h1
      | incl h => rcases h with rfl | rfl <;> simp [one] at h1
      | _ => simp [one] at h1
  · cases f <;> simp [one] at h1
    · exact new_iff hw args r
    · exact inc_iff hw (.inl rfl) args r ha
    · exact inc_iff hw (.inr rfl) args r ha
    · exact incl_iff hw (.inl rfl) args r ha
    · exact incl_iff hw (.inr rfl) args r ha
    · exact len_iff hw args r ha
    · exact copy_iff hw args r ha
    · exact ash_iff hw args r ha (hm rfl)
    · exact assert_iff hw args r

/-! ### Cases -/

/-- SHORTINT of 1, INTEGER of 2, LONGINT of 4 and SYSTEM.INT64 of 8 bytes, with the types of C53: an array of 3 by 5 characters, a pointer to an open
array of open arrays, a set. -/
def tT : Tab := fun t =>
  match t with
  | 0 => { form := .undef }
  | 1 => { form := .no }
  | 2 => { form := .str }
  | 3 => { form := .nil }
  | 4 => { form := .byte }
  | 5 => { form := .ptr, size := 8, base := some 0 }
  | 6 => { form := .bool }
  | 7 => { form := .char }
  | 8 => { form := .real, size := 4 }
  | 9 => { form := .lreal, size := 8 }
  | 10 => { form := .int, size := 1 }
  | 11 => { form := .int, size := 2 }
  | 12 => { form := .int, size := 4 }
  | 13 => { form := .int, size := 8 }
  | 14 => { form := .comp, comp := .array, n := 3, size := 15, base := some 15 }
  | 15 => { form := .comp, comp := .array, n := 5, size := 5, base := some 7 }
  | 16 => { form := .ptr, size := 8, base := some 17 }
  | 17 => { form := .comp, comp := .dyn, n := 1, base := some 18 }
  | 18 => { form := .comp, comp := .dyn, n := 0, base := some 12 }
  | 19 => { form := .set, size := 4 }
  | _ => { form := .no }

/-- The types of `tT`; constants of up to 64 bits. -/
def tS : Std where
  sint := 10
  int := 11
  lint := 12
  int8 := 10
  int64 := 13
  ofInt := fun v => if fits 1 v then 10 else if fits 2 v then 11 else if fits 4 v then 12 else 13
  maxIndex := 2 ^ 63 - 1

theorem tT_wf : Wf tT := by
  have hc : ∀ t, t ≤ 19 ∨ tT t = { form := .no } := by
    intro t
    by_cases h : t ≤ 19
    · exact .inl h
    · refine .inr ?_
      simp only [tT]
      split <;> first | omega | rfl
  have go : ∀ P : Nat → Ty → Prop, (∀ t, t ≤ 19 → P t (tT t)) → (∀ t, P t { form := .no }) → ∀ t, P t (tT t) := by
    intro P h1 h2 t
    rcases hc t with h | h
    · exact h1 t h
    · rw [h]
      exact h2 t
  refine ⟨rfl, rfl, rfl, rfl, rfl, ⟨rfl, rfl⟩, rfl, rfl, rfl, rfl, ?_, ?_, ?_, ?_, ?_, ?_, ?_, ?_, ?_, ?_, ?_, ?_, ?_⟩
  · exact go (fun t y => y.form = .comp ↔ y.comp ≠ .basic) (by decide) (by intro; simp)
  · exact go (fun t y => y.form = .undef → t = undftyp) (by decide) (by intro; simp)
  · exact go (fun t y => y.form = .str → t = stringtyp) (by decide) (by intro; simp)
  · exact go (fun t y => y.form = .nil → t = niltyp) (by decide) (by intro; simp)
  · exact go (fun t y => y.form = .byte → t = bytetyp) (by decide) (by intro; simp)
  · exact go (fun t y => y.form = .bool → t = booltyp) (by decide) (by intro; simp)
  · exact go (fun t y => y.form = .char → t = chartyp) (by decide) (by intro; simp)
  · exact go (fun t y => y.form = .real → t = realtyp) (by decide) (by intro; simp)
  · exact go (fun t y => y.form = .lreal → t = lrltyp) (by decide) (by intro; simp)
  · intro t b
    refine go (fun t y => y.comp = .record → y.base = some b → (tT b).comp = .record ∧ y.extlev = (tT b).extlev + 1) ?_ (by intro; simp) t
    intro t ht h1
    have : (tT t).comp ≠ .record := by clear h1; revert t; decide
    exact absurd h1 this
  · refine go (fun t y => y.comp = .array → ∃ b, y.base = some b ∧ (tT b).comp ≠ .dyn) ?_ (by intro; simp)
    intro t ht h1
    have ht' : t = 14 ∨ t = 15 ∨ (tT t).comp ≠ .array := by clear h1; revert t; decide
    rcases ht' with rfl | rfl | h
    · exact ⟨15, rfl, by decide⟩
    · exact ⟨7, rfl, by decide⟩
    · exact absurd h1 h
  · refine go (fun t y => y.comp = .dyn → ∃ b, y.base = some b ∧ ((tT b).comp = .dyn → y.n = (tT b).n + 1)) ?_ (by intro; simp)
    intro t ht h1
    have ht' : t = 17 ∨ t = 18 ∨ (tT t).comp ≠ .dyn := by clear h1; revert t; decide
    rcases ht' with rfl | rfl | h
    · exact ⟨18, rfl, by decide⟩
    · exact ⟨12, rfl, by decide⟩
    · exact absurd h1 h
  · refine go (fun t y => y.form = .ptr → ∃ b, y.base = some b) ?_ (by intro; simp)
    intro t ht h1
    have ht' : t = 5 ∨ t = 16 ∨ (tT t).form ≠ .ptr := by clear h1; revert t; decide
    rcases ht' with rfl | rfl | h
    · exact ⟨_, rfl⟩
    · exact ⟨_, rfl⟩
    · exact absurd h1 h

theorem tS_wf : tS.Wf tT := by
  refine ⟨rfl, rfl, rfl, rfl, rfl, by decide, by decide, by decide, ?_⟩
  intro t ht
  by_cases h : t ≤ 19
  · revert ht
    have : ∀ t ≤ 19, (tT t).form = .int → (tT t).size ≤ (tT tS.int64).size := by decide
    exact this t h
  · exfalso
    have : tT t = { form := .no } := by
      unfold tT
      split <;> first | omega | rfl
    rw [this] at ht
    simp at ht

/-- A variable, a constant, the name of a type. -/
def v (t : Nat) : Arg := ⟨⟨.var false false, t⟩, 0⟩
def c (t : Nat) (n : Int) : Arg := ⟨⟨.const 0, t⟩, n⟩
def n (t : Nat) : Arg := ⟨⟨.typ, t⟩, 0⟩

example : stand tT tS .len [v 14] = ([], 10) := by decide
example : stand tT tS .len [v 14, c 10 1] = ([], 10) := by decide
example : stand tT tS .len [v 14, c 10 2] = ([132], 14) := by decide
example : stand tT tS .len [v 17, c 10 1] = ([], 12) := by decide
example : stand tT tS .new [v 16, c 10 3, v 11] = ([], notyp) := by decide
example : stand tT tS .new [v 16, c 10 3] = ([65], notyp) := by decide
example : stand tT tS .new [v 16, c 10 3, v 11, v 11] = ([64], notyp) := by decide
example : stand tT tS .inc [v 11, c 12 70000] = ([203], notyp) := by decide
example : stand tT tS .inc [v 11, v 12] = ([111], notyp) := by decide
example : stand tT tS .short [v 12] = ([], 11) := by decide
example : stand tT tS .short [c 12 70000] = ([203], 11) := by decide
example : stand tT tS .long [v 10] = ([], 11) := by decide
example : stand tT tS .copy [c 7 65, v 15] = ([], notyp) := by decide
example : stand tT tS .assert [c 6 0] = ([99], notyp) := by decide
example : stand tT tS .max [n 19] = ([], 11) := by decide
example : Call tT tS .inc [v 12, c 10 100] notyp :=
  (C63_predeclared tT_wf tS_wf .inc _ notyp (by
    simp only [List.forall_mem_cons, List.not_mem_nil, false_implies, implies_true, and_true]
    constructor
    · unfold SoundArg Sound Constant Fits
      simp [v]
      exact ⟨fun _ => by decide, by decide⟩
    · unfold SoundArg Sound Constant Fits
      simp [c]
      exact ⟨⟨fun _ => by decide, by decide⟩, fun _ => by decide⟩) (by simp)).mp (by decide)
example : Call tT tS .new [v 16, c 10 3, v 11] notyp :=
  .newOpen ⟨_, rfl⟩ rfl rfl rfl (.dim rfl rfl (.dim rfl rfl (.none (by decide))))
    (by simp [Length, IntExpr, Ex.value, Integer, Constant, v, c, tS]; decide)

/-- Where the code departs from the claim: `ASH(1, 40)` is a constant of type LONGINT, also where LONGINT has 32 bits and 2^40 is not one of its values:
`StPar1` gives the result no type of its own (OPB.Mod 1179-1190). -/
theorem C63_ash_range : stand tT tS .ash [c 10 1, c 10 40] = ([], tS.lint) ∧
    (stPar1 tT tS .ash (stPar0 tT tS .ash (c 10 1)).2 (c 10 40)).2 = c 12 (2 ^ 40) ∧ ¬ Fits (tT tS.lint).size (2 ^ 40) := by
  refine ⟨by decide, by decide, ?_⟩
  unfold Fits
  decide

/-- Where the code departs: `ASH(MIN(SYSTEM.INT64), 1)` is accepted, as the absolute value of the least integer is taken to be negative; the constant
is then beyond 64 bits. -/
theorem C63_ash_min : stand tT tS .ash [c 13 (-(2 ^ 63)), c 10 1] = ([], 13) ∧ ∀ r, ¬ Call tT tS .ash [c 13 (-(2 ^ 63)), c 10 1] r := by
  refine ⟨by decide, ?_⟩
  intro r h
  cases h with
  | incBy h => simp at h
  | incl h => simp at h
  | ash _ _ h =>
    have := (h ⟨_, rfl⟩ ⟨_, rfl⟩).2.2 (by decide)
    revert this
    decide

/-- Where the code departs from the report: there is no type shorter than SHORTINT, but `SHORT(i)` is accepted for a SHORTINT, as a conversion to its own
type; the same for `LONG` of the largest type. -/
theorem C63_short_short : stand tT tS .short [v tS.sint] = ([], tS.sint) ∧ stand tT tS .long [v tS.int64] = ([], tS.int64) := by decide

/-- Where the code departs from the report: LEN is accepted with the name of a type. -/
theorem C63_len_type : stand tT tS .len [n 14] = ([], 10) := by decide

end Verif.Predecl
