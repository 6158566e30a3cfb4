import Verif.Common
import Verif.Str.Lemmas

/-!
# Match and wildcards

`M` works from the ends of the two strings; `Glob` is defined from the front.
-/
namespace Verif.Str

theorem Glob.append {p q s t : List Nat} (h1 : Glob p s) (h2 : Glob q t) : Glob (p ++ q) (s ++ t) := by
  induction h1 with
  | nil => exact h2
  | char hc _ ih => exact Glob.char hc ih
  | star u _ ih => rw [List.append_assoc]; exact Glob.star u ih

theorem Glob.split {p q s : List Nat} (h : Glob (p ++ q) s) : ∃ a b, s = a ++ b ∧ Glob p a ∧ Glob q b := by
  induction p generalizing s with
  | nil => exact ⟨[], s, rfl, Glob.nil, h⟩
  | cons c p ih =>
    generalize hr : c :: p ++ q = r at h
    cases h with
    | nil => simp at hr
    | char hc h' =>
      simp only [List.cons_append, List.cons.injEq] at hr
      obtain ⟨rfl, rfl⟩ := hr
      obtain ⟨a, b, e, h1, h2⟩ := ih h'
      exact ⟨c :: a, b, by rw [e]; rfl, Glob.char hc h1, h2⟩
    | star t h' =>
      simp only [List.cons_append, List.cons.injEq] at hr
      obtain ⟨rfl, rfl⟩ := hr
      obtain ⟨a, b, e, h1, h2⟩ := ih h'
      exact ⟨t ++ a, b, by rw [e, List.append_assoc], Glob.star t h1, h2⟩

theorem glob_nil {s : List Nat} : Glob [] s ↔ s = [] := by
  constructor
  · intro h; cases h; rfl
  · rintro rfl; exact Glob.nil

theorem glob_one {c : Nat} (hc : c ≠ 42) {s : List Nat} : Glob [c] s ↔ s = [c] := by
  constructor
  · intro h
    cases h with
    | char _ h => rw [glob_nil.1 h]
    | star => exact absurd rfl hc
  · rintro rfl; exact Glob.char hc Glob.nil

theorem glob_snoc {p s : List Nat} {c : Nat} (hc : c ≠ 42) : Glob (p ++ [c]) s ↔ ∃ s', s = s' ++ [c] ∧ Glob p s' := by
  constructor
  · intro h
    obtain ⟨a, b, e, h1, h2⟩ := h.split
    rw [(glob_one hc).1 h2] at e
    exact ⟨a, e, h1⟩
  · rintro ⟨s', rfl, h⟩
    exact h.append ((glob_one hc).2 rfl)

theorem glob_star {p s : List Nat} : Glob (p ++ [42]) s ↔ ∃ k, k ≤ s.length ∧ Glob p (s.take k) := by
  constructor
  · intro h
    obtain ⟨a, b, e, h1, _⟩ := h.split
    subst e
    exact ⟨a.length, by simp, by simpa using h1⟩
  · rintro ⟨k, _, h⟩
    have h2 : Glob [42] (s.drop k) := by
      have := Glob.star (s.drop k) Glob.nil
      simpa using this
    have := h.append h2
    rwa [List.take_append_drop] at this

theorem take_snoc (l : List Nat) {n : Nat} (h : n < l.length) : l.take (n + 1) = l.take n ++ [l[n]] := by
  rw [List.take_add_one, List.getElem?_eq_getElem h]; rfl

theorem back_ok (name mask : List Nat) : ∀ (n m : Nat), n ≤ name.length → m ≤ mask.length →
    (back name mask n m = some none ∧ ¬ Glob (mask.take m) (name.take n)) ∨
    ∃ n' m', back name mask n m = some (some (n', m')) ∧ n' ≤ n ∧ m' ≤ m ∧
      (Glob (mask.take m) (name.take n) ↔ Glob (mask.take m') (name.take n')) ∧ (n' = 0 ∨ m' = 0 ∨ mask[m' - 1]? = some 42)
  | 0, 0, _, _ => Or.inr ⟨0, 0, rfl, Nat.le_refl _, Nat.le_refl _, Iff.rfl, Or.inl rfl⟩
  | 0, m + 1, _, _ => Or.inr ⟨0, m + 1, rfl, Nat.le_refl _, Nat.le_refl _, Iff.rfl, Or.inl rfl⟩
  | n + 1, 0, _, _ => Or.inr ⟨n + 1, 0, rfl, Nat.le_refl _, Nat.le_refl _, Iff.rfl, Or.inr (Or.inl rfl)⟩
  | n + 1, m + 1, h1, h2 => by
    have hn : n < name.length := by omega
    have hm : m < mask.length := by omega
    simp only [back]
    rw [rd_nat mask rfl, rd_nat name rfl, List.getElem?_eq_getElem hm, List.getElem?_eq_getElem hn, Option.bind_some]
    by_cases hs : mask[m] = 42
    · right
      refine ⟨n + 1, m + 1, by rw [if_neg (by simpa using hs)], Nat.le_refl _, Nat.le_refl _, Iff.rfl, Or.inr (Or.inr ?_)⟩
      rw [Nat.add_sub_cancel, List.getElem?_eq_getElem hm, hs]
    · rw [if_pos hs, Option.bind_some]
      have hiff : Glob (mask.take (m + 1)) (name.take (n + 1)) ↔ name[n] = mask[m] ∧ Glob (mask.take m) (name.take n) := by
        rw [take_snoc mask hm, take_snoc name hn, glob_snoc hs]
        constructor
        · rintro ⟨s', e, h⟩
          have := List.append_inj' e rfl
          exact ⟨by simpa using this.2, this.1 ▸ h⟩
        · rintro ⟨e, h⟩
          exact ⟨_, by rw [e], h⟩
      by_cases he : name[n] = mask[m]
      · rw [if_neg (by simpa using he)]
        rcases back_ok name mask n m (by omega) (by omega) with ⟨e1, e2⟩ | ⟨n', m', e1, e2, e3, e4, e5⟩
        · left; exact ⟨e1, fun h => e2 (hiff.1 h).2⟩
        · right
          refine ⟨n', m', e1, by omega, by omega, ?_, e5⟩
          rw [hiff, ← e4]
          exact ⟨fun h => h.2, fun h => ⟨he, h⟩⟩
      · rw [if_pos he]
        left
        exact ⟨rfl, fun h => he (hiff.1 h).1⟩

theorem skipStars_ok (mask : List Nat) : ∀ m, m ≤ mask.length → ∃ m', skipStars mask m = some m' ∧ m' ≤ m ∧
    (m' = 0 ∨ ∃ c, mask[m' - 1]? = some c ∧ c ≠ 42) ∧
    (m' < m → ∀ s, Glob (mask.take m) s ↔ ∃ k, k ≤ s.length ∧ Glob (mask.take m') (s.take k))
  | 0, _ => ⟨0, rfl, Nat.le_refl _, Or.inl rfl, by omega⟩
  | m + 1, h => by
    have hm : m < mask.length := by omega
    simp only [skipStars]
    rw [rd_nat mask rfl, List.getElem?_eq_getElem hm, Option.bind_some]
    by_cases hs : mask[m] = 42
    · rw [if_pos hs]
      obtain ⟨m', e1, e2, e3, e4⟩ := skipStars_ok mask m (by omega)
      refine ⟨m', e1, by omega, e3, ?_⟩
      intro _ s
      rw [take_snoc mask hm, hs, glob_star]
      by_cases hlt : m' < m
      · constructor
        · rintro ⟨k, hk, h⟩
          obtain ⟨l, hl, h'⟩ := (e4 hlt _).1 h
          rw [List.take_take] at h'
          simp at hl
          exact ⟨l, by omega, by rwa [Nat.min_eq_left (by omega)] at h'⟩
        · rintro ⟨k, hk, h⟩
          refine ⟨s.length, Nat.le_refl _, (e4 hlt _).2 ⟨k, by simpa using hk, ?_⟩⟩
          rwa [List.take_length]
      · have : m' = m := by omega
        subst this
        exact Iff.rfl
    · rw [if_neg hs]
      refine ⟨m + 1, rfl, Nat.le_refl _, Or.inr ⟨mask[m], ?_, hs⟩, by omega⟩
      rw [Nat.add_sub_cancel, List.getElem?_eq_getElem hm]

theorem tryAll_ok (name mask : List Nat) (m F : Nat)
    (ih : ∀ n f, n ≤ name.length → F ≤ f → ∃ b, matchM name mask f n m = some b ∧ (b = true ↔ Glob (mask.take m) (name.take n))) :
    ∀ (n f : Nat), n ≤ name.length → F + n < f →
    ∃ b, tryAll name mask f n m = some b ∧ (b = true ↔ ∃ k, 0 < k ∧ k ≤ n ∧ Glob (mask.take m) (name.take k))
  | 0, 0, _, h => by omega
  | n + 1, 0, _, h => by omega
  | 0, f + 1, _, _ => ⟨false, rfl, by simp only [Bool.false_eq_true, false_iff]; rintro ⟨k, h1, h2, _⟩; omega⟩
  | n + 1, f + 1, h1, h2 => by
    simp only [tryAll]
    obtain ⟨b, e1, e2⟩ := ih (n + 1) f h1 (by omega)
    rw [e1, Option.bind_some]
    by_cases hb : b = true
    · rw [if_pos hb]
      exact ⟨true, rfl, fun _ => ⟨n + 1, by omega, Nat.le_refl _, e2.1 hb⟩, fun _ => rfl⟩
    · rw [if_neg hb]
      obtain ⟨b', e3, e4⟩ := tryAll_ok name mask m F ih n f (by omega) (by omega)
      refine ⟨b', e3, ?_⟩
      rw [e4]
      constructor
      · rintro ⟨k, a1, a2, a3⟩; exact ⟨k, a1, by omega, a3⟩
      · rintro ⟨k, a1, a2, a3⟩
        by_cases hk : k = n + 1
        · subst hk; exact absurd (e2.2 a3) hb
        · exact ⟨k, a1, by omega, a3⟩

theorem glob_empty {p : List Nat} {c : Nat} (hc : c ≠ 42) : ¬ Glob (p ++ [c]) [] := by
  rw [glob_snoc hc]
  rintro ⟨s', e, _⟩
  simp at e

theorem matchM_ok (name mask : List Nat) : ∀ (m n f : Nat), n ≤ name.length → m ≤ mask.length →
    (m + 1) * (name.length + 2) ≤ f →
    ∃ b, matchM name mask f n m = some b ∧ (b = true ↔ Glob (mask.take m) (name.take n)) := by
  intro m
  induction m using Nat.strong_induction_on with
  | _ m ihm =>
    intro n f hn hm hf
    cases f with
    | zero =>
      have : 0 < (m + 1) * (name.length + 2) := Nat.mul_pos (by omega) (by omega)
      omega
    | succ f =>
      simp only [matchM]
      rcases back_ok name mask n m hn hm with ⟨e1, e2⟩ | ⟨n', m', e1, e2, e3, e4, e5⟩
      · rw [e1, Option.bind_some]
        exact ⟨false, rfl, by simp [e2]⟩
      · rw [e1, Option.bind_some]
        simp only []
        by_cases hm0 : m' = 0
        · rw [if_pos hm0]
          refine ⟨_, rfl, ?_⟩
          rw [e4, hm0, List.take_zero, glob_nil]
          simp
          intro h
          rw [h] at hn
          simp at hn
          omega
        · rw [if_neg hm0]
          obtain ⟨m2, g1, g2, g3, g4⟩ := skipStars_ok mask m' (by omega)
          rw [g1, Option.bind_some]
          have hlast : ∀ k, k ≠ 0 → k ≤ mask.length → (∃ c, mask[k - 1]? = some c ∧ c ≠ 42) → ¬ Glob (mask.take k) [] := by
            intro k hk hkl ⟨c, hc1, hc2⟩
            obtain ⟨j, rfl⟩ := Nat.exists_eq_succ_of_ne_zero hk
            rw [Nat.succ_eq_add_one, take_snoc mask (by omega)]
            apply glob_empty
            rw [Nat.succ_eq_add_one, Nat.add_sub_cancel, List.getElem?_eq_getElem (by omega)] at hc1
            rw [Option.some.inj hc1]; exact hc2
          by_cases hm2 : m2 = 0
          · rw [if_pos hm2]
            refine ⟨true, rfl, fun _ => ?_, fun _ => rfl⟩
            rw [e4, g4 (by rw [hm2]; exact Nat.pos_of_ne_zero hm0)]
            exact ⟨0, by omega, by rw [hm2]; exact Glob.nil⟩
          · rw [if_neg hm2]
            have g3' := g3.resolve_left hm2
            by_cases hlt : m2 < m'
            · have hmul : (m2 + 1) * (name.length + 2) + (name.length + 2) ≤ (m + 1) * (name.length + 2) := by
                have := Nat.mul_le_mul_right (name.length + 2) (show m2 + 1 + 1 ≤ m + 1 by omega)
                rw [Nat.add_mul (m2 + 1) 1] at this
                omega
              obtain ⟨b, t1, t2⟩ := tryAll_ok name mask m2 ((m2 + 1) * (name.length + 2))
                (fun n f h1 h2 => ihm m2 (by omega) n f h1 (by omega) h2) n' f (by omega) (by omega)
              refine ⟨b, t1, ?_⟩
              rw [t2, e4, g4 hlt]
              constructor
              · rintro ⟨k, a1, a2, a3⟩
                refine ⟨k, by simp; omega, ?_⟩
                rwa [List.take_take, Nat.min_eq_left a2]
              · rintro ⟨k, a1, a2⟩
                simp at a1
                rw [List.take_take, Nat.min_eq_left a1.1] at a2
                refine ⟨k, ?_, a1.1, a2⟩
                rcases Nat.eq_zero_or_pos k with h0 | h0
                · subst h0; exact absurd a2 (hlast m2 hm2 (by omega) g3')
                · exact h0
            · have hmm : m2 = m' := by omega
              subst hmm
              have hn0 : n' = 0 := by
                rcases e5 with h | h | h
                · exact h
                · exact absurd h hm0
                · obtain ⟨c, c1, c2⟩ := g3'
                  rw [h] at c1
                  exact absurd (Option.some.inj c1).symm c2
              subst hn0
              cases f with
              | zero =>
                have h2 : 2 * (name.length + 2) ≤ (m + 1) * (name.length + 2) := Nat.mul_le_mul_right _ (by omega)
                omega
              | succ f =>
                refine ⟨false, rfl, ?_⟩
                rw [e4]
                simp only [List.take_zero, Bool.false_eq_true, false_iff]
                exact hlast m2 hm2 (by omega) g3'

end Verif.Str
