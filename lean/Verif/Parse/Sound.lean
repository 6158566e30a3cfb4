import Verif.Parse.Run

/-! # Without errors, what is read is an expression -/
namespace Verif.Parse
open Verif.Scanner (Tok)

/-- What is read without error. -/
def Sound {α : Type} (p : P α) (y : α → List Y) (W : α → Prop) : Prop :=
  ∀ i a k, p i = some (a, k, []) → W a ∧ Rd (y a) i k

/-- The loops of terms. -/
def SoundL (p : Ex → P Ex) (n : Nat) : Prop :=
  ∀ x, okEx x → n ≤ lev x → ∀ i a k, p x i = some (a, k, []) → okEx a ∧ n ≤ lev a ∧ ∀ h, Rd (yEx x) h i → Rd (yEx a) h k

structure SE (f : Nat) : Prop where
  ex : Sound (expression f) yEx okEx
  si : Sound (simple f) yEx (fun e => okEx e ∧ 1 ≤ lev e)
  ad : SoundL (adds f) 1
  te : Sound (term f) yEx (fun e => okEx e ∧ 2 ≤ lev e)
  mu : SoundL (muls f) 2
  fa : Sound (factor f) yEx (fun e => okEx e ∧ lev e = 3)
  se : Sound (selector f) (fun ss => (ySels ss).flatten) okSels
  ac : Sound (actuals f) (fun as => sep (sm 19) (yExs as)) okExs
  el : Sound (element f) yEl okEl
  st : Sound (sets f) (fun es => sep (sm 19) (yEls es)) okEls

/-- Dead ends. -/
theorem err_bind {α : Type} {n : Nat} {g : Unit → P α} {i k : List T} {a : α} : ¬ (err n >>= g) i = some (a, k, []) := by
  rw [bind_ok]; rintro ⟨_, _, h, _⟩; exact err_ok h

/-- A parenthesis after a designator that is not a type guard. -/
theorem sel_end : ∀ {f : Nat} {i k : List T} {ss : List Sel}, selector f i = some (ss, k, []) → cur k = 30 →
    (k.head?.map (·.2)).getD false = false
  | 0, _, _, _, h, _ => absurd h (by simp only [selector]; exact stop_ok)
  | f + 1, i, k, ss, h, hk => by
    rw [selector] at h
    stp at h
    spl at h
    · obtain ⟨_, _, _, h⟩ := bind_ok.mp h
      stp at h
      obtain ⟨_, _, hs, h⟩ := bind_ok.mp h.2
      stp at h
      obtain ⟨rfl, rfl⟩ := h
      exact sel_end hs hk
    spl at h
    · spl at h
      · obtain ⟨_, _, hs, h⟩ := bind_ok.mp h
        stp at h
        obtain ⟨rfl, rfl⟩ := h
        exact sel_end hs hk
    spl at h
    · obtain ⟨_, _, hs, h⟩ := bind_ok.mp h
      stp at h
      obtain ⟨rfl, rfl⟩ := h
      exact sel_end hs hk
    spl at h
    · spl at h
      · obtain ⟨_, _, _, h⟩ := bind_ok.mp h
        stp at h
        obtain ⟨_, _, hs, h⟩ := bind_ok.mp h.2
        stp at h
        obtain ⟨rfl, rfl⟩ := h
        exact sel_end hs hk
    · next hc =>
      obtain ⟨rfl, rfl⟩ := h
      by_contra hb
      exact hc ⟨hk, by simpa using hb⟩

theorem rd_call {as : List Ex} {i k : List T} (hc : cur i = 30) (hb : (i.head?.map (·.2)).getD false = false)
    (h : Rd (sep (sm 19) (yExs as)) i.tail k) : Rd ((.sym 30, some false) :: sep (sm 19) (yExs as)) i k := by
  obtain ⟨b, j, rfl⟩ := cur_sym (by decide) hc
  exact Rd.cons (Rd.one (fun w hw => by cases hw; simpa using hb)) h

theorem soundE : ∀ f, SE f
  | 0 => by
    constructor <;> first
      | (intro x _ _ i a k h; simp only [adds, muls] at h; exact absurd h stop_ok)
      | (intro i a k h
         simp only [expression, simple, term, factor, selector, actuals, element, sets] at h
         exact absurd h stop_ok)
  | f + 1 => by
    obtain ⟨ex, si, ad, te, mu, fa, se, ac, el, st⟩ := soundE f
    refine ⟨?_, ?_, ?_, ?_, ?_, ?_, ?_, ?_, ?_, ?_⟩
    · -- expression
      intro i a k h
      rw [expression, bind_ok] at h
      obtain ⟨x, j, hx, h⟩ := h
      obtain ⟨⟨hw, hl⟩, hr⟩ := si _ _ _ hx
      stp at h
      spl at h
      · next hc =>
        obtain ⟨y, _, hy, h⟩ := bind_ok.mp h
        stp at h
        obtain ⟨rfl, rfl⟩ := h
        obtain ⟨⟨hw', hl'⟩, hr'⟩ := si _ _ _ hy
        refine ⟨?_, ?_⟩
        · simp only [okEx]; exact ⟨hw, hw', .inl ⟨hc.1, hc.2, hl, hl'⟩⟩
        · simp only [yEx]
          exact hr.app (Rd.cons (Rd.sym (by unfold plainSym; omega) rfl) hr')
      · spl at h
        · next hc =>
          spl at h
          · next hq =>
            obtain ⟨q, _, hq', h⟩ := bind_ok.mp h
            stp at h
            obtain ⟨rfl, rfl⟩ := h
            refine ⟨by simp only [okEx]; exact ⟨hw, hl⟩, ?_⟩
            simp only [yEx]
            exact hr.app (Rd.cons (Rd.sym (by decide) hc) (qualident_ok hq hq'))
        · obtain ⟨rfl, rfl⟩ := h
          exact ⟨hw, hr⟩
    · -- simple
      intro i a k h
      rw [simple] at h
      stp at h
      spl at h
      · next hc =>
        obtain ⟨x, j, hx, h⟩ := bind_ok.mp h
        obtain ⟨⟨hw, hl⟩, hr⟩ := te _ _ _ hx
        obtain ⟨h1, h2, h3⟩ := ad (.sign (cur i) x) (by simp only [okEx]; exact ⟨by omega, hw, hl⟩) (by simp [lev]) _ _ _ h
        refine ⟨⟨h1, h2⟩, h3 _ ?_⟩
        simp only [yEx]
        exact Rd.cons (Rd.sym (by unfold plainSym; omega) rfl) hr
      · obtain ⟨x, j, hx, h⟩ := bind_ok.mp h
        obtain ⟨⟨hw, hl⟩, hr⟩ := te _ _ _ hx
        obtain ⟨h1, h2, h3⟩ := ad x hw (by omega) _ _ _ h
        exact ⟨⟨h1, h2⟩, h3 _ hr⟩
    · -- adds
      intro x hw hl i a k h
      rw [adds] at h
      stp at h
      spl at h
      · next hc =>
        obtain ⟨y, j, hy, h⟩ := bind_ok.mp h
        obtain ⟨⟨hw', hl'⟩, hr'⟩ := te _ _ _ hy
        obtain ⟨h1, h2, h3⟩ := ad (.bin (cur i) x y)
          (by simp only [okEx]; exact ⟨hw, hw', .inr (.inl ⟨hc.1, hc.2, hl, hl'⟩)⟩)
          (by simp only [lev]; rw [if_neg (by omega), if_pos (by omega)]; omega) _ _ _ h
        refine ⟨h1, h2, fun g hg => h3 _ ?_⟩
        simp only [yEx]
        exact hg.app (Rd.cons (Rd.sym (by unfold plainSym; omega) rfl) hr')
      · obtain ⟨rfl, rfl⟩ := h
        exact ⟨hw, hl, fun g hg => hg⟩
    · -- term
      intro i a k h
      rw [term, bind_ok] at h
      obtain ⟨x, j, hx, h⟩ := h
      obtain ⟨⟨hw, hl⟩, hr⟩ := fa _ _ _ hx
      obtain ⟨h1, h2, h3⟩ := mu x hw (by omega) _ _ _ h
      exact ⟨⟨h1, h2⟩, h3 _ hr⟩
    · -- muls
      intro x hw hl i a k h
      rw [muls] at h
      stp at h
      spl at h
      · next hc =>
        obtain ⟨y, j, hy, h⟩ := bind_ok.mp h
        obtain ⟨⟨hw', hl'⟩, hr'⟩ := fa _ _ _ hy
        obtain ⟨h1, h2, h3⟩ := mu (.bin (cur i) x y)
          (by simp only [okEx]; exact ⟨hw, hw', .inr (.inr ⟨hc.1, hc.2, hl, by omega⟩)⟩)
          (by simp only [lev]; rw [if_neg (by omega), if_neg (by omega)]; omega) _ _ _ h
        refine ⟨h1, h2, fun g hg => h3 _ ?_⟩
        simp only [yEx]
        exact hg.app (Rd.cons (Rd.sym (by unfold plainSym; omega) rfl) hr')
      · obtain ⟨rfl, rfl⟩ := h
        exact ⟨hw, hl, fun g hg => hg⟩
    · -- factor
      intro i a k h
      rw [factor] at h
      stp at h
      obtain ⟨h30, h⟩ := h
      spl at h
      · next hq =>
        obtain ⟨q, _, hq', h⟩ := bind_ok.mp h
        obtain ⟨ss, j, hs, h⟩ := bind_ok.mp h
        have hrq := qualident_ok hq hq'
        obtain ⟨hws, hrs⟩ := se _ _ _ hs
        stp at h
        spl at h
        · next hc =>
          obtain ⟨as, _, has, h⟩ := bind_ok.mp h
          stp at h
          obtain ⟨h22, rfl, rfl⟩ := h
          obtain ⟨hwa, hra⟩ := ac _ _ _ has
          refine ⟨⟨by simp only [okEx]; exact ⟨hws, hwa⟩, rfl⟩, ?_⟩
          simp only [yEx]
          exact ((hrq.app hrs).app (rd_call hc (sel_end hs hc) hra)).snoc (Rd.sym (by decide) h22)
        · obtain ⟨rfl, rfl⟩ := h
          exact ⟨⟨by simp only [okEx]; exact hws, rfl⟩, by simp only [yEx]; exact hrq.app hrs⟩
      spl at h
      · next hl =>
        obtain ⟨rfl, rfl⟩ := h
        obtain ⟨t, b, j, rfl, ht⟩ := cur_lit hl
        exact ⟨⟨by simp only [okEx]; exact ht, rfl⟩, by simp only [yEx]; exact Rd.one (fun _ h => by cases h)⟩
      spl at h
      · next hc =>
        obtain ⟨rfl, rfl⟩ := h
        exact ⟨⟨by simp only [okEx], rfl⟩, by simp only [yEx]; exact Rd.sym (by decide) hc⟩
      spl at h
      · next hc =>
        obtain ⟨x, _, hx, h⟩ := bind_ok.mp h
        stp at h
        obtain ⟨h22, rfl, rfl⟩ := h
        obtain ⟨hw, hr⟩ := ex _ _ _ hx
        exact ⟨⟨by simp only [okEx]; exact hw, rfl⟩, by
          simp only [yEx]; exact (Rd.cons (Rd.sym (by decide) hc) hr).snoc (Rd.sym (by decide) h22)⟩
      spl at h
      spl at h
      · next hc =>
        obtain ⟨x, _, hx, h⟩ := bind_ok.mp h
        stp at h
        obtain ⟨h22, rfl, rfl⟩ := h
        obtain ⟨hw, hr⟩ := st _ _ _ hx
        exact ⟨⟨by simp only [okEx]; exact hw, rfl⟩, by
          simp only [yEx]; exact (Rd.cons (Rd.sym (by decide) hc) hr).snoc (Rd.sym (by decide) h22)⟩
      spl at h
      · next hc =>
        obtain ⟨x, _, hx, h⟩ := bind_ok.mp h
        stp at h
        obtain ⟨rfl, rfl⟩ := h
        obtain ⟨hw, hr⟩ := fa _ _ _ hx
        exact ⟨⟨by simp only [okEx]; exact hw, rfl⟩, by simp only [yEx]; exact Rd.cons (Rd.sym (by decide) hc) hr⟩
    · -- selector
      intro i a k h
      rw [selector] at h
      stp at h
      spl at h
      · next hc =>
        obtain ⟨es, _, hes, h⟩ := bind_ok.mp h
        stp at h
        obtain ⟨h23, h⟩ := h
        obtain ⟨ss, j, hs, h⟩ := bind_ok.mp h
        stp at h
        obtain ⟨rfl, rfl⟩ := h
        obtain ⟨h1, h2, h3⟩ := commas_ok ex _ _ _ _ hes
        obtain ⟨hws, hrs⟩ := se _ _ _ hs
        refine ⟨by simp only [okSels, okSel, okExs_all]; exact ⟨⟨h1, h2⟩, hws⟩, ?_⟩
        simp only [ySels, ySel, List.flatten_cons, yExs_map]
        exact ((Rd.cons (Rd.sym (by decide) hc) h3).snoc (Rd.sym (by decide) h23)).app hrs
      spl at h
      · next hc =>
        spl at h
        · next hq =>
          obtain ⟨ss, j, hs, h⟩ := bind_ok.mp h
          stp at h
          obtain ⟨rfl, rfl⟩ := h
          obtain ⟨hws, hrs⟩ := se _ _ _ hs
          refine ⟨by simp only [okSels, okSel]; exact ⟨trivial, hws⟩, ?_⟩
          simp only [ySels, ySel, List.flatten_cons]
          exact (Rd.cons (Rd.sym (by decide) hc) (Rd.idn hq)).app hrs
      spl at h
      · next hc =>
        obtain ⟨ss, j, hs, h⟩ := bind_ok.mp h
        stp at h
        obtain ⟨rfl, rfl⟩ := h
        obtain ⟨hws, hrs⟩ := se _ _ _ hs
        refine ⟨by simp only [okSels, okSel]; exact ⟨trivial, hws⟩, ?_⟩
        simp only [ySels, ySel, List.flatten_cons]
        exact (Rd.sym (by decide) hc).app hrs
      spl at h
      · next hc =>
        obtain ⟨hc, hb⟩ := hc
        spl at h
        · next hq =>
          obtain ⟨q, _, hq', h⟩ := bind_ok.mp h
          stp at h
          obtain ⟨h22, h⟩ := h
          obtain ⟨ss, j, hs, h⟩ := bind_ok.mp h
          stp at h
          obtain ⟨rfl, rfl⟩ := h
          obtain ⟨hws, hrs⟩ := se _ _ _ hs
          refine ⟨by simp only [okSels, okSel]; exact ⟨trivial, hws⟩, ?_⟩
          simp only [ySels, ySel, List.flatten_cons]
          obtain ⟨b, j, rfl⟩ := cur_sym (by decide) hc
          exact ((Rd.cons (Rd.one (fun w hw => by cases hw; simpa using hb)) (qualident_ok hq hq')).snoc
            (Rd.sym (by decide) h22)).app hrs
      · obtain ⟨rfl, rfl⟩ := h
        exact ⟨by simp only [okSels], by simp only [ySels, List.flatten_nil]; exact Rd.nil⟩
    · -- actuals
      intro i a k h
      rw [actuals] at h
      stp at h
      spl at h
      · obtain ⟨rfl, rfl⟩ := h
        exact ⟨by simp only [okExs], Rd.nil⟩
      · obtain ⟨-, h2, h3⟩ := commas_ok ex _ _ _ _ h
        exact ⟨(okExs_all _).mpr h2, by simp only [yExs_map]; exact h3⟩
    · -- element
      intro i a k h
      rw [element, bind_ok] at h
      obtain ⟨x, _, hx, h⟩ := h
      obtain ⟨hw, hr⟩ := ex _ _ _ hx
      stp at h
      spl at h
      · next hc =>
        obtain ⟨y, _, hy, h⟩ := bind_ok.mp h
        stp at h
        obtain ⟨rfl, rfl⟩ := h
        obtain ⟨hw', hr'⟩ := ex _ _ _ hy
        exact ⟨by simp only [okEl]; exact ⟨hw, hw'⟩, by
          simp only [yEl]; exact hr.app (Rd.cons (Rd.sym (by decide) hc) hr')⟩
      · obtain ⟨rfl, rfl⟩ := h
        exact ⟨by simp only [okEl]; exact hw, by simp only [yEl]; exact hr⟩
    · -- sets
      intro i a k h
      rw [sets] at h
      stp at h
      spl at h
      · obtain ⟨rfl, rfl⟩ := h
        exact ⟨by simp only [okEls], Rd.nil⟩
      · obtain ⟨-, h2, h3⟩ := commas_ok el _ _ _ _ h
        exact ⟨(okEls_all _).mpr h2, by simp only [yEls_map]; exact h3⟩

end Verif.Parse
