import Verif.Parse.SoundT

/-! # Without errors, what is read is a statement -/
namespace Verif.Parse
open Verif.Scanner (Tok)

theorem ite_c {α : Type} {c : Prop} [Decidable c] {p q : P α} {i : List T} {r : Option (α × List T × List Nat)}
    (h : (if c then p else q) i = r) : c ∧ p i = r ∨ ¬ c ∧ q i = r := by
  by_cases hc : c
  · rw [if_pos hc] at h; exact .inl ⟨hc, h⟩
  · rw [if_neg hc] at h; exact .inr ⟨hc, h⟩

theorem label_ok (f : Nat) : Sound (label f) yEl okEl := by
  intro i a k h
  rw [label, bind_ok] at h
  obtain ⟨x, _, hx, h⟩ := h
  obtain ⟨hw, hr⟩ := (soundE f).ex _ _ _ hx
  stp at h
  spl at h
  · next hc =>
    obtain ⟨y, _, hy, h⟩ := bind_ok.mp h
    stp at h
    obtain ⟨rfl, rfl⟩ := h
    obtain ⟨hw', hr'⟩ := (soundE f).ex _ _ _ hy
    exact ⟨by simp only [okEl]; exact ⟨hw, hw'⟩, by
      simp only [yEl]; exact hr.app (Rd.cons (Rd.sym (by decide) hc) hr')⟩
  · obtain ⟨rfl, rfl⟩ := h
    exact ⟨by simp only [okEl]; exact hw, by simp only [yEl]; exact hr⟩

theorem guard_ok {i k : List T} {g : Qual × Qual} (h : guard i = some (g, k, [])) : Rd (yQual g.1 ++ sm 20 :: yQual g.2) i k := by
  rw [guard] at h
  stp at h
  spl at h
  next hc =>
    obtain ⟨v, j, hv, h⟩ := bind_ok.mp h
    stp at h
    obtain ⟨h20, h⟩ := h
    spl at h
    next hq =>
      obtain ⟨t, j', ht, h⟩ := bind_ok.mp h
      stp at h
      obtain ⟨rfl, rfl⟩ := h
      exact (qualident_ok hc hv).app (Rd.cons (Rd.sym (by decide) h20) (qualident_ok hq ht))

theorem step_ok (f : Nat) : Sound (step f) yBy okFlag := by
  intro i a k h
  rw [step] at h
  stp at h
  spl at h
  · next hc =>
    obtain ⟨z, _, hz, h⟩ := bind_ok.mp h
    stp at h
    obtain ⟨rfl, rfl⟩ := h
    obtain ⟨hwz, hrz⟩ := (soundE f).ex _ _ _ hz
    exact ⟨hwz, Rd.cons (Rd.sym (by decide) hc) hrz⟩
  · obtain ⟨rfl, rfl⟩ := h
    exact ⟨trivial, Rd.nil⟩

theorem ySts_map (es : List St) : ySts es = es.map ySt := by
  induction es with
  | nil => simp [ySts]
  | cons e es ih => simp [ySts, ih]

theorem yCases_map (es : List Case) : yCases es = es.map yCase := by
  induction es with
  | nil => simp [yCases]
  | cons e es ih => simp [yCases, ih]

theorem yGuards_map (es : List Guard) : yGuards es = es.map yGuard := by
  induction es with
  | nil => simp [yGuards]
  | cons e es ih => simp [yGuards, ih]

structure SSt (f : Nat) : Prop where
  ss : Sound (statSeq f) (fun b => sep (sm 39) (ySts b)) (fun b => b ≠ [] ∧ okSts b)
  st : Sound (stat f) ySt okSt
  ei : Sound (elsifs f) (fun es => (yElsifs es).flatten) okElsifs
  el : Sound (els f) yElse okElse
  ca : Sound (cases f) (fun cs => sep (sm 40) (yCases cs)) (fun cs => cs ≠ [] ∧ okCases cs)
  gu : Sound (guards f) (fun cs => sep (sm 40) (yGuards cs)) (fun cs => cs ≠ [] ∧ okGuards cs)

theorem soundS : ∀ f, SSt f
  | 0 => by
    constructor <;>
      (intro i a k h
       simp only [statSeq, stat, elsifs, els, cases, guards] at h
       exact absurd h stop_ok)
  | f + 1 => by
    obtain ⟨ss, st, ei, el, ca, gu⟩ := soundS f
    obtain ⟨ex, -, -, -, -, -, se, ac, -, -⟩ := soundE f
    refine ⟨?_, ?_, ?_, ?_, ?_, ?_⟩
    · -- statSeq
      intro i a k h
      rw [statSeq] at h
      stp at h
      obtain ⟨-, h⟩ := h
      obtain ⟨x, j, hx, h⟩ := bind_ok.mp h
      obtain ⟨hw, hr⟩ := st _ _ _ hx
      stp at h
      spl at h
      · next hc =>
        obtain ⟨xs, _, hxs, h⟩ := bind_ok.mp h
        stp at h
        obtain ⟨rfl, rfl⟩ := h
        obtain ⟨⟨hn, hw'⟩, hr'⟩ := ss _ _ _ hxs
        refine ⟨⟨by simp, by simp only [okSts]; exact ⟨hw, hw'⟩⟩, ?_⟩
        simp only [ySts]
        rw [sep_cons (by rw [ySts_map]; simpa using hn)]
        exact hr.app (Rd.cons (Rd.sym (by decide) hc) hr')
      spl at h
      obtain ⟨rfl, rfl⟩ := h
      exact ⟨⟨by simp, by simp only [okSts]; exact ⟨hw, trivial⟩⟩, by simp only [ySts, sep]; exact hr⟩
    · -- stat
      intro i a k h
      rw [stat] at h
      rw [sy_b] at h
      rcases ite_c h with ⟨hc, h⟩ | ⟨-, h⟩
      · stp at h
        obtain ⟨q, j, hq, h⟩ := bind_ok.mp h
        obtain ⟨sl, j', hs, h⟩ := bind_ok.mp h
        have hrq := qualident_ok hc hq
        obtain ⟨hws, hrs⟩ := se _ _ _ hs
        stp at h
        spl at h
        · next h34 =>
          obtain ⟨e, _, he, h⟩ := bind_ok.mp h
          stp at h
          obtain ⟨rfl, rfl⟩ := h
          obtain ⟨hwe, hre⟩ := ex _ _ _ he
          exact ⟨by simp only [okSt]; exact ⟨hws, hwe⟩, by
            simp only [ySt]; exact (hrq.app hrs).app (Rd.cons (Rd.sym (by decide) h34) hre)⟩
        spl at h
        spl at h
        · next h30 =>
          obtain ⟨as, _, has, h⟩ := bind_ok.mp h
          stp at h
          obtain ⟨h22, rfl, rfl⟩ := h
          obtain ⟨hwa, hra⟩ := ac _ _ _ has
          exact ⟨by simp only [okSt]; exact ⟨hws, hwa⟩, by
            simp only [ySt, yArgs]
            exact (hrq.app hrs).app ((rd_call h30 (sel_end hs h30) hra).snoc (Rd.sym (by decide) h22))⟩
        · obtain ⟨rfl, rfl⟩ := h
          exact ⟨by simp only [okSt]; exact ⟨hws, trivial⟩, by
            simp only [ySt, yArgs, List.append_nil]; exact hrq.app hrs⟩
      rcases ite_c h with ⟨hc, h⟩ | ⟨-, h⟩
      · stp at h
        obtain ⟨e, _, he, h⟩ := bind_ok.mp h
        stp at h
        obtain ⟨h26, h⟩ := h
        obtain ⟨b, _, hb, h⟩ := bind_ok.mp h
        obtain ⟨es, _, hes, h⟩ := bind_ok.mp h
        obtain ⟨l, _, hl, h⟩ := bind_ok.mp h
        stp at h
        obtain ⟨h41, rfl, rfl⟩ := h
        obtain ⟨hw1, hr1⟩ := ex _ _ _ he
        obtain ⟨⟨hn, hw2⟩, hr2⟩ := ss _ _ _ hb
        obtain ⟨hw3, hr3⟩ := ei _ _ _ hes
        obtain ⟨hw4, hr4⟩ := el _ _ _ hl
        refine ⟨by simp only [okSt]; exact ⟨hw1, hn, hw2, hw3, hw4⟩, ?_⟩
        simp only [ySt]
        exact ((((Rd.cons (Rd.sym (by decide) hc) hr1).app (Rd.cons (Rd.sym (by decide) h26) hr2)).app hr3).app hr4).snoc
          (Rd.sym (by decide) h41)
      rcases ite_c h with ⟨hc, h⟩ | ⟨-, h⟩
      · stp at h
        obtain ⟨e, _, he, h⟩ := bind_ok.mp h
        stp at h
        obtain ⟨h25, h⟩ := h
        obtain ⟨b, _, hb, h⟩ := bind_ok.mp h
        obtain ⟨l, _, hl, h⟩ := bind_ok.mp h
        stp at h
        obtain ⟨h41, rfl, rfl⟩ := h
        obtain ⟨hw1, hr1⟩ := ex _ _ _ he
        obtain ⟨⟨hn, hw2⟩, hr2⟩ := ca _ _ _ hb
        obtain ⟨hw4, hr4⟩ := el _ _ _ hl
        refine ⟨by simp only [okSt]; exact ⟨hw1, hn, hw2, hw4⟩, ?_⟩
        simp only [ySt]
        exact (((Rd.cons (Rd.sym (by decide) hc) hr1).app (Rd.cons (Rd.sym (by decide) h25) hr2)).app hr4).snoc
          (Rd.sym (by decide) h41)
      rcases ite_c h with ⟨hc, h⟩ | ⟨-, h⟩
      · stp at h
        obtain ⟨e, _, he, h⟩ := bind_ok.mp h
        stp at h
        obtain ⟨h27, h⟩ := h
        obtain ⟨b, _, hb, h⟩ := bind_ok.mp h
        stp at h
        obtain ⟨h41, rfl, rfl⟩ := h
        obtain ⟨hw1, hr1⟩ := ex _ _ _ he
        obtain ⟨⟨hn, hw2⟩, hr2⟩ := ss _ _ _ hb
        refine ⟨by simp only [okSt]; exact ⟨hw1, hn, hw2⟩, ?_⟩
        simp only [ySt]
        exact ((Rd.cons (Rd.sym (by decide) hc) hr1).app (Rd.cons (Rd.sym (by decide) h27) hr2)).snoc
          (Rd.sym (by decide) h41)
      rcases ite_c h with ⟨hc, h⟩ | ⟨-, h⟩
      · stp at h
        obtain ⟨b, _, hb, h⟩ := bind_ok.mp h
        stp at h
        spl at h
        next h44 =>
          obtain ⟨e, _, he, h⟩ := bind_ok.mp h
          stp at h
          obtain ⟨rfl, rfl⟩ := h
          obtain ⟨hw1, hr1⟩ := ex _ _ _ he
          obtain ⟨⟨hn, hw2⟩, hr2⟩ := ss _ _ _ hb
          refine ⟨by simp only [okSt]; exact ⟨hn, hw2, hw1⟩, ?_⟩
          simp only [ySt]
          exact (Rd.cons (Rd.sym (by decide) hc) hr2).app (Rd.cons (Rd.sym (by decide) h44) hr1)
      rcases ite_c h with ⟨hc, h⟩ | ⟨-, h⟩
      · stp at h
        spl at h
        next hq =>
          obtain ⟨q, _, hq', h⟩ := bind_ok.mp h
          stp at h
          obtain ⟨h34, h⟩ := h
          obtain ⟨x, _, hx, h⟩ := bind_ok.mp h
          stp at h
          obtain ⟨h28, h⟩ := h
          obtain ⟨y, j, hy, h⟩ := bind_ok.mp h
          obtain ⟨hwx, hrx⟩ := ex _ _ _ hx
          obtain ⟨hwy, hry⟩ := ex _ _ _ hy
          obtain ⟨z, _, hz, h⟩ := bind_ok.mp h
          obtain ⟨hwz, hrz⟩ := step_ok f _ _ _ hz
          stp at h
          obtain ⟨h27, h⟩ := h
          obtain ⟨b, _, hb, h⟩ := bind_ok.mp h
          stp at h
          obtain ⟨h41, rfl, rfl⟩ := h
          obtain ⟨⟨hn, hw2⟩, hr2⟩ := ss _ _ _ hb
          refine ⟨by simp only [okSt]; exact ⟨hwx, hwy, hwz, hn, hw2⟩, ?_⟩
          simp only [ySt]
          exact (((((Rd.cons (Rd.sym (by decide) hc) (qualident_ok hq hq')).app (Rd.cons (Rd.sym (by decide) h34) hrx)).app
            (Rd.cons (Rd.sym (by decide) h28) hry)).app hrz).app
            (Rd.cons (Rd.sym (by decide) h27) hr2)).snoc (Rd.sym (by decide) h41)
      rcases ite_c h with ⟨hc, h⟩ | ⟨-, h⟩
      · stp at h
        obtain ⟨b, _, hb, h⟩ := bind_ok.mp h
        stp at h
        obtain ⟨h41, rfl, rfl⟩ := h
        obtain ⟨⟨hn, hw2⟩, hr2⟩ := ss _ _ _ hb
        refine ⟨by simp only [okSt]; exact ⟨hn, hw2⟩, ?_⟩
        simp only [ySt]
        exact (Rd.cons (Rd.sym (by decide) hc) hr2).snoc (Rd.sym (by decide) h41)
      rcases ite_c h with ⟨hc, h⟩ | ⟨-, h⟩
      · stp at h
        obtain ⟨b, _, hb, h⟩ := bind_ok.mp h
        obtain ⟨l, _, hl, h⟩ := bind_ok.mp h
        stp at h
        obtain ⟨h41, rfl, rfl⟩ := h
        obtain ⟨⟨hn, hw2⟩, hr2⟩ := gu _ _ _ hb
        obtain ⟨hw4, hr4⟩ := el _ _ _ hl
        refine ⟨by simp only [okSt]; exact ⟨hn, hw2, hw4⟩, ?_⟩
        simp only [ySt]
        exact ((Rd.cons (Rd.sym (by decide) hc) hr2).app hr4).snoc (Rd.sym (by decide) h41)
      rcases ite_c h with ⟨hc, h⟩ | ⟨-, h⟩
      · stp at h
        obtain ⟨rfl, rfl⟩ := h
        exact ⟨by simp only [okSt], by simp only [ySt]; exact Rd.sym (by decide) hc⟩
      rcases ite_c h with ⟨hc, h⟩ | ⟨-, h⟩
      · stp at h
        spl at h
        · obtain ⟨e, _, he, h⟩ := bind_ok.mp h
          stp at h
          obtain ⟨rfl, rfl⟩ := h
          obtain ⟨hw1, hr1⟩ := ex _ _ _ he
          exact ⟨by simp only [okSt]; exact hw1, by simp only [ySt, yOpt]; exact Rd.cons (Rd.sym (by decide) hc) hr1⟩
        · obtain ⟨rfl, rfl⟩ := h
          exact ⟨by simp only [okSt]; trivial, by simp only [ySt, yOpt]; exact Rd.sym (by decide) hc⟩
      · stp at h
        obtain ⟨rfl, rfl⟩ := h
        exact ⟨by simp only [okSt], by simp only [ySt]; exact Rd.nil⟩
    · -- elsifs
      intro i a k h
      rw [elsifs] at h
      stp at h
      spl at h
      · next hc =>
        obtain ⟨e, _, he, h⟩ := bind_ok.mp h
        stp at h
        obtain ⟨h26, h⟩ := h
        obtain ⟨b, _, hb, h⟩ := bind_ok.mp h
        obtain ⟨es, _, hes, h⟩ := bind_ok.mp h
        stp at h
        obtain ⟨rfl, rfl⟩ := h
        obtain ⟨hw1, hr1⟩ := ex _ _ _ he
        obtain ⟨⟨hn, hw2⟩, hr2⟩ := ss _ _ _ hb
        obtain ⟨hw3, hr3⟩ := ei _ _ _ hes
        refine ⟨by simp only [okElsifs, okElsif]; exact ⟨⟨hw1, hn, hw2⟩, hw3⟩, ?_⟩
        simp only [yElsifs, yElsif, List.flatten_cons]
        exact ((Rd.cons (Rd.sym (by decide) hc) hr1).app (Rd.cons (Rd.sym (by decide) h26) hr2)).app hr3
      · obtain ⟨rfl, rfl⟩ := h
        exact ⟨by simp only [okElsifs], by simp only [yElsifs, List.flatten_nil]; exact Rd.nil⟩
    · -- els
      intro i a k h
      rw [els] at h
      stp at h
      spl at h
      · next hc =>
        obtain ⟨b, _, hb, h⟩ := bind_ok.mp h
        stp at h
        obtain ⟨rfl, rfl⟩ := h
        obtain ⟨hw2, hr2⟩ := ss _ _ _ hb
        exact ⟨by simp only [okElse]; exact hw2, by simp only [yElse]; exact Rd.cons (Rd.sym (by decide) hc) hr2⟩
      · obtain ⟨rfl, rfl⟩ := h
        exact ⟨by simp only [okElse], by simp only [yElse]; exact Rd.nil⟩
    · -- cases
      intro i a k h
      rw [cases] at h
      have key : ∀ (c : Case) (j : List T), okCase c → Rd (yCase c) i j →
          (if cur j = 40 then get >>= fun _ => cases f >>= fun cs => pure (c :: cs) else pure [c] : P (List Case)) j =
            some (a, k, []) → (a ≠ [] ∧ okCases a) ∧ Rd (sep (sm 40) (yCases a)) i k := by
        intro c j hw hr h
        stp at h
        spl at h
        · next hc =>
          obtain ⟨cs, _, hcs, h⟩ := bind_ok.mp h
          stp at h
          obtain ⟨rfl, rfl⟩ := h
          obtain ⟨⟨hn, hw'⟩, hr'⟩ := ca _ _ _ hcs
          refine ⟨⟨by simp, by simp only [okCases]; exact ⟨hw, hw'⟩⟩, ?_⟩
          simp only [yCases]
          rw [sep_cons (by rw [yCases_map]; simpa using hn)]
          exact hr.app (Rd.cons (Rd.sym (by decide) hc) hr')
        · obtain ⟨rfl, rfl⟩ := h
          exact ⟨⟨by simp, by simp only [okCases]; exact ⟨hw, trivial⟩⟩, by simp only [yCases, sep]; exact hr⟩
      stp at h
      split at h
      · obtain ⟨ls, _, hls, h⟩ := bind_ok.mp h
        simp only [bind_b, pure_b, checkSym_b] at h
        obtain ⟨h20, h⟩ := h
        obtain ⟨b, _, hb, h⟩ := bind_ok.mp h
        simp only [pure_b, sy_b] at h
        obtain ⟨h1, h2, h3⟩ := commas_ok (label_ok f) _ _ _ _ hls
        obtain ⟨hw, hr⟩ := ss _ _ _ hb
        exact key _ _ (by simp only [okCase]; exact ⟨h1, (okEls_all _).mpr h2, hw⟩)
          (by simp only [yCase, yEls_map]; exact h3.app (Rd.cons (Rd.sym (by decide) h20) hr)) h
      · simp only [pure_b, sy_b] at h
        exact key _ _ (by simp only [okCase]) (by simp only [yCase]; exact Rd.nil) h
    · -- guards
      intro i a k h
      rw [guards, bind_ok] at h
      obtain ⟨g, _, hg, h⟩ := h
      stp at h
      obtain ⟨h27, h⟩ := h
      obtain ⟨b, _, hb, h⟩ := bind_ok.mp h
      obtain ⟨hw, hr⟩ := ss _ _ _ hb
      have hrd := (guard_ok hg).app (Rd.cons (Rd.sym (by decide) h27) hr)
      stp at h
      spl at h
      · next hc =>
        obtain ⟨cs, _, hcs, h⟩ := bind_ok.mp h
        stp at h
        obtain ⟨rfl, rfl⟩ := h
        obtain ⟨⟨hn, hw'⟩, hr'⟩ := gu _ _ _ hcs
        refine ⟨⟨by simp, by simp only [okGuards, okGuard]; exact ⟨hw, hw'⟩⟩, ?_⟩
        simp only [yGuards, yGuard]
        rw [sep_cons (by rw [yGuards_map]; simpa using hn)]
        simpa only [List.append_assoc, List.cons_append] using hrd.app (Rd.cons (Rd.sym (by decide) hc) hr')
      · obtain ⟨rfl, rfl⟩ := h
        refine ⟨⟨by simp, by simp only [okGuards, okGuard]; exact ⟨hw, trivial⟩⟩, ?_⟩
        simp only [yGuards, yGuard, sep]
        simpa only [List.append_assoc, List.cons_append] using hrd

end Verif.Parse
