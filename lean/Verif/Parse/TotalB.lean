import Verif.Parse.Total

/-! # The parser comes to an end: statements, declarations, modules -/
namespace Verif.Parse
open Verif.Scanner (Tok)

variable {α β γ ι : Type}

theorem label_w {F : Nat} {i : List T} (hF : 16 * i.length + 4 ≤ F) : W label (ab F) i (Adv i) := by
  unfold label
  refine W.bind ((totE F).ex _ (by omega)) fun x j hj => ?_
  have hp := lenpos j
  unfold Adv at *
  wst
  split
  · refine W.bind ((totE F).ex _ (by wln)) fun x j hj => ?_
    unfold Adv at *
    wst
    wln
  · wln

theorem guard_w {F : Ix ι} {i : List T} : W (fun _ => guard) F i (Le i) := by
  unfold guard
  wst
  unfold Le
  split
  · refine W.bind qualident_w fun q k hk => ?_
    unfold Adv at hk
    have := eat_le 20 k
    wst
    split
    · refine W.bind qualident_w fun q k hk => ?_
      unfold Adv at hk
      wst
      wln
    · wln
  · exact Nat.le_refl _

theorem step_w {F : Nat} {i : List T} (hF : 16 * i.length + 4 ≤ F) : W step (ab F) i (Le i) := by
  unfold step
  wst
  have := lenpos i
  unfold Le
  split
  · refine W.bind ((totE F).ex _ (by wln)) fun x k hk => ?_
    unfold Adv at *
    wst
    wln
  · exact Nat.le_refl _

/-- The symbols at which a statement begins. -/
def begins (s : Nat) : Prop := s = 38 ∨ 45 ≤ s ∧ s ≤ 53

/-- Enough steps for statements. -/
structure TotS (F : Nat) : Prop where
  sq : ∀ i : List T, 16 * i.length + 2 ≤ F → W statSeq (ab F) i (Le i)
  st : ∀ i : List T, 16 * i.length + 1 ≤ F → W stat (ab F) i (fun k => k.length < i.length ∨ k = i ∧ ¬ begins (cur i))
  ei : ∀ i : List T, 16 * i.length + 1 ≤ F → W elsifs (ab F) i (Le i)
  el : ∀ i : List T, 16 * i.length + 1 ≤ F → W els (ab F) i (Le i)
  ca : ∀ i : List T, 16 * i.length + 6 ≤ F → W cases (ab F) i (Le i)
  gu : ∀ i : List T, 16 * i.length + 3 ≤ F → W guards (ab F) i (Le i)

theorem stat_w {F : Nat} (ih : TotS F) : ∀ i : List T, 16 * i.length + 1 ≤ F + 1 →
    W stat (ab (F + 1)) i (fun k => k.length < i.length ∨ k = i ∧ ¬ begins (cur i)) := by
  have E := totE F
  intro i hF
  refine W.succ ?_
  simp only [stat]
  have hp := lenpos i
  have fin : ∀ k : List T, k.length < i.length → (k.length < i.length ∨ k = i ∧ ¬ begins (cur i)) := fun k h => .inl h
  rw [w_sy, w_ite]
  split
  · refine W.bind qualident_w fun q k hk => ?_
    unfold Adv at hk
    refine W.bind (E.se _ (by wln)) fun ss l hl => ?_
    unfold Le at hl
    have hp' := lenpos l
    wst
    split
    · refine W.bind (E.ex _ (by wln)) fun e m hm => ?_
      unfold Adv at hm
      wst
      exact fin _ (by wln)
    · split
      · refine W.bind (E.ex _ (by wln)) fun e m hm => ?_
        unfold Adv at hm
        wst
        exact fin _ (by wln)
      · split
        · refine W.bind (E.ac _ (by wln)) fun e m hm => ?_
          unfold Le at hm
          have := eat_le 22 m
          wst
          exact fin _ (by wln)
        · exact fin _ (by wln)
  · rw [w_ite]
    split
    · -- IF
      wst
      refine W.bind (E.ex _ (by wln)) fun e m hm => ?_
      unfold Adv at hm
      have := eat_le 26 m
      wst
      refine W.bind (ih.sq _ (by wln)) fun b m hm => ?_
      unfold Le at hm
      refine W.bind (ih.ei _ (by wln)) fun b m hm => ?_
      unfold Le at hm
      refine W.bind (ih.el _ (by wln)) fun b m hm => ?_
      unfold Le at hm
      have := eat_le 41 m
      wst
      exact fin _ (by wln)
    · rw [w_ite]
      split
      · -- CASE
        wst
        refine W.bind (E.ex _ (by wln)) fun e m hm => ?_
        unfold Adv at hm
        have := eat_le 25 m
        wst
        refine W.bind (ih.ca _ (by wln)) fun b m hm => ?_
        unfold Le at hm
        refine W.bind (ih.el _ (by wln)) fun b m hm => ?_
        unfold Le at hm
        have := eat_le 41 m
        wst
        exact fin _ (by wln)
      · rw [w_ite]
        split
        · -- WHILE
          wst
          refine W.bind (E.ex _ (by wln)) fun e m hm => ?_
          unfold Adv at hm
          have := eat_le 27 m
          wst
          refine W.bind (ih.sq _ (by wln)) fun b m hm => ?_
          unfold Le at hm
          have := eat_le 41 m
          wst
          exact fin _ (by wln)
        · rw [w_ite]
          split
          · -- REPEAT
            wst
            refine W.bind (ih.sq _ (by wln)) fun b m hm => ?_
            unfold Le at hm
            have hp' := lenpos m
            wst
            split
            · refine W.bind (E.ex _ (by wln)) fun e m hm => ?_
              unfold Adv at hm
              wst
              exact fin _ (by wln)
            · exact fin _ (by wln)
          · rw [w_ite]
            split
            · -- FOR
              wst
              split
              · refine W.bind qualident_w fun q k hk => ?_
                unfold Adv at hk
                have := eat_le 34 k
                wst
                refine W.bind (E.ex _ (by wln)) fun e m hm => ?_
                unfold Adv at hm
                have := eat_le 28 m
                wst
                refine W.bind (E.ex _ (by wln)) fun e m hm => ?_
                unfold Adv at hm
                refine W.bind (step_w (by wln)) fun e m hm => ?_
                unfold Le at hm
                have := eat_le 27 m
                wst
                refine W.bind (ih.sq _ (by wln)) fun b m hm => ?_
                unfold Le at hm
                have := eat_le 41 m
                wst
                exact fin _ (by wln)
              · exact fin _ (by wln)
            · rw [w_ite]
              split
              · -- LOOP
                wst
                refine W.bind (ih.sq _ (by wln)) fun b m hm => ?_
                unfold Le at hm
                have := eat_le 41 m
                wst
                exact fin _ (by wln)
              · rw [w_ite]
                split
                · -- WITH
                  wst
                  refine W.bind (ih.gu _ (by wln)) fun b m hm => ?_
                  unfold Le at hm
                  refine W.bind (ih.el _ (by wln)) fun b m hm => ?_
                  unfold Le at hm
                  have := eat_le 41 m
                  wst
                  exact fin _ (by wln)
                · rw [w_ite]
                  split
                  · wst
                    exact fin _ (by wln)
                  · rw [w_ite]
                    split
                    · wst
                      split
                      · refine W.bind (E.ex _ (by wln)) fun e m hm => ?_
                        unfold Adv at hm
                        wst
                        exact fin _ (by wln)
                      · exact fin _ (by wln)
                    · wst
                      refine .inr ⟨trivial, ?_⟩
                      unfold begins
                      omega

theorem totS : ∀ F, TotS F := by
  intro F
  induction F with
  | zero => constructor <;> intros <;> omega
  | succ F ih =>
    have E := totE F
    constructor
    · -- statSeq
      intro i hF
      refine W.succ ?_
      simp only [statSeq]
      have hd := drop_le 38 i
      have hq := drop_ge 38 (by decide) i
      wst
      generalize hj : drop 38 i = j at *
      unfold Le at *
      refine W.bind (ih.st j (by omega)) fun x k hk => ?_
      have hp := lenpos k
      have hl : k.length ≤ j.length := by rcases hk with h | ⟨rfl, h⟩ <;> omega
      wst
      split
      · refine W.bind (ih.sq _ (by wln)) fun xs l hl => ?_
        unfold Le at *
        wst
        wln
      · split
        · have hlt : k.length < j.length := by
            rcases hk with h | ⟨rfl, h⟩
            · exact h
            · unfold begins at h; omega
          refine W.bind (ih.sq _ (by wln)) fun xs l hl => ?_
          unfold Le at *
          wst
          wln
        · wln
    · exact stat_w ih
    · -- elsifs
      intro i hF
      refine W.succ ?_
      simp only [elsifs]
      have hp := lenpos i
      unfold Le
      wst
      split
      · refine W.bind (E.ex _ (by wln)) fun e m hm => ?_
        unfold Adv at hm
        have := eat_le 26 m
        wst
        refine W.bind (ih.sq _ (by wln)) fun b m hm => ?_
        unfold Le at hm
        refine W.bind (ih.ei _ (by wln)) fun b m hm => ?_
        unfold Le at hm
        wst
        wln
      · exact Nat.le_refl _
    · -- els
      intro i hF
      refine W.succ ?_
      simp only [els]
      have hp := lenpos i
      unfold Le
      wst
      split
      · refine W.bind (ih.sq _ (by wln)) fun b m hm => ?_
        unfold Le at hm
        wst
        wln
      · exact Nat.le_refl _
    · -- cases
      intro i hF
      refine W.succ ?_
      simp only [cases]
      have hp := lenpos i
      unfold Le
      wst
      split
      · refine W.bind (commas_w (R := Adv) (again := fun s => s == 35 || s == 38) (adv_starts (again := fun s => s == 35 || s == 38) rfl)
          (fun j hj => label_w (by wln)) (by wln)) fun ls k hk => ?_
        obtain ⟨j, hj, hk⟩ := hk
        unfold Adv at hj
        have := eat_le 20 k
        wst
        refine W.bind (ih.sq _ (by wln)) fun b m hm => ?_
        unfold Le at hm
        have hp' := lenpos m
        wst
        split
        · refine W.bind (ih.ca _ (by wln)) fun b m hm => ?_
          unfold Le at hm
          wst
          wln
        · wln
      · split
        · refine W.bind (ih.ca _ (by wln)) fun b m hm => ?_
          unfold Le at hm
          wst
          wln
        · exact Nat.le_refl _
    · -- guards
      intro i hF
      refine W.succ ?_
      simp only [guards]
      refine W.bind guard_w fun g k hk => ?_
      unfold Le at *
      have := eat_le 27 k
      wst
      refine W.bind (ih.sq _ (by wln)) fun b m hm => ?_
      unfold Le at hm
      have hp' := lenpos m
      wst
      split
      · refine W.bind (ih.gu _ (by wln)) fun b m hm => ?_
        unfold Le at hm
        wst
        wln
      · wln

theorem tyLe {F : Nat} {i : List T} (hF : 16 * i.length + 2 ≤ F) : W type (ab F) i (Le i) :=
  ((totT F).ty i hF).imp fun k h => by
    unfold Le
    rcases h with h | ⟨rfl, h⟩ <;> omega

theorem consts_w : ∀ F (i : List T), 16 * i.length + 1 ≤ F → W consts (ab F) i (Le i) := by
  intro F
  induction F with
  | zero => intros; omega
  | succ F ih =>
    intro i hF
    have E := totE F
    refine W.succ ?_
    simp only [consts]
    have hp := lenpos i
    unfold Le
    wst
    split
    · refine W.bind defn_w fun d j hj => ?_
      unfold Adv at hj
      have hp' := lenpos j
      wst
      have fin : ∀ (k : List T) (x : Ex), k.length ≤ j.length →
          W (fun f => consts f >>= fun ds => pure ((d, x) :: ds)) (ab F) (eat 39 k) (fun k => k.length ≤ i.length) := by
        intro k x hk
        have := eat_le 39 k
        refine W.bind (ih _ (by omega)) fun ds l hl => ?_
        unfold Le at hl
        wst
        omega
      split
      · refine W.bind (E.ex _ (by wln)) fun e m hm => ?_
        unfold Adv at hm
        wst
        exact fin _ _ (by wln)
      · split
        · refine W.bind (E.ex _ (by wln)) fun e m hm => ?_
          unfold Adv at hm
          wst
          exact fin _ _ (by wln)
        · exact fin _ _ (by wln)
    · exact Nat.le_refl _

theorem types_w : ∀ F (i : List T), 16 * i.length + 1 ≤ F → W types (ab F) i (Le i) := by
  intro F
  induction F with
  | zero => intros; omega
  | succ F ih =>
    intro i hF
    refine W.succ ?_
    simp only [types]
    have hp := lenpos i
    unfold Le
    wst
    split
    · refine W.bind defn_w fun d j hj => ?_
      unfold Adv at hj
      have hp' := lenpos j
      wst
      have fin : ∀ (k : List T) (x : Ty), k.length ≤ j.length →
          W (fun f => types f >>= fun ds => pure ((d, x) :: ds)) (ab F) (eat 39 k) (fun k => k.length ≤ i.length) := by
        intro k x hk
        have := eat_le 39 k
        refine W.bind (ih _ (by omega)) fun ds l hl => ?_
        unfold Le at hl
        wst
        omega
      split
      · refine W.bind (tyLe (by wln)) fun e m hm => ?_
        unfold Le at hm
        wst
        exact fin _ _ (by wln)
      · split
        · refine W.bind (tyLe (by wln)) fun e m hm => ?_
          unfold Le at hm
          wst
          exact fin _ _ (by wln)
        · exact fin _ _ (by wln)
    · exact Nat.le_refl _

theorem vars_w : ∀ F (i : List T), 16 * i.length + 1 ≤ F → W vars (ab F) i (Le i) := by
  intro F
  induction F with
  | zero => intros; omega
  | succ F ih =>
    intro i hF
    refine W.succ ?_
    simp only [vars]
    have hp := lenpos i
    unfold Le
    wst
    split
    · rename_i h38
      refine W.bind (defs_w (by omega)) fun d j hj => ?_
      have := hj.2 h38
      have := eat_le 20 j
      wst
      refine W.bind (tyLe (by wln)) fun e m hm => ?_
      unfold Le at hm
      have := eat_le 39 m
      wst
      refine W.bind (ih _ (by omega)) fun ds l hl => ?_
      unfold Le at hl
      wst
      omega
    · exact Nat.le_refl _

theorem group_w {α : Type} {n : Nat} (hn : n ≠ 64) {p : Nat → P α} {c : α → Sect} {F : Nat} {i : List T}
    (h : cur i = n → W p (ab F) i.tail (Le i.tail)) : W (fun f => group n (p f) c) (ab F) i (Unless n i) := by
  simp only [group]
  have := lenpos i
  wst
  split
  · rename_i hc
    refine W.bind (h hc) fun a k hk => ?_
    unfold Le at hk
    wst
    exact .inl (by wln)
  · exact .inr ⟨rfl, by assumption⟩

theorem sects_w : ∀ F (i : List T), 16 * i.length + 1 ≤ F → W sects (ab F) i (Le i) := by
  intro F
  induction F with
  | zero => intros; omega
  | succ F ih =>
    intro i hF
    refine W.succ ?_
    simp only [sects]
    have p0 := lenpos i
    refine W.bind (group_w (by decide) fun hc => consts_w F _ (by wln)) fun c j hj => ?_
    have l0 : j.length ≤ i.length := by rcases hj with h | ⟨rfl, h⟩ <;> omega
    have p1 := lenpos j
    refine W.bind (group_w (by decide) fun hc => types_w F _ (by wln)) fun t k hk => ?_
    have l1 : k.length ≤ j.length := by rcases hk with h | ⟨rfl, h⟩ <;> omega
    have p2 := lenpos k
    refine W.bind (group_w (by decide) fun hc => vars_w F _ (by wln)) fun v l hl => ?_
    have l2 : l.length ≤ k.length := by rcases hl with h | ⟨rfl, h⟩ <;> omega
    have hlt : 58 ≤ cur l ∧ cur l ≤ 60 → l.length < i.length := by
      intro h
      rcases hl with hl | ⟨rfl, hl⟩
      · omega
      · rcases hk with hk | ⟨rfl, hk⟩
        · omega
        · rcases hj with hj | ⟨rfl, hj⟩
          · omega
          · omega
    unfold Le at *
    wst
    split
    · omega
    · have := hlt (by omega)
      refine W.bind (ih _ (by omega)) fun ds m hm => ?_
      unfold Le at hm
      wst
      omega

theorem receiver_w {F : Ix ι} {i : List T} : W (fun _ => receiver) F i (Le i) := by
  unfold receiver
  refine W.bind varMark_w fun v j hj => ?_
  have hl : j.length ≤ i.length := by rcases hj with h | rfl <;> omega
  wst
  have := eat_le 38 j
  have := eat_le 20 (eat 38 j)
  unfold Le
  split
  · have := eat_le 22 (eat 20 (eat 38 j)).tail
    wln
  · have := eat_le 22 (eat 20 (eat 38 j))
    wln

theorem codes_w : ∀ F (i : List T), 16 * i.length + 1 ≤ F → W codes (ab F) i (Le i) := by
  intro F
  induction F with
  | zero => intros; omega
  | succ F ih =>
    intro i hF
    refine W.succ ?_
    simp only [codes]
    have hp := lenpos i
    have hp' := lenpos i.tail
    unfold Le
    wst
    split
    · split
      · refine W.bind (ih _ (by wln)) fun ds m hm => ?_
        unfold Le at hm
        wst
        wln
      · split
        · refine W.bind (ih _ (by wln)) fun ds m hm => ?_
          unfold Le at hm
          wst
          wln
        · wln
    · split
      · refine W.bind (ih _ (by wln)) fun ds m hm => ?_
        unfold Le at hm
        wst
        wln
      · first
        | (split <;> first | contradiction | exact Nat.le_refl _)
        | exact Nat.le_refl _

theorem getCode_w {F : Nat} {i : List T} (hF : 16 * i.length + 1 ≤ F) : W getCode (ab F) i (Le i) := by
  unfold getCode
  wst
  unfold Le
  split
  · wln
  · refine W.bind (codes_w F _ (by omega)) fun ds m hm => ?_
    unfold Le at hm
    wst
    exact hm

theorem getParams_w {F : Nat} {i : List T} (hF : 16 * i.length + 1 ≤ F) : W getParams (ab F) i (Le i) := by
  unfold getParams
  wst
  have := lenpos i
  unfold Le
  split
  · refine W.bind ((totT F).pa _ (by wln)) fun ds m hm => ?_
    unfold Le at hm
    wst
    wln
  · exact Nat.le_refl _

theorem procMark_w {F : Ix ι} {i : List T} : W (fun _ => procMark) F i (Le i) := by
  unfold procMark
  wst
  unfold Le
  repeat' split
  all_goals wln

/-- Enough steps for blocks. -/
structure TotB (F : Nat) : Prop where
  bl : ∀ i : List T, 16 * i.length + 2 ≤ F → W block (ab F) i (Le i)
  ps : ∀ i : List T, 16 * i.length + 1 ≤ F → W procs (ab F) i (Le i)
  pr : ∀ i : List T, 16 * i.length + 4 ≤ F → W proc (ab F) i (Le i)
  bo : ∀ (i : List T) n, 16 * i.length + 3 ≤ F → W (fun f => body f n) (ab F) i (Le i)

theorem totB : ∀ F, TotB F := by
  intro F
  induction F with
  | zero => constructor <;> intros <;> omega
  | succ F ih =>
    constructor
    · -- block
      intro i hF
      refine W.succ ?_
      simp only [block]
      refine W.bind (sects_w F _ (by omega)) fun ds j hj => ?_
      unfold Le at *
      refine W.bind (ih.ps _ (by omega)) fun ds k hk => ?_
      unfold Le at *
      have := lenpos k
      wst
      split
      · refine W.bind ((totS F).sq _ (by wln)) fun b m hm => ?_
        unfold Le at hm
        have := eat_le 41 m
        wst
        wln
      · have := eat_le 41 k
        wln
    · -- procs
      intro i hF
      refine W.succ ?_
      simp only [procs]
      have := lenpos i
      unfold Le
      wst
      split
      · refine W.bind (ih.pr _ (by wln)) fun p k hk => ?_
        unfold Le at *
        have := eat_le 39 k
        wst
        refine W.bind (ih.ps _ (by wln)) fun p k hk => ?_
        unfold Le at *
        wst
        wln
      · exact Nat.le_refl _
    · -- proc
      intro i hF
      refine W.succ ?_
      simp only [proc]
      refine W.bind procMark_w fun m j hj => ?_
      unfold Le at *
      have := lenpos j
      wst
      split
      · refine W.bind receiver_w fun r k hk => ?_
        unfold Le at *
        wst
        split
        · refine W.bind defn_w fun d l hl => ?_
          unfold Adv at hl
          refine W.bind (getParams_w (by wln)) fun p l' hl' => ?_
          unfold Le at *
          wst
          split
          · wln
          · refine W.bind (ih.bo _ _ (by wln)) fun b m hm => ?_
            unfold Le at *
            wst
            wln
        · wln
      · split
        · refine W.bind defn_w fun d l hl => ?_
          unfold Adv at hl
          refine W.bind (getParams_w (by wln)) fun p l' hl' => ?_
          unfold Le at *
          wst
          split
          · refine W.bind (getCode_w (by wln)) fun b m hm => ?_
            unfold Le at *
            wst
            wln
          · split
            · wln
            · refine W.bind (ih.bo _ _ (by wln)) fun b m hm => ?_
              unfold Le at *
              wst
              wln
        · exact hj
    · -- body
      intro i n hF
      refine W.succ ?_
      simp only [body]
      have := eat_le 39 i
      unfold Le
      wst
      refine W.bind (ih.bl _ (by omega)) fun b m hm => ?_
      unfold Le at *
      wst
      split <;> wln

theorem importItem_w {F : Ix ι} {i : List T} : W (fun _ => importItem) F i (Unless 38 i) := by
  unfold importItem
  wst
  have := lenpos i
  split
  · split
    · split <;> exact .inl (by wln)
    · exact .inl (by wln)
  · exact .inr ⟨rfl, by assumption⟩

theorem importList_w {F : Nat} {i : List T} (hF : i.length < F) : W importList (ab F) i (Le i) := by
  unfold importList
  wst
  have := lenpos i
  unfold Le
  split
  · refine W.bind (commas_w (R := Unless 38) (again := fun s => s == 38) (item := fun _ => importItem) unless_starts
      (fun _ _ => importItem_w) (by wln)) fun is k hk => ?_
    obtain ⟨j, hj, hk⟩ := hk
    have hl : j.length ≤ i.tail.length := by rcases hj with h | ⟨rfl, h⟩ <;> omega
    have := eat_le 39 k
    wst
    wln
  · exact Nat.le_refl _

theorem header_w {F : Nat} {i : List T} (hF : i.length < F) : W header (ab F) i (Le i) := by
  unfold header
  wst
  have fin : ∀ (j : List T) (x : Name), j.length ≤ i.length →
      W (fun f => importList f >>= fun is => pure (some (x, is))) (ab F) (eat 39 j.tail) (Le i) := by
    intro j x hj
    have := eat_le 39 j.tail
    refine W.bind (importList_w (by wln)) fun is k hk => ?_
    unfold Le at *
    wst
    wln
  unfold Le at *
  split
  · split
    · exact fin _ _ (by wln)
    · wln
  · split
    · exact fin _ _ (by wln)
    · wln

theorem rest_w {F : Nat} {i : List T} {x : Name} {is : List (Name × Option Name)} (hF : 16 * i.length + 2 ≤ F) :
    W (fun f => rest f x is) (ab F) i (Le i) := by
  unfold rest
  refine W.bind ((totB F).bl _ hF) fun b k hk => ?_
  unfold Le at *
  wst
  repeat' split
  all_goals wln

/-- With enough steps the parser comes to an end, and more steps change nothing. -/
theorem parse_w {F : Nat} {i : List T} (hF : 16 * i.length + 2 ≤ F) : W parse (ab F) i (Le i) := by
  obtain ⟨⟨h, j, e⟩, hr, hl⟩ := header_w (F := F) (i := i) (by omega)
  cases h with
  | none => exact ⟨(none, j, e), fun f hf => by unfold parse; rw [hr f hf], hl⟩
  | some x =>
    obtain ⟨x, is⟩ := x
    by_cases he : e = []
    · subst he
      have hl' : j.length ≤ i.length := hl
      obtain ⟨r, hr', hl2⟩ := rest_w (F := F) (i := j) (x := x) (is := is) (by omega)
      refine ⟨r, fun f hf => ?_, Nat.le_trans hl2 hl'⟩
      unfold parse
      rw [hr f hf]
      simp only [if_true]
      exact hr' f hf
    · refine ⟨(none, j, e), fun f hf => ?_, hl⟩
      unfold parse
      rw [hr f hf]
      simp only [if_neg he]

end Verif.Parse
