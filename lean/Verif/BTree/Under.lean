import Verif.BTree.Flat

/-!
# B-trees: pages with too few entries
-/
namespace Verif.BTree
set_option linter.unusedSectionVars false
variable {K : Type} [LinearOrder K] [Inhabited K]

theorem setE_upd (e : Nat → Ent K) (s : Nat) (q a : Tree K) (x : Ent K) : setE (upd (setE e s q) s x) s a = setE (upd e s x) s a := by
  funext j
  unfold setE
  by_cases c : s = 0
  · simp [c]
  · have g : ¬ s - 1 = s := by omega
    simp only [if_neg c]
    unfold upd
    by_cases c2 : j = s - 1
    · simp [c2, g]
    · simp [c2, g]

theorem upd_setE (e : Nat → Ent K) (s : Nat) (hs : 1 ≤ s) (q : Tree K) (x : Ent K) : upd (setE e s q) (s - 1) x = upd e (s - 1) x := by
  funext j
  unfold setE
  rw [if_neg (by omega)]
  unfold upd
  by_cases c : j = s - 1
  · rw [if_pos c, if_pos c]
  · rw [if_neg c, if_neg c, if_neg c]

theorem drop_upd (m : Nat) (e : Nat → Ent K) (s : Nat) (h : s < m) (x : Ent K) : (ents m (upd e s x)).drop s = x :: (ents m e).drop (s + 1) := by
  rw [drop_cons _ _ _ h]
  congr 1
  · unfold upd; rw [if_pos rfl]
  · exact drop_congr (fun i hi _ => by unfold upd; rw [if_neg (by omega)])

theorem pre_succ (h : Nat) (p0 : Tree K) (e : Nat → Ent K) (s : Nat) (hs : 1 ≤ s) :
    pre h p0 e s = pre h p0 e (s - 1) ++ flat h (child p0 e (s - 1)) ++ [kv (e (s - 1))] := by
  rw [← pre_flat]
  conv_lhs => unfold pre
  rw [if_neg (by omega)]

theorem ents_zero (e : Nat → Ent K) : ents 0 e = [] := rfl

theorem underflow_ok (N : Nat) (hN : 0 < N) (h : Nat) (p0 : Tree K) (m : Nat) (e : Nat → Ent K) (s : Nat) (hs : s ≤ m) (hm1 : 1 ≤ m)
    (hk : Kids N (h + 1) p0 m e) (ap0 : Tree K) (ae : Nat → Ent K) (ha : Kids N h ap0 (N - 1) ae) :
    ∃ p0' m' e' hb, underflow N (setP0 p0 s (.page ap0 (N - 1) ae)) m (setE e s (.page ap0 (N - 1) ae)) s = some (.page p0' m' e', hb) ∧
      Kids N (h + 1) p0' m' e' ∧
      flat (h + 2) (.page p0' m' e') = pre (h + 1) p0 e s ++ flat (h + 1) (.page ap0 (N - 1) ae) ++ flatE (h + 1) ((ents m e).drop s) ∧
      ((m' = m ∧ hb = false) ∨ (m' + 1 = m ∧ hb = decide (m' < N))) := by
  have hal := kids_list.mp ha
  unfold underflow
  rw [child_set]
  dsimp only
  by_cases c : s < m
  · rw [if_pos c, setE_at e s _ s (by omega)]
    obtain ⟨bp0, bm, be, hb, hb1, hb2, hb3, hb4⟩ := hk.2 s c
    have hbl := kids_list.mp (⟨hb3, hb4⟩ : Kids N h bp0 bm be)
    rw [hb]
    dsimp only
    unfold underflowRight
    dsimp only
    rw [setE_at e s _ s (by omega)]
    have tgt : flat (h + 1) (.page ap0 (N - 1) ae) ++ flatE (h + 1) ((ents m e).drop s)
        = flat h ap0 ++ flatE h (ents (N - 1) ae ++ { e s with p := bp0 } :: ents bm be) ++ flatE (h + 1) ((ents m e).drop (s + 1)) := by
      rw [drop_cons _ _ _ c, flatE_cons, hb, flat_page, flat_page, flatE_app, flatE_cons]
      simp [kv]
    have hbal : ∀ x ∈ ents (N - 1) ae ++ ({ e s with p := bp0 } : Ent K) :: ents bm be, Bal N h x.p := by
      intro x hx
      rcases List.mem_append.mp hx with g | g
      · exact hal.2 x g
      · rcases List.mem_cons.mp g with g | g
        · rw [g]; exact hb3
        · exact hbl.2 x g
    by_cases ck : 0 < (bm + 1 - N) / 2
    · rw [if_pos ck]
      generalize hkk : (bm + 1 - N) / 2 = k at ck ⊢
      have hkb : k ≤ bm ∧ N ≤ bm - k ∧ N - 1 + k ≤ 2 * N := by omega
      rw [right_move N hN ae be bm k ck hkb.1] at tgt hbal
      rw [setP0_set, setE_upd]
      generalize hA : Tree.page ap0 (N - 1 + k) (copy (upd ae (N - 1) { e s with p := bp0 }) be N 0 0 (k - 1)) = A at *
      generalize hB : Tree.page (be (k - 1)).p (bm - k) (shiftDown be k 0 (bm - k)) = B at *
      have bA : Bal N (h + 1) A := by
        rw [← hA]
        exact ⟨_, _, _, rfl, by omega, hkb.2.2, ha.1, mem_ents.mp (fun x hx => hbal x (List.mem_append_left _ hx))⟩
      have bB : Bal N (h + 1) B := by
        rw [← hB]
        exact ⟨_, _, _, rfl, hkb.2.1, by omega, hbal _ (List.mem_append_right _ (List.mem_cons_self ..)),
          mem_ents.mp (fun x hx => hbal x (List.mem_append_right _ (List.mem_cons_of_mem _ hx)))⟩
      refine ⟨_, _, _, _, rfl, kids_set (kids_upd hk s (x := { be (k - 1) with p := B }) bB) s bA, ?_, Or.inl ⟨rfl, rfl⟩⟩
      rw [flat_set _ _ _ _ _ _ hs, pre_congr (e := upd e s { be (k - 1) with p := B }) (e' := e) _ _ (fun i hi => by unfold upd; rw [if_neg (by omega)]), drop_upd _ _ _ c, List.append_assoc, List.append_assoc, tgt,
        flatE_cons, flatE_app, flatE_cons, ← hA, ← hB, flat_page, flat_page]
      simp [kv]
    · rw [if_neg ck]
      have hbN : bm = N := by omega
      subst hbN
      rw [right_merge bm hN ae be] at tgt hbal
      rw [setP0_set, setE_set]
      generalize hA : Tree.page ap0 (2 * bm) (copy (upd ae (bm - 1) { e s with p := bp0 }) be bm 0 0 bm) = A at *
      have bA : Bal bm (h + 1) A := by
        rw [← hA]
        exact ⟨_, _, _, rfl, by omega, le_refl _, ha.1, mem_ents.mp hbal⟩
      have hset := kids_set hk s bA
      have hents := ents_drop m (setE e s A) s c
      refine ⟨_, _, _, _, rfl, ?_, ?_, Or.inr ⟨by omega, rfl⟩⟩
      · rw [kids_list, hents]
        refine ⟨hset.1, ?_⟩
        intro x hx
        rcases List.mem_append.mp hx with g | g
        · exact (kids_list.mp hset).2 x (List.mem_of_mem_take g)
        · exact (kids_list.mp hset).2 x (List.mem_of_mem_drop g)
      · rw [flat_page, hents, take_ents _ _ _ hs, flatE_app, ← List.append_assoc, pre_flat, pre_set, child_set, List.append_assoc, List.append_assoc, tgt,
          ← hA, flat_page, drop_congr (e := setE e s _) (e' := e) (fun i hi _ => setE_at e s _ i (by omega))]
  · rw [if_neg c]
    have hsm : s = m := by omega
    subst hsm
    have hch : child (setP0 p0 s (.page ap0 (N - 1) ae)) (setE e s (.page ap0 (N - 1) ae)) (s - 1) = child p0 e (s - 1) := by
      unfold child setP0
      rw [if_neg (show ¬ s = 0 by omega)]
      by_cases c0 : s - 1 = 0
      · rw [if_pos c0, if_pos c0]
      · rw [if_neg c0, if_neg c0, setE_at e s _ (s - 1 - 1) (by omega)]
    rw [hch]
    have hp0 : setP0 p0 s (.page ap0 (N - 1) ae) = p0 := by unfold setP0; rw [if_neg (by omega)]
    rw [hp0]
    obtain ⟨bp0, bm, be, hb, hb1, hb2, hb3, hb4⟩ := kids_child (R := s - 1) hk (by omega)
    have hbl := kids_list.mp (⟨hb3, hb4⟩ : Kids N h bp0 bm be)
    rw [hb]
    dsimp only
    unfold underflowLeft
    dsimp only
    have hes : ({ setE e s (.page ap0 (N - 1) ae) (s - 1) with p := ap0 } : Ent K) = { e (s - 1) with p := ap0 } := by
      have := setE_key e s (.page ap0 (N - 1) ae) (s - 1)
      unfold kv at this
      rw [Prod.mk.injEq] at this
      dsimp only
      rw [this.1, this.2]
    rw [hes]
    have tgt : pre (h + 1) p0 e s ++ flat (h + 1) (.page ap0 (N - 1) ae) ++ flatE (h + 1) ((ents s e).drop s)
        = pre (h + 1) p0 e (s - 1) ++ (flat h bp0 ++ flatE h (ents bm be ++ { e (s - 1) with p := ap0 } :: ents (N - 1) ae)) := by
      rw [pre_succ _ _ _ _ hm1, hb, List.drop_of_length_le (by rw [ents_length]), flatE_nil, flat_page, flat_page, flatE_app, flatE_cons]
      simp [kv]
    have hbal : ∀ x ∈ ents bm be ++ ({ e (s - 1) with p := ap0 } : Ent K) :: ents (N - 1) ae, Bal N h x.p := by
      intro x hx
      rcases List.mem_append.mp hx with g | g
      · exact hbl.2 x g
      · rcases List.mem_cons.mp g with g | g
        · rw [g]; exact ha.1
        · exact hal.2 x g
    by_cases ck : 0 < (bm + 1 - N) / 2
    · rw [if_pos ck]
      generalize hkk : (bm + 1 - N) / 2 = k at ck ⊢
      have hkb : k ≤ bm ∧ N ≤ bm - k ∧ N - 1 + k ≤ 2 * N := by omega
      rw [left_move N hN ae be bm k ck hkb.1] at tgt hbal
      rw [upd_setE _ _ hm1]
      generalize hA : Tree.page (be (bm - k)).p (N - 1 + k)
        (copyDown (upd (shiftUp ae 0 k (N - 1)) (k - 1) { e (s - 1) with p := ap0 }) be (bm - k + 1) (k - 1)) = A at *
      generalize hB : Tree.page bp0 (bm - k) be = B at *
      have bA : Bal N (h + 1) A := by
        rw [← hA]
        exact ⟨_, _, _, rfl, by omega, hkb.2.2, hbal _ (List.mem_append_right _ (List.mem_cons_self ..)),
          mem_ents.mp (fun x hx => hbal x (List.mem_append_right _ (List.mem_cons_of_mem _ hx)))⟩
      have bB : Bal N (h + 1) B := by
        rw [← hB]
        exact ⟨_, _, _, rfl, hkb.2.1, by omega, hb3, fun i hi => hb4 i (by omega)⟩
      refine ⟨_, _, _, _, rfl, kids_set (kids_upd hk (s - 1) (x := { be (bm - k) with p := A }) bA) (s - 1) bB, ?_, Or.inl ⟨rfl, rfl⟩⟩
      rw [flat_set _ _ _ _ _ _ (by omega), pre_congr (e := upd e (s - 1) { be (bm - k) with p := A }) (e' := e) _ _
          (fun i hi => by unfold upd; rw [if_neg (by omega)]), drop_upd _ _ _ (by omega), tgt, Nat.sub_add_cancel hm1,
        List.drop_of_length_le (by rw [ents_length]), flatE_cons, flatE_nil, flatE_app, flatE_cons, ← hA, ← hB, flat_page, flat_page]
      simp [kv]
    · rw [if_neg ck]
      have hbN : bm = N := by omega
      subst hbN
      rw [left_merge bm hN ae be] at tgt hbal
      generalize hB : Tree.page bp0 (2 * bm) (copy (upd be bm { e (s - 1) with p := ap0 }) ae (bm + 1) 0 0 (bm - 1)) = B at *
      have bB : Bal bm (h + 1) B := by
        rw [← hB]
        exact ⟨_, _, _, rfl, by omega, le_refl _, hb3, mem_ents.mp hbal⟩
      have hk1 : Kids bm (h + 1) p0 (s - 1) (setE e s (.page ap0 (bm - 1) ae)) :=
        ⟨hk.1, fun i hi => by rw [setE_at e s _ i (by omega)]; exact hk.2 i (by omega)⟩
      refine ⟨_, _, _, _, rfl, kids_set hk1 (s - 1) bB, ?_, Or.inr ⟨by omega, rfl⟩⟩
      rw [flat_set _ _ _ _ _ _ (le_refl _), pre_congr (e := setE e s _) (e' := e) _ _ (fun i hi => setE_at e s _ i (by omega)),
        List.drop_of_length_le (by rw [ents_length]), tgt, ← hB, flat_page, flatE_nil]
      simp

end Verif.BTree
