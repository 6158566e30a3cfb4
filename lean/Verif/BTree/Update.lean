import Verif.BTree.Lists

/-!
# B-trees: what the procedures do
-/
namespace Verif.BTree
set_option linter.unusedSectionVars false
variable {K : Type} [LinearOrder K] [Inhabited K]

/-- The place of a key that is not on a page. -/
theorem page_missing {h : Nat} {p0 : Tree K} {m : Nat} {e : Nat → Ent K} {key : K} (hs : Sorted (flat (h + 1) (.page p0 m e)))
    (hn : ¬ (bsearch key e m 0 m < m ∧ (e (bsearch key e m 0 m)).key = key)) :
    bsearch key e m 0 m ≤ m ∧ (∀ x ∈ pre h p0 e (bsearch key e m 0 m), x.1 < key) ∧
      (∀ x ∈ flatE h ((ents m e).drop (bsearch key e m 0 m)), key < x.1) := by
  obtain ⟨h1, h2, h3⟩ := bsearch_top key e m (page_keys hs)
  refine ⟨h1, pre_lt hs h1 h2, post_gt hs h1 ?_⟩
  intro i hi him
  have h4 : key < (e (bsearch key e m 0 m)).key :=
    lt_of_le_of_ne (h3 _ (le_refl _) (by omega)) (fun g => hn ⟨by omega, g.symm⟩)
  rcases Nat.lt_or_ge (bsearch key e m 0 m) i with g | g
  · exact lt_trans h4 (page_keys hs _ i g him)
  · have : i = bsearch key e m 0 m := by omega
    rw [this]; exact h4

/-- What is asked of a page with any number of entries. -/
def Pg (N h : Nat) (t : Tree K) : Prop := ∃ p0 m e, t = .page p0 m e ∧ Kids N h p0 m e

theorem bal_cases {N h : Nat} {t : Tree K} (hb : Bal N h t) : (h = 0 ∧ t = .nil) ∨ ∃ h', h = h' + 1 ∧ Pg N h' t := by
  cases h with
  | zero => exact Or.inl ⟨rfl, hb⟩
  | succ h =>
    obtain ⟨p0, m, e, h1, _, _, h4, h5⟩ := hb
    exact Or.inr ⟨h, rfl, p0, m, e, h1, h4, h5⟩

/-! ## Searching -/

theorem search_page (N : Nat) (key : K) : ∀ h f (t : Tree K), Pg N h t → Sorted (flat (h + 1) t) → h + 2 ≤ f →
    search key f t = some (look key (flat (h + 1) t)) := by
  intro h
  induction h with
  | zero =>
    rintro f t ⟨p0, m, e, rfl, hk⟩ hs hf
    obtain ⟨g, rfl⟩ : ∃ g, f = g + 2 := ⟨f - 2, by omega⟩
    unfold search
    by_cases c : bsearch key e m 0 m < m ∧ (e (bsearch key e m 0 m)).key = key
    · rw [if_pos c]
      obtain ⟨q1, q2⟩ := page_found hs c.1
      rw [flat_parts 0 p0 m e _ (le_of_lt c.1), drop_cons _ _ _ c.1, flatE_cons, look_app (fun x hx => by rw [← c.2]; exact ne_of_lt (q1 x hx))]
      unfold look kv
      rw [if_pos c.2]
    · rw [if_neg c]
      obtain ⟨r1, r2, r3⟩ := page_missing hs c
      have hc : child p0 e (bsearch key e m 0 m) = .nil := kids_child hk r1
      rw [hc]
      show some none = _
      rw [flat_parts 0 p0 m e _ r1, look_app_right (fun x hx => (ne_of_lt (r3 x hx)).symm), look_app (fun x hx => ne_of_lt (r2 x hx))]
      rfl
  | succ h ih =>
    rintro f t ⟨p0, m, e, rfl, hk⟩ hs hf
    obtain ⟨g, rfl⟩ : ∃ g, f = g + 1 := ⟨f - 1, by omega⟩
    unfold search
    by_cases c : bsearch key e m 0 m < m ∧ (e (bsearch key e m 0 m)).key = key
    · rw [if_pos c]
      obtain ⟨q1, q2⟩ := page_found hs c.1
      rw [flat_parts (h + 1) p0 m e _ (le_of_lt c.1), drop_cons _ _ _ c.1, flatE_cons, look_app (fun x hx => by rw [← c.2]; exact ne_of_lt (q1 x hx))]
      unfold look kv
      rw [if_pos c.2]
    · rw [if_neg c]
      obtain ⟨r1, r2, r3⟩ := page_missing hs c
      rcases bal_cases (kids_child hk r1) with g | ⟨h', g1, g2⟩
      · cases g.1
      · injection g1 with g1
        subst g1
        rw [ih g _ g2 (child_sorted hs r1) (by omega), flat_parts (h + 1) p0 m e _ r1,
          look_app_right (fun x hx => (ne_of_lt (r3 x hx)).symm), look_app (fun x hx => ne_of_lt (r2 x hx))]

/-! ## Inserting -/

/-- What is asked of the result of inserting into a page below others. -/
def InsOK (N : Nat) (key : K) (org : Int) (h : Nat) (t : Tree K) (r : Res K) : Prop :=
  r.changed = (look key (flat h t)).isSome ∧
    ((r.h = false ∧ Bal N h r.a ∧ flat h r.a = upsert key org (flat h t)) ∨
     (r.h = true ∧ Bal N h r.a ∧ Bal N h r.v.p ∧ flat h r.a ++ kv r.v :: flat h r.v.p = upsert key org (flat h t)))

/-- The same for a page with any number of entries. -/
def InsPg (N : Nat) (key : K) (org : Int) (h m : Nat) (t : Tree K) (r : Res K) : Prop :=
  r.changed = (look key (flat (h + 1) t)).isSome ∧
    ((r.h = false ∧ (∃ p0' m' e', r.a = .page p0' m' e' ∧ m ≤ m' ∧ 1 ≤ m' ∧ m' ≤ 2 * N ∧ Kids N h p0' m' e') ∧
        flat (h + 1) r.a = upsert key org (flat (h + 1) t)) ∨
     (r.h = true ∧ Bal N (h + 1) r.a ∧ Bal N (h + 1) r.v.p ∧ flat (h + 1) r.a ++ kv r.v :: flat (h + 1) r.v.p = upsert key org (flat (h + 1) t)))

theorem ins_page (N : Nat) (hN : 0 < N) (key : K) (org : Int) (h : Nat)
    (ih : ∀ f (t : Tree K), Bal N h t → Sorted (flat h t) → h + 1 ≤ f → ∃ r, ins N key org f t = some r ∧ InsOK N key org h t r)
    (f : Nat) (p0 : Tree K) (m : Nat) (e : Nat → Ent K) (hm : m ≤ 2 * N) (hd : h = 0 ∨ 1 ≤ m) (hk : Kids N h p0 m e)
    (hs : Sorted (flat (h + 1) (.page p0 m e))) (hf : h + 2 ≤ f) :
    ∃ r, ins N key org f (.page p0 m e) = some r ∧ InsPg N key org h m (.page p0 m e) r := by
  obtain ⟨g, rfl⟩ : ∃ g, f = g + 1 := ⟨f - 1, by omega⟩
  unfold ins
  by_cases c : bsearch key e m 0 m < m ∧ (e (bsearch key e m 0 m)).key = key
  · rw [if_pos c]
    obtain ⟨q1, q2⟩ := page_found hs c.1
    generalize hR : bsearch key e m 0 m = R at *
    have hfl : flat (h + 1) (.page p0 m e) = pre h p0 e R ++ flat h (child p0 e R) ++ kv (e R) :: (flat h (e R).p ++ flatE h ((ents m e).drop (R + 1))) := by
      rw [flat_parts h p0 m e R (by omega), drop_cons _ _ _ c.1, flatE_cons]
    refine ⟨_, rfl, ?_, Or.inl ⟨rfl, ⟨_, _, _, rfl, le_refl _, by omega, hm, ?_⟩, ?_⟩⟩
    · rw [hfl, look_app (fun x hx => by rw [← c.2]; exact ne_of_lt (q1 x hx))]
      unfold look kv
      rw [if_pos c.2]; rfl
    · exact kids_upd hk R (hk.2 R c.1)
    · rw [hfl, upsert_app (fun x hx => by rw [← c.2]; exact q1 x hx)]
      conv_rhs => unfold upsert
      rw [if_neg (by unfold kv; rw [c.2]; exact lt_irrefl _), if_pos (by exact c.2), flat_parts h p0 m _ R (by omega), drop_upd _ _ _ c.1, flatE_cons]
      have hch : child p0 (upd e R { e R with org := org }) R = child p0 e R := by
        unfold child upd
        by_cases c0 : R = 0
        · rw [if_pos c0, if_pos c0]
        · rw [if_neg c0, if_neg c0, if_neg (by omega)]
      rw [hch, pre_congr (e := upd e R _) (e' := e) _ _ (fun i hi => by unfold upd; rw [if_neg (by omega)])]
      simp [kv, c.2]
  · rw [if_neg c]
    obtain ⟨r1, r2, r3⟩ := page_missing hs c
    generalize hR : bsearch key e m 0 m = R at *
    obtain ⟨r, hr, hch, hcase⟩ := ih g (child p0 e R) (kids_child hk r1) (child_sorted hs r1) (by omega)
    rw [hr]
    dsimp only
    have hlook : look key (flat (h + 1) (.page p0 m e)) = look key (flat h (child p0 e R)) := by
      rw [flat_parts h p0 m e R r1, look_app_right (fun x hx => (ne_of_lt (r3 x hx)).symm), look_app (fun x hx => ne_of_lt (r2 x hx))]
    have hup : upsert key org (flat (h + 1) (.page p0 m e)) = pre h p0 e R ++ upsert key org (flat h (child p0 e R)) ++ flatE h ((ents m e).drop R) := by
      rw [flat_parts h p0 m e R r1, upsert_app_right r3, upsert_app r2]
    rcases hcase with ⟨h1, h2, h3⟩ | ⟨h1, h2, h3, h4⟩
    · rw [h1, if_neg (by decide)]
      have hd' : 1 ≤ m := by
        rcases hd with rfl | hd
        · exfalso
          have : (upsert key org (flat 0 (child p0 e R))) = [] := by rw [← h3]; rfl
          simp [flat, upsert] at this
        · exact hd
      refine ⟨_, rfl, by rw [hlook]; exact hch, Or.inl ⟨rfl, ⟨_, _, _, rfl, le_refl _, hd', hm, kids_set hk R h2⟩, ?_⟩⟩
      rw [flat_set _ _ _ _ _ _ r1, hup, h3]
    · rw [h1, if_pos rfl]
      obtain ⟨p1, p2⟩ := put_ok N hN h p0 m e R r1 hm hk r.a h2 r.v h3 r.changed
      refine ⟨_, rfl, by rw [hlook, p1]; exact hch, ?_⟩
      rw [hup, ← h4]
      exact p2

theorem ins_bal (N : Nat) (hN : 0 < N) (key : K) (org : Int) : ∀ h f (t : Tree K), Bal N h t → Sorted (flat h t) → h + 1 ≤ f →
    ∃ r, ins N key org f t = some r ∧ InsOK N key org h t r := by
  intro h
  induction h with
  | zero =>
    intro f t hb hs hf
    obtain ⟨g, rfl⟩ : ∃ g, f = g + 1 := ⟨f - 1, by omega⟩
    have : t = .nil := hb
    subst this
    exact ⟨_, rfl, rfl, Or.inr ⟨rfl, rfl, rfl, rfl⟩⟩
  | succ h ih =>
    intro f t hb hs hf
    obtain ⟨p0, m, e, rfl, hb1, hb2, hb3, hb4⟩ := hb
    obtain ⟨r, hr, h1, h2⟩ := ins_page N hN key org h ih f p0 m e hb2 (Or.inr (by omega)) ⟨hb3, hb4⟩ hs (by omega)
    refine ⟨r, hr, h1, ?_⟩
    rcases h2 with ⟨g1, ⟨p0', m', e', g2, g3, g4, g5, g6⟩, g7⟩ | g
    · exact Or.inl ⟨g1, ⟨p0', m', e', g2, by omega, g5, g6.1, g6.2⟩, g7⟩
    · exact Or.inr g

/-! ## Deleting -/

/-- How many entries are left, and `h`. -/
def Left (N m m' : Nat) (hb : Bool) : Prop := (m' = m ∧ hb = false) ∨ (m' + 1 = m ∧ hb = decide (m' < N))

/-- After a page below has lost an entry. -/
theorem repair_ok (N : Nat) (hN : 0 < N) (h : Nat) (p0 : Tree K) (m : Nat) (e : Nat → Ent K) (R : Nat) (hR : R ≤ m) (hm1 : 1 ≤ m) (hk : Kids N (h + 1) p0 m e)
    (q0 : Tree K) (qm qm' : Nat) (qe : Nat → Ent K) (hq : Kids N h q0 qm' qe) (h1 : N ≤ qm) (h2 : qm ≤ 2 * N) (hb : Bool) (hl : Left N qm qm' hb) :
    ∃ p0' m' e' hb', repair N p0 m e R (.page q0 qm' qe) hb = some (.page p0' m' e', hb') ∧ Kids N (h + 1) p0' m' e' ∧
      flat (h + 2) (.page p0' m' e') = pre (h + 1) p0 e R ++ flat (h + 1) (.page q0 qm' qe) ++ flatE (h + 1) ((ents m e).drop R) ∧ Left N m m' hb' ∧
      (hb = false → hb' = false) := by
  unfold repair
  by_cases c : hb = true
  · rw [if_pos c]
    have : qm' = N - 1 := by
      rcases hl with ⟨_, g⟩ | ⟨g1, g2⟩
      · rw [c] at g; cases g
      · rw [c] at g2
        have := of_decide_eq_true g2.symm
        omega
    subst this
    obtain ⟨a1, a2, a3, a4, a5, a6, a7, a8⟩ := underflow_ok N hN h p0 m e R hR hm1 hk q0 qe hq
    exact ⟨a1, a2, a3, a4, a5, a6, a7, a8, fun g => absurd (c.symm.trans g) (by decide)⟩
  · rw [if_neg c]
    have hbf : hb = false := by cases hb <;> simp_all
    have hqm : N ≤ qm' ∧ qm' ≤ 2 * N := by
      rcases hl with ⟨g, _⟩ | ⟨g1, g2⟩
      · omega
      · rw [hbf] at g2
        have := of_decide_eq_false g2.symm
        omega
    exact ⟨_, _, _, _, rfl, kids_set hk R ⟨_, _, _, rfl, hqm.1, hqm.2, hq.1, hq.2⟩, flat_set _ _ _ _ _ _ hR, Or.inl ⟨rfl, hbf⟩, fun g => g⟩

theorem del_ok (N : Nat) (hN : 0 < N) : ∀ h f (p0 : Tree K) (m : Nat) (e : Nat → Ent K), 1 ≤ m → Kids N h p0 m e → h + 1 ≤ f →
    ∃ p0' m' e' hb x, del N f (.page p0 m e) = some (.page p0' m' e', hb, x) ∧ Kids N h p0' m' e' ∧
      flat (h + 1) (.page p0 m e) = flat (h + 1) (.page p0' m' e') ++ [kv x] ∧ Left N m m' hb := by
  intro h
  induction h with
  | zero =>
    intro f p0 m e hm hk hf
    obtain ⟨g, rfl⟩ : ∃ g, f = g + 1 := ⟨f - 1, by omega⟩
    have hq : (e (m - 1)).p = .nil := hk.2 (m - 1) (by omega)
    unfold del
    rw [hq]
    refine ⟨_, _, _, _, _, rfl, ⟨hk.1, fun i hi => hk.2 i (by omega)⟩, ?_, Or.inr ⟨by omega, rfl⟩⟩
    obtain ⟨n, rfl⟩ : ∃ n, m = n + 1 := ⟨m - 1, by omega⟩
    rw [flat_page, flat_page, Nat.add_sub_cancel, ents_succ, flatE_app, flatE_cons, flatE_nil]
    simp [flat]
  | succ h ih =>
    intro f p0 m e hm hk hf
    obtain ⟨g, rfl⟩ : ∃ g, f = g + 1 := ⟨f - 1, by omega⟩
    obtain ⟨q0, qm, qe, hq, hq1, hq2, hq3, hq4⟩ := hk.2 (m - 1) (by omega)
    obtain ⟨q0', qm', qe', hb, x, hd, hk', hfl, hl⟩ := ih g q0 qm qe (by omega) ⟨hq3, hq4⟩ (by omega)
    obtain ⟨p0', m', e', hb', hr, hr1, hr2, hr3, hr4⟩ := repair_ok N hN h p0 m e m (le_refl _) hm hk q0' qm qm' qe' hk' hq1 hq2 hb hl
    have hfin : flat (h + 2) (.page p0 m e) = flat (h + 2) (.page p0' m' e') ++ [kv x] := by
      rw [hr2, flat_parts (h + 1) p0 m e m (le_refl _), List.drop_of_length_le (by rw [ents_length]), flatE_nil]
      have : child p0 e m = .page q0 qm qe := by unfold child; rw [if_neg (by omega), hq]
      rw [this, hfl]
      simp
    unfold del
    rw [hq]
    dsimp only
    rw [hd]
    dsimp only
    have hset : upd e (m - 1) { e (m - 1) with p := Tree.page q0' qm' qe' } = setE e m (.page q0' qm' qe') := by
      unfold setE; rw [if_neg (by omega)]
    have hsp : setP0 p0 m (.page q0' qm' qe') = p0 := by unfold setP0; rw [if_neg (by omega)]
    unfold repair at hr
    rw [hsp] at hr
    by_cases c : hb = true
    · rw [if_pos c] at hr ⊢
      have hset' : upd e (m - 1) { key := (e (m - 1)).key, org := (e (m - 1)).org, p := Tree.page q0' qm' qe' } = setE e m (.page q0' qm' qe') := hset
      rw [hset', hr]
      exact ⟨_, _, _, _, _, rfl, hr1, hfin, hr3⟩
    · rw [if_neg c] at hr ⊢
      have hset' : upd e (m - 1) { key := (e (m - 1)).key, org := (e (m - 1)).org, p := Tree.page q0' qm' qe' } = setE e m (.page q0' qm' qe') := hset
      rw [hset']
      injection hr with hr
      injection hr with hra hrb
      injection hra with ha1 ha2 ha3
      refine ⟨p0', m', e', hb', x, ?_, hr1, hfin, hr3⟩
      rw [ha1, ha3, hrb, ha2]

theorem delete_page (N : Nat) (hN : 0 < N) (key : K) : ∀ h f (p0 : Tree K) (m : Nat) (e : Nat → Ent K), h = 0 ∨ 1 ≤ m → Kids N h p0 m e →
    Sorted (flat (h + 1) (.page p0 m e)) → h + 1 ≤ f →
    ∃ p0' m' e' hb, delete N key f false (.page p0 m e) = some (.page p0' m' e', hb, (look key (flat (h + 1) (.page p0 m e))).isSome) ∧
      Kids N h p0' m' e' ∧ flat (h + 1) (.page p0' m' e') = erase key (flat (h + 1) (.page p0 m e)) ∧ Left N m m' hb ∧
      ((look key (flat (h + 1) (.page p0 m e))).isSome = false → hb = false) := by
  intro h
  induction h with
  | zero =>
    intro f p0 m e hd hk hs hf
    obtain ⟨g, rfl⟩ : ∃ g, f = g + 1 := ⟨f - 1, by omega⟩
    unfold delete
    by_cases c : bsearch key e m 0 m < m ∧ (e (bsearch key e m 0 m)).key = key
    · rw [if_pos c]
      obtain ⟨q1, q2⟩ := page_found hs c.1
      generalize hR : bsearch key e m 0 m = R at *
      have hc : child p0 e R = .nil := kids_child hk (by omega)
      have hfl : flat (0 + 1) (.page p0 m e) = pre 0 p0 e R ++ flat 0 (child p0 e R) ++ kv (e R) :: (flat 0 (e R).p ++ flatE 0 ((ents m e).drop (R + 1))) := by
        rw [flat_parts 0 p0 m e R (by omega), drop_cons _ _ _ c.1, flatE_cons]
      have hlook : (look key (flat (0 + 1) (.page p0 m e))).isSome = true := by
        rw [hfl, look_app (fun x hx => by rw [← c.2]; exact ne_of_lt (q1 x hx))]
        unfold look kv
        rw [if_pos c.2]; rfl
      have her : erase key (flat (0 + 1) (.page p0 m e)) = pre 0 p0 e R ++ flat 0 (child p0 e R) ++ (flat 0 (e R).p ++ flatE 0 ((ents m e).drop (R + 1))) := by
        rw [hfl, erase_app, erase_cons_eq c.2, erase_id (fun x hx => by rw [← c.2]; exact ne_of_lt (q1 x hx)),
          erase_id (fun x hx => by rw [← c.2]; exact (ne_of_lt (q2 x hx)).symm)]
      rw [hc, hlook]
      have hents := ents_drop m e R c.1
      refine ⟨_, _, _, _, rfl, ?_, ?_, Or.inr ⟨by omega, rfl⟩, fun g => by cases g⟩
      · rw [kids_list, hents]
        refine ⟨hk.1, ?_⟩
        intro x hx
        rcases List.mem_append.mp hx with g | g
        · exact (kids_list.mp hk).2 x (List.mem_of_mem_take g)
        · exact (kids_list.mp hk).2 x (List.mem_of_mem_drop g)
      · rw [her, flat_page, hents, take_ents _ _ _ (by omega), flatE_app, ← List.append_assoc, pre_flat]
        simp [flat]
    · rw [if_neg c]
      obtain ⟨r1, r2, r3⟩ := page_missing hs c
      generalize hR : bsearch key e m 0 m = R at *
      have hc : child p0 e R = .nil := kids_child hk r1
      rw [hc]
      have hall : ∀ x ∈ flat (0 + 1) (.page p0 m e), x.1 ≠ key := by
        intro x hx
        rw [flat_parts 0 p0 m e R r1] at hx
        rcases List.mem_append.mp hx with g | g
        · rcases List.mem_append.mp g with g | g
          · exact ne_of_lt (r2 x g)
          · cases g
        · exact (ne_of_lt (r3 x g)).symm
      rw [look_none hall]
      exact ⟨_, _, _, _, rfl, hk, (erase_id hall).symm, Or.inl ⟨rfl, rfl⟩, fun _ => rfl⟩
  | succ h ih =>
    intro f p0 m e hd hk hs hf
    obtain ⟨g, rfl⟩ : ∃ g, f = g + 1 := ⟨f - 1, by omega⟩
    have hm1 : 1 ≤ m := by omega
    unfold delete
    by_cases c : bsearch key e m 0 m < m ∧ (e (bsearch key e m 0 m)).key = key
    · rw [if_pos c]
      obtain ⟨q1, q2⟩ := page_found hs c.1
      generalize hR : bsearch key e m 0 m = R at *
      have hfl : flat (h + 2) (.page p0 m e) = pre (h + 1) p0 e R ++ flat (h + 1) (child p0 e R) ++
          kv (e R) :: (flat (h + 1) (e R).p ++ flatE (h + 1) ((ents m e).drop (R + 1))) := by
        rw [flat_parts (h + 1) p0 m e R (by omega), drop_cons _ _ _ c.1, flatE_cons]
      have hlook : (look key (flat (h + 2) (.page p0 m e))).isSome = true := by
        rw [hfl, look_app (fun x hx => by rw [← c.2]; exact ne_of_lt (q1 x hx))]
        unfold look kv
        rw [if_pos c.2]; rfl
      have her : erase key (flat (h + 2) (.page p0 m e)) = pre (h + 1) p0 e R ++ flat (h + 1) (child p0 e R) ++
          (flat (h + 1) (e R).p ++ flatE (h + 1) ((ents m e).drop (R + 1))) := by
        rw [hfl, erase_app, erase_cons_eq c.2, erase_id (fun x hx => by rw [← c.2]; exact ne_of_lt (q1 x hx)),
          erase_id (fun x hx => by rw [← c.2]; exact (ne_of_lt (q2 x hx)).symm)]
      obtain ⟨q0, qm, qe, hq, hq1, hq2, hq3, hq4⟩ := kids_child (R := R) hk (by omega)
      obtain ⟨q0', qm', qe', hb, x, hdel, hk', hfl', hl⟩ := del_ok N hN h g q0 qm qe (by omega) ⟨hq3, hq4⟩ (by omega)
      obtain ⟨p0', m', e', hb', hr, hr1, hr2, hr3, hr4⟩ := repair_ok N hN h p0 m (upd e R { x with p := (e R).p }) R (by omega) hm1
        (kids_upd hk R (x := { x with p := (e R).p }) (hk.2 R c.1)) q0' qm qm' qe' hk' hq1 hq2 hb hl
      rw [hq] at her ⊢
      dsimp only
      rw [hdel]
      dsimp only
      rw [hr, hlook]
      refine ⟨p0', m', e', hb', rfl, hr1, ?_, hr3, fun g => by cases g⟩
      rw [her, hr2, hfl', pre_congr (e := upd e R _) (e' := e) _ _ (fun i hi => by unfold upd; rw [if_neg (by omega)]), drop_upd _ _ _ c.1, flatE_cons]
      simp [kv]
    · rw [if_neg c]
      obtain ⟨r1, r2, r3⟩ := page_missing hs c
      generalize hR : bsearch key e m 0 m = R at *
      obtain ⟨q0, qm, qe, hq, hq1, hq2, hq3, hq4⟩ := kids_child (R := R) hk r1
      have hsc := child_sorted hs r1
      rw [hq] at hsc
      obtain ⟨q0', qm', qe', hb, hdel, hk', hfl', hl, hl2⟩ := ih g q0 qm qe (Or.inr (by omega)) ⟨hq3, hq4⟩ hsc (by omega)
      obtain ⟨p0', m', e', hb', hr, hr1, hr2, hr3, hr4⟩ := repair_ok N hN h p0 m e R r1 hm1 hk q0' qm qm' qe' hk' hq1 hq2 hb hl
      have hlook : look key (flat (h + 2) (.page p0 m e)) = look key (flat (h + 1) (.page q0 qm qe)) := by
        rw [flat_parts (h + 1) p0 m e R r1, look_app_right (fun x hx => (ne_of_lt (r3 x hx)).symm), look_app (fun x hx => ne_of_lt (r2 x hx)), hq]
      rw [hq]
      dsimp only
      rw [hdel]
      dsimp only
      rw [hr, hlook]
      refine ⟨p0', m', e', hb', rfl, hr1, ?_, hr3, fun g => hr4 (hl2 g)⟩
      rw [hr2, hfl', flat_parts (h + 1) p0 m e R r1, erase_app, erase_app, hq, erase_id (fun x hx => ne_of_lt (r2 x hx)),
        erase_id (fun x hx => (ne_of_lt (r3 x hx)).symm)]

end Verif.BTree
