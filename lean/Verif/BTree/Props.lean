import Verif.BTree.Enum

/-!
# C80: B-trees are maps
-/
namespace Verif.BTree
set_option linter.unusedSectionVars false
variable {K : Type} [LinearOrder K] [Inhabited K]

/-- A tree between calls, with `h + 1` levels of pages. -/
def Inv (N h : Nat) (t : Tree K) : Prop :=
  ∃ p0 m e, t = .page p0 m e ∧ m ≤ 2 * N ∧ (h = 0 ∨ 1 ≤ m) ∧ Kids N h p0 m e ∧ Sorted (flat (h + 1) t)

/-- The calls for which the specification is met: not for enumerations up to the least of all keys. -/
def Good (bot : K) : Op K → Prop
  | .enum _ max _ => bot < max
  | _ => True

theorem new_inv (N : Nat) : Inv N 0 (new : Tree K) :=
  ⟨_, _, _, rfl, Nat.zero_le _, Or.inl rfl, ⟨rfl, fun i hi => absurd hi (Nat.not_lt_zero i)⟩, by show Sorted []; exact List.Pairwise.nil⟩

theorem ents_one (x : Ent K) : ents 1 (upd fresh 0 x) = [x] := rfl

theorem insert_inv (N : Nat) (hN : 0 < N) (h f : Nat) (t : Tree K) (hi : Inv N h t) (hf : h + 2 ≤ f) (key : K) (org : Int) :
    ∃ t' h', insert N f key org t = some (t', (look key (flat (h + 1) t)).isSome) ∧ h' ≤ h + 1 ∧ Inv N h' t' ∧
      flat (h' + 1) t' = upsert key org (flat (h + 1) t) := by
  obtain ⟨p0, m, e, rfl, hm, hd, hk, hs⟩ := hi
  obtain ⟨r, hr, hc, hcase⟩ := ins_page N hN key org h (ins_bal N hN key org h) f p0 m e hm hd hk hs hf
  unfold insert
  rw [hr]
  dsimp only
  rcases hcase with ⟨h1, ⟨p0', m', e', h2, h3, h4, h5, h6⟩, h7⟩ | ⟨h1, h2, h3, h4⟩
  · rw [h1, if_neg (by decide), hc]
    refine ⟨r.a, h, rfl, by omega, ⟨p0', m', e', h2, h5, Or.inr h4, h6, ?_⟩, h7⟩
    rw [h7]; exact upsert_sorted hs
  · rw [h1, if_pos rfl, hc]
    have hfl : flat (h + 1 + 1) (.page r.a 1 (upd fresh 0 r.v)) = upsert key org (flat (h + 1) (.page p0 m e)) := by
      rw [flat_page, ents_one, flatE_cons, flatE_nil, List.append_nil, h4]
    refine ⟨_, h + 1, rfl, by omega, ⟨_, _, _, rfl, by omega, Or.inr (le_refl _), ⟨h2, ?_⟩, ?_⟩, hfl⟩
    · intro i hi
      have : i = 0 := by omega
      subst this
      exact h3
    · rw [hfl]; exact upsert_sorted hs

theorem delete_inv (N : Nat) (hN : 0 < N) (h f : Nat) (t : Tree K) (hi : Inv N h t) (hf : h + 2 ≤ f) (key : K) :
    ∃ t' h', deleteKey N f key false t = some (t', (look key (flat (h + 1) t)).isSome) ∧ h' ≤ h ∧ Inv N h' t' ∧
      flat (h' + 1) t' = erase key (flat (h + 1) t) := by
  obtain ⟨p0, m, e, rfl, hm, hd, hk, hs⟩ := hi
  obtain ⟨p0', m', e', hb, hr, hk', hfl, hl, hl2⟩ := delete_page N hN key h f p0 m e hd hk hs (by omega)
  unfold deleteKey
  rw [hr]
  dsimp only
  have hm' : m' ≤ 2 * N := by rcases hl with ⟨g, _⟩ | ⟨g, _⟩ <;> omega
  have hsort : Sorted (flat (h + 1) (.page p0' m' e')) := by rw [hfl]; exact erase_sorted hs
  have hkeep : h = 0 ∨ 1 ≤ m' → ∃ t' h', some (Tree.page p0' m' e', (look key (flat (h + 1) (.page p0 m e))).isSome)
      = some (t', (look key (flat (h + 1) (.page p0 m e))).isSome) ∧ h' ≤ h ∧ Inv N h' t' ∧
      flat (h' + 1) t' = erase key (flat (h + 1) (.page p0 m e)) :=
    fun g => ⟨_, h, rfl, le_refl _, ⟨_, _, _, rfl, hm', g, hk', hsort⟩, hfl⟩
  by_cases c : (look key (flat (h + 1) (.page p0 m e))).isSome = true ∧ hb = true ∧ m' = 0
  · rw [if_pos c]
    cases h with
    | zero =>
      have : p0' = .nil := hk'.1
      subst this
      exact hkeep (Or.inl rfl)
    | succ h =>
      obtain ⟨q0, qm, qe, hq, hq1, hq2, hq3, hq4⟩ := hk'.1
      subst hq
      have hm0 := c.2.2
      subst hm0
      have hfl2 : flat (h + 2) (.page (.page q0 qm qe) 0 e') = flat (h + 1) (.page q0 qm qe) := by
        rw [flat_page, ents_zero, flatE_nil, List.append_nil]
      rw [hfl2] at hfl hsort
      exact ⟨_, h, rfl, by omega, ⟨_, _, _, rfl, hq2, Or.inr (by omega), ⟨hq3, hq4⟩, hsort⟩, hfl⟩
  · rw [if_neg c]
    apply hkeep
    rcases hd with g | g
    · exact Or.inl g
    · rcases hl with ⟨g1, g2⟩ | ⟨g1, g2⟩
      · exact Or.inr (by omega)
      · rcases Nat.eq_zero_or_pos m' with g3 | g3
        · right
          exfalso
          apply c
          have hbt : hb = true := by rw [g2, g3]; exact decide_eq_true hN
          refine ⟨?_, hbt, g3⟩
          cases hx : (look key (flat (h + 1) (.page p0 m e))).isSome with
          | true => rfl
          | false => exact absurd (hbt.symm.trans (hl2 hx)) (by decide)
        · exact Or.inr g3

theorem mem_within {min max k : K} {v : Int} {l : List (K × Int)} : (k, v) ∈ within min max l ↔ (k, v) ∈ l ∧ min ≤ k ∧ k ≤ max := by
  simp [within]

theorem look_isSome {k : K} {l : List (K × Int)} (hs : Sorted l) : (look k l).isSome ↔ ∃ v, (k, v) ∈ l := by
  constructor
  · intro h
    cases hx : look k l with
    | none => rw [hx] at h; cases h
    | some v => exact ⟨v, (look_mem hs).mp hx⟩
  · rintro ⟨v, hv⟩
    rw [(look_mem hs).mpr hv]; rfl

/-- One call. -/
theorem exec_inv (N : Nat) (hN : 0 < N) (bot : K) (h f : Nat) (t : Tree K) (hi : Inv N h t) (hf : h + 2 ≤ f) (op : Op K) (hg : Good bot op) :
    ∃ t' h' o, exec N f bot false t op = some (t', o) ∧ h' ≤ h + 1 ∧ Inv N h' t' ∧
      Step (fun k => look k (flat (h + 1) t)) op (fun k => look k (flat (h' + 1) t')) o := by
  have hs : Sorted (flat (h + 1) t) := by obtain ⟨_, _, _, _, _, _, _, hs⟩ := hi; exact hs
  cases op with
  | insert key org =>
    obtain ⟨t', h', h1, h2, h3, h4⟩ := insert_inv N hN h f t hi hf key org
    refine ⟨t', h', _, by unfold exec; dsimp only; rw [h1]; rfl, h2, h3, ?_⟩
    have : (fun k => look k (flat (h' + 1) t')) = fun j => if j = key then some org else look j (flat (h + 1) t) := by
      funext j; rw [h4, look_upsert hs]
    rw [this]
    exact Step.insert key org
  | delete key =>
    obtain ⟨t', h', h1, h2, h3, h4⟩ := delete_inv N hN h f t hi hf key
    refine ⟨t', h', _, by unfold exec; dsimp only; rw [h1]; rfl, by omega, h3, ?_⟩
    have : (fun k => look k (flat (h' + 1) t')) = fun j => if j = key then none else look j (flat (h + 1) t) := by
      funext j; rw [h4, look_erase]
    rw [this]
    exact Step.delete key
  | search key =>
    refine ⟨t, h, .found (look key (flat (h + 1) t)), ?_, by omega, hi, Step.search key⟩
    obtain ⟨p0, m, e, rfl, _, _, hk, _⟩ := hi
    unfold exec
    dsimp only
    rw [search_page N key h f _ ⟨_, _, _, rfl, hk⟩ hs hf]; rfl
  | enum min max more =>
    refine ⟨t, h, .calls (upTo more [] (within min max (flat (h + 1) t))), ?_, by omega, hi, ?_⟩
    · obtain ⟨p0, m, e, rfl, _, hd, hk, _⟩ := hi
      unfold exec enum
      dsimp only
      by_cases c : 0 < m
      · rw [if_pos c, enumerate_page N hN bot min max hg more h f p0 m e _ c hk hs hf]
        show some (_, Out.calls (walk more _ ([], true)).1) = _
        rw [walk_upTo]
      · rw [if_neg c]
        have hm : m = 0 := by omega
        have hh : h = 0 := by omega
        subst hm hh
        rfl
    · exact Step.enum min max more _ (List.Pairwise.filter _ hs) (fun k v => by rw [mem_within, look_mem hs])
  | minKey =>
    obtain ⟨p0, m, e, ht, hm, hd, hk, hs'⟩ := hi
    subst ht
    by_cases c : 0 < m
    · have hmk := minKey_page N hN h f p0 m e default c hk hf
      have hne : flat (h + 1) (.page p0 m e) ≠ [] := by
        intro g
        rw [flat_page, ents_app m e 0 c] at g
        rw [List.append_eq_nil_iff, flatE_app, flatE_cons] at g
        have := (List.append_eq_nil_iff.mp g.2).2
        cases this
      obtain ⟨x, l, hx⟩ := List.exists_cons_of_ne_nil hne
      refine ⟨_, h, .key (some x.1), ?_, by omega, ⟨_, _, _, rfl, hm, hd, hk, hs⟩, ?_⟩
      · unfold exec extreme
        dsimp only
        rw [if_pos c, hmk, hx]; rfl
      · apply Step.minKey
        · exact (look_isSome hs).mpr ⟨x.2, by rw [hx]; exact List.mem_cons_self ..⟩
        · intro j hj
          obtain ⟨v, hv⟩ := (look_isSome hs).mp hj
          rw [hx] at hv
          have hs2 := hs
          rw [hx] at hs2
          rcases List.mem_cons.mp hv with g | g
          · rw [← g]
          · exact le_of_lt ((List.pairwise_cons.mp hs2).1 _ g)
    · have hm0 : m = 0 := by omega
      have hh : h = 0 := by omega
      subst hm0 hh
      exact ⟨_, 0, .key none, rfl, by omega, ⟨_, _, _, rfl, hm, hd, hk, hs⟩, Step.noMin (fun j => rfl)⟩
  | maxKey =>
    obtain ⟨p0, m, e, ht, hm, hd, hk, hs'⟩ := hi
    subst ht
    by_cases c : 0 < m
    · have hmk := maxKey_page N hN h f p0 m e default c hk hf
      have hne : flat (h + 1) (.page p0 m e) ≠ [] := by
        intro g
        rw [flat_page, ents_app m e 0 c] at g
        rw [List.append_eq_nil_iff, flatE_app, flatE_cons] at g
        have := (List.append_eq_nil_iff.mp g.2).2
        cases this
      have hx : flat (h + 1) (.page p0 m e) = (flat (h + 1) (.page p0 m e)).dropLast ++ [(flat (h + 1) (.page p0 m e)).getLast hne] :=
        (List.dropLast_append_getLast hne).symm
      generalize (flat (h + 1) (.page p0 m e)).getLast hne = x at hx
      generalize (flat (h + 1) (.page p0 m e)).dropLast = l at hx
      refine ⟨_, h, .key (some x.1), ?_, by omega, ⟨_, _, _, rfl, hm, hd, hk, hs⟩, ?_⟩
      · unfold exec extreme
        dsimp only
        rw [if_pos c, hmk, hx, lastKey_app]; rfl
      · apply Step.maxKey
        · exact (look_isSome hs).mpr ⟨x.2, by rw [hx]; exact List.mem_append_right _ (List.mem_singleton.mpr rfl)⟩
        · intro j hj
          obtain ⟨v, hv⟩ := (look_isSome hs).mp hj
          rw [hx] at hv
          have hs2 := hs
          rw [hx] at hs2
          rcases List.mem_append.mp hv with g | g
          · exact le_of_lt ((List.pairwise_append.mp hs2).2.2 _ g x (List.mem_singleton.mpr rfl))
          · rw [← List.mem_singleton.mp g]
    · have hm0 : m = 0 := by omega
      have hh : h = 0 := by omega
      subst hm0 hh
      exact ⟨_, 0, .key none, rfl, by omega, ⟨_, _, _, rfl, hm, hd, hk, hs⟩, Step.noMax (fun j => rfl)⟩

theorem run_inv (N : Nat) (hN : 0 < N) (bot : K) (f : Nat) : ∀ (ops : List (Op K)) (h : Nat) (t : Tree K), Inv N h t → h + ops.length + 1 ≤ f →
    (∀ op ∈ ops, Good bot op) → ∃ t' h' os, run N f bot false t ops = some (t', os) ∧ h' ≤ h + ops.length ∧ Inv N h' t' ∧
      Steps (fun k => look k (flat (h + 1) t)) ops (fun k => look k (flat (h' + 1) t')) os := by
  intro ops
  induction ops with
  | nil => intro h t hi _ _; exact ⟨t, h, [], rfl, by simp, hi, Steps.nil _⟩
  | cons op ops ih =>
    intro h t hi hf hg
    rw [List.length_cons] at hf
    obtain ⟨t1, h1, o, e1, e2, e3, e4⟩ := exec_inv N hN bot h f t hi (by omega) op (hg op (List.mem_cons_self ..))
    obtain ⟨t2, h2, os, f1, f2, f3, f4⟩ := ih h1 t1 e3 (by omega) (fun o ho => hg o (List.mem_cons_of_mem _ ho))
    refine ⟨t2, h2, o :: os, ?_, by rw [List.length_cons]; omega, f3, Steps.cons e4 f4⟩
    unfold run
    rw [e1]
    dsimp only
    rw [f1]

/-- C80: every sequence of calls on a new tree, of any length, returns what the same calls on a map return, for pages of any size.  `f` allows
for one more nested call than there are calls.  Missing: enumerations up to the least of all keys; the variable `h` of the procedure that deletes
being something else than `FALSE`; the file and the cache of pages. -/
theorem C80_map_partial (N : Nat) (hN : 0 < N) (bot : K) (ops : List (Op K)) (hops : ∀ min max more, Op.enum min max more ∈ ops → bot < max) (f : Nat)
    (hf : ops.length < f) : ∃ (t : Tree K) (outs : List (Out K)) (g : K → Option Int), run N f bot false new ops = some (t, outs) ∧ Steps (fun _ => none) ops g outs := by
  obtain ⟨t, h, os, h1, _, _, h4⟩ := run_inv N hN bot f ops 0 new (new_inv N) (by omega) (by
    intro op hop
    cases op with
    | enum min max more => exact hops min max more hop
    | _ => trivial)
  exact ⟨t, os, _, h1, h4⟩

theorem flatE_length {N h : Nat} {l : List (Ent K)} {c : Nat} (hl : ∀ x ∈ l, c ≤ (flat h x.p).length + 1) : l.length * c ≤ (flatE h l).length := by
  induction l with
  | nil => simp
  | cons x l ih =>
    rw [flatE_cons, List.length_cons, List.length_cons, List.length_append, Nat.succ_mul]
    have h1 := hl x (List.mem_cons_self ..)
    have h2 := ih (fun y hy => hl y (List.mem_cons_of_mem _ hy))
    omega

theorem bal_length (N : Nat) : ∀ h (t : Tree K), Bal N h t → (N + 1) ^ h ≤ (flat h t).length + 1
  | 0, _, _ => by simp
  | h + 1, t, hb => by
    obtain ⟨p0, m, e, rfl, h1, h2, h3, h4⟩ := hb
    have hp := bal_length N h p0 h3
    have hl := flatE_length (N := N) (h := h) (l := ents m e) (c := (N + 1) ^ h) (mem_ents.mpr (fun i hi => bal_length N h _ (h4 i hi)))
    rw [ents_length] at hl
    rw [flat_page, List.length_append, Nat.pow_succ, Nat.mul_comm, Nat.succ_mul]
    have := Nat.mul_le_mul_right ((N + 1) ^ h) h1
    omega

/-- C80: after any sequence of calls a search looks at `d` pages at most, where `2 * (N + 1) ^ (d - 1)` is not more than the number of keys plus
one, if there is more than one page to look at. -/
theorem C80_depth_partial (N : Nat) (hN : 0 < N) (bot : K) (ops : List (Op K)) (hops : ∀ min max more, Op.enum min max more ∈ ops → bot < max) (f : Nat)
    (hf : ops.length < f) : ∃ (t : Tree K) (outs : List (Out K)) (g : K → Option Int) (l : List (K × Int)) (d : Nat), run N f bot false new ops = some (t, outs) ∧ Steps (fun _ => none) ops g outs ∧
      l.Pairwise (fun a b => a.1 < b.1) ∧ (∀ k v, (k, v) ∈ l ↔ g k = some v) ∧ (d = 1 ∨ 2 * (N + 1) ^ (d - 1) ≤ l.length + 1) ∧
      ∀ k, search k (d + 1) t = some (g k) := by
  obtain ⟨t, h, os, h1, _, h3, h4⟩ := run_inv N hN bot f ops 0 new (new_inv N) (by omega) (by
    intro op hop
    cases op with
    | enum min max more => exact hops min max more hop
    | _ => trivial)
  obtain ⟨p0, m, e, rfl, hm, hd, hk, hs⟩ := h3
  refine ⟨_, os, _, flat (h + 1) (.page p0 m e), h + 1, h1, h4, hs, fun k v => (look_mem hs).symm, ?_, ?_⟩
  · rcases hd with rfl | hd
    · exact Or.inl rfl
    · right
      have hp := bal_length N h p0 hk.1
      have hl := flatE_length (N := N) (h := h) (l := ents m e) (c := (N + 1) ^ h) (mem_ents.mpr (fun i hi => bal_length N h _ (hk.2 i hi)))
      rw [ents_length] at hl
      rw [flat_page, List.length_append, Nat.add_sub_cancel]
      have := Nat.mul_le_mul_right ((N + 1) ^ h) hd
      omega
  · intro k
    exact search_page N k h _ _ ⟨_, _, _, rfl, hk⟩ hs (by omega)

/-- C80: after any sequence of calls no page has more than `2 * N` entries, and all but the first have at least `N`; all ways down end at the same
depth (`Bal`). -/
theorem C80_pages_partial (N : Nat) (hN : 0 < N) (bot : K) (ops : List (Op K)) (hops : ∀ min max more, Op.enum min max more ∈ ops → bot < max) (f : Nat)
    (hf : ops.length < f) : ∃ p0 m e outs h, run N f bot false new ops = some (.page p0 m e, outs) ∧ m ≤ 2 * N ∧ Bal N h p0 ∧ ∀ i, i < m → Bal N h (e i).p := by
  obtain ⟨t, h, os, h1, _, h3, h4⟩ := run_inv N hN bot f ops 0 new (new_inv N) (by omega) (by
    intro op hop
    cases op with
    | enum min max more => exact hops min max more hop
    | _ => trivial)
  obtain ⟨p0, m, e, rfl, hm, hd, hk, hs⟩ := h3
  exact ⟨p0, m, e, os, h, h1, hm, hk.1, hk.2⟩

/-- What the variable `h` is does not matter where the key is there. -/
theorem delete_any (N : Nat) (key : K) (hb : Bool) : ∀ h f (p0 : Tree K) (m : Nat) (e : Nat → Ent K), Kids N h p0 m e → Sorted (flat (h + 1) (.page p0 m e)) →
    (look key (flat (h + 1) (.page p0 m e))).isSome = true → delete N key f hb (.page p0 m e) = delete N key f false (.page p0 m e) := by
  intro h
  induction h with
  | zero =>
    intro f p0 m e hk hs hl
    cases f with
    | zero => rfl
    | succ f =>
      unfold delete
      by_cases c : bsearch key e m 0 m < m ∧ (e (bsearch key e m 0 m)).key = key
      · rw [if_pos c, if_pos c]
      · exfalso
        obtain ⟨r1, r2, r3⟩ := page_missing hs c
        rw [flat_parts 0 p0 m e _ r1, look_app_right (fun x hx => (ne_of_lt (r3 x hx)).symm), look_app (fun x hx => ne_of_lt (r2 x hx))] at hl
        cases hl
  | succ h ih =>
    intro f p0 m e hk hs hl
    cases f with
    | zero => rfl
    | succ f =>
      unfold delete
      by_cases c : bsearch key e m 0 m < m ∧ (e (bsearch key e m 0 m)).key = key
      · rw [if_pos c, if_pos c]
      · obtain ⟨r1, r2, r3⟩ := page_missing hs c
        rw [flat_parts (h + 1) p0 m e _ r1, look_app_right (fun x hx => (ne_of_lt (r3 x hx)).symm), look_app (fun x hx => ne_of_lt (r2 x hx))] at hl
        rw [if_neg c, if_neg c]
        obtain ⟨q0, qm, qe, hq, hq1, hq2, hq3, hq4⟩ := kids_child hk r1
        have hsc := child_sorted hs r1
        rw [hq] at hl hsc ⊢
        dsimp only
        rw [ih f q0 qm qe ⟨hq3, hq4⟩ hsc hl]

theorem run_any (N : Nat) (hN : 0 < N) (bot : K) (hb : Bool) (f : Nat) : ∀ (ops : List (Op K)) (h : Nat) (t : Tree K), Inv N h t → h + ops.length + 1 ≤ f →
    (∀ op ∈ ops, Good bot op) → ∀ t' os, run N f bot false t ops = some (t', os) → Out.deleted false ∉ os → run N f bot hb t ops = some (t', os) := by
  intro ops
  induction ops with
  | nil => intro h t _ _ _ t' os hr _; exact hr
  | cons op ops ih =>
    intro h t hi hf hg t' os hr hn
    rw [List.length_cons] at hf
    obtain ⟨t1, h1, o, e1, e2, e3, e4⟩ := exec_inv N hN bot h f t hi (by omega) op (hg op (List.mem_cons_self ..))
    unfold run at hr ⊢
    rw [e1] at hr
    dsimp only at hr
    cases hrun : run N f bot false t1 ops with
    | none => rw [hrun] at hr; cases hr
    | some r =>
      obtain ⟨t2, os2⟩ := r
      rw [hrun] at hr
      injection hr with hr
      injection hr with hr1 hr2
      subst hr1 hr2
      have hrest := ih h1 t1 e3 (by omega) (fun o ho => hg o (List.mem_cons_of_mem _ ho)) t2 os2 hrun (fun g => hn (List.mem_cons_of_mem _ g))
      have hex : exec N f bot hb t op = some (t1, o) := by
        rw [← e1]
        cases op with
        | delete key =>
          obtain ⟨p0, m, e, rfl, hm, hd, hk, hs⟩ := hi
          have hl : (look key (flat (h + 1) (.page p0 m e))).isSome = true := by
            generalize (fun k => look k (flat (h1 + 1) t1)) = gg at e4
            cases e4
            cases hx : (look key (flat (h + 1) (.page p0 m e))).isSome with
            | true => rfl
            | false => rw [hx] at hn; exact absurd (List.mem_cons_self ..) hn
          unfold exec deleteKey
          dsimp only
          rw [delete_any N key hb h f p0 m e hk hs hl]
        | _ => rfl
      rw [hex]
      dsimp only
      rw [hrest]

/-- C80: where only keys are deleted that are there, the variable `h` of the procedure that deletes may be anything. -/
theorem C80_present_partial (N : Nat) (hN : 0 < N) (bot : K) (hb : Bool) (ops : List (Op K)) (hops : ∀ min max more, Op.enum min max more ∈ ops → bot < max)
    (f : Nat) (hf : ops.length < f) (t : Tree K) (outs : List (Out K)) (hr : run N f bot false new ops = some (t, outs)) (hn : Out.deleted false ∉ outs) :
    run N f bot hb new ops = some (t, outs) :=
  run_any N hN bot hb f ops 0 new (new_inv N) (by omega) (by
    intro op hop
    cases op with
    | enum min max more => exact hops min max more hop
    | _ => trivial) t outs hr hn

/-- Deviation from C80: the variable of `DeleteLInt` that tells whether a page has become too short is not initialized.  Where it happens to be
`TRUE`, deleting a key that is not there removes another one.  Here 2 * 84 + 1 keys are inserted, and deleting 1000 loses 168. -/
theorem C80_uninitialized :
    (run 84 9 (-2147483648 : Int) true new (((List.range 169).map (fun i => Op.insert (Int.ofNat i) 7)) ++ [.search 168, .delete 1000, .search 168])).map
      (fun r => r.2.drop 169) = some [.found (some 7), .deleted false, .found none] := by
  decide +kernel

/-- Deviation from C80: an enumeration from the least key to the least key does not give it. -/
theorem C80_least_key :
    (run 84 9 (-2147483648 : Int) false new [.insert (-2147483648) 7, .search (-2147483648), .enum (-2147483648) (-2147483648) (fun _ => true)]).map (·.2)
      = some [.inserted false, .found (some 7), .calls []] := by
  decide +kernel

/-- A sequence of calls that meets the hypotheses, with pages that are split, filled up from others and merged. -/
example : (run 1 40 (0 : Nat) false new [.insert 5 50, .insert 3 30, .insert 8 80, .insert 1 10, .insert 4 40, .insert 9 90, .insert 7 70, .insert 3 31,
      .delete 8, .delete 2, .delete 5, .search 4, .search 5, .enum 2 8 (fun _ => true), .enum 2 8 (fun l => l.length < 2), .minKey, .maxKey]).map (·.2)
    = some [.inserted false, .inserted false, .inserted false, .inserted false, .inserted false, .inserted false, .inserted false, .inserted true,
      .deleted true, .deleted false, .deleted true, .found (some 40), .found none, .calls [(3, 31), (4, 40), (7, 70)], .calls [(3, 31), (4, 40)],
      .key (some 1), .key (some 9)] := by
  decide +kernel

end Verif.BTree
