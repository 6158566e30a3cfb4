import Verif.BTree.Under

/-!
# B-trees: maps as lists
-/
namespace Verif.BTree
set_option linter.unusedSectionVars false
variable {K : Type} [LinearOrder K] [Inhabited K]

def Sorted (l : List (K × Int)) : Prop := l.Pairwise (fun a b => a.1 < b.1)

def look (key : K) : List (K × Int) → Option Int
  | [] => none
  | x :: l => if x.1 = key then some x.2 else look key l

def upsert (key : K) (org : Int) : List (K × Int) → List (K × Int)
  | [] => [(key, org)]
  | x :: l => if key < x.1 then (key, org) :: x :: l else if x.1 = key then (key, org) :: l else x :: upsert key org l

def erase (key : K) (l : List (K × Int)) : List (K × Int) := l.filter (fun x => decide (x.1 ≠ key))

theorem look_none {key : K} : ∀ {l : List (K × Int)}, (∀ x ∈ l, x.1 ≠ key) → look key l = none
  | [], _ => rfl
  | x :: l, h => by
    unfold look
    rw [if_neg (h x (List.mem_cons_self ..))]
    exact look_none (fun y hy => h y (List.mem_cons_of_mem _ hy))

theorem look_app {key : K} : ∀ {a b : List (K × Int)}, (∀ x ∈ a, x.1 ≠ key) → look key (a ++ b) = look key b
  | [], _, _ => rfl
  | x :: a, b, h => by
    rw [List.cons_append]
    conv_lhs => unfold look
    rw [if_neg (h x (List.mem_cons_self ..))]
    exact look_app (fun y hy => h y (List.mem_cons_of_mem _ hy))

theorem look_app_right {key : K} : ∀ {a b : List (K × Int)}, (∀ x ∈ b, x.1 ≠ key) → look key (a ++ b) = look key a
  | [], _, h => by rw [List.nil_append, look_none h]; rfl
  | x :: a, b, h => by
    rw [List.cons_append]
    unfold look
    by_cases c : x.1 = key
    · rw [if_pos c, if_pos c]
    · rw [if_neg c, if_neg c]; exact look_app_right h

theorem look_mem {key : K} {v : Int} : ∀ {l : List (K × Int)}, Sorted l → (look key l = some v ↔ (key, v) ∈ l)
  | [], _ => by simp [look]
  | x :: l, h => by
    obtain ⟨h1, h2⟩ := List.pairwise_cons.mp h
    unfold look
    by_cases c : x.1 = key
    · rw [if_pos c]
      constructor
      · intro g; injection g with g; rw [← c, ← g]; exact List.mem_cons_self ..
      · intro g
        rcases List.mem_cons.mp g with g | g
        · rw [← g]
        · exact absurd (h1 _ g) (by rw [c]; exact lt_irrefl _)
    · rw [if_neg c, look_mem h2, List.mem_cons]
      constructor
      · exact Or.inr
      · rintro (g | g)
        · exact absurd (by rw [← g]) c
        · exact g

theorem upsert_app {key : K} {org : Int} : ∀ {a b : List (K × Int)}, (∀ x ∈ a, x.1 < key) → upsert key org (a ++ b) = a ++ upsert key org b
  | [], _, _ => rfl
  | x :: a, b, h => by
    have hx := h x (List.mem_cons_self ..)
    rw [List.cons_append]
    conv_lhs => unfold upsert
    rw [if_neg (not_lt.mpr (le_of_lt hx)), if_neg (ne_of_lt hx), upsert_app (fun y hy => h y (List.mem_cons_of_mem _ hy))]
    rfl

theorem upsert_app_right {key : K} {org : Int} : ∀ {a b : List (K × Int)}, (∀ x ∈ b, key < x.1) → upsert key org (a ++ b) = upsert key org a ++ b
  | [], [], _ => rfl
  | [], x :: b, h => by
    have hx := h x (List.mem_cons_self ..)
    rw [List.nil_append]
    unfold upsert
    rw [if_pos hx]; rfl
  | x :: a, b, h => by
    rw [List.cons_append]
    unfold upsert
    by_cases c : key < x.1
    · rw [if_pos c, if_pos c]; rfl
    · rw [if_neg c, if_neg c]
      by_cases c2 : x.1 = key
      · rw [if_pos c2, if_pos c2]; rfl
      · rw [if_neg c2, if_neg c2, upsert_app_right h]; rfl

theorem mem_upsert {key : K} {org : Int} {y : K × Int} : ∀ {l : List (K × Int)}, y ∈ upsert key org l → y = (key, org) ∨ y ∈ l
  | [], h => by simpa [upsert] using h
  | x :: l, h => by
    unfold upsert at h
    split at h
    · simpa using h
    · split at h
      · rcases List.mem_cons.mp h with g | g
        · exact Or.inl g
        · exact Or.inr (List.mem_cons_of_mem _ g)
      · rcases List.mem_cons.mp h with g | g
        · exact Or.inr (by rw [g]; exact List.mem_cons_self ..)
        · rcases mem_upsert g with g | g
          · exact Or.inl g
          · exact Or.inr (List.mem_cons_of_mem _ g)

theorem upsert_sorted {key : K} {org : Int} : ∀ {l : List (K × Int)}, Sorted l → Sorted (upsert key org l)
  | [], _ => by simp [Sorted, upsert]
  | x :: l, h => by
    obtain ⟨h1, h2⟩ := List.pairwise_cons.mp h
    unfold upsert Sorted
    by_cases c : key < x.1
    · rw [if_pos c, List.pairwise_cons]
      refine ⟨?_, h⟩
      intro y hy
      rcases List.mem_cons.mp hy with g | g
      · rw [g]; exact c
      · exact lt_trans c (h1 y g)
    · rw [if_neg c]
      by_cases c2 : x.1 = key
      · rw [if_pos c2, List.pairwise_cons]
        exact ⟨fun y hy => by rw [← c2]; exact h1 y hy, h2⟩
      · rw [if_neg c2, List.pairwise_cons]
        refine ⟨?_, upsert_sorted h2⟩
        intro y hy
        rcases mem_upsert hy with g | g
        · rw [g]; exact lt_of_le_of_ne (not_lt.mp c) c2
        · exact h1 y g

theorem look_upsert {key : K} {org : Int} {j : K} : ∀ {l : List (K × Int)}, Sorted l → look j (upsert key org l) = if j = key then some org else look j l
  | [], _ => by
    unfold upsert look look
    by_cases c : j = key
    · rw [if_pos c.symm, if_pos c]
    · rw [if_neg (fun g => c g.symm), if_neg c]
  | x :: l, h => by
    obtain ⟨h1, h2⟩ := List.pairwise_cons.mp h
    unfold upsert
    by_cases c : key < x.1
    · rw [if_pos c]
      conv_lhs => unfold look
      by_cases c1 : j = key
      · rw [if_pos c1, if_pos c1.symm]
      · rw [if_neg c1, if_neg (fun g => c1 g.symm)]
    · rw [if_neg c]
      by_cases c2 : x.1 = key
      · rw [if_pos c2]
        unfold look
        by_cases c1 : j = key
        · rw [if_pos c1, if_pos c1.symm]
        · rw [if_neg c1, if_neg (fun g => c1 g.symm), if_neg (fun g => c1 (by rw [← g, c2]))]
      · rw [if_neg c2]
        unfold look
        by_cases c1 : x.1 = j
        · rw [if_pos c1, if_pos c1, if_neg (fun g => c2 (by rw [c1, g]))]
        · rw [if_neg c1, if_neg c1, look_upsert h2]

theorem erase_app (key : K) (a b : List (K × Int)) : erase key (a ++ b) = erase key a ++ erase key b := by simp [erase]

theorem erase_id {key : K} {l : List (K × Int)} (h : ∀ x ∈ l, x.1 ≠ key) : erase key l = l := by
  unfold erase
  rw [List.filter_eq_self]
  intro x hx
  simpa using h x hx

theorem erase_cons_eq {key : K} {x : K × Int} {l : List (K × Int)} (h : x.1 = key) : erase key (x :: l) = erase key l := by
  unfold erase
  rw [List.filter_cons, if_neg (by simp [h])]

theorem erase_sorted {key : K} {l : List (K × Int)} (h : Sorted l) : Sorted (erase key l) := List.Pairwise.filter _ h

theorem look_erase {key j : K} : ∀ (l : List (K × Int)), look j (erase key l) = if j = key then none else look j l
  | [] => by simp [erase, look]
  | x :: l => by
    by_cases c : x.1 = key
    · rw [erase_cons_eq c, look_erase l]
      by_cases c1 : j = key
      · rw [if_pos c1, if_pos c1]
      · rw [if_neg c1, if_neg c1]
        conv_rhs => unfold look
        rw [if_neg (fun g => c1 (by rw [← g, c]))]
    · have : erase key (x :: l) = x :: erase key l := by
        unfold erase
        rw [List.filter_cons, if_pos (by simp [c])]
      rw [this]
      unfold look
      by_cases c1 : x.1 = j
      · rw [if_pos c1, if_pos c1, if_neg (fun g => c (by rw [c1, g]))]
      · rw [if_neg c1, if_neg c1, look_erase l]

/-! ## Pages -/

theorem flatE_keys (h : Nat) : ∀ l : List (Ent K), List.Sublist (l.map kv) (flatE h l)
  | [] => List.Sublist.slnil
  | x :: l => by
    rw [flatE_cons, List.map_cons]
    exact ((flatE_keys h l).trans (List.sublist_append_right _ _)).cons_cons _

/-- The keys of a page ascend. -/
theorem page_keys {h : Nat} {p0 : Tree K} {m : Nat} {e : Nat → Ent K} (hs : Sorted (flat (h + 1) (.page p0 m e))) :
    ∀ i j, i < j → j < m → (e i).key < (e j).key := by
  intro i j hij hj
  rw [flat_page] at hs
  have h1 : ((ents m e).map kv).Pairwise (fun a b => a.1 < b.1) := List.Pairwise.sublist ((flatE_keys h _).trans (List.sublist_append_right _ _)) hs
  have := List.pairwise_iff_getElem.mp h1 i j (by rw [List.length_map, ents_length]; omega) (by rw [List.length_map, ents_length]; omega) hij
  simpa [ents_get, kv] using this

theorem pre_lt {h : Nat} {p0 : Tree K} {m : Nat} {e : Nat → Ent K} {R : Nat} {key : K} (hs : Sorted (flat (h + 1) (.page p0 m e))) (hR : R ≤ m)
    (hlt : ∀ i, i < R → (e i).key < key) : ∀ x ∈ pre h p0 e R, x.1 < key := by
  intro x hx
  rw [flat_parts h p0 m e R hR] at hs
  have h1 : (pre h p0 e R).Pairwise (fun a b => a.1 < b.1) := (List.pairwise_append.mp (List.pairwise_append.mp hs).1).1
  unfold pre at hx h1
  by_cases c : R = 0
  · rw [if_pos c] at hx; cases hx
  · rw [if_neg c] at hx h1
    have hl := hlt (R - 1) (by omega)
    rcases List.mem_append.mp hx with g | g
    · exact lt_trans ((List.pairwise_append.mp h1).2.2 x g _ (List.mem_singleton.mpr rfl)) hl
    · rw [List.mem_singleton.mp g]; exact hl

theorem post_gt {h : Nat} {p0 : Tree K} {m : Nat} {e : Nat → Ent K} {R : Nat} {key : K} (hs : Sorted (flat (h + 1) (.page p0 m e))) (hR : R ≤ m)
    (hlt : ∀ i, R ≤ i → i < m → key < (e i).key) : ∀ x ∈ flatE h ((ents m e).drop R), key < x.1 := by
  intro x hx
  rw [flat_parts h p0 m e R hR] at hs
  have h1 := (List.pairwise_append.mp hs).2.1
  by_cases c : R = m
  · rw [List.drop_of_length_le (by rw [ents_length]; omega), flatE_nil] at hx; cases hx
  · rw [drop_cons _ _ _ (by omega), flatE_cons] at hx h1
    have hl := hlt R (le_refl _) (by omega)
    rcases List.mem_cons.mp hx with g | g
    · rw [g]; exact hl
    · exact lt_trans hl ((List.pairwise_cons.mp h1).1 x g)

/-- A page that has the key: what comes before and after it. -/
theorem page_found {h : Nat} {p0 : Tree K} {m : Nat} {e : Nat → Ent K} {R : Nat} (hs : Sorted (flat (h + 1) (.page p0 m e))) (hR : R < m) :
    (∀ x ∈ pre h p0 e R ++ flat h (child p0 e R), x.1 < (e R).key) ∧ ∀ x ∈ flat h (e R).p ++ flatE h ((ents m e).drop (R + 1)), (e R).key < x.1 := by
  rw [flat_parts h p0 m e R (by omega), drop_cons _ _ _ hR, flatE_cons] at hs
  obtain ⟨_, h2, h3⟩ := List.pairwise_append.mp hs
  exact ⟨fun x hx => h3 x hx _ (List.mem_cons_self ..), fun x hx => (List.pairwise_cons.mp h2).1 x hx⟩

theorem child_sorted {h : Nat} {p0 : Tree K} {m : Nat} {e : Nat → Ent K} {R : Nat} (hs : Sorted (flat (h + 1) (.page p0 m e))) (hR : R ≤ m) :
    Sorted (flat h (child p0 e R)) := by
  rw [flat_parts h p0 m e R hR] at hs
  exact (List.pairwise_append.mp (List.pairwise_append.mp hs).1).2.1

end Verif.BTree
