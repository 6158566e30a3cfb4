import Verif.Common
import Verif.Procs.Model
import Verif.Types.Props

/-! # Lists of objects, and parameters that match -/
namespace Verif.Procs
open Verif.Types

mutual
theorem equal_symm {T : Tab} {t u : Nat} : Equal T t u → Equal T u t
  | .same t => .same t
  | .dyn h1 h2 h3 h4 h5 => .dyn h2 h1 h4 h3 (equal_symm h5)
  | .proc h1 h2 h3 h4 => .proc h2 h1 h3.symm (match_symm h4)
theorem match_symm {T : Tab} {ps qs : List Par} : Match T ps qs → Match T qs ps
  | .nil => .nil
  | .cons h1 h2 h3 => .cons h1.symm (equal_symm h2) (match_symm h3)
end

mutual
theorem equal_trans {T : Tab} (hw : Wf T) {t u : Nat} (h : Equal T t u) (v : Nat) (g : Equal T u v) : Equal T t v :=
  match h with
  | .same _ => g
  | .dyn h1 h2 h3 h4 h5 => by
    cases g with
    | same => exact .dyn h1 h2 h3 h4 h5
    | dyn g1 g2 g3 g4 g5 =>
      rw [h4] at g3
      cases g3
      exact .dyn h1 g2 h3 g4 (equal_trans hw h5 _ g5)
    | proc g1 _ _ _ =>
      have := (hw.comp u).mpr (by rw [h2]; simp)
      rw [g1] at this
      cases this
  | .proc h1 h2 h3 h4 => by
    cases g with
    | same => exact .proc h1 h2 h3 h4
    | dyn g1 _ _ _ _ =>
      have := (hw.comp u).mpr (by rw [g1]; simp)
      rw [h2] at this
      cases this
    | proc g1 g2 g3 g4 => exact .proc h1 g2 (h3.trans g3) (match_trans hw h4 _ g4)
theorem match_trans {T : Tab} (hw : Wf T) {ps qs : List Par} (h : Match T ps qs) (rs : List Par) (g : Match T qs rs) : Match T ps rs :=
  match h with
  | .nil => g
  | .cons h1 h2 h3 => by
    cases g with
    | cons g1 g2 g3 => exact .cons (h1.trans g1) (equal_trans hw h2 _ g2) (match_trans hw h3 _ g3)
end

theorem match_refl {T : Tab} : ∀ ps, Match T ps ps
  | [] => .nil
  | p :: ps => .cons rfl (.same _) (match_refl ps)

theorem Agree.symm {T : Tab} {e d : Head} (h : Agree T e d) : Agree T d e :=
  ⟨h.1.symm, h.2.1.symm, match_symm h.2.2.1, h.2.2.2.symm⟩

theorem Agree.trans {T : Tab} (hw : Wf T) {e d g : Head} (h : Agree T e d) (k : Agree T d g) : Agree T e g :=
  ⟨h.1.trans k.1, h.2.1.trans k.2.1, match_trans hw h.2.2.1 _ k.2.2.1, h.2.2.2.trans k.2.2.2⟩

theorem Agree.refl {T : Tab} (e : Head) : Agree T e e := ⟨rfl, rfl, match_refl _, rfl⟩

theorem chk_iff {E : Env} (hE : E.Ok) (names : Bool) (ps qs : List Par) :
    E.chk names ps qs = [] ↔ Match E.T ps qs ∧ (names = true → ps.map Par.name = qs.map Par.name) := by
  obtain ⟨f, hf⟩ := hE.chk names ps qs
  exact C53_match hE.wf f names ps qs _ hf

/-! ### Scopes -/

theorem insert_errs (s : List Obj) (o : Obj) : (insert s o).2 = [] ↔ o.name ∉ s.map Obj.name := by
  simp only [insert]
  by_cases h : s.any (fun p => p.name == o.name) = true
  · rw [if_pos h]
    simp only [List.any_eq_true, beq_iff_eq] at h
    obtain ⟨x, hx, hn⟩ := h
    simp only [reduceCtorEq, false_iff, not_not, List.mem_map]
    exact ⟨x, hx, hn⟩
  · rw [if_neg h]
    simp only [List.any_eq_true, beq_iff_eq, not_exists, not_and] at h
    simp only [true_iff, List.mem_map, not_exists, not_and]
    exact h

theorem insertAll_eq : ∀ (os s : List Obj), (insertAll s os).1 = s ++ os
  | [], s => by simp [insertAll]
  | o :: os, s => by
    simp only [insertAll]
    rw [insertAll_eq os]
    simp [insert]

theorem insertAll_errs : ∀ (os s : List Obj), (s.map Obj.name).Nodup →
    ((insertAll s os).2 = [] ↔ ((s ++ os).map Obj.name).Nodup)
  | [], s, hs => by simpa [insertAll] using hs
  | o :: os, s, hs => by
    simp only [insertAll, List.append_eq_nil_iff, insert_errs]
    by_cases h : o.name ∈ s.map Obj.name
    · refine ⟨fun g => absurd h g.1, fun g => ?_⟩
      rw [List.map_append, List.nodup_append] at g
      exact absurd rfl (g.2.2 _ h o.name (by simp))
    · have h1 : ((insert s o).1.map Obj.name).Nodup := by
        simp only [insert, List.map_append, List.map_cons, List.map_nil]
        rw [List.nodup_append]
        refine ⟨hs, by simp, ?_⟩
        intro a ha b hb
        simp only [List.mem_singleton] at hb
        rw [hb]
        rintro rfl
        exact h ha
      rw [insertAll_errs os _ h1]
      simp only [insert, List.append_assoc, List.singleton_append]
      exact ⟨fun g => g.2, fun g => ⟨h, g⟩⟩

theorem find_mem {n : Nat} {s : List Obj} {o : Obj} (h : s.find? (fun o => o.name == n) = some o) : o ∈ s ∧ o.name = n :=
  ⟨List.mem_of_find?_eq_some h, by simpa using List.find?_some h⟩

theorem find_none {n : Nat} {s : List Obj} (h : s.find? (fun o => o.name == n) = none) : ∀ o ∈ s, o.name ≠ n := by
  intro o ho hn
  have := List.find?_eq_none.mp h o ho
  simp [hn] at this

theorem nodup_eq {s : List Obj} (h : (s.map Obj.name).Nodup) {o p : Obj} (ho : o ∈ s) (hp : p ∈ s) (hn : o.name = p.name) : o = p :=
  List.inj_on_of_nodup_map h ho hp hn

theorem modify_names (n : Nat) (g : Obj → Obj) (hg : ∀ o, (g o).name = o.name) : ∀ s, (modify n g s).map Obj.name = s.map Obj.name
  | [] => rfl
  | o :: os => by
    simp only [modify]
    split
    · simp [hg]
    · simp [modify_names n g hg os]

theorem mem_modify {n : Nat} {g : Obj → Obj} (hg : ∀ o, (g o).name = o.name) : ∀ {s : List Obj} (_ : (s.map Obj.name).Nodup) (x : Obj),
    x ∈ modify n g s ↔ (x ∈ s ∧ x.name ≠ n) ∨ ∃ o ∈ s, o.name = n ∧ x = g o
  | [], _, x => by simp [modify]
  | o :: os, hs, x => by
    simp only [List.map_cons, List.nodup_cons] at hs
    simp only [modify]
    by_cases h : (o.name == n) = true
    · rw [if_pos h]
      have h' : o.name = n := by simpa using h
      have hne : ∀ y ∈ os, y.name ≠ n := fun y hy he => hs.1 (by rw [h', ← he]; exact List.mem_map_of_mem hy)
      simp only [List.mem_cons]
      constructor
      · rintro (rfl | hx)
        · exact Or.inr ⟨o, Or.inl rfl, h', rfl⟩
        · exact Or.inl ⟨Or.inr hx, hne x hx⟩
      · rintro (⟨rfl | hx, hn⟩ | ⟨y, rfl | hy, hn, rfl⟩)
        · exact absurd h' hn
        · exact Or.inr hx
        · exact Or.inl rfl
        · exact absurd hn (hne y hy)
    · rw [if_neg h]
      have h' : o.name ≠ n := by simpa using h
      simp only [List.mem_cons, mem_modify hg hs.2 x]
      constructor
      · rintro (rfl | ⟨hx, hn⟩ | ⟨y, hy, hn, rfl⟩)
        · exact Or.inl ⟨Or.inl rfl, h'⟩
        · exact Or.inl ⟨Or.inr hx, hn⟩
        · exact Or.inr ⟨y, Or.inr hy, hn, rfl⟩
      · rintro (⟨rfl | hx, hn⟩ | ⟨y, rfl | hy, hn, rfl⟩)
        · exact Or.inl rfl
        · exact Or.inr (Or.inl ⟨hx, hn⟩)
        · exact absurd hn h'
        · exact Or.inr (Or.inr ⟨y, hy, hn, rfl⟩)

/-! ### Members of records -/

/-- The key of a member. -/
def key (x : Nat × Obj) : Nat × Nat := (x.1, x.2.name)

theorem nodup_key {s : List (Nat × Obj)} (h : (s.map key).Nodup) {o p : Nat × Obj} (ho : o ∈ s) (hp : p ∈ s)
    (h1 : o.1 = p.1) (h2 : o.2.name = p.2.name) : o = p :=
  List.inj_on_of_nodup_map h ho hp (by simp [key, h1, h2])

theorem findr_mem {r n : Nat} {s : List (Nat × Obj)} {x : Nat × Obj} (h : s.find? (fun x => x.1 == r && x.2.name == n) = some x) :
    x ∈ s ∧ x.1 = r ∧ x.2.name = n :=
  ⟨List.mem_of_find?_eq_some h, by simpa using List.find?_some h⟩

theorem findr_none {r n : Nat} {s : List (Nat × Obj)} (h : s.find? (fun x => x.1 == r && x.2.name == n) = none) :
    ∀ x ∈ s, x.1 = r → x.2.name ≠ n := by
  intro x hx h1 h2
  have := List.find?_eq_none.mp h x hx
  simp [h1, h2] at this

theorem findr_of_mem {s : List (Nat × Obj)} (hs : (s.map key).Nodup) {x : Nat × Obj} (h : x ∈ s) :
    s.find? (fun y => y.1 == x.1 && y.2.name == x.2.name) = some x := by
  cases hf : s.find? (fun y => y.1 == x.1 && y.2.name == x.2.name) with
  | none => exact absurd rfl (findr_none hf x h rfl)
  | some y =>
    obtain ⟨h1, h2, h3⟩ := findr_mem hf
    rw [nodup_key hs h1 h h2 h3]

theorem modifyRec_keys (r n : Nat) (g : Obj → Obj) (hg : ∀ o, (g o).name = o.name) : ∀ s, (modifyRec r n g s).map key = s.map key
  | [] => rfl
  | o :: os => by
    simp only [modifyRec]
    split
    · simp [hg, key]
    · simp [modifyRec_keys r n g hg os]

theorem mem_modifyRec {r n : Nat} {g : Obj → Obj} (hg : ∀ o, (g o).name = o.name) : ∀ {s : List (Nat × Obj)} (_ : (s.map key).Nodup)
    (x : Nat × Obj), x ∈ modifyRec r n g s ↔ (x ∈ s ∧ ¬ (x.1 = r ∧ x.2.name = n)) ∨ ∃ o, (r, o) ∈ s ∧ o.name = n ∧ x = (r, g o)
  | [], _, x => by simp [modifyRec]
  | y :: ys, hs, x => by
    simp only [List.map_cons, List.nodup_cons] at hs
    simp only [modifyRec]
    by_cases h : (y.1 == r && y.2.name == n) = true
    · rw [if_pos h]
      obtain ⟨h1, h2⟩ : y.1 = r ∧ y.2.name = n := by simpa using h
      have hne : ∀ z ∈ ys, ¬ (z.1 = r ∧ z.2.name = n) := fun z hz he => hs.1 (by
        rw [show key y = key z by simp [key, h1, h2, he.1, he.2]]
        exact List.mem_map_of_mem hz)
      simp only [List.mem_cons]
      constructor
      · rintro (rfl | hx)
        · exact Or.inr ⟨y.2, Or.inl (by rw [← h1]), h2, by rw [h1]⟩
        · exact Or.inl ⟨Or.inr hx, hne x hx⟩
      · rintro (⟨rfl | hx, hn⟩ | ⟨o, h3 | hy, hn, rfl⟩)
        · exact absurd ⟨h1, h2⟩ hn
        · exact Or.inr hx
        · exact Or.inl (by rw [← h3])
        · exact absurd ⟨rfl, hn⟩ (hne _ hy)
    · rw [if_neg h]
      have h' : ¬ (y.1 = r ∧ y.2.name = n) := by simpa using h
      simp only [List.mem_cons, mem_modifyRec hg hs.2 x]
      constructor
      · rintro (rfl | ⟨hx, hn⟩ | ⟨o, hy, hn, rfl⟩)
        · exact Or.inl ⟨Or.inl rfl, h'⟩
        · exact Or.inl ⟨Or.inr hx, hn⟩
        · exact Or.inr ⟨o, Or.inr hy, hn, rfl⟩
      · rintro (⟨rfl | hx, hn⟩ | ⟨o, h3 | hy, hn, rfl⟩)
        · exact Or.inl rfl
        · exact Or.inr (Or.inl ⟨hx, hn⟩)
        · exact absurd ⟨by rw [← h3], by rw [← h3]; exact hn⟩ h'
        · exact Or.inr (Or.inr ⟨o, hy, hn, rfl⟩)
end Verif.Procs
