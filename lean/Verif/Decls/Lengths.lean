import Verif.Decls.Chain

/-!
# The lengths of arrays in declarations
-/
namespace Verif.Decls
open Verif.Types

theorem endArr_errs {r : St × Nat} {t : Nat} (h : (endArr r t).errs = []) : r.1.errs = [] := by
  unfold endArr at h
  split at h
  · simp [err] at h
  · exact h

mutual
theorem lenD (mx : Int) : ∀ (e : TE) (s : St) (loc : Loc) (banned : Option Nat), LocIn s loc → (typeDecl mx s loc banned e).1.errs = [] → Lengths mx e
  | .name q, s, loc, banned, hl, he => trivial
  | .dyn e, s, loc, banned, hl, he => by
    rw [typeDecl.eq_2] at he
    try dsimp only at he
    have hn := new_next s loc { form := .comp, comp := .dyn }
    generalize new s loc { form := .comp, comp := .dyn } = s1 at *
    have he1 : (typeCheck (typeDecl mx s1 (.base s.next) banned e)).1.errs = [] := he
    exact lenD mx e s1 (.base s.next) banned ⟨fun u e => (by cases e; omega), fun i e => (by cases e)⟩ ((fr_typeCheck No No _).clean he1)
  | .arr n e, s, loc, banned, hl, he => by
    rw [typeDecl.eq_3] at he
    try dsimp only at he
    have hn := new_next s loc { form := .comp, comp := .array, n := if n ≤ 0 ∨ n > mx then 1 else n.toNat }
    generalize new s loc { form := .comp, comp := .array, n := if n ≤ 0 ∨ n > mx then 1 else n.toNat } = s0 at *
    have hn1 : (if n ≤ 0 ∨ n > mx then err s0 63 else s0).next = s.next + 1 := by split <;> exact hn
    have hl1 : LocIn (if n ≤ 0 ∨ n > mx then err s0 63 else s0) (.base s.next) := ⟨fun u e => (by cases e; omega), fun i e => (by cases e)⟩
    have he1 : (typeCheck (typeDecl mx (if n ≤ 0 ∨ n > mx then err s0 63 else s0) (.base s.next) banned e)).1.errs = [] := endArr_errs he
    have he2 := (fr_typeCheck No No _).clean he1
    have he3 := (frD mx e _ (.base s.next) banned hl1).1.clean he2
    have ih := lenD mx e _ (.base s.next) banned hl1 he2
    by_cases c : n ≤ 0 ∨ n > mx
    · rw [if_pos c] at he3
      simp [err] at he3
    · exact ⟨by omega, by omega, ih⟩
  | .recd b fs, s, loc, banned, hl, he => by
    rw [typeDecl.eq_4] at he
    try dsimp only at he
    have hn := new_next s loc { form := .comp, comp := .record, base := none }
    generalize new s loc { form := .comp, comp := .record, base := none } = s0 at *
    have hn1 : (recBase s0 s.next banned b).next = s.next + 1 := (recBase_next _ _ _ _).1.trans hn
    exact lenF mx fs (openScope (recBase s0 s.next banned b)) s.next banned (by simp only [openScope]; omega) he
  | .ptrTo q, s, loc, banned, hl, he => trivial
  | .ptr e, s, loc, banned, hl, he => by
    rw [typeDecl.eq_6] at he
    try dsimp only at he
    have hn := new_next s loc { form := .ptr }
    generalize new s loc { form := .ptr } = s1 at *
    have he1 : (typeCheck (typeDecl mx s1 (.base s.next) none e)).1.errs = [] := by
      unfold endPtr at he
      split at he
      · simp [err] at he
      · exact he
    exact lenD mx e s1 (.base s.next) none ⟨fun u e => (by cases e; omega), fun i e => (by cases e)⟩ ((fr_typeCheck No No _).clean he1)
  | .proc ps res, s, loc, banned, hl, he => by
    rw [typeDecl.eq_7] at he
    try dsimp only at he
    have hn := new_next s loc { form := .proc }
    generalize new s loc { form := .proc } = s1 at *
    have c1 := (frP mx ps (openScope s1)).1.next
    have hlt : s.next < (parList mx (openScope s1) ps).1.next := by simp only [openScope] at c1 ⊢; omega
    exact lenP mx ps (openScope s1) ((fr_endProc (fun u => u = s.next) No _ s.next _ res hlt rfl).clean he)
theorem lenF (mx : Int) : ∀ (fs : GL) (s : St) (t : Nat) (banned : Option Nat), t < s.next → (fieldList mx s t banned fs).errs = [] → LengthsL mx fs
  | .nil, s, t, banned, ht, he => trivial
  | .cons v xs e rest, s, t, banned, ht, he => by
    rw [fieldList.eq_2] at he
    try dsimp only at he
    have h0 := (fr_addFields (fun u => u = t) No t rfl xs s ht).next
    generalize addFields s t xs = s1 at *
    have hl : LocIn s1 .tmp := ⟨fun u e => (by cases e), fun i e => (by cases e)⟩
    have n1 := (frD mx e s1 .tmp banned hl).1.next
    have n2 := (fr_typeCheck No No (typeDecl mx s1 .tmp banned e)).next
    have n3 := (fr_noDyn No No (typeCheck (typeDecl mx s1 .tmp banned e))).next
    have hlt : t < (setFields (noDyn (typeCheck (typeDecl mx s1 .tmp banned e))).1 t xs (noDyn (typeCheck (typeDecl mx s1 .tmp banned e))).2).next := by
      show t < (noDyn (typeCheck (typeDecl mx s1 .tmp banned e))).1.next
      omega
    have he1 : (noDyn (typeCheck (typeDecl mx s1 .tmp banned e))).1.errs = [] := (frF mx rest _ t banned hlt).1.clean he
    exact ⟨lenD mx e s1 .tmp banned hl ((fr_typeCheck No No _).clean ((fr_noDyn No No _).clean he1)), lenF mx rest _ t banned hlt he⟩
theorem lenP (mx : Int) : ∀ (ps : GL) (s : St), (parList mx s ps).1.errs = [] → LengthsL mx ps
  | .nil, s, he => trivial
  | .cons v xs e rest, s, he => by
    rw [parList.eq_2] at he
    try dsimp only at he
    have hl : LocIn (addObjs s xs) .tmp := ⟨fun u e => (by cases e), fun i e => (by cases e)⟩
    have he1 : (typeCheck (typeDecl mx (addObjs s xs) .tmp none e)).1.errs = [] := (frP mx rest _).1.clean he
    exact ⟨lenD mx e _ .tmp none hl ((fr_typeCheck No No _).clean he1), lenP mx rest _ he⟩
end

/-- The expression of a declaration. -/
theorem declare_lengths (mx : Int) (s : St) (d : Decl) (hs : s.scopes ≠ []) (he : (declare mx s d).errs = []) :
    (∀ x e, d = .typ x e → Lengths mx e) ∧ ∀ xs e, d = .var xs e → Lengths mx e := by
  cases d with
  | const x => exact ⟨fun _ _ h => (by cases h), fun _ _ h => (by cases h)⟩
  | typ x e =>
    refine ⟨fun _ _ h => ?_, fun _ _ h => (by cases h)⟩
    cases h
    have he1 : (typeDecl mx (insert s x { mode := .typ }) (.obj s.nobj) (some s.nobj) e).1.errs = [] := by
      simp only [declare] at he
      split at he <;> exact he
    have hin : (insert s x { mode := .typ }).nobj = s.nobj + 1 := insert_nobj s x _ hs
    exact lenD mx e _ _ _ ⟨fun u e => (by cases e), fun i e => (by cases e; omega)⟩ he1
  | var xs e =>
    refine ⟨fun _ _ h => (by cases h), fun _ _ h => ?_⟩
    cases h
    have he1 : (noDyn (typeCheck (typeDecl mx (addObjs s xs) .tmp none e))).1.errs = [] := he
    exact lenD mx e _ _ _ ⟨fun u e => (by cases e), fun i e => (by cases e)⟩ ((fr_typeCheck No No _).clean ((fr_noDyn No No _).clean he1))

/-- A field found on the way to the first base type. -/
theorem findField_has {s : St} {B : Nat → Prop} {u : Nat} (h : Anc s B u) {x : Nat} (hx : HasField s.tab s.fields u x) : findField s x ((s.tab u).extlev + 1) u = true := by
  induction h with
  | mk u hl hb hr he h ih =>
    cases hx with
    | own hm =>
      simp only [findField, Bool.or_eq_true, List.any_eq_true]
      exact .inl ⟨_, hm, by simp⟩
    | base hv hf =>
      simp only [findField, Bool.or_eq_true, hv]
      have := ih _ hv hf
      rw [he _ hv]
      exact .inr this

end Verif.Decls
