import Verif.Decls.Frame

/-!
# Types under construction
-/
namespace Verif.Decls
open Verif.Types

/-- Only finitely many steps lead from `u` to parts of it, up to types in `A`; types in `B`, which are not complete, are not met. -/
inductive Fin (s : St) (A B : Nat → Prop) : Nat → Prop where
  | stop (u : Nat) (h : A u) (hl : u < s.next) : Fin s A B u
  | mk (u : Nat) (hl : u < s.next) (hb : ¬ B u) (h : ∀ v, Contains s.tab s.fields u v → Fin s A B v) : Fin s A B u

theorem Fin.lt {s : St} {A B : Nat → Prop} {u : Nat} (h : Fin s A B u) : u < s.next := by
  cases h <;> assumption

theorem Fin.notB {s : St} {B : Nat → Prop} {u : Nat} (h : Fin s (fun _ => False) B u) : ¬ B u := by
  cases h with
  | stop _ h => exact h.elim
  | mk _ _ hb => exact hb

theorem contains_congr {s s' : St} {u v : Nat} (ht : s'.tab u = s.tab u) (hf : s'.fields u = s.fields u) (h : Contains s'.tab s'.fields u v) :
    Contains s.tab s.fields u v := by
  unfold Contains at *
  rw [ht, hf] at h
  exact h

theorem Fin.mono {s s' : St} {A A' B B' P Q : Nat → Prop} {u : Nat} (h : Fin s A B u) (a : Fr P Q s s') (hP : ∀ t < s.next, P t → B t)
    (hB : ∀ t < s.next, B' t → B t) (hA : ∀ t, A t → A' t) : Fin s' A' B' u := by
  induction h with
  | stop u h hl => exact .stop u (hA u h) (by have := a.next; omega)
  | mk u hl hb h ih =>
    refine .mk u (by have := a.next; omega) (fun x => hb (hB u hl x)) fun v hv => ih v ?_
    have n : ¬ P u := fun x => hb (hP u hl x)
    exact contains_congr (a.tab u hl n) (a.fields u hl n) hv

theorem Fin.close {s : St} {A B : Nat → Prop} {u : Nat} (h : Fin s A B u) (hA : ∀ t, A t → Fin s (fun _ => False) B t) : Fin s (fun _ => False) B u := by
  induction h with
  | stop u h hl => exact hA u h
  | mk u hl hb h ih => exact .mk u hl hb ih

theorem Fin.weaken {s : St} {A A' B B' : Nat → Prop} {u : Nat} (h : Fin s A B u) (hB : ∀ t, B' t → B t) (hA : ∀ t, A t → A' t) : Fin s A' B' u :=
  h.mono (Fr.refl (fun _ => False) (fun _ => False) s) (fun _ _ x => x.elim) (fun t _ x => hB t x) hA

/-- A record whose base types are records of the levels below, none of them in `B`. -/
inductive Anc (s : St) (B : Nat → Prop) : Nat → Prop where
  | mk (u : Nat) (hl : u < s.next) (hb : ¬ B u) (hr : (s.tab u).comp = .record) (hx : ∀ v, (s.tab u).base = some v → (s.tab u).extlev = (s.tab v).extlev + 1)
      (h : ∀ v, (s.tab u).base = some v → Anc s B v) : Anc s B u

theorem Anc.lt {s : St} {B : Nat → Prop} {u : Nat} (h : Anc s B u) : u < s.next := by
  cases h; assumption

theorem Anc.mono' {s s' : St} {B B' : Nat → Prop} {u : Nat} (h : Anc s B u) (hn : s.next ≤ s'.next) (ht : ∀ t < s.next, ¬ B t → (s.tab t).comp = .record → s'.tab t = s.tab t)
    (hB : ∀ t < s.next, B' t → B t) : Anc s' B' u := by
  induction h with
  | mk u hl hb hr hx h ih =>
    refine .mk u (by omega) (fun x => hb (hB u hl x)) (by rw [ht u hl hb hr]; exact hr) (fun v hv => ?_) (fun v hv => ?_)
    · rw [ht u hl hb hr] at hv ⊢
      cases h v hv with
      | mk _ hl2 hb2 hr2 _ _ => rw [ht v hl2 hb2 hr2]; exact hx v hv
    · rw [ht u hl hb hr] at hv
      exact ih v hv

theorem Anc.mono {s s' : St} {B B' P Q : Nat → Prop} {u : Nat} (h : Anc s B u) (a : Fr P Q s s') (hP : ∀ t < s.next, P t → B t) (hB : ∀ t < s.next, B' t → B t) : Anc s' B' u :=
  h.mono' a.next (fun t ht hb _ => a.tab t ht fun x => hb (hP t ht x)) hB

theorem findField_congr {s s' : St} {B : Nat → Prop} {u : Nat} (h : Anc s B u) (ht : ∀ t < s.next, ¬ B t → (s.tab t).comp = .record → s'.tab t = s.tab t ∧ s'.fields t = s.fields t) (x : Nat) :
    ∀ n, findField s' x n u = findField s x n u := by
  induction h with
  | mk u hl hb hr hx h ih =>
    intro n
    cases n with
    | zero => rfl
    | succ n =>
      obtain ⟨e1, e2⟩ := ht u hl hb hr
      simp only [findField, e1, e2]
      cases c : (s.tab u).base with
      | none => rfl
      | some v => simp only [ih v c n]

/-- `u` is a record extending `b`, and none of its own fields is one of `b`. -/
def Own (s : St) (B : Nat → Prop) (u : Nat) : Prop :=
  ∀ b, (s.tab u).comp = .record → (s.tab u).base = some b → Anc s B b ∧ ∀ p ∈ s.fields u, findField s p.1 ((s.tab b).extlev + 1) b = false

theorem Own.mono' {s s' : St} {B B' : Nat → Prop} {u : Nat} (h : Own s B u) (hu : u < s.next) (hb : ¬ B u) (hn : s.next ≤ s'.next)
    (hk : ∀ t < s.next, (s'.tab t).comp = (s.tab t).comp) (ht : ∀ t < s.next, ¬ B t → (s.tab t).comp = .record → s'.tab t = s.tab t ∧ s'.fields t = s.fields t)
    (hB : ∀ t < s.next, B' t → B t) : Own s' B' u := by
  intro b h1 h2
  obtain ⟨e1, e2⟩ := ht u hu hb (by rw [← hk u hu]; exact h1)
  rw [e1] at h1 h2
  obtain ⟨k1, k2⟩ := h b h1 h2
  refine ⟨k1.mono' hn (fun t a b c => (ht t a b c).1) hB, fun p hp => ?_⟩
  rw [e2] at hp
  rw [findField_congr k1 ht]
  cases k1 with
  | mk _ hl2 hb2 hr2 _ _ => rw [(ht b hl2 hb2 hr2).1]; exact k2 p hp

/-- What holds of the entry of a complete type; `pl` for the counts of open dimensions. -/
structure Good (pl : Prop × Prop) (s : St) (B : Nat → Prop) (u : Nat) : Prop where
  lt : u < s.next
  notB : ¬ B u
  form : (s.tab u).form = .comp ∨ (s.tab u).form = .ptr ∨ (s.tab u).form = .proc
  comp : (s.tab u).form = .comp ↔ (s.tab u).comp ≠ .basic
  base : ∀ b, (s.tab u).base = some b → b < s.next
  record : ∀ b, (s.tab u).comp = .record → (s.tab u).base = some b → (s.tab b).comp = .record ∧ (s.tab u).extlev = (s.tab b).extlev + 1
  array : (s.tab u).comp = .array → ∃ b, (s.tab u).base = some b ∧ (s.tab b).comp ≠ .dyn
  dyn : (s.tab u).comp = .dyn → ∃ b, (s.tab u).base = some b ∧ (pl.1 → (s.tab b).comp = .dyn → ¬ B b ∧ (s.tab u).n = (s.tab b).n + 1)
  ptr : (s.tab u).form = .ptr → ∃ b, (s.tab u).base = some b
  names : (s.tab u).comp = .record → ((s.fields u).map Prod.fst).Nodup
  own : pl.2 → Own s B u

theorem Good.mono {pl : Prop × Prop} {s s' : St} {B B' P Q : Nat → Prop} {u : Nat} (h : Good pl s B u) (a : Fr P Q s s') (hP : ∀ t < s.next, P t → B t)
    (hB : ∀ t < s.next, B' t → B t) : Good pl s' B' u := by
  have n : ∀ t < s.next, ¬ B t → ¬ P t := fun t ht hb x => hb (hP t ht x)
  have et := a.tab u h.lt (n u h.lt h.notB)
  have ef := a.fields u h.lt (n u h.lt h.notB)
  refine ⟨by have := h.lt; have := a.next; omega, fun x => h.notB (hB u h.lt x), ?_, ?_, ?_, ?_, ?_, ?_, ?_, ?_, ?_⟩
  · rw [et]; exact h.form
  · rw [et]; exact h.comp
  · rw [et]
    intro b hb
    have := h.base b hb
    have := a.next
    omega
  · rw [et]
    intro b h1 h2
    obtain ⟨_, k2, k3⟩ := a.keep b (h.base b h2)
    rw [k2, k3]
    exact h.record b h1 h2
  · rw [et]
    intro h1
    obtain ⟨b, h2, h3⟩ := h.array h1
    obtain ⟨_, k2, k3⟩ := a.keep b (h.base b h2)
    exact ⟨b, h2, by rw [k2]; exact h3⟩
  · rw [et]
    intro h1
    obtain ⟨b, h2, h3⟩ := h.dyn h1
    have hb := h.base b h2
    obtain ⟨_, k2, k3⟩ := a.keep b hb
    refine ⟨b, h2, fun p h4 => ?_⟩
    rw [k2] at h4
    obtain ⟨h5, h6⟩ := h3 p h4
    rw [a.tab b hb (n b hb h5)]
    exact ⟨fun x => h5 (hB b hb x), h6⟩
  · rw [et]; exact h.ptr
  · rw [et, ef]; exact h.names
  · exact fun p => (h.own p).mono' h.lt h.notB a.next (fun t ht => (a.keep t ht).2.1) (fun t ht hb _ => ⟨a.tab t ht (n t ht hb), a.fields t ht (n t ht hb)⟩) hB

theorem Good.weaken {pl : Prop × Prop} {s : St} {B B' : Nat → Prop} {u : Nat} (h : Good pl s B u) (hB : ∀ t, B' t → B t) : Good pl s B' u :=
  h.mono (Fr.refl (fun _ => False) (fun _ => False) s) (fun _ _ x => x.elim) (fun t _ x => hB t x)

/-! ### What a type is so far -/
section
variable (s : St) (B : Nat → Prop) (env : Qual → Option Nat) (sec : Nat → Option Nat)

mutual
/-- `Describes`, with pointers still to be completed. -/
def Desc : TE → Nat → Prop
  | .name q, t => env q = some t
  | .dyn e, t => t < s.next ∧ ¬ B t ∧ (s.tab t).form = .comp ∧ (s.tab t).comp = .dyn ∧ ∃ b, (s.tab t).base = some b ∧ Desc e b
  | .arr n e, t => t < s.next ∧ ¬ B t ∧ (s.tab t).form = .comp ∧ (s.tab t).comp = .array ∧ 0 < n ∧ ((s.tab t).n : Int) = n ∧
      ∃ b, (s.tab t).base = some b ∧ b < s.next ∧ (s.tab b).comp ≠ .dyn ∧ Desc e b
  | .recd q fs, t => t < s.next ∧ ¬ B t ∧ (s.tab t).form = .comp ∧ (s.tab t).comp = .record ∧
      (match q with
       | none => (s.tab t).base = none ∧ (s.tab t).extlev = 0
       | some q => ∃ b, env q = some b ∧ b < s.next ∧ (s.tab b).comp = .record ∧ (s.tab t).base = some b ∧ (s.tab t).extlev = (s.tab b).extlev + 1) ∧
      DescF fs (s.fields t)
  | .ptrTo q, t => t < s.next ∧ ¬ B t ∧ (s.tab t).form = .ptr ∧ (s.tab t).comp = .basic ∧
      ((∃ b, env q = some b ∧ (s.tab t).base = some b ∧ b < s.next ∧ (s.tab b).comp ≠ .basic ∧ ∀ y, (t, some y) ∉ s.fwd) ∨
       (∃ x, q = .id x ∧ env q = none ∧ (t, some x) ∈ s.fwd ∧ ∀ y, (t, some y) ∈ s.fwd → y = x) ∨
       (∃ x b, q = .id x ∧ env q = none ∧ sec x = some b ∧ (s.tab t).base = some b ∧ b < s.next ∧ (s.tab b).comp ≠ .basic ∧ ∀ y, (t, some y) ∉ s.fwd))
  | .ptr e, t => t < s.next ∧ ¬ B t ∧ (s.tab t).form = .ptr ∧ (s.tab t).comp = .basic ∧ (∀ y, (t, some y) ∉ s.fwd) ∧
      ∃ b, (s.tab t).base = some b ∧ b < s.next ∧ (s.tab b).comp ≠ .basic ∧ Desc e b
  | .proc ps res, t => t < s.next ∧ ¬ B t ∧ (s.tab t).form = .proc ∧ (s.tab t).comp = .basic ∧ DescP ps (s.tab t).params ∧
      match res with
      | none => (s.tab t).base = some notyp
      | some q => ∃ b, env q = some b ∧ b < s.next ∧ (s.tab b).comp = .basic ∧ (s.tab t).base = some b
def DescF : GL → List (Nat × Nat) → Prop
  | .nil, l => l = []
  | .cons _ names e rest, l => ∃ t r, l = names.map (·, t) ++ r ∧ t < s.next ∧ (s.tab t).comp ≠ .dyn ∧ Desc e t ∧ DescF rest r
def DescP : GL → List Par → Prop
  | .nil, l => l = []
  | .cons v names e rest, l => ∃ t r, l = names.map (fun x => ⟨v, t, x⟩) ++ r ∧ Desc e t ∧ DescP rest r
end
end

theorem fwd_old {P Q : Nat → Prop} {s s' : St} (a : Fr P Q s s') {t : Nat} (ht : t < s.next) (y : Nat) : (t, some y) ∈ s'.fwd ↔ (t, some y) ∈ s.fwd := by
  obtain ⟨w, e, hw⟩ := a.fwd
  rw [e, List.mem_append]
  constructor
  · rintro (h | h)
    · exact h
    · have := (hw _ h).1
      simp only at this
      omega
  · exact .inl

/-- Only the structures in `P` have changed. -/
structure FrT (P : Nat → Prop) (s s' : St) : Prop where
  next : s.next ≤ s'.next
  tab : ∀ t < s.next, ¬ P t → s'.tab t = s.tab t
  keep : ∀ t < s.next, (s'.tab t).form = (s.tab t).form ∧ (s'.tab t).comp = (s.tab t).comp ∧ (s'.tab t).extlev = (s.tab t).extlev
  fields : ∀ t < s.next, ¬ P t → s'.fields t = s.fields t
  old : ∀ t < s.next, ∀ y, (t, some y) ∈ s'.fwd ↔ (t, some y) ∈ s.fwd

theorem Fr.t {P Q : Nat → Prop} {s s' : St} (a : Fr P Q s s') : FrT P s s' :=
  ⟨a.next, a.tab, a.keep, a.fields, fun _ ht y => fwd_old a ht y⟩

section
variable {s s' : St} {B B' P : Nat → Prop} {env : Qual → Option Nat} {sec : Nat → Option Nat}

mutual
theorem Desc.mono' (a : FrT P s s') (hP : ∀ t < s.next, P t → B t) (hB : ∀ t < s.next, B' t → B t) : ∀ (e : TE) (t : Nat), Desc s B env sec e t → Desc s' B' env sec e t
  | .name q, t, h => h
  | .dyn e, t, h => by
    unfold Desc at h ⊢
    obtain ⟨h1, h2, h3, h4, b, h5, h6⟩ := h
    rw [a.tab t h1 (fun x => h2 (hP t h1 x))]
    exact ⟨by have := a.next; omega, fun x => h2 (hB t h1 x), h3, h4, b, h5, Desc.mono' a hP hB e b h6⟩
  | .arr n e, t, h => by
    unfold Desc at h ⊢
    obtain ⟨h1, h2, h3, h4, h5, h6, b, h7, h8, h9, h10⟩ := h
    rw [a.tab t h1 (fun x => h2 (hP t h1 x))]
    exact ⟨by have := a.next; omega, fun x => h2 (hB t h1 x), h3, h4, h5, h6, b, h7, by have := a.next; omega, by rw [(a.keep b h8).2.1]; exact h9, Desc.mono' a hP hB e b h10⟩
  | .recd q fs, t, h => by
    unfold Desc at h ⊢
    obtain ⟨h1, h2, h3, h4, h5, h6⟩ := h
    rw [a.tab t h1 (fun x => h2 (hP t h1 x)), a.fields t h1 (fun x => h2 (hP t h1 x))]
    refine ⟨by have := a.next; omega, fun x => h2 (hB t h1 x), h3, h4, ?_, DescF.mono' a hP hB fs _ h6⟩
    cases q with
    | none => exact h5
    | some q =>
      obtain ⟨b, k1, k2, k3, k4, k5⟩ := h5
      refine ⟨b, k1, by have := a.next; omega, ?_, k4, ?_⟩
      · rw [(a.keep b k2).2.1]; exact k3
      · rw [(a.keep b k2).2.2]; exact k5
  | .ptrTo q, t, h => by
    unfold Desc at h ⊢
    obtain ⟨h1, h2, h3, h4, h5⟩ := h
    rw [a.tab t h1 (fun x => h2 (hP t h1 x))]
    simp only [a.old t h1]
    refine ⟨by have := a.next; omega, fun x => h2 (hB t h1 x), h3, h4, ?_⟩
    rcases h5 with ⟨b, k1, k2, k3, k4, k5⟩ | h5 | ⟨x, b, k1, k2, k3, k4, k5, k6, k7⟩
    · exact .inl ⟨b, k1, k2, by have := a.next; omega, by rw [(a.keep b k3).2.1]; exact k4, k5⟩
    · exact .inr (.inl h5)
    · exact .inr (.inr ⟨x, b, k1, k2, k3, k4, by have := a.next; omega, by rw [(a.keep b k5).2.1]; exact k6, k7⟩)
  | .ptr e, t, h => by
    unfold Desc at h ⊢
    obtain ⟨h1, h2, h3, h4, h5, b, h6, h7, h8, h9⟩ := h
    rw [a.tab t h1 (fun x => h2 (hP t h1 x))]
    simp only [a.old t h1]
    exact ⟨by have := a.next; omega, fun x => h2 (hB t h1 x), h3, h4, h5, b, h6, by have := a.next; omega, by rw [(a.keep b h7).2.1]; exact h8, Desc.mono' a hP hB e b h9⟩
  | .proc ps res, t, h => by
    unfold Desc at h ⊢
    obtain ⟨h1, h2, h3, h4, h5, h6⟩ := h
    rw [a.tab t h1 (fun x => h2 (hP t h1 x))]
    refine ⟨by have := a.next; omega, fun x => h2 (hB t h1 x), h3, h4, DescP.mono' a hP hB ps _ h5, ?_⟩
    cases res with
    | none => exact h6
    | some q =>
      obtain ⟨b, k1, k2, k3, k4⟩ := h6
      exact ⟨b, k1, by have := a.next; omega, by rw [(a.keep b k2).2.1]; exact k3, k4⟩
theorem DescF.mono' (a : FrT P s s') (hP : ∀ t < s.next, P t → B t) (hB : ∀ t < s.next, B' t → B t) : ∀ (fs : GL) (l : List (Nat × Nat)),
    DescF s B env sec fs l → DescF s' B' env sec fs l
  | .nil, l, h => h
  | .cons v xs e rest, l, h => by
    unfold DescF at h ⊢
    obtain ⟨t, r, h1, h2, h3, h4, h5⟩ := h
    exact ⟨t, r, h1, by have := a.next; omega, by rw [(a.keep t h2).2.1]; exact h3, Desc.mono' a hP hB e t h4, DescF.mono' a hP hB rest r h5⟩
theorem DescP.mono' (a : FrT P s s') (hP : ∀ t < s.next, P t → B t) (hB : ∀ t < s.next, B' t → B t) : ∀ (fs : GL) (l : List Par),
    DescP s B env sec fs l → DescP s' B' env sec fs l
  | .nil, l, h => h
  | .cons v xs e rest, l, h => by
    unfold DescP at h ⊢
    obtain ⟨t, r, h1, h4, h5⟩ := h
    exact ⟨t, r, h1, Desc.mono' a hP hB e t h4, DescP.mono' a hP hB rest r h5⟩
end

variable {Q : Nat → Prop}
theorem Desc.mono (a : Fr P Q s s') (hP : ∀ t < s.next, P t → B t) (hB : ∀ t < s.next, B' t → B t) (e : TE) (t : Nat) (h : Desc s B env sec e t) : Desc s' B' env sec e t :=
  Desc.mono' a.t hP hB e t h
theorem DescF.mono (a : Fr P Q s s') (hP : ∀ t < s.next, P t → B t) (hB : ∀ t < s.next, B' t → B t) (fs : GL) (l : List (Nat × Nat)) (h : DescF s B env sec fs l) : DescF s' B' env sec fs l :=
  DescF.mono' a.t hP hB fs l h
theorem DescP.mono (a : Fr P Q s s') (hP : ∀ t < s.next, P t → B t) (hB : ∀ t < s.next, B' t → B t) (ps : GL) (l : List Par) (h : DescP s B env sec ps l) : DescP s' B' env sec ps l :=
  DescP.mono' a.t hP hB ps l h
end

/-! ### What names stand for -/

/-- `env` gives the types of the names that are found. -/
structure EnvOf (scopes : List (List (Nat × Nat))) (objs : Nat → Obj) (imports : Nat → Nat → Option Obj) (env : Qual → Option Nat) : Prop where
  id : ∀ x i, findIn x scopes = some i → (objs i).mode = .typ → env (.id x) = some (objs i).typ
  none : ∀ x, findIn x scopes = none → env (.id x) = none
  sel : ∀ m x i ob, findIn m scopes = some i → (objs i).mode = .mod → imports i x = some ob → ob.mode = .typ → env (.sel m x) = some ob.typ

/-- The types of a state on the way. -/
structure Hyp (o : Option Nat) (x0 : Nat) (B : Nat → Prop) (s : St) : Prop where
  pos : 1 < s.next
  bs : ∀ t, B t → t < s.next
  sc : ∀ x i, findIn x s.scopes = some i → i < s.nobj
  ob : ∀ i < s.nobj, (s.objs i).mode = .typ → o ≠ some i → Fin s (fun _ => False) B (s.objs i).typ
  im : ∀ i x ob, s.imports i x = some ob → ob.mode = .typ → Fin s (fun _ => False) B ob.typ
  cur : ∀ i, o = some i → i < s.nobj ∧ (s.objs i).typ < s.next
  only : ∀ x i, findIn x s.scopes = some i → o = some i → x = x0
  beyond : ∀ t, s.next ≤ t → s.tab t = { form := .no } ∧ s.fields t = []
  fwd : ∀ p ∈ s.fwd, p.1 < s.next
  cb : ∀ t < s.next, (s.tab t).form = .comp ↔ (s.tab t).comp ≠ .basic
  anc : ∀ i < s.nobj, (s.objs i).mode = .typ → o ≠ some i → (s.tab (s.objs i).typ).comp = .record → Anc s B (s.objs i).typ
  ianc : ∀ i x ob, s.imports i x = some ob → ob.mode = .typ → (s.tab ob.typ).comp = .record → Anc s B ob.typ

/-- No name is found that was not found before, apart from new objects. -/
def Finds (s s' : St) : Prop :=
  ∀ x, (∀ i, findIn x s'.scopes = some i → (s.nobj ≤ i ∧ i < s'.nobj) ∨ findIn x s.scopes = some i) ∧ (findIn x s'.scopes = none → findIn x s.scopes = none)

theorem Finds.of_eq {s s' : St} (h : s'.scopes = s.scopes) : Finds s s' := by
  intro x
  rw [h]
  exact ⟨fun i a => .inr a, id⟩

theorem Finds.trans {s s1 s2 : St} (a : Finds s s1) (b : Finds s1 s2) (ha : s.nobj ≤ s1.nobj) (hb : s1.nobj ≤ s2.nobj) : Finds s s2 := by
  intro x
  refine ⟨fun i h => ?_, fun h => (a x).2 ((b x).2 h)⟩
  rcases (b x).1 i h with c | c
  · exact .inl (by omega)
  · rcases (a x).1 i c with d | d
    · exact .inl (by omega)
    · exact .inr d

theorem finds_open (s : St) : Finds s (openScope s) := by
  intro x
  simp only [openScope, findIn, List.lookup]
  exact ⟨fun i h => .inr h, id⟩

theorem lookup_append {x : Nat} {o : Nat} (f : List (Nat × Nat)) (y : Nat) : (f ++ [(y, o)]).lookup x =
    match f.lookup x with
    | some i => some i
    | none => if x = y then some o else none := by
  induction f with
  | nil =>
    simp only [List.nil_append, List.lookup]
    by_cases h : x = y
    · simp [h]
    · have : (x == y) = false := by simpa using h
      simp [h, this]
  | cons p f ih =>
    simp only [List.cons_append, List.lookup]
    by_cases h : x == p.1
    · simp [h]
    · simp only [h, ih]

theorem insert_nobj (s : St) (x : Nat) (ob : Obj) (h : s.scopes ≠ []) : (insert s x ob).nobj = s.nobj + 1 := by
  unfold insert
  split
  · contradiction
  · simp only
    split <;> rfl

theorem insert_find (s : St) (y : Nat) (ob : Obj) (x : Nat) :
    (∀ i, findIn x (insert s y ob).scopes = some i → (i = s.nobj ∧ x = y ∧ (insert s y ob).nobj = s.nobj + 1) ∨ findIn x s.scopes = some i) ∧
    (findIn x (insert s y ob).scopes = none → findIn x s.scopes = none) := by
  unfold insert
  split
  · rename_i h; rw [h]; exact ⟨fun i h => .inr h, id⟩
  · rename_i f fs h
    simp only [h, findIn]
    have e : (if (f.lookup y).isSome then err s 1 else s).nobj = s.nobj := by split <;> rfl
    rw [lookup_append, e]
    cases hf : f.lookup x with
    | some j => simp
    | none =>
      by_cases c : x = y
      · simp only [c, if_true]
        constructor
        · intro i hi
          exact .inl ⟨by simpa using hi.symm, trivial, trivial⟩
        · intro hi; simp at hi
      · simp only [c, if_false]
        exact ⟨fun i h => .inr h, id⟩

theorem finds_insert (s : St) (y : Nat) : Finds s (insert s y {}) := by
  intro x
  obtain ⟨a, b⟩ := insert_find s y {} x
  refine ⟨fun i h => ?_, b⟩
  rcases a i h with ⟨c, _, d⟩ | c
  · exact .inl (by omega)
  · exact .inr c

theorem finds_addObjs (xs : List Nat) : ∀ s : St, Finds s (addObjs s xs) := by
  induction xs with
  | nil => exact fun s => Finds.of_eq rfl
  | cons x xs ih =>
    exact fun s => (finds_insert s x).trans (ih _) (fr_insert (fun _ => False) (fun _ => False) s x).nobj
      (fr_addObjs (fun _ => False) (fun _ => False) xs _).nobj

/-- One field is added. -/
def addField (s : St) (t x : Nat) : St :=
  { insert (dupField s t x) x {} with fields := upd (insert (dupField s t x) x {}).fields t ((insert (dupField s t x) x {}).fields t ++ [(x, undftyp)]) }

theorem addFields_cons' (s : St) (t x : Nat) (xs : List Nat) : addFields s t (x :: xs) = addFields (addField s t x) t xs := rfl

theorem fr_addField (P Q : Nat → Prop) (s : St) (t x : Nat) (hP : P t) (ht : t < s.next) : Fr P Q s (addField s t x) := by
  have h1 := (fr_dupField P Q s t x).trans (fr_insert P Q _ x) (fun _ _ h => h) (fun _ _ h => h)
  have h2 : t < (insert (dupField s t x) x {}).next := by have := h1.next; omega
  exact h1.trans (fr_fields P Q _ t _ h2 hP) (fun _ _ h => h) (fun _ _ h => h)

theorem dupField_scopes (s : St) (t x : Nat) : (dupField s t x).scopes = s.scopes ∧ (dupField s t x).fields = s.fields ∧ (dupField s t x).nobj = s.nobj := by
  rcases dupField_cases s t x with h | h <;> rw [h] <;> exact ⟨rfl, rfl, rfl⟩

theorem finds_addField (s : St) (t x : Nat) : Finds s (addField s t x) := by
  have f1 : Finds s (dupField s t x) := Finds.of_eq (dupField_scopes s t x).1
  exact f1.trans (finds_insert (dupField s t x) x) (fr_dupField (fun _ => False) (fun _ => False) s t x).nobj (fr_insert (fun _ => False) (fun _ => False) _ x).nobj

theorem finds_addFields (t : Nat) (xs : List Nat) : ∀ s : St, t < s.next → Finds s (addFields s t xs) := by
  induction xs with
  | nil => exact fun s _ => Finds.of_eq rfl
  | cons x xs ih =>
    intro s ht
    rw [addFields_cons']
    have h1 := fr_addField (fun u => u = t) (fun _ => False) s t x rfl ht
    have ht2 : t < (addField s t x).next := by have := h1.next; omega
    exact (finds_addField s t x).trans (ih _ ht2) h1.nobj (fr_addFields (fun u => u = t) (fun _ => False) t rfl xs _ ht2).nobj

theorem insert_fields (s : St) (x : Nat) (ob : Obj) : (insert s x ob).fields = s.fields := by
  unfold insert
  split
  · rfl
  · simp only
    split <;> rfl

theorem addFields_fields (t : Nat) (xs : List Nat) : ∀ s : St, (addFields s t xs).fields t = s.fields t ++ xs.map (·, undftyp) := by
  induction xs with
  | nil => intro s; simp [addFields]
  | cons x xs ih =>
    intro s
    rw [addFields_cons', ih]
    simp only [addField, upd_self, insert_fields, (dupField_scopes s t x).2.1, List.append_assoc, List.map_cons, List.singleton_append]

/-- The names of the innermost scope are those of the fields of `t`, all different. -/
def Same (s : St) (t : Nat) : Prop :=
  ∃ f fs, s.scopes = f :: fs ∧ f.map Prod.fst = (s.fields t).map Prod.fst ∧ (f.map Prod.fst).Nodup

theorem lookup_none {f : List (Nat × Nat)} {x : Nat} (h : f.lookup x = none) : x ∉ f.map Prod.fst := by
  induction f with
  | nil => simp
  | cons p f ih =>
    simp only [List.lookup] at h
    by_cases c : x = p.1
    · simp [c] at h
    · have : (x == p.1) = false := by simpa using c
      rw [this] at h
      simp only [List.map_cons, List.mem_cons, not_or]
      exact ⟨c, ih h⟩

theorem lookup_mem {f : List (Nat × Nat)} {x i : Nat} (h : f.lookup x = some i) : (x, i) ∈ f := by
  induction f with
  | nil => simp [List.lookup] at h
  | cons p f ih =>
    simp only [List.lookup] at h
    by_cases c : x = p.1
    · subst c
      simp at h
      subst h
      exact List.mem_cons_self
    · have : (x == p.1) = false := by simpa using c
      rw [this] at h
      exact List.mem_cons_of_mem _ (ih h)

theorem insert_clean (s : St) (x : Nat) (ob : Obj) (f : List (Nat × Nat)) (fs : List (List (Nat × Nat))) (hs : s.scopes = f :: fs)
    (h : (insert s x ob).errs = []) : f.lookup x = none ∧
      insert s x ob = { s with scopes := (f ++ [(x, s.nobj)]) :: fs, objs := upd s.objs s.nobj ob, nobj := s.nobj + 1 } := by
  unfold insert at h ⊢
  rw [hs] at h ⊢
  simp only at h ⊢
  cases c : f.lookup x with
  | none => simp
  | some i =>
    rw [c] at h
    simp [err] at h

theorem same_addField {s : St} {t x : Nat} (h : Same s t) (he : (addField s t x).errs = []) : Same (addField s t x) t := by
  obtain ⟨f, fs, h1, h2, h3⟩ := h
  have he2 : (insert (dupField s t x) x {}).errs = [] := he
  obtain ⟨k1, k2⟩ := insert_clean (dupField s t x) x {} f fs ((dupField_scopes s t x).1.trans h1) he2
  have n := lookup_none k1
  refine ⟨f ++ [(x, (dupField s t x).nobj)], fs, ?_, ?_, ?_⟩
  · simp only [addField, k2]
  · simp only [addField, upd_self, insert_fields, (dupField_scopes s t x).2.1, List.map_append, h2, List.map_cons, List.map_nil]
  · simp only [List.map_append, List.map_cons, List.map_nil]
    rw [List.nodup_append]
    refine ⟨h3, by simp, ?_⟩
    intro a ha b hb e
    simp at hb
    subst hb
    subst e
    exact n ha

theorem same_addFields (t : Nat) (xs : List Nat) : ∀ s : St, t < s.next → Same s t → (addFields s t xs).errs = [] → Same (addFields s t xs) t := by
  induction xs with
  | nil => exact fun s _ h _ => h
  | cons x xs ih =>
    intro s ht h he
    rw [addFields_cons'] at he ⊢
    have h1 := fr_addField (fun u => u = t) (fun _ => False) s t x rfl ht
    have ht2 : t < (addField s t x).next := by have := h1.next; omega
    exact ih _ ht2 (same_addField h ((fr_addFields (fun u => u = t) (fun _ => False) t rfl xs _ ht2).clean he)) he

theorem dupField_clean {s : St} {t x b : Nat} (hb : (s.tab t).base = some b) (h : (dupField s t x).errs = []) : findField s x ((s.tab b).extlev + 1) b = false := by
  unfold dupField at h
  rw [hb] at h
  simp only at h
  split at h
  · simp [err] at h
  · rename_i c
    simpa using c

theorem own_addFields {B : Nat → Prop} {t b : Nat} (xs : List Nat) : ∀ s : St, t < s.next → B t → (s.tab t).base = some b → Anc s B b → (addFields s t xs).errs = [] →
    ∀ x ∈ xs, findField s x ((s.tab b).extlev + 1) b = false := by
  induction xs with
  | nil => intro s _ _ _ _ _ x hx; cases hx
  | cons x xs ih =>
    intro s ht hB hb ha he y hy
    rw [addFields_cons'] at he
    have h1 := fr_addField (fun u => u = t) (fun _ => False) s t x rfl ht
    have ht2 : t < (addField s t x).next := by have := h1.next; omega
    have he1 := (fr_addFields (fun u => u = t) (fun _ => False) t rfl xs _ ht2).clean he
    have he2 : (insert (dupField s t x) x {}).errs = [] := he1
    have htab : (addField s t x).tab = s.tab := by
      have : (insert (dupField s t x) x {}).tab = s.tab := by
        have h2 : (insert (dupField s t x) x {}).tab = (dupField s t x).tab := by
          unfold insert
          split
          · rfl
          · simp only
            split <;> rfl
        rw [h2]
        rcases dupField_cases s t x with h | h <;> rw [h] <;> rfl
      exact this
    rcases List.mem_cons.mp hy with rfl | hy
    · exact dupField_clean hb ((fr_insert (fun _ => False) (fun _ => False) _ y).clean he2)
    · have hc : ∀ u < s.next, ¬ B u → (addField s t x).tab u = s.tab u ∧ (addField s t x).fields u = s.fields u := fun u hu hn => by
        have hne : u ≠ t := fun e => hn (e ▸ hB)
        exact ⟨h1.tab u hu hne, h1.fields u hu hne⟩
      have := ih (addField s t x) ht2 hB (by rw [htab]; exact hb) (ha.mono' h1.next (fun u hu hn _ => (hc u hu hn).1) (fun _ _ x => x)) he y hy
      rw [findField_congr ha (fun u hu hn _ => hc u hu hn), htab] at this
      exact this

theorem Hyp.step {o : Option Nat} {x0 : Nat} {B B' P Q : Nat → Prop} {s s' : St} (h : Hyp o x0 B s) (a : Fr P Q s s') (hP : ∀ t < s.next, P t → B t)
    (hQ : ∀ i < s.nobj, Q i → o = some i) (hB : ∀ t < s.next, B' t → B t) (hB2 : ∀ t, B' t → t < s'.next) (hf : Finds s s')
    (hc : ∀ i, o = some i → (s'.objs i).typ < s'.next) : Hyp o x0 B' s' := by
  refine ⟨by have := h.pos; have := a.next; omega, hB2, ?_, ?_, ?_, ?_, ?_, a.beyond h.beyond, ?_, a.cb h.cb, ?_, ?_⟩
  · intro x i hi
    rcases (hf x).1 i hi with c | c
    · exact c.2
    · have := h.sc x i c; have := a.nobj; omega
  · intro i hi hm ho
    by_cases c : i < s.nobj
    · rw [a.objs i c (fun x => ho (hQ i c x))] at hm ⊢
      exact (h.ob i c hm ho).mono a hP hB (fun _ x => x)
    · rw [a.fresh i (by omega) hi] at hm
      cases hm
  · intro i x ob hi hm
    rw [a.imports] at hi
    exact (h.im i x ob hi hm).mono a hP hB (fun _ x => x)
  · intro i hi
    have := (h.cur i hi).1
    have := a.nobj
    exact ⟨by omega, hc i hi⟩
  · intro x i hi ho
    rcases (hf x).1 i hi with c | c
    · have := (h.cur i ho).1; omega
    · exact h.only x i c ho
  · intro p hp
    obtain ⟨w, e, hw⟩ := a.fwd
    rw [e] at hp
    rcases List.mem_append.mp hp with c | c
    · have := h.fwd p c; have := a.next; omega
    · exact (hw p c).2.1
  · intro i hi hm ho hr
    by_cases c : i < s.nobj
    · rw [a.objs i c (fun x => ho (hQ i c x))] at hm hr ⊢
      rw [(a.keep _ (h.ob i c hm ho).lt).2.1] at hr
      exact (h.anc i c hm ho hr).mono a hP hB
    · rw [a.fresh i (by omega) hi] at hm
      cases hm
  · intro i x ob hi hm hr
    rw [a.imports] at hi
    rw [(a.keep _ (h.im i x ob hi hm).lt).2.1] at hr
    exact (h.ianc i x ob hi hm hr).mono a hP hB

/-- With no change of objects. -/
theorem Hyp.step' {o : Option Nat} {x0 : Nat} {B P : Nat → Prop} {s s' : St} (h : Hyp o x0 B s) (a : Fr P (fun _ => False) s s') (hP : ∀ t < s.next, P t → B t)
    (hf : Finds s s') : Hyp o x0 B s' := by
  refine h.step a hP (fun _ _ x => x.elim) (fun _ _ x => x) (fun t x => ?_) hf ?_
  · have := h.bs t x; have := a.next; omega
  · intro i hi
    obtain ⟨c1, c2⟩ := h.cur i hi
    rw [a.objs i c1 (fun x => x)]
    have := a.next
    omega

theorem EnvOf.step {s s' : St} {P Q : Nat → Prop} {env : Qual → Option Nat} (h : EnvOf s.scopes s.objs s.imports env) (a : Fr P Q s s')
    (hQ : ∀ x i, findIn x s.scopes = some i → ¬ Q i) (hs : ∀ x i, findIn x s.scopes = some i → i < s.nobj) (hf : Finds s s') :
    EnvOf s'.scopes s'.objs s'.imports env := by
  refine ⟨?_, ?_, ?_⟩
  · intro x i hi hm
    rcases (hf x).1 i hi with c | c
    · rw [a.fresh i c.1 c.2] at hm
      cases hm
    · rw [a.objs i (hs x i c) (hQ x i c)] at hm ⊢
      exact h.id x i c hm
  · intro x hx
    exact h.none x ((hf x).2 hx)
  · intro m x i ob hi hm him hob
    rcases (hf m).1 i hi with c | c
    · rw [a.fresh i c.1 c.2] at hm
      cases hm
    · rw [a.objs i (hs m i c) (hQ m i c)] at hm
      rw [a.imports] at him
      exact h.sel m x i ob c hm him hob

end Verif.Decls
