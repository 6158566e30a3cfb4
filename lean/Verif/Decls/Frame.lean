import Verif.Common
import Verif.Decls.Model

/-!
# What a declaration leaves alone
-/
namespace Verif.Decls
open Verif.Types

/-- From `s` to `s'` only the structures in `P` and the objects in `Q` have changed, apart from new ones. -/
structure Fr (P Q : Nat → Prop) (s s' : St) : Prop where
  next : s.next ≤ s'.next
  nobj : s.nobj ≤ s'.nobj
  tab : ∀ t < s.next, ¬ P t → s'.tab t = s.tab t
  keep : ∀ t < s.next, (s'.tab t).form = (s.tab t).form ∧ (s'.tab t).comp = (s.tab t).comp ∧ (s'.tab t).extlev = (s.tab t).extlev
  fields : ∀ t < s.next, ¬ P t → s'.fields t = s.fields t
  objs : ∀ i < s.nobj, ¬ Q i → s'.objs i = s.objs i
  mode : ∀ i < s.nobj, (s'.objs i).mode = (s.objs i).mode
  fresh : ∀ i, s.nobj ≤ i → i < s'.nobj → (s'.objs i).mode = .other
  imports : s'.imports = s.imports
  fwd : ∃ w, s'.fwd = s.fwd ++ w ∧ ∀ p ∈ w, s.next ≤ p.1 ∧ p.1 < s'.next ∧ (s'.tab p.1).form = .ptr ∧ (s'.tab p.1).comp = .basic
  errs : ∃ w, s'.errs = s.errs ++ w
  beyond : (∀ t, s.next ≤ t → s.tab t = { form := .no } ∧ s.fields t = []) → ∀ t, s'.next ≤ t → s'.tab t = { form := .no } ∧ s'.fields t = []
  cb : (∀ t < s.next, (s.tab t).form = .comp ↔ (s.tab t).comp ≠ .basic) → ∀ t < s'.next, (s'.tab t).form = .comp ↔ (s'.tab t).comp ≠ .basic

theorem Fr.refl (P Q : Nat → Prop) (s : St) : Fr P Q s s :=
  ⟨Nat.le_refl _, Nat.le_refl _, fun _ _ _ => rfl, fun _ _ => ⟨rfl, rfl, rfl⟩, fun _ _ _ => rfl, fun _ _ _ => rfl, fun _ _ => rfl,
   fun _ a b => by omega, rfl, ⟨[], by simp⟩, ⟨[], by simp⟩, fun h => h, fun h => h⟩

theorem Fr.trans {P Q P2 Q2 : Nat → Prop} {s s1 s2 : St} (a : Fr P Q s s1) (b : Fr P2 Q2 s1 s2)
    (hP : ∀ t < s.next, P2 t → P t) (hQ : ∀ i < s.nobj, Q2 i → Q i) : Fr P Q s s2 := by
  refine ⟨a.next.trans b.next, a.nobj.trans b.nobj, ?_, ?_, ?_, ?_, ?_, ?_, b.imports.trans a.imports, ?_, ?_,
    fun h => b.beyond (a.beyond h), fun h => b.cb (a.cb h)⟩
  · intro t h n
    rw [b.tab t (by have := a.next; omega) (fun x => n (hP t h x)), a.tab t h n]
  · intro t h
    obtain ⟨x1, x2, x3⟩ := a.keep t h
    obtain ⟨y1, y2, y3⟩ := b.keep t (by have := a.next; omega)
    exact ⟨y1.trans x1, y2.trans x2, y3.trans x3⟩
  · intro t h n
    rw [b.fields t (by have := a.next; omega) (fun x => n (hP t h x)), a.fields t h n]
  · intro i h n
    rw [b.objs i (by have := a.nobj; omega) (fun x => n (hQ i h x)), a.objs i h n]
  · intro i h
    rw [b.mode i (by have := a.nobj; omega), a.mode i h]
  · intro i h h'
    by_cases c : i < s1.nobj
    · rw [b.mode i c]
      exact a.fresh i h c
    · exact b.fresh i (by omega) h'
  · obtain ⟨w1, e1, f1⟩ := a.fwd
    obtain ⟨w2, e2, f2⟩ := b.fwd
    refine ⟨w1 ++ w2, by rw [e2, e1, List.append_assoc], ?_⟩
    intro p hp
    rcases List.mem_append.mp hp with h | h
    · obtain ⟨x1, x2, x3, x4⟩ := f1 p h
      obtain ⟨y1, y2, _⟩ := b.keep p.1 x2
      exact ⟨x1, by have := b.next; omega, y1.trans x3, y2.trans x4⟩
    · obtain ⟨x1, x2, x3, x4⟩ := f2 p h
      exact ⟨by have := a.next; omega, x2, x3, x4⟩
  · obtain ⟨w1, e1⟩ := a.errs
    obtain ⟨w2, e2⟩ := b.errs
    exact ⟨w1 ++ w2, by rw [e2, e1, List.append_assoc]⟩

theorem Fr.clean {P Q : Nat → Prop} {s s' : St} (a : Fr P Q s s') (h : s'.errs = []) : s.errs = [] := by
  obtain ⟨w, e⟩ := a.errs
  rw [h] at e
  cases hs : s.errs with
  | nil => rfl
  | cons x l => rw [hs] at e; simp at e

/-! ### The single steps -/

theorem upd_self {α : Type} (f : Nat → α) (i : Nat) (a : α) : upd f i a i = a := by simp [upd]
theorem upd_ne {α : Type} (f : Nat → α) {i j : Nat} (a : α) (h : j ≠ i) : upd f i a j = f j := by simp [upd, h]

theorem fr_err (P Q : Nat → Prop) (s : St) (n : Nat) : Fr P Q s (err s n) :=
  ⟨Nat.le_refl _, Nat.le_refl _, fun _ _ _ => rfl, fun _ _ => ⟨rfl, rfl, rfl⟩, fun _ _ _ => rfl, fun _ _ _ => rfl, fun _ _ => rfl,
   fun _ a b => by simp only [err] at b; omega, rfl, ⟨[], by simp [err]⟩, ⟨[n], rfl⟩, fun h => h, fun h => h⟩

theorem fr_open (P Q : Nat → Prop) (s : St) : Fr P Q s (openScope s) :=
  ⟨Nat.le_refl _, Nat.le_refl _, fun _ _ _ => rfl, fun _ _ => ⟨rfl, rfl, rfl⟩, fun _ _ _ => rfl, fun _ _ _ => rfl, fun _ _ => rfl,
   fun _ a b => by simp only [openScope] at b; omega, rfl, ⟨[], by simp [openScope]⟩, ⟨[], by simp [openScope]⟩, fun h => h, fun h => h⟩

theorem fr_close (P Q : Nat → Prop) (s : St) : Fr P Q s (closeScope s) :=
  ⟨Nat.le_refl _, Nat.le_refl _, fun _ _ _ => rfl, fun _ _ => ⟨rfl, rfl, rfl⟩, fun _ _ _ => rfl, fun _ _ _ => rfl, fun _ _ => rfl,
   fun _ a b => by simp only [closeScope] at b; omega, rfl, ⟨[], by simp [closeScope]⟩, ⟨[], by simp [closeScope]⟩, fun h => h, fun h => h⟩

/-- What may change at a place. -/
def LocP (loc : Loc) (u : Nat) : Prop := loc = .base u
def LocQ (loc : Loc) (i : Nat) : Prop := loc = .obj i
/-- The place is there. -/
def LocIn (s : St) (loc : Loc) : Prop := (∀ u, loc = .base u → u < s.next) ∧ ∀ i, loc = .obj i → i < s.nobj

/-- A change of the entry of one structure that is there, apart from its form. -/
theorem fr_entry (P Q : Nat → Prop) (s : St) (p : Nat) (y : Ty) (hp : p < s.next) (hP : P p)
    (h : y.form = (s.tab p).form ∧ y.comp = (s.tab p).comp ∧ y.extlev = (s.tab p).extlev) : Fr P Q s { s with tab := upd s.tab p y } := by
  refine ⟨Nat.le_refl _, Nat.le_refl _, ?_, ?_, fun _ _ _ => rfl, fun _ _ _ => rfl, fun _ _ => rfl,
   fun _ a b => by simp only at b; omega, rfl, ⟨[], by simp⟩, ⟨[], by simp⟩, ?_, ?_⟩
  · intro t _ n
    exact upd_ne _ _ (fun e => n (e ▸ hP))
  · intro t _
    by_cases e : t = p
    · subst e
      simp only [upd_self]
      exact h
    · simp only [upd_ne _ _ e]
      exact ⟨trivial, trivial, trivial⟩
  · intro hb t ht
    simp only at ht ⊢
    rw [upd_ne _ _ (by omega)]
    exact hb t ht
  · intro hb t ht
    by_cases e : t = p
    · subst e
      simp only [upd_self, h.1, h.2.1]
      exact hb t hp
    · simp only [upd_ne _ _ e]
      exact hb t ht

theorem fr_setLoc (P Q : Nat → Prop) (s : St) (t : Nat) (loc : Loc) (hl : LocIn s loc) (hP : ∀ u, LocP loc u → P u) (hQ : ∀ i, LocQ loc i → Q i) :
    Fr P Q s (setLoc s t loc) := by
  cases loc with
  | tmp => exact Fr.refl _ _ _
  | base p => exact fr_entry P Q s p _ (hl.1 p rfl) (hP p rfl) ⟨rfl, rfl, rfl⟩
  | obj o =>
    have ho := hl.2 o rfl
    refine ⟨Nat.le_refl _, Nat.le_refl _, fun _ _ _ => rfl, fun _ _ => ⟨rfl, rfl, rfl⟩, fun _ _ _ => rfl, ?_, ?_,
      fun _ a b => by simp only [setLoc] at b; omega, rfl, ⟨[], by simp [setLoc]⟩, ⟨[], by simp [setLoc]⟩, fun h => h, fun h => h⟩
    · intro i _ n
      simp only [setLoc]
      exact upd_ne _ _ (fun e => n (e ▸ hQ o rfl))
    · intro i _
      simp only [setLoc]
      by_cases e : i = o
      · subst e; simp only [upd_self]
      · simp only [upd_ne _ _ e]

theorem fr_newStr (P Q : Nat → Prop) (s : St) (y : Ty) (hy : y.form = .comp ↔ y.comp ≠ .basic) : Fr P Q s (newStr s y) := by
  refine ⟨Nat.le_succ _, Nat.le_refl _, ?_, ?_, fun _ _ _ => rfl, fun _ _ _ => rfl, fun _ _ => rfl,
   fun _ a b => by simp only [newStr] at b; omega, rfl, ⟨[], by simp [newStr]⟩, ⟨[], by simp [newStr]⟩, ?_, ?_⟩
  · intro t h _
    simp only [newStr]
    exact upd_ne _ _ (by omega)
  · intro t h
    simp only [newStr]
    rw [upd_ne _ _ (by omega)]
    exact ⟨rfl, rfl, rfl⟩
  · intro hb t ht
    simp only [newStr] at ht ⊢
    rw [upd_ne _ _ (by omega)]
    exact hb t (by omega)
  · intro hb t ht
    simp only [newStr] at ht ⊢
    by_cases e : t = s.next
    · subst e
      simp only [upd_self]
      exact hy
    · simp only [upd_ne _ _ e]
      exact hb t (by omega)

theorem setLoc_next (s : St) (t : Nat) (loc : Loc) : (setLoc s t loc).next = s.next := by cases loc <;> rfl
theorem setLoc_nobj (s : St) (t : Nat) (loc : Loc) : (setLoc s t loc).nobj = s.nobj := by cases loc <;> rfl
theorem setLoc_scopes (s : St) (t : Nat) (loc : Loc) : (setLoc s t loc).scopes = s.scopes := by cases loc <;> rfl
theorem setLoc_errs (s : St) (t : Nat) (loc : Loc) : (setLoc s t loc).errs = s.errs := by cases loc <;> rfl
theorem setLoc_fwd (s : St) (t : Nat) (loc : Loc) : (setLoc s t loc).fwd = s.fwd := by cases loc <;> rfl
theorem setLoc_fields (s : St) (t : Nat) (loc : Loc) : (setLoc s t loc).fields = s.fields := by cases loc <;> rfl
theorem setLoc_imports (s : St) (t : Nat) (loc : Loc) : (setLoc s t loc).imports = s.imports := by cases loc <;> rfl

theorem new_next (s : St) (loc : Loc) (y : Ty) : (new s loc y).next = s.next + 1 := by
  simp only [new, setLoc_next, newStr]
theorem new_nobj (s : St) (loc : Loc) (y : Ty) : (new s loc y).nobj = s.nobj := by
  simp only [new, setLoc_nobj, newStr]
theorem new_scopes (s : St) (loc : Loc) (y : Ty) : (new s loc y).scopes = s.scopes := by
  simp only [new, setLoc_scopes, newStr]
theorem new_errs (s : St) (loc : Loc) (y : Ty) : (new s loc y).errs = s.errs := by
  simp only [new, setLoc_errs, newStr]
theorem new_fwd (s : St) (loc : Loc) (y : Ty) : (new s loc y).fwd = s.fwd := by
  simp only [new, setLoc_fwd, newStr]
theorem new_fields (s : St) (loc : Loc) (y : Ty) : (new s loc y).fields = s.fields := by
  simp only [new, setLoc_fields, newStr]

theorem new_tab (s : St) (loc : Loc) (y : Ty) (hl : LocIn s loc) : (new s loc y).tab s.next = y := by
  cases loc with
  | tmp => simp [new, setLoc, newStr, upd]
  | obj o => simp [new, setLoc, newStr, upd]
  | base p =>
    have := hl.1 p rfl
    have e : s.next ≠ p := by omega
    simp [new, setLoc, newStr, upd, e]

theorem new_base (s : St) (p : Nat) (y : Ty) (hl : p < s.next) : (new s (.base p) y).tab p = { s.tab p with base := some s.next } := by
  have e : p ≠ s.next := by omega
  simp [new, setLoc, newStr, upd, e]

theorem new_obj (s : St) (o : Nat) (y : Ty) : ((new s (.obj o) y).objs o).typ = s.next := by
  simp [new, setLoc, newStr, upd]

theorem LocIn.mono {s s' : St} {loc : Loc} (h : LocIn s loc) (a : s.next ≤ s'.next) (b : s.nobj ≤ s'.nobj) : LocIn s' loc :=
  ⟨fun u e => by have := h.1 u e; omega, fun i e => by have := h.2 i e; omega⟩

theorem fr_new (P Q : Nat → Prop) (s : St) (loc : Loc) (y : Ty) (hy : y.form = .comp ↔ y.comp ≠ .basic) (hl : LocIn s loc) (hP : ∀ u, LocP loc u → P u) (hQ : ∀ i, LocQ loc i → Q i) :
    Fr P Q s (new s loc y) := by
  have h1 : Fr P Q s (setLoc s undftyp loc) := fr_setLoc P Q s _ loc hl hP hQ
  have h2 := h1.trans (fr_newStr P Q (setLoc s undftyp loc) y hy) (fun _ _ h => h) (fun _ _ h => h)
  exact h2.trans (fr_setLoc P Q _ s.next loc (hl.mono h2.next h2.nobj) hP hQ) (fun _ _ h => h) (fun _ _ h => h)

theorem fr_insert (P Q : Nat → Prop) (s : St) (x : Nat) : Fr P Q s (insert s x {}) := by
  unfold insert
  split
  · exact Fr.refl _ _ _
  · rename_i f fs hs
    have key : ∀ s1 : St, Fr P Q s1 { s1 with scopes := (f ++ [(x, s1.nobj)]) :: fs, objs := upd s1.objs s1.nobj {}, nobj := s1.nobj + 1 } := by
      intro s1
      refine ⟨Nat.le_refl _, Nat.le_succ _, fun _ _ _ => rfl, fun _ _ => ⟨rfl, rfl, rfl⟩, fun _ _ _ => rfl, ?_, ?_, ?_,
        rfl, ⟨[], by simp⟩, ⟨[], by simp⟩, fun h => h, fun h => h⟩
      · intro i h _
        exact upd_ne _ _ (by omega)
      · intro i h
        simp only
        rw [upd_ne _ _ (by omega)]
      · intro i h1 h2
        simp only at h2 ⊢
        have : i = s1.nobj := by omega
        rw [this, upd_self]
    by_cases c : (f.lookup x).isSome
    · rw [if_pos c]
      exact (fr_err P Q s 1).trans (key _) (fun _ _ h => h) (fun _ _ h => h)
    · rw [if_neg c]
      exact key s

theorem insert_scopes (s : St) (x : Nat) (ob : Obj) : (insert s x ob).scopes.tail = s.scopes.tail ∧ (s.scopes ≠ [] → (insert s x ob).scopes ≠ []) := by
  unfold insert
  split
  · rename_i h; simp [h]
  · rename_i f fs h
    simp [h]

theorem fr_addObjs (P Q : Nat → Prop) (xs : List Nat) : ∀ s : St, Fr P Q s (addObjs s xs) := by
  induction xs with
  | nil => exact fun s => Fr.refl _ _ _
  | cons x xs ih => exact fun s => (fr_insert P Q s x).trans (ih _) (fun _ _ h => h) (fun _ _ h => h)

theorem addObjs_scopes (xs : List Nat) : ∀ s : St, (addObjs s xs).scopes.tail = s.scopes.tail ∧ (s.scopes ≠ [] → (addObjs s xs).scopes ≠ []) := by
  induction xs with
  | nil => exact fun s => ⟨rfl, id⟩
  | cons x xs ih =>
    intro s
    obtain ⟨a, b⟩ := ih (insert s x {})
    obtain ⟨c, d⟩ := insert_scopes s x {}
    exact ⟨a.trans c, fun h => b (d h)⟩

/-- A change of the fields of one structure. -/
theorem fr_fields (P Q : Nat → Prop) (s : St) (t : Nat) (l : List (Nat × Nat)) (ht : t < s.next) (hP : P t) :
    Fr P Q s { s with fields := upd s.fields t l } := by
  refine ⟨Nat.le_refl _, Nat.le_refl _, fun _ _ _ => rfl, fun _ _ => ⟨rfl, rfl, rfl⟩, ?_, fun _ _ _ => rfl, fun _ _ => rfl,
    fun _ a b => by simp only at b; omega, rfl, ⟨[], by simp⟩, ⟨[], by simp⟩, ?_, fun h => h⟩
  · intro u _ n
    exact upd_ne _ _ (fun e => n (e ▸ hP))
  · intro hb u hu
    simp only at hu ⊢
    rw [upd_ne _ _ (by omega)]
    exact hb u hu

/-- The check for fields of what is extended. -/
def dupField (s : St) (t x : Nat) : St :=
  match (s.tab t).base with
  | some b => if findField s x ((s.tab b).extlev + 1) b then err s 1 else s
  | none => s

theorem dupField_cases (s : St) (t x : Nat) : dupField s t x = s ∨ dupField s t x = err s 1 := by
  unfold dupField
  split
  · split
    · exact .inr rfl
    · exact .inl rfl
  · exact .inl rfl

theorem addFields_cons (s : St) (t x : Nat) (xs : List Nat) : addFields s t (x :: xs) =
    addFields { insert (dupField s t x) x {} with fields := upd (insert (dupField s t x) x {}).fields t ((insert (dupField s t x) x {}).fields t ++ [(x, undftyp)]) } t xs := rfl

theorem fr_dupField (P Q : Nat → Prop) (s : St) (t x : Nat) : Fr P Q s (dupField s t x) := by
  rcases dupField_cases s t x with h | h <;> rw [h]
  · exact Fr.refl _ _ _
  · exact fr_err _ _ _ _

theorem fr_addFields (P Q : Nat → Prop) (t : Nat) (hP : P t) (xs : List Nat) : ∀ s : St, t < s.next → Fr P Q s (addFields s t xs) := by
  induction xs with
  | nil => exact fun s _ => Fr.refl _ _ _
  | cons x xs ih =>
    intro s ht
    rw [addFields_cons]
    have h1 := (fr_dupField P Q s t x).trans (fr_insert P Q _ x) (fun _ _ h => h) (fun _ _ h => h)
    have h2 : t < (insert (dupField s t x) x {}).next := by have := h1.next; omega
    exact (h1.trans (fr_fields P Q _ t _ h2 hP) (fun _ _ h => h) (fun _ _ h => h)).trans (ih _ h2) (fun _ _ h => h) (fun _ _ h => h)

theorem addFields_scopes (t : Nat) (xs : List Nat) : ∀ s : St, (addFields s t xs).scopes.tail = s.scopes.tail ∧ (s.scopes ≠ [] → (addFields s t xs).scopes ≠ []) := by
  induction xs with
  | nil => exact fun s => ⟨rfl, id⟩
  | cons x xs ih =>
    intro s
    rw [addFields_cons]
    obtain ⟨a, b⟩ := ih { insert (dupField s t x) x {} with fields := upd (insert (dupField s t x) x {}).fields t ((insert (dupField s t x) x {}).fields t ++ [(x, undftyp)]) }
    obtain ⟨c, d⟩ := insert_scopes (dupField s t x) x {}
    have e : (dupField s t x).scopes = s.scopes := by rcases dupField_cases s t x with h | h <;> rw [h] <;> rfl
    rw [e] at c d
    exact ⟨a.trans c, fun h => b (d h)⟩

theorem typeCheck_cases (r : St × Nat) : typeCheck r = r ∨ typeCheck r = (err r.1 0, r.2) := by
  unfold typeCheck
  split
  · exact .inr rfl
  · exact .inl rfl

theorem fr_typeCheck (P Q : Nat → Prop) (r : St × Nat) : Fr P Q r.1 (typeCheck r).1 := by
  rcases typeCheck_cases r with h | h <;> rw [h]
  · exact Fr.refl _ _ _
  · exact fr_err _ _ _ _

theorem typeCheck_scopes (r : St × Nat) : (typeCheck r).1.scopes = r.1.scopes := by
  rcases typeCheck_cases r with h | h <;> rw [h] <;> rfl

theorem typeCheck_snd (r : St × Nat) : (typeCheck r).2 = r.2 := by
  rcases typeCheck_cases r with h | h <;> rw [h]

theorem typeCheck_tab (r : St × Nat) : (typeCheck r).1.tab = r.1.tab := by
  rcases typeCheck_cases r with h | h <;> rw [h] <;> rfl

theorem noDyn_cases (r : St × Nat) : noDyn r = r ∨ noDyn r = (err r.1 88, undftyp) := by
  unfold noDyn
  split
  · exact .inr rfl
  · exact .inl rfl

theorem fr_noDyn (P Q : Nat → Prop) (r : St × Nat) : Fr P Q r.1 (noDyn r).1 := by
  rcases noDyn_cases r with h | h <;> rw [h]
  · exact Fr.refl _ _ _
  · exact fr_err _ _ _ _

theorem noDyn_scopes (r : St × Nat) : (noDyn r).1.scopes = r.1.scopes := by
  rcases noDyn_cases r with h | h <;> rw [h] <;> rfl

theorem fr_endDyn (P Q : Nat → Prop) (r : St × Nat) (t : Nat) (ht : t < r.1.next) (hP : P t) : Fr P Q r.1 (endDyn r t) :=
  fr_entry P Q r.1 t _ ht hP ⟨rfl, rfl, rfl⟩

theorem fr_endArr (P Q : Nat → Prop) (r : St × Nat) (t : Nat) (ht : t < r.1.next) (hP : P t) : Fr P Q r.1 (endArr r t) := by
  unfold endArr
  split
  · exact (fr_entry P Q r.1 t { r.1.tab t with base := some undftyp } ht hP ⟨rfl, rfl, rfl⟩).trans (fr_err _ _ _ _) (fun _ _ h => h) (fun _ _ h => h)
  · exact Fr.refl _ _ _

theorem endArr_scopes (r : St × Nat) (t : Nat) : (endArr r t).scopes = r.1.scopes := by
  unfold endArr
  split <;> rfl

theorem fr_endPtr (P Q : Nat → Prop) (r : St × Nat) (t : Nat) (ht : t < r.1.next) (hP : P t) : Fr P Q r.1 (endPtr r t) := by
  unfold endPtr
  split
  · exact (fr_entry P Q r.1 t { r.1.tab t with base := some undftyp } ht hP ⟨rfl, rfl, rfl⟩).trans (fr_err _ _ _ _) (fun _ _ h => h) (fun _ _ h => h)
  · exact Fr.refl _ _ _

theorem endPtr_scopes (r : St × Nat) (t : Nat) : (endPtr r t).scopes = r.1.scopes := by
  unfold endPtr
  split <;> rfl

theorem resType_cases (s : St) (q : Option Qual) : (∃ t, resType s q = (s, t)) ∨ (∃ n, resType s q = (err s n, undftyp)) ∨
    resType s q = (err (err s 0) 52, undftyp) := by
  unfold resType
  split
  · exact .inl ⟨_, rfl⟩
  · split
    · exact .inr (.inr rfl)
    · split
      · split
        · exact .inl ⟨_, rfl⟩
        · exact .inr (.inl ⟨_, rfl⟩)
      · exact .inr (.inl ⟨_, rfl⟩)

theorem fr_resType (P Q : Nat → Prop) (s : St) (q : Option Qual) : Fr P Q s (resType s q).1 := by
  rcases resType_cases s q with ⟨t, h⟩ | ⟨n, h⟩ | h <;> rw [h]
  · exact Fr.refl _ _ _
  · exact fr_err _ _ _ _
  · exact (fr_err _ _ _ _).trans (fr_err P Q _ _) (fun _ _ h => h) (fun _ _ h => h)

theorem resType_scopes (s : St) (q : Option Qual) : (resType s q).1.scopes = s.scopes := by
  rcases resType_cases s q with ⟨t, h⟩ | ⟨n, h⟩ | h <;> rw [h] <;> rfl

theorem fr_endProc (P Q : Nat → Prop) (s : St) (t : Nat) (ps : List Par) (res : Option Qual) (ht : t < s.next) (hP : P t) :
    Fr P Q s (endProc s t ps res) := by
  have h1 := (fr_resType P Q s res).trans (fr_close P Q _) (fun _ _ h => h) (fun _ _ h => h)
  exact h1.trans (fr_entry P Q _ t _ (by have := h1.next; omega) hP ⟨rfl, rfl, rfl⟩) (fun _ _ h => h) (fun _ _ h => h)

theorem endProc_scopes (s : St) (t : Nat) (ps : List Par) (res : Option Qual) : (endProc s t ps res).scopes = s.scopes.tail := by
  simp only [endProc, closeScope, resType_scopes]

/-- A new record with its base. -/
theorem fr_recBase (P Q : Nat → Prop) (s s1 : St) (h : Fr P Q s s1) (t : Nat) (ht : s.next ≤ t) (ht1 : t < s1.next) (banned : Option Nat) (q : Option Qual) : Fr P Q s (recBase s1 t banned q) := by
  unfold recBase
  split
  · exact h
  · split
    · exact (h.trans (fr_err P Q _ 0) (fun _ _ h => h) (fun _ _ h => h)).trans (fr_err P Q _ _) (fun _ _ h => h) (fun _ _ h => h)
    · split
      · split
        · exact h.trans (fr_err P Q _ _) (fun _ _ h => h) (fun _ _ h => h)
        · refine ⟨h.next, h.nobj, ?_, ?_, h.fields, h.objs, h.mode, h.fresh, h.imports, ?_, h.errs, ?_, ?_⟩
          · intro u hu n
            simp only
            rw [upd_ne _ _ (by omega)]
            exact h.tab u hu n
          · intro u hu
            simp only
            rw [upd_ne _ _ (by omega)]
            exact h.keep u hu
          · obtain ⟨w, e, hw⟩ := h.fwd
            refine ⟨w, e, ?_⟩
            intro p hp
            obtain ⟨x1, x2, x3, x4⟩ := hw p hp
            refine ⟨x1, x2, ?_⟩
            by_cases c : p.1 = t
            · simp only [c, upd_self]
              rw [← c]
              exact ⟨x3, x4⟩
            · simp only [upd_ne _ _ c]
              exact ⟨x3, x4⟩
          · intro hb u hu
            simp only at hu ⊢
            rw [upd_ne _ _ (by omega)]
            exact h.beyond hb u hu
          · intro hb u hu
            simp only at hu ⊢
            by_cases c : u = t
            · subst c
              simp only [upd_self]
              exact h.cb hb u hu
            · simp only [upd_ne _ _ c]
              exact h.cb hb u hu
      · exact h.trans (fr_err P Q _ _) (fun _ _ h => h) (fun _ _ h => h)

theorem recBase_scopes (s : St) (t : Nat) (banned : Option Nat) (q : Option Qual) : (recBase s t banned q).scopes = s.scopes := by
  unfold recBase
  split
  · rfl
  · split
    · rfl
    · split
      · split <;> rfl
      · rfl

theorem recBase_objs (s : St) (t : Nat) (banned : Option Nat) (q : Option Qual) : (recBase s t banned q).objs = s.objs := by
  unfold recBase
  split
  · rfl
  · split
    · rfl
    · split
      · split <;> rfl
      · rfl

theorem recBase_next (s : St) (t : Nat) (banned : Option Nat) (q : Option Qual) : (recBase s t banned q).next = s.next ∧ (recBase s t banned q).nobj = s.nobj ∧
    (recBase s t banned q).fields = s.fields := by
  unfold recBase
  split
  · exact ⟨rfl, rfl, rfl⟩
  · split
    · exact ⟨rfl, rfl, rfl⟩
    · split
      · split <;> exact ⟨rfl, rfl, rfl⟩
      · exact ⟨rfl, rfl, rfl⟩

/-- What `PointerType` does for a name. -/
theorem ptrName_cases (s : St) (t : Nat) (q : Qual) :
    (∃ x, q = .id x ∧ findIn x s.scopes = none ∧ s.fwd.length < 64 ∧ ptrName s t q = { s with fwd := s.fwd ++ [(t, some x)] }) ∨
    (∃ ob, qualident s q = some ob ∧ ob.mode = .typ ∧ (s.tab ob.typ).comp ≠ .basic ∧ ptrName s t q = setLoc s ob.typ (.base t)) ∨
    (∃ w n ns, (w = [] ∨ ∃ x, w = [(t, some x)]) ∧ ptrName s t q = { s with fwd := s.fwd ++ w, errs := s.errs ++ n :: ns }) := by
  have hE : ∀ n, err s n = { s with fwd := s.fwd ++ [], errs := s.errs ++ [n] } := by intro n; simp [err]
  have hE2 : ∀ m n, err (err s m) n = { s with fwd := s.fwd ++ [], errs := s.errs ++ [m, n] } := by intro n; simp [err]
  cases q with
  | id x =>
    cases hf : findIn x s.scopes with
    | none =>
      simp only [ptrName, hf]
      by_cases c : s.fwd.length < 64
      · rw [if_pos c]
        exact .inl ⟨x, rfl, hf, c, rfl⟩
      · rw [if_neg c]
        exact .inr (.inr ⟨[], _, _, .inl rfl, hE 224⟩)
    | some o =>
      simp only [ptrName, hf]
      cases hq : qualident s (.id x) with
      | none => exact .inr (.inr ⟨[], _, _, .inl rfl, hE2 0 52⟩)
      | some ob =>
        simp only
        split
        · split
          · exact .inr (.inl ⟨ob, rfl, by assumption, by assumption, rfl⟩)
          · exact .inr (.inr ⟨[], _, _, .inl rfl, hE 57⟩)
        · exact .inr (.inr ⟨[], _, _, .inl rfl, hE 52⟩)
  | sel m x =>
    cases hf : findIn m s.scopes with
    | none =>
      simp only [ptrName, hf]
      by_cases c : s.fwd.length < 64
      · rw [if_pos c]
        exact .inr (.inr ⟨[(t, some m)], 0, [], .inr ⟨_, rfl⟩, rfl⟩)
      · rw [if_neg c]
        exact .inr (.inr ⟨[], _, _, .inl rfl, hE2 224 0⟩)
    | some o =>
      simp only [ptrName, hf]
      cases hq : qualident s (.sel m x) with
      | none => exact .inr (.inr ⟨[], _, _, .inl rfl, hE2 0 52⟩)
      | some ob =>
        simp only
        split
        · split
          · exact .inr (.inl ⟨ob, rfl, by assumption, by assumption, rfl⟩)
          · exact .inr (.inr ⟨[], _, _, .inl rfl, hE 57⟩)
        · exact .inr (.inr ⟨[], _, _, .inl rfl, hE 52⟩)

theorem ptrName_scopes (s : St) (t : Nat) (q : Qual) : (ptrName s t q).scopes = s.scopes := by
  rcases ptrName_cases s t q with ⟨_, _, _, _, e⟩ | ⟨_, _, _, _, e⟩ | ⟨_, _, _, _, e⟩ <;> rw [e] <;> rfl

theorem ptrName_objs (s : St) (t : Nat) (q : Qual) : (ptrName s t q).objs = s.objs := by
  rcases ptrName_cases s t q with ⟨_, _, _, _, e⟩ | ⟨_, _, _, _, e⟩ | ⟨_, _, _, _, e⟩ <;> rw [e] <;> rfl

/-- A pointer to a name: entries of the list are for the new pointer only. -/
theorem fr_ptrName (P Q : Nat → Prop) (s s1 : St) (h : Fr P Q s s1) (t : Nat) (ht : s.next ≤ t) (ht1 : t < s1.next)
    (hy : (s1.tab t).form = .ptr ∧ (s1.tab t).comp = .basic) (q : Qual) : Fr P Q s (ptrName s1 t q) := by
  have key : ∀ w, (∀ p ∈ w, p.1 = t) → ∀ es, Fr P Q s { s1 with fwd := s1.fwd ++ w, errs := s1.errs ++ es } := by
    intro w hw es
    refine ⟨h.next, h.nobj, h.tab, h.keep, h.fields, h.objs, h.mode, h.fresh, h.imports, ?_, ?_, h.beyond, h.cb⟩
    · obtain ⟨w0, e, hw0⟩ := h.fwd
      refine ⟨w0 ++ w, by simp only [e, List.append_assoc], ?_⟩
      intro p hp
      rcases List.mem_append.mp hp with a | a
      · exact hw0 p a
      · rw [hw p a]
        exact ⟨ht, ht1, hy⟩
    · obtain ⟨w0, e⟩ := h.errs
      exact ⟨w0 ++ es, by simp only [e, List.append_assoc]⟩
  rcases ptrName_cases s1 t q with ⟨x, _, _, _, e⟩ | ⟨ob, _, _, _, e⟩ | ⟨w, n, ns, hw, e⟩
  · rw [e]
    have := key [(t, some x)] (by simp) []
    simpa using this
  · rw [e]
    have h2 : Fr (· = t) Q s1 (setLoc s1 ob.typ (.base t)) := fr_entry (· = t) Q s1 t { s1.tab t with base := some ob.typ } ht1 rfl ⟨rfl, rfl, rfl⟩
    exact h.trans h2 (fun u hu e => by omega) (fun _ _ h => h)
  · rw [e]
    refine key w ?_ _
    rcases hw with rfl | ⟨x, rfl⟩ <;> simp

/-! ### Whole type expressions -/

/-- The value is at its place. -/
def At (loc : Loc) (s s' : St) (t : Nat) : Prop :=
  (∀ p, loc = .base p → s'.tab p = { s.tab p with base := some t }) ∧ ∀ i, loc = .obj i → (s'.objs i).typ = t

theorem at_new (s : St) (loc : Loc) (y : Ty) (hl : LocIn s loc) : At loc s (new s loc y) s.next :=
  ⟨fun p e => by subst e; exact new_base s p y (hl.1 p rfl), fun i e => by subst e; exact new_obj s i y⟩

theorem At.mono {loc : Loc} {s s1 s2 : St} {t : Nat} {P Q : Nat → Prop} (h : At loc s s1 t) (hl : LocIn s loc) (ha : s.next ≤ s1.next) (hb : s.nobj ≤ s1.nobj)
    (a : Fr P Q s1 s2) (hP : ∀ u < s.next, ¬ P u) (hQ : ∀ i < s.nobj, ¬ Q i) : At loc s s2 t := by
  refine ⟨fun p e => ?_, fun i e => ?_⟩
  · have := hl.1 p e
    rw [a.tab p (by omega) (hP p this)]
    exact h.1 p e
  · have := hl.2 i e
    rw [a.objs i (by omega) (hQ i this)]
    exact h.2 i e

theorem at_setLoc (s s1 : St) (t u : Nat) (loc : Loc) (h : s1 = setLoc s u loc) : At loc s (setLoc s1 t loc) t := by
  subst h
  refine ⟨fun p e => ?_, fun i e => ?_⟩ <;> subst e <;> simp [setLoc, upd]

/-- What `TypeDecl` leaves alone. -/
def FrD (s : St) (loc : Loc) (r : St × Nat) : Prop :=
  Fr (LocP loc) (LocQ loc) s r.1 ∧ r.1.scopes = s.scopes ∧ At loc s r.1 r.2

theorem frD_name (s : St) (loc : Loc) (hl : LocIn s loc) (mx : Int) (banned : Option Nat) (q : Qual) : FrD s loc (typeDecl mx s loc banned (.name q)) := by
  have h0 : Fr (LocP loc) (LocQ loc) s (setLoc s undftyp loc) := fr_setLoc _ _ s _ loc hl (fun _ h => h) (fun _ h => h)
  have a0 : At loc s (setLoc s undftyp loc) undftyp := by
    refine ⟨fun p e => ?_, fun i e => ?_⟩ <;> subst e <;> simp [setLoc, upd]
  have he : ∀ n, FrD s loc (err (setLoc s undftyp loc) n, undftyp) := by
    intro n
    exact ⟨h0.trans (fr_err (LocP loc) (LocQ loc) _ n) (fun _ _ h => h) (fun _ _ h => h), setLoc_scopes _ _ _, a0⟩
  have he2 : ∀ m n, FrD s loc (err (err (setLoc s undftyp loc) m) n, undftyp) := by
    intro m n
    exact ⟨(he m).1.trans (fr_err (LocP loc) (LocQ loc) _ n) (fun _ _ h => h) (fun _ _ h => h), setLoc_scopes _ _ _, a0⟩
  rw [typeDecl.eq_1]
  try dsimp only
  split
  · exact he2 _ _
  · split
    · split
      · exact he _
      · rename_i ob _ _ _
        refine ⟨h0.trans (fr_setLoc (LocP loc) (LocQ loc) _ _ loc (hl.mono h0.next h0.nobj) (fun _ h => h) (fun _ h => h)) (fun _ _ h => h) (fun _ _ h => h), ?_, ?_⟩
        · simp only [setLoc_scopes]
        · exact at_setLoc s _ ob.typ undftyp loc rfl
    · exact he _


/-- What the lists of fields and parameters leave alone. -/
def FrL (P : Nat → Prop) (s s' : St) : Prop :=
  Fr P (fun _ => False) s s' ∧ s'.scopes.tail = s.scopes.tail ∧ (s.scopes ≠ [] → s'.scopes ≠ [])

theorem frD_child {s s1 s2 s3 : St} {loc : Loc} {t : Nat} (hl : LocIn s loc) (h0 : Fr (LocP loc) (LocQ loc) s s1) (hn : s1.next = t + 1) (ht : t = s.next)
    (hs : s1.scopes = s.scopes) (a0 : At loc s s1 t) (h1 : Fr (fun u => u = t) (fun _ => False) s1 s2) (hs1 : s2.scopes = s1.scopes)
    (h2 : Fr (fun u => u = t) (fun _ => False) s2 s3) (hs2 : s3.scopes = s2.scopes) : FrD s loc (s3, t) := by
  have h12 := h1.trans h2 (fun _ _ h => h) (fun _ _ h => h)
  refine ⟨h0.trans h12 (fun u hu e => by omega) (fun i _ e => e.elim), (hs2.trans hs1).trans hs, ?_⟩
  exact a0.mono hl h0.next h0.nobj h12 (fun u hu e => by omega) (fun i _ e => e)

theorem fr_errIf (P Q : Nat → Prop) (s : St) (n : Nat) (c : Prop) [Decidable c] : Fr P Q s (if c then err s n else s) := by
  split
  · exact fr_err _ _ _ _
  · exact Fr.refl _ _ _

theorem setFields_scopes (s : St) (t : Nat) (xs : List Nat) (ft : Nat) : (setFields s t xs ft).scopes = s.scopes := rfl

mutual
theorem frD (mx : Int) : ∀ (e : TE) (s : St) (loc : Loc) (banned : Option Nat), LocIn s loc → FrD s loc (typeDecl mx s loc banned e)
  | .name q, s, loc, banned, hl => frD_name s loc hl mx banned q
  | .dyn e, s, loc, banned, hl => by
    rw [typeDecl.eq_2]
    try dsimp only
    have h0 : Fr (LocP loc) (LocQ loc) s (new s loc { form := .comp, comp := .dyn }) := fr_new _ _ s loc _ (by simp) hl (fun _ h => h) (fun _ h => h)
    have hn := new_next s loc { form := .comp, comp := .dyn }
    have a0 := at_new s loc { form := .comp, comp := .dyn } hl
    have hs := new_scopes s loc { form := .comp, comp := .dyn }
    generalize new s loc { form := .comp, comp := .dyn } = s1 at *
    obtain ⟨c1, c2, c3⟩ := frD mx e s1 (.base s.next) banned ⟨fun u e => (by cases e; omega), fun i e => (by cases e)⟩
    generalize typeDecl mx s1 (.base s.next) banned e = r at *
    have c1' : Fr (fun u => u = s.next) (fun _ => False) s1 r.1 :=
      (Fr.refl _ _ _).trans c1 (fun u _ h => by cases h; rfl) (fun i _ h => by cases h)
    have c4 := c1'.trans (fr_typeCheck (fun u => u = s.next) (fun _ => False) r) (fun _ _ h => h) (fun _ _ h => h)
    refine frD_child hl h0 hn rfl hs a0 c4 ((typeCheck_scopes r).trans c2) (fr_endDyn _ _ _ _ ?_ rfl) rfl
    have := c4.next
    omega
  | .arr n e, s, loc, banned, hl => by
    rw [typeDecl.eq_3]
    try dsimp only
    have h0 : Fr (LocP loc) (LocQ loc) s (new s loc { form := .comp, comp := .array, n := if n ≤ 0 ∨ n > mx then 1 else n.toNat }) := fr_new _ _ s loc _ (by simp) hl (fun _ h => h) (fun _ h => h)
    have hn := new_next s loc { form := .comp, comp := .array, n := if n ≤ 0 ∨ n > mx then 1 else n.toNat }
    have a0 := at_new s loc { form := .comp, comp := .array, n := if n ≤ 0 ∨ n > mx then 1 else n.toNat } hl
    have hs := new_scopes s loc { form := .comp, comp := .array, n := if n ≤ 0 ∨ n > mx then 1 else n.toNat }
    generalize new s loc { form := .comp, comp := .array, n := if n ≤ 0 ∨ n > mx then 1 else n.toNat } = s0 at *
    have h1 := h0.trans (fr_errIf (LocP loc) (LocQ loc) s0 63 (n ≤ 0 ∨ n > mx)) (fun _ _ h => h) (fun _ _ h => h)
    have hn1 : (if n ≤ 0 ∨ n > mx then err s0 63 else s0).next = s.next + 1 := by split <;> exact hn
    have hs1 : (if n ≤ 0 ∨ n > mx then err s0 63 else s0).scopes = s.scopes := by split <;> exact hs
    have a1 : At loc s (if n ≤ 0 ∨ n > mx then err s0 63 else s0) s.next := by split <;> exact a0
    generalize (if n ≤ 0 ∨ n > mx then err s0 63 else s0) = s1 at *
    obtain ⟨c1, c2, c3⟩ := frD mx e s1 (.base s.next) banned ⟨fun u e => (by cases e; omega), fun i e => (by cases e)⟩
    generalize typeDecl mx s1 (.base s.next) banned e = r at *
    have c1' : Fr (fun u => u = s.next) (fun _ => False) s1 r.1 :=
      (Fr.refl _ _ _).trans c1 (fun u _ h => by cases h; rfl) (fun i _ h => by cases h)
    have c4 := c1'.trans (fr_typeCheck (fun u => u = s.next) (fun _ => False) r) (fun _ _ h => h) (fun _ _ h => h)
    refine frD_child hl h1 hn1 rfl hs1 a1 c4 ((typeCheck_scopes r).trans c2) (fr_endArr _ _ _ _ ?_ rfl) (endArr_scopes _ _)
    have := c4.next
    omega
  | .recd b fs, s, loc, banned, hl => by
    rw [typeDecl.eq_4]
    try dsimp only
    have h0 : Fr (LocP loc) (LocQ loc) s (new s loc { form := .comp, comp := .record, base := none }) := fr_new _ _ s loc _ (by simp) hl (fun _ h => h) (fun _ h => h)
    have hn := new_next s loc { form := .comp, comp := .record, base := none }
    have a0 := at_new s loc { form := .comp, comp := .record, base := none } hl
    have hs := new_scopes s loc { form := .comp, comp := .record, base := none }
    have hno := new_nobj s loc { form := .comp, comp := .record, base := none }
    generalize new s loc { form := .comp, comp := .record, base := none } = s0 at *
    have h1 := fr_recBase _ _ s s0 h0 s.next (Nat.le_refl _) (by omega) banned b
    have a1 : At loc s (recBase s0 s.next banned b) s.next := by
      have k : Fr (fun u => u = s.next) (fun _ => False) (openScope { s0 with tab := s0.tab }) (openScope s0) := Fr.refl _ _ _
      refine ⟨fun p e => ?_, fun i e => by rw [recBase_objs]; exact a0.2 i e⟩
      have hp := hl.1 p e
      have key : (recBase s0 s.next banned b).tab p = s0.tab p := by
        unfold recBase
        split
        · rfl
        · split
          · rfl
          · split
            · split
              · rfl
              · simp only
                exact upd_ne _ _ (by omega)
            · rfl
      rw [key]
      exact a0.1 p e
    have hn1 : (recBase s0 s.next banned b).next = s.next + 1 := (recBase_next _ _ _ _).1.trans hn
    have hs1 : (recBase s0 s.next banned b).scopes = s.scopes := (recBase_scopes _ _ _ _).trans hs
    generalize recBase s0 s.next banned b = s1 at *
    obtain ⟨c1, c2, c3⟩ := frF mx fs (openScope s1) s.next banned (by simp only [openScope]; omega)
    generalize fieldList mx (openScope s1) s.next banned fs = s2 at *
    have c4 := (fr_open (fun u => u = s.next) (fun _ => False) s1).trans c1 (fun _ _ h => h) (fun _ _ h => h)
    have c5 := c4.trans (fr_close (fun u => u = s.next) (fun _ => False) s2) (fun _ _ h => h) (fun _ _ h => h)
    refine frD_child hl h1 hn1 rfl hs1 a1 c5 ?_ (Fr.refl _ _ _) rfl
    simp only [closeScope, c2, openScope, List.tail_cons]
  | .ptrTo q, s, loc, banned, hl => by
    rw [typeDecl.eq_5]
    try dsimp only
    have h0 : Fr (LocP loc) (LocQ loc) s (new s loc { form := .ptr }) := fr_new _ _ s loc _ (by simp) hl (fun _ h => h) (fun _ h => h)
    have hn := new_next s loc { form := .ptr }
    have a0 := at_new s loc { form := .ptr } hl
    have hs := new_scopes s loc { form := .ptr }
    have ht := new_tab s loc { form := .ptr } hl
    generalize new s loc { form := .ptr } = s1 at *
    refine ⟨fr_ptrName _ _ s s1 h0 s.next (Nat.le_refl _) (by omega) (by rw [ht]; exact ⟨rfl, rfl⟩) q, (ptrName_scopes _ _ _).trans hs, ?_, ?_⟩
    · intro p e
      have hp := hl.1 p e
      have key : (ptrName s1 s.next q).tab p = s1.tab p := by
        rcases ptrName_cases s1 s.next q with ⟨_, _, _, _, e⟩ | ⟨_, _, _, _, e⟩ | ⟨_, _, _, _, e⟩ <;> rw [e]
        exact upd_ne _ _ (by omega)
      try dsimp only
      rw [key]
      exact a0.1 p e
    · intro i e
      try dsimp only
      rw [ptrName_objs]
      exact a0.2 i e
  | .ptr e, s, loc, banned, hl => by
    rw [typeDecl.eq_6]
    try dsimp only
    have h0 : Fr (LocP loc) (LocQ loc) s (new s loc { form := .ptr }) := fr_new _ _ s loc _ (by simp) hl (fun _ h => h) (fun _ h => h)
    have hn := new_next s loc { form := .ptr }
    have a0 := at_new s loc { form := .ptr } hl
    have hs := new_scopes s loc { form := .ptr }
    generalize new s loc { form := .ptr } = s1 at *
    obtain ⟨c1, c2, c3⟩ := frD mx e s1 (.base s.next) none ⟨fun u e => (by cases e; omega), fun i e => (by cases e)⟩
    generalize typeDecl mx s1 (.base s.next) none e = r at *
    have c1' : Fr (fun u => u = s.next) (fun _ => False) s1 r.1 :=
      (Fr.refl _ _ _).trans c1 (fun u _ h => by cases h; rfl) (fun i _ h => by cases h)
    have c4 := c1'.trans (fr_typeCheck (fun u => u = s.next) (fun _ => False) r) (fun _ _ h => h) (fun _ _ h => h)
    refine frD_child hl h0 hn rfl hs a0 c4 ((typeCheck_scopes r).trans c2) (fr_endPtr _ _ _ _ ?_ rfl) (endPtr_scopes _ _)
    have := c4.next
    omega
  | .proc ps res, s, loc, banned, hl => by
    rw [typeDecl.eq_7]
    try dsimp only
    have h0 : Fr (LocP loc) (LocQ loc) s (new s loc { form := .proc }) := fr_new _ _ s loc _ (by simp) hl (fun _ h => h) (fun _ h => h)
    have hn := new_next s loc { form := .proc }
    have a0 := at_new s loc { form := .proc } hl
    have hs := new_scopes s loc { form := .proc }
    generalize new s loc { form := .proc } = s1 at *
    obtain ⟨c1, c2, c3⟩ := frP mx ps (openScope s1)
    generalize parList mx (openScope s1) ps = r at *
    have c1' : Fr (fun u => u = s.next) (fun _ => False) (openScope s1) r.1 :=
      (Fr.refl _ _ _).trans c1 (fun u _ h => h.elim) (fun i _ h => h)
    have c4 := (fr_open (fun u => u = s.next) (fun _ => False) s1).trans c1' (fun _ _ h => h) (fun _ _ h => h)
    have c5 := c4.trans (fr_endProc (fun u => u = s.next) (fun _ => False) r.1 s.next r.2 res (by have := c4.next; omega) rfl) (fun _ _ h => h) (fun _ _ h => h)
    refine frD_child hl h0 hn rfl hs a0 c5 ?_ (Fr.refl _ _ _) rfl
    rw [endProc_scopes, c2]
    rfl
theorem frF (mx : Int) : ∀ (fs : GL) (s : St) (t : Nat) (banned : Option Nat), t < s.next → FrL (fun u => u = t) s (fieldList mx s t banned fs)
  | .nil, s, t, banned, ht => ⟨Fr.refl _ _ _, rfl, id⟩
  | .cons v xs e rest, s, t, banned, ht => by
    rw [fieldList.eq_2]
    try dsimp only
    have h0 := fr_addFields (fun u => u = t) (fun _ => False) t rfl xs s ht
    obtain ⟨s0a, s0b⟩ := addFields_scopes t xs s
    generalize addFields s t xs = s1 at *
    obtain ⟨c1, c2, c3⟩ := frD mx e s1 .tmp banned ⟨fun u e => (by cases e), fun i e => (by cases e)⟩
    generalize typeDecl mx s1 .tmp banned e = r at *
    have c1' : Fr (fun u => u = t) (fun _ => False) s1 r.1 :=
      (Fr.refl _ _ _).trans c1 (fun u _ h => by cases h) (fun i _ h => by cases h)
    have c4 := (h0.trans c1' (fun _ _ h => h) (fun _ _ h => h)).trans (fr_typeCheck (fun u => u = t) (fun _ => False) r) (fun _ _ h => h) (fun _ _ h => h)
    have c5 := c4.trans (fr_noDyn (fun u => u = t) (fun _ => False) (typeCheck r)) (fun _ _ h => h) (fun _ _ h => h)
    have hsc : (noDyn (typeCheck r)).1.scopes = s1.scopes := (noDyn_scopes _).trans ((typeCheck_scopes _).trans c2)
    generalize noDyn (typeCheck r) = r' at *
    have ht' : t < r'.1.next := by have := c5.next; omega
    have c6 := c5.trans (fr_fields (fun u => u = t) (fun _ => False) r'.1 t ((r'.1.fields t).take ((r'.1.fields t).length - xs.length) ++ xs.map (·, r'.2)) ht' rfl) (fun _ _ h => h) (fun _ _ h => h)
    obtain ⟨d1, d2, d3⟩ := frF mx rest (setFields r'.1 t xs r'.2) t banned ht'
    refine ⟨c6.trans d1 (fun _ _ h => h) (fun _ _ h => h), d2.trans ?_, fun h => d3 ?_⟩
    · rw [setFields_scopes, hsc, s0a]
    · rw [setFields_scopes, hsc]; exact s0b h
theorem frP (mx : Int) : ∀ (ps : GL) (s : St), FrL (fun _ => False) s (parList mx s ps).1
  | .nil, s => ⟨Fr.refl _ _ _, rfl, id⟩
  | .cons v xs e rest, s => by
    rw [parList.eq_2]
    try dsimp only
    have h0 := fr_addObjs (fun _ => False) (fun _ => False) xs s
    obtain ⟨s0a, s0b⟩ := addObjs_scopes xs s
    generalize addObjs s xs = s1 at *
    obtain ⟨c1, c2, c3⟩ := frD mx e s1 .tmp none ⟨fun u e => (by cases e), fun i e => (by cases e)⟩
    generalize typeDecl mx s1 .tmp none e = r at *
    have c1' : Fr (fun _ => False) (fun _ => False) s1 r.1 :=
      (Fr.refl _ _ _).trans c1 (fun u _ h => by cases h) (fun i _ h => by cases h)
    have c4 := (h0.trans c1' (fun _ _ h => h) (fun _ _ h => h)).trans (fr_typeCheck (fun _ => False) (fun _ => False) r) (fun _ _ h => h) (fun _ _ h => h)
    have hsc : (typeCheck r).1.scopes = s1.scopes := (typeCheck_scopes _).trans c2
    generalize typeCheck r = r' at *
    obtain ⟨d1, d2, d3⟩ := frP mx rest r'.1
    refine ⟨c4.trans d1 (fun _ _ h => h) (fun _ _ h => h), d2.trans ?_, fun h => d3 ?_⟩
    · rw [hsc, s0a]
    · rw [hsc]; exact s0b h
end

end Verif.Decls
