import Verif.Common
import Verif.Decls.Props
import Verif.TDInit.Model

/-!
# The list of nodes
-/
namespace Verif.TDInit
open Verif.Types Verif.Decls

/-- The list has the new records from `s` to `s'`, each once, and each after what it extends unless that is in `R`. -/
structure Lst (s s' : St) (R : Nat → Prop) (l : List Nat) : Prop where
  mem : ∀ t, t ∈ l ↔ s.next ≤ t ∧ t < s'.next ∧ (s'.tab t).comp = .record
  nodup : l.Nodup
  ord : ∀ a t c, l = a ++ t :: c → ∀ b, (s'.tab t).base = some b → R b ∨ b ∈ a
  lev : ∀ t ∈ l, (s'.tab t).base = none → (s'.tab t).extlev = 0

theorem Lst.nil {s s' : St} {R : Nat → Prop} (h : ∀ t, s.next ≤ t → t < s'.next → (s'.tab t).comp ≠ .record) : Lst s s' R [] :=
  ⟨fun t => ⟨fun h => (by cases h), fun ⟨a, b, c⟩ => absurd c (h t a b)⟩, List.nodup_nil, fun a t c h => (by simp at h), fun t h => (by cases h)⟩

/-- What comes after and leaves the new structures alone. -/
theorem Lst.post {s1 s2 s3 : St} {R P Q : Nat → Prop} {l : List Nat} (h : Lst s1 s2 R l) (a : Fr P Q s2 s3) (hP : ∀ u, s1.next ≤ u → u < s2.next → ¬ P u)
    (hn : s3.next = s2.next) : Lst s1 s3 R l := by
  have key : ∀ t ∈ l, s3.tab t = s2.tab t := fun t ht => by
    obtain ⟨x, y, _⟩ := (h.mem t).mp ht
    exact a.tab t y (hP t x y)
  refine ⟨fun t => ?_, h.nodup, fun b t c e => ?_, fun t ht => ?_⟩
  · rw [h.mem t, hn]
    constructor
    · rintro ⟨x, y, z⟩
      exact ⟨x, y, by rw [(a.keep t y).2.1]; exact z⟩
    · rintro ⟨x, y, z⟩
      exact ⟨x, y, by rw [(a.keep t y).2.1] at z; exact z⟩
  · rw [key t (by rw [e]; simp)]
    exact h.ord b t c e
  · rw [key t ht]
    exact h.lev t ht

/-- What comes before and makes no record. -/
theorem Lst.pre {s s1 s2 : St} {R : Nat → Prop} {l : List Nat} (h : Lst s1 s2 R l) (hn : s.next ≤ s1.next)
    (hr : ∀ t, s.next ≤ t → t < s1.next → (s2.tab t).comp ≠ .record) : Lst s s2 R l := by
  refine ⟨fun t => ?_, h.nodup, h.ord, h.lev⟩
  rw [h.mem t]
  constructor
  · rintro ⟨x, y, z⟩
    exact ⟨by omega, y, z⟩
  · rintro ⟨x, y, z⟩
    exact ⟨by by_contra c; exact hr t x (by omega) z, y, z⟩

theorem Lst.append {s s1 s2 : St} {R P Q : Nat → Prop} {l1 l2 : List Nat} (h1 : Lst s s1 R l1) (h2 : Lst s1 s2 (fun b => R b ∨ b ∈ l1) l2) (a : Fr P Q s1 s2)
    (hn : s.next ≤ s1.next) (hP : ∀ u, s.next ≤ u → u < s1.next → ¬ P u) : Lst s s2 R (l1 ++ l2) := by
  have key : ∀ t ∈ l1, s2.tab t = s1.tab t := fun t ht => by
    obtain ⟨x, y, _⟩ := (h1.mem t).mp ht
    exact a.tab t y (hP t x y)
  refine ⟨fun t => ?_, ?_, fun b t c e => ?_, fun t ht => ?_⟩
  · rw [List.mem_append, h1.mem t, h2.mem t]
    constructor
    · rintro (⟨x, y, z⟩ | ⟨x, y, z⟩)
      · exact ⟨x, by have := a.next; omega, by rw [(a.keep t y).2.1]; exact z⟩
      · exact ⟨by omega, y, z⟩
    · rintro ⟨x, y, z⟩
      by_cases c : t < s1.next
      · exact .inl ⟨x, c, by rw [(a.keep t c).2.1] at z; exact z⟩
      · exact .inr ⟨by omega, y, z⟩
  · rw [List.nodup_append]
    refine ⟨h1.nodup, h2.nodup, fun x hx y hy e => ?_⟩
    subst e
    have := ((h1.mem x).mp hx).2.1
    have := ((h2.mem x).mp hy).1
    omega
  · intro v hv
    rcases List.append_eq_append_iff.mp e with ⟨w, rfl, e2⟩ | ⟨w, e1, e2⟩
    · rcases h2.ord w t c e2 v hv with (k | k) | k
      · exact .inl k
      · exact .inr (List.mem_append_left _ k)
      · exact .inr (List.mem_append_right _ k)
    · cases w with
      | nil =>
        simp only [List.nil_append] at e2
        simp only [List.append_nil] at e1
        subst e1
        rcases h2.ord [] t c (by rw [← e2]; rfl) v hv with (k | k) | k
        · exact .inl k
        · exact .inr k
        · cases k
      | cons x w =>
        rw [List.cons_append] at e2
        obtain ⟨rfl, rfl⟩ := List.cons.inj e2
        rw [key t (by rw [e1]; simp)] at hv
        exact h1.ord b t w e1 v hv
  · rcases List.mem_append.mp ht with c | c
    · rw [key t c]; exact h1.lev t c
    · exact h2.lev t c

theorem Lst.weaken {s s' : St} {R R' : Nat → Prop} {l : List Nat} (h : Lst s s' R l) (hR : ∀ b, R b → R' b) : Lst s s' R' l :=
  ⟨h.mem, h.nodup, fun a t c e b hb => (h.ord a t c e b hb).imp (hR b) id, h.lev⟩

/-- What the names stand for, apart from the name `x0` that is being declared: records in `R`. -/
structure Rdy (x0 : Option Nat) (R : Nat → Prop) (s : St) : Prop where
  sc : ∀ y i, findIn y s.scopes = some i → i < s.nobj
  obj : ∀ y i, findIn y s.scopes = some i → x0 ≠ some y → (s.objs i).mode = .typ → (s.objs i).typ < s.next ∧ ((s.tab (s.objs i).typ).comp = .record → R (s.objs i).typ)
  imp : ∀ i x ob, s.imports i x = some ob → ob.mode = .typ → ob.typ < s.next ∧ ((s.tab ob.typ).comp = .record → R ob.typ)

theorem Rdy.step {x0 : Option Nat} {R P Q : Nat → Prop} {s s' : St} (h : Rdy x0 R s) (a : Fr P Q s s') (f : Finds s s')
    (hQ : ∀ y i, findIn y s.scopes = some i → x0 ≠ some y → ¬ Q i) : Rdy x0 R s' := by
  have hn := a.next
  refine ⟨fun y i hi => ?_, fun y i hi hx hm => ?_, fun i x ob hi hm => ?_⟩
  · rcases (f y).1 i hi with c | c
    · exact c.2
    · have := h.sc y i c; have := a.nobj; omega
  · rcases (f y).1 i hi with c | c
    · rw [a.fresh i c.1 c.2] at hm; cases hm
    · have ho := a.objs i (h.sc y i c) (hQ y i c hx)
      rw [ho] at hm ⊢
      obtain ⟨k1, k2⟩ := h.obj y i c hx hm
      exact ⟨by omega, fun hr => k2 (by rw [(a.keep _ k1).2.1] at hr; exact hr)⟩
  · rw [a.imports] at hi
    obtain ⟨k1, k2⟩ := h.imp i x ob hi hm
    exact ⟨by omega, fun hr => k2 (by rw [(a.keep _ k1).2.1] at hr; exact hr)⟩

/-- What a name stands for. -/
theorem Rdy.qual {x0 : Option Nat} {R : Nat → Prop} {s : St} (h : Rdy x0 R s) {q : Qual} {ob : Obj} (hq : qualident s q = some ob) (hm : ob.mode = .typ)
    (hx : ∀ x, x0 = some x → q ≠ .id x) : ob.typ < s.next ∧ ((s.tab ob.typ).comp = .record → R ob.typ) := by
  cases q with
  | id x =>
    simp only [qualident, Option.map_eq_some_iff] at hq
    obtain ⟨i, hi, rfl⟩ := hq
    exact h.obj x i hi (fun e => hx x e rfl) hm
  | sel m x =>
    simp only [qualident] at hq
    split at hq
    · split at hq
      · rename_i i _ _
        exact h.imp i x ob hq hm
      · cases hq
    · cases hq

/-- The declared object alone may change. -/
def LocOk (x0 : Option Nat) (s : St) (loc : Loc) : Prop :=
  LocIn s loc ∧ ∀ i, loc = .obj i → ∀ y, findIn y s.scopes = some i → x0 = some y

theorem LocOk.tmp {x0 : Option Nat} {s : St} : LocOk x0 s .tmp := ⟨⟨fun u e => (by cases e), fun i e => (by cases e)⟩, fun i e => (by cases e)⟩
theorem LocOk.base {x0 : Option Nat} {s : St} {t : Nat} (h : t < s.next) : LocOk x0 s (.base t) :=
  ⟨⟨fun u e => (by cases e; exact h), fun i e => (by cases e)⟩, fun i e => (by cases e)⟩

theorem Rdy.new {x0 : Option Nat} {R : Nat → Prop} {s : St} {loc : Loc} (h : Rdy x0 R s) (hl : LocOk x0 s loc) (y : Ty) (hy : y.form = .comp ↔ y.comp ≠ .basic) :
    Rdy x0 R (new s loc y) :=
  h.step (fr_new (LocP loc) (LocQ loc) s loc y hy hl.1 (fun _ h => h) (fun _ h => h)) (Finds.of_eq (new_scopes s loc y))
    fun z i hz hx hq => hx (hl.2 i hq z hz)

theorem rdyD {x0 : Option Nat} {R : Nat → Prop} {s : St} (h : Rdy x0 R s) (mx : Int) (ban : Option Nat) (e : TE) : Rdy x0 R (typeDecl mx s .tmp ban e).1 := by
  obtain ⟨a, b, _⟩ := frD mx e s .tmp ban (LocOk.tmp (x0 := x0)).1
  exact h.step a (Finds.of_eq b) fun _ _ _ _ hq => by cases hq

/-- The entry of a record does not change while its fields are read. -/
theorem fieldList_tab (mx : Int) (t : Nat) (ban : Option Nat) : ∀ (fs : GL) (s : St), t < s.next → (fieldList mx s t ban fs).tab t = s.tab t
  | .nil, s, _ => by rw [fieldList.eq_1]
  | .cons v xs e rest, s, ht => by
    rw [fieldList.eq_2]
    try dsimp only
    obtain ⟨n1, n2⟩ := addFields_next t xs s
    obtain ⟨a, _, _⟩ := frD mx e (addFields s t xs) .tmp ban (LocOk.tmp (x0 := none)).1
    have b := (fr_typeCheck No No (typeDecl mx (addFields s t xs) .tmp ban e))
    have c := (fr_noDyn No No (typeCheck (typeDecl mx (addFields s t xs) .tmp ban e)))
    have h1 := a.next
    have h2 := b.next
    have h3 := c.next
    rw [fieldList_tab mx t ban rest _ (by simp only [setFields]; omega)]
    show (noDyn (typeCheck (typeDecl mx (addFields s t xs) .tmp ban e))).1.tab t = s.tab t
    rw [c.tab t (by omega) (fun h => h), b.tab t (by omega) (fun h => h), a.tab t (by omega) (fun h => by cases h), n2]

/-- A structure that is no record, with what is read after it was made. -/
theorem lst_child {s s1 s2 s3 : St} {R P Q P2 Q2 : Nat → Prop} {l : List Nat} (hn : s1.next = s.next + 1) (hc : (s1.tab s.next).comp ≠ .record) (h : Lst s1 s2 R l)
    (a1 : Fr P2 Q2 s1 s2) (a : Fr P Q s2 s3) (hP : ∀ u, P u → u = s.next) (hn3 : s3.next = s2.next) : Lst s s3 R l := by
  refine (h.post a (fun u hu _ hp => by have := hP u hp; omega) hn3).pre (by omega) fun t h1 h2 => ?_
  have : t = s.next := by omega
  subst this
  have := a1.next
  rw [(a.keep _ (by omega)).2.1, (a1.keep _ h2).2.1]
  exact hc

theorem endDyn_next (r : St × Nat) (t : Nat) : (endDyn r t).next = r.1.next := rfl
theorem endArr_next (r : St × Nat) (t : Nat) : (endArr r t).next = r.1.next := by
  unfold endArr; split <;> rfl
theorem endPtr_next (r : St × Nat) (t : Nat) : (endPtr r t).next = r.1.next := by
  unfold endPtr; split <;> rfl
theorem endProc_next (s : St) (t : Nat) (ps : List Par) (res : Option Qual) : (endProc s t ps res).next = s.next := by
  rcases resType_cases s res with ⟨t, h⟩ | ⟨n, h⟩ | h <;> simp only [endProc, h] <;> rfl

theorem setLoc_keep (s : St) (t : Nat) (loc : Loc) (u : Nat) : ((setLoc s t loc).tab u).comp = (s.tab u).comp := by
  cases loc with
  | tmp => rfl
  | obj o => rfl
  | base p =>
    simp only [setLoc, upd]
    split
    · rename_i h; rw [h]
    · rfl

theorem name_next (mx : Int) (s : St) (loc : Loc) (ban : Option Nat) (q : Qual) : (typeDecl mx s loc ban (.name q)).1.next = s.next := by
  rw [typeDecl.eq_1]
  try dsimp only
  split
  · exact setLoc_next s _ loc
  · split
    · split
      · exact setLoc_next s _ loc
      · rw [setLoc_next, setLoc_next]
    · exact setLoc_next s _ loc

theorem ptrName_next (s : St) (t : Nat) (q : Qual) : (ptrName s t q).next = s.next := by
  unfold ptrName
  try dsimp only
  split
  · split <;> rfl
  · simp only [err]
    split <;> rfl
  · split
    · rfl
    · split
      · split
        · exact setLoc_next _ _ _
        · rfl
      · rfl

/-! ### Type expressions -/

variable {x0 : Option Nat} {R : Nat → Prop}

/-- What is to show of a type expression, of fields, of parameters. -/
def OkD (mx : Int) (x0 : Option Nat) (R : Nat → Prop) (e : TE) : Prop := ∀ s loc ban, Rdy x0 R s → LocOk x0 s loc → (∀ x, x0 = some x → ExtOf x e = false) →
  (typeDecl mx s loc ban e).1.errs = [] → Lst s (typeDecl mx s loc ban e).1 R (initsT mx s loc ban e)
def OkF (mx : Int) (x0 : Option Nat) (R : Nat → Prop) (fs : GL) : Prop := ∀ s t ban, Rdy x0 R s → t < s.next → (∀ x, x0 = some x → ExtOfL x fs = false) →
  (fieldList mx s t ban fs).errs = [] → Lst s (fieldList mx s t ban fs) R (initsF mx s t ban fs)
def OkP (mx : Int) (x0 : Option Nat) (R : Nat → Prop) (ps : GL) : Prop := ∀ s, Rdy x0 R s → (∀ x, x0 = some x → ExtOfL x ps = false) →
  (parList mx s ps).1.errs = [] → Lst s (parList mx s ps).1 R (initsP mx s ps)

theorem okD_name (mx : Int) (q : Qual) : OkD mx x0 R (.name q) := by
  intro s loc ban h hl hx he
  rw [initsT.eq_1]
  exact .nil fun t h1 h2 => by rw [name_next] at h2; omega

theorem okD_dyn (mx : Int) {e : TE} (ih : OkD mx x0 R e) : OkD mx x0 R (.dyn e) := by
  intro s loc ban h hl hx he
  rw [initsT.eq_2]
  rw [typeDecl.eq_2] at he ⊢
  try dsimp only at he ⊢
  have hn := new_next s loc { form := .comp, comp := .dyn }
  have ht := new_tab s loc { form := .comp, comp := .dyn } hl.1
  have hr := h.new hl { form := .comp, comp := .dyn } (by simp)
  generalize new s loc { form := .comp, comp := .dyn } = s1 at *
  have hb : LocOk x0 s1 (.base s.next) := .base (by omega)
  obtain ⟨a1, _, _⟩ := frD mx e s1 (.base s.next) ban hb.1
  have b := fr_typeCheck No No (typeDecl mx s1 (.base s.next) ban e)
  have h1 := a1.next
  have h2 := b.next
  have c := fr_endDyn (fun u => u = s.next) No (typeCheck (typeDecl mx s1 (.base s.next) ban e)) s.next (by omega) rfl
  have n2 := typeCheck_clean (c.clean he)
  have he1 := b.clean (c.clean he)
  rw [n2] at c ⊢
  exact lst_child hn (by rw [ht]; simp) (ih s1 _ _ hr hb hx he1) a1 c (fun _ h => h) (endDyn_next _ _)

theorem okD_arr (mx : Int) {n : Int} {e : TE} (ih : OkD mx x0 R e) : OkD mx x0 R (.arr n e) := by
  intro s loc ban h hl hx he
  rw [initsT.eq_3]
  rw [typeDecl.eq_3] at he ⊢
  dsimp only at he ⊢
  generalize (if n ≤ 0 ∨ n > mx then 1 else n.toNat) = k at *
  have hn := new_next s loc { form := .comp, comp := .array, n := k }
  have ht := new_tab s loc { form := .comp, comp := .array, n := k } hl.1
  have hr := h.new hl { form := .comp, comp := .array, n := k } (by simp)
  generalize new s loc { form := .comp, comp := .array, n := k } = s0 at *
  have f0 : Fr No No s0 (if n ≤ 0 ∨ n > mx then err s0 63 else s0) := by
    split
    · exact fr_err _ _ _ _
    · exact Fr.refl _ _ _
  have e0 : (if n ≤ 0 ∨ n > mx then err s0 63 else s0).next = s0.next ∧ (if n ≤ 0 ∨ n > mx then err s0 63 else s0).tab = s0.tab ∧
      (if n ≤ 0 ∨ n > mx then err s0 63 else s0).scopes = s0.scopes := by split <;> exact ⟨rfl, rfl, rfl⟩
  generalize (if n ≤ 0 ∨ n > mx then err s0 63 else s0) = s1 at *
  have hr1 := hr.step f0 (Finds.of_eq e0.2.2) (fun _ _ _ _ h => h)
  have hn1 : s1.next = s.next + 1 := by omega
  have hb : LocOk x0 s1 (.base s.next) := .base (by omega)
  obtain ⟨a1, _, _⟩ := frD mx e s1 (.base s.next) ban hb.1
  have b := fr_typeCheck No No (typeDecl mx s1 (.base s.next) ban e)
  have h1 := a1.next
  have h2 := b.next
  have c := fr_endArr (fun u => u = s.next) No (typeCheck (typeDecl mx s1 (.base s.next) ban e)) s.next (by omega) rfl
  have n2 := typeCheck_clean (c.clean he)
  have he1 := b.clean (c.clean he)
  rw [n2] at c ⊢
  exact lst_child hn1 (by rw [e0.2.1, ht]; simp) (ih s1 _ _ hr1 hb hx he1) a1 c (fun _ h => h) (endArr_next _ _)

theorem okD_ptr (mx : Int) {e : TE} (ih : OkD mx x0 R e) : OkD mx x0 R (.ptr e) := by
  intro s loc ban h hl hx he
  rw [initsT.eq_6]
  rw [typeDecl.eq_6] at he ⊢
  try dsimp only at he ⊢
  have hn := new_next s loc { form := .ptr }
  have ht := new_tab s loc { form := .ptr } hl.1
  have hr := h.new hl { form := .ptr } (by simp)
  generalize new s loc { form := .ptr } = s1 at *
  have hb : LocOk x0 s1 (.base s.next) := .base (by omega)
  obtain ⟨a1, _, _⟩ := frD mx e s1 (.base s.next) none hb.1
  have b := fr_typeCheck No No (typeDecl mx s1 (.base s.next) none e)
  have h1 := a1.next
  have h2 := b.next
  have c := fr_endPtr (fun u => u = s.next) No (typeCheck (typeDecl mx s1 (.base s.next) none e)) s.next (by omega) rfl
  have n2 := typeCheck_clean (c.clean he)
  have he1 := b.clean (c.clean he)
  rw [n2] at c ⊢
  exact lst_child hn (by rw [ht]; simp) (ih s1 _ _ hr hb hx he1) a1 c (fun _ h => h) (endPtr_next _ _)

theorem okD_ptrTo (mx : Int) (q : Qual) : OkD mx x0 R (.ptrTo q) := by
  intro s loc ban h hl hx he
  rw [initsT.eq_5]
  rw [typeDecl.eq_5] at he ⊢
  try dsimp only at he ⊢
  have hn := new_next s loc { form := .ptr }
  have ht := new_tab s loc { form := .ptr } hl.1
  generalize new s loc { form := .ptr } = s1 at *
  refine .nil fun t h1 h2 => ?_
  rw [ptrName_next] at h2
  have e : t = s.next := by omega
  subst e
  have : ((ptrName s1 s.next q).tab s.next).comp = (s1.tab s.next).comp := by
    unfold ptrName
    try dsimp only
    split
    · split <;> rfl
    · simp only [err]
      split <;> rfl
    · split
      · rfl
      · split
        · split
          · exact setLoc_keep _ _ _ _
          · rfl
        · rfl
  rw [this, ht]
  simp

theorem okD_proc (mx : Int) {ps : GL} {res : Option Qual} (ih : OkP mx x0 R ps) : OkD mx x0 R (.proc ps res) := by
  intro s loc ban h hl hx he
  rw [initsT.eq_7]
  rw [typeDecl.eq_7] at he ⊢
  try dsimp only at he ⊢
  have hn := new_next s loc { form := .proc }
  have ht := new_tab s loc { form := .proc } hl.1
  have hr := h.new hl { form := .proc } (by simp)
  generalize new s loc { form := .proc } = s1 at *
  have hr1 := hr.step (fr_open No No s1) (finds_open s1) (fun _ _ _ _ h => h)
  obtain ⟨a1, _, _⟩ := frP mx ps (openScope s1)
  have h1 : s1.next ≤ _ := a1.next
  have c := fr_endProc (fun u => u = s.next) No (parList mx (openScope s1) ps).1 s.next (parList mx (openScope s1) ps).2 res (by omega) rfl
  exact lst_child (s1 := openScope s1) hn (by show (s1.tab s.next).comp ≠ _; rw [ht]; simp) (ih _ hr1 hx (c.clean he)) a1 c (fun _ h => h) (endProc_next _ _ _ _)

theorem okD_recd (mx : Int) {b : Option Qual} {fs : GL} (ih : OkF mx x0 R fs) : OkD mx x0 R (.recd b fs) := by
  intro s loc ban h hl hx he
  rw [initsT.eq_4]
  rw [typeDecl.eq_4] at he ⊢
  try dsimp only at he ⊢
  have hn := new_next s loc { form := .comp, comp := .record, base := none }
  have ht := new_tab s loc { form := .comp, comp := .record, base := none } hl.1
  have hr := h.new hl { form := .comp, comp := .record, base := none } (by simp)
  generalize new s loc { form := .comp, comp := .record, base := none } = s0 at *
  have hfr := fr_recBase (fun u => u = s.next) No s0 s0 (Fr.refl _ _ _) s.next
  have rs := recBase_scopes s0 s.next ban b
  have ro := recBase_objs s0 s.next ban b
  obtain ⟨rn, rno, _⟩ := recBase_next s0 s.next ban b
  have hc := recBase_clean (s := s0) (t := s.next) (ban := ban) (b := b)
  have him : (recBase s0 s.next ban b).imports = s0.imports := by
    unfold recBase
    split
    · rfl
    · split
      · rfl
      · split
        · split <;> rfl
        · rfl
  generalize recBase s0 s.next ban b = s1 at *
  have hnx : s.next < (openScope s1).next := by show s.next < s1.next; omega
  obtain ⟨a, _, _⟩ := frF mx fs (openScope s1) s.next ban hnx
  have heF : (fieldList mx (openScope s1) s.next ban fs).errs = [] := he
  have he1 : s1.errs = [] := a.clean heF
  have hc := hc he1
  have hxb : ∀ x, x0 = some x → b ≠ some (.id x) ∧ ExtOfL x fs = false := by
    intro x hx0
    have := hx x hx0
    simp only [ExtOf, Bool.or_eq_false_iff, decide_eq_false_iff_not] at this
    exact this
  -- the entry of the record
  have hent : (s1.tab s.next).comp = .record ∧ ((s1.tab s.next).base = none → (s1.tab s.next).extlev = 0) ∧ (∀ v, (s1.tab s.next).base = some v → R v) ∧
      ∀ u < s.next, s1.tab u = s0.tab u := by
    rcases hc with ⟨rfl, e⟩ | ⟨q, ob, rfl, hq, hm, hcr, hne, e⟩
    · rw [e, ht]
      exact ⟨rfl, fun _ => rfl, fun v hv => (by cases hv), fun _ _ => rfl⟩
    · rw [e]
      simp only [upd_self]
      obtain ⟨k1, k2⟩ := hr.qual hq hm (fun x hx0 hq0 => (hxb x hx0).1 (by rw [hq0]))
      exact ⟨by rw [ht], fun h => (by cases h), fun v hv => (by cases hv; exact k2 hcr), fun u hu => upd_ne _ _ (by omega)⟩
  obtain ⟨hcomp, hnone, hbase, hold⟩ := hent
  have hr1 : Rdy x0 R (openScope s1) := by
    refine ⟨fun y i hi => ?_, fun y i hi hx hm => ?_, fun i x ob hi hm => ?_⟩
    · have : findIn y s0.scopes = some i := by
        have := (finds_open s1 y).1 i hi
        rw [rs] at this
        rcases this with c | c
        · have : i < s1.nobj := c.2
          omega
        · exact c
      have := hr.sc y i this
      show i < s1.nobj
      omega
    · have hi0 : findIn y s0.scopes = some i := by
        have := (finds_open s1 y).1 i hi
        rw [rs] at this
        rcases this with c | c
        · have : i < s1.nobj := c.2
          omega
        · exact c
      have hm0 : (s0.objs i).mode = .typ := by rw [← ro]; exact hm
      obtain ⟨k1, k2⟩ := hr.obj y i hi0 hx hm0
      show (s1.objs i).typ < s1.next ∧ ((s1.tab (s1.objs i).typ).comp = .record → R (s1.objs i).typ)
      rw [ro, rn]
      refine ⟨k1, fun hcr => k2 ?_⟩
      by_cases c : (s0.objs i).typ = s.next
      · rw [c, ht]
      · have c2 : (s0.objs i).typ < s.next := by omega
        rw [hold _ c2] at hcr
        exact hcr
    · have hi0 : s0.imports i x = some ob := by rw [← him]; exact hi
      obtain ⟨k1, k2⟩ := hr.imp i x ob hi0 hm
      show ob.typ < s1.next ∧ ((s1.tab ob.typ).comp = .record → R ob.typ)
      rw [rn]
      refine ⟨k1, fun hcr => k2 ?_⟩
      by_cases c : ob.typ = s.next
      · rw [c, ht]
      · rw [hold _ (by omega)] at hcr
        exact hcr
  have L := ih (openScope s1) s.next ban hr1 hnx (fun x hx0 => (hxb x hx0).2) heF
  have htab := fieldList_tab mx s.next ban fs (openScope s1) hnx
  generalize fieldList mx (openScope s1) s.next ban fs = s2 at *
  generalize initsF mx (openScope s1) s.next ban fs = l at *
  have htab : (closeScope s2).tab s.next = s1.tab s.next := htab
  have hge : ∀ t ∈ l, s.next < t := fun t ht => by
    have := ((L.mem t).mp ht).1
    exact Nat.lt_of_lt_of_le hnx this
  have hle := a.next
  refine ⟨fun t => ?_, ?_, fun p t c e v hv => ?_, fun t ht hb => ?_⟩
  · rw [List.mem_append, List.mem_singleton, L.mem t]
    show _ ↔ s.next ≤ t ∧ t < s2.next ∧ (s2.tab t).comp = .record
    have htab' : s2.tab s.next = s1.tab s.next := htab
    constructor
    · rintro (⟨x, y, z⟩ | rfl)
      · exact ⟨by omega, y, z⟩
      · exact ⟨Nat.le_refl _, by omega, by rw [htab']; exact hcomp⟩
    · rintro ⟨x, y, z⟩
      have : (openScope s1).next = s.next + 1 := by show s1.next = _; omega
      by_cases c : t = s.next
      · exact .inr c
      · exact .inl ⟨by omega, y, z⟩
  · rw [List.nodup_append]
    refine ⟨L.nodup, by simp, fun x hx y hy e => ?_⟩
    simp only [List.mem_singleton] at hy
    have := hge x hx
    omega
  · rcases List.append_eq_append_iff.mp e with ⟨w, rfl, e2⟩ | ⟨w, e1, e2⟩
    · cases w with
      | nil =>
        simp only [List.nil_append, List.cons.injEq] at e2
        obtain ⟨rfl, _⟩ := e2
        rw [htab] at hv
        exact .inl (hbase v hv)
      | cons x w => simp at e2
    · cases w with
      | nil =>
        simp only [List.nil_append, List.cons.injEq] at e2
        obtain ⟨rfl, _⟩ := e2
        rw [htab] at hv
        exact .inl (hbase v hv)
      | cons x w =>
        rw [List.cons_append] at e2
        obtain ⟨rfl, rfl⟩ := List.cons.inj e2
        exact L.ord p t w e1 v hv
  · rcases List.mem_append.mp ht with c | c
    · exact L.lev t c hb
    · simp only [List.mem_singleton] at c
      subst c
      rw [htab] at hb ⊢
      exact hnone hb

theorem okF_cons (mx : Int) {v : Bool} {xs : List Nat} {e : TE} {rest : GL} (ihe : OkD mx x0 R e) (ihr : ∀ R', (∀ b, R b → R' b) → OkF mx x0 R' rest) : OkF mx x0 R (.cons v xs e rest) := by
  intro s t ban h ht hx he
  have hx1 : ∀ x, x0 = some x → ExtOf x e = false ∧ ExtOfL x rest = false := fun x hx0 => by
    have := hx x hx0
    simp only [ExtOfL, Bool.or_eq_false_iff] at this
    exact this
  rw [initsF.eq_2]
  rw [fieldList.eq_2] at he ⊢
  try dsimp only at he ⊢
  have h0 := fr_addFields (fun u => u = t) No t rfl xs s ht
  have fs0 := finds_addFields t xs s ht
  obtain ⟨nx0, _⟩ := addFields_next t xs s
  have hr := h.step h0 fs0 (fun _ _ _ _ h => h)
  generalize addFields s t xs = s1 at *
  obtain ⟨c1, c2, _⟩ := frD mx e s1 .tmp ban (LocOk.tmp (x0 := x0)).1
  have b1 := fr_typeCheck No No (typeDecl mx s1 .tmp ban e)
  have b2 := fr_noDyn No No (typeCheck (typeDecl mx s1 .tmp ban e))
  have k1 := c1.next
  have k2 := b1.next
  have k3 := b2.next
  have ht3 : t < (noDyn (typeCheck (typeDecl mx s1 .tmp ban e))).1.next := by omega
  have d0 := (frF mx rest (setFields (noDyn (typeCheck (typeDecl mx s1 .tmp ban e))).1 t xs (noDyn (typeCheck (typeDecl mx s1 .tmp ban e))).2) t ban ht3).1
  have he3 : (noDyn (typeCheck (typeDecl mx s1 .tmp ban e))).1.errs = [] := d0.clean he
  obtain ⟨n1, _⟩ := noDyn_clean he3
  rw [n1] at he3
  have n2 := typeCheck_clean he3
  rw [n1, n2] at he d0 ⊢
  rw [n2] at he3
  have hr2 := rdyD hr mx ban e
  have L1 := ihe s1 .tmp ban hr LocOk.tmp (fun x hx0 => (hx1 x hx0).1) he3
  have ht4 : t < (typeDecl mx s1 .tmp ban e).1.next := by omega
  generalize typeDecl mx s1 .tmp ban e = r at *
  have a2 : Fr (fun u => u = t) No r.1 (setFields r.1 t xs r.2) := fr_fields _ _ _ _ _ ht4 rfl
  have L1' : Lst s (setFields r.1 t xs r.2) R (initsT mx s1 .tmp ban e) :=
    (L1.post a2 (fun u h1 _ h2 => by omega) rfl).pre (by omega) (fun u h1 h2 => by omega)
  have hr3 := hr2.step a2 (Finds.of_eq (setFields_scopes _ _ _ _)) (fun _ _ _ _ h => h)
  have L2 := ihr (fun b => R b ∨ b ∈ initsT mx s1 .tmp ban e) (fun _ h => .inl h) (setFields r.1 t xs r.2) t ban
    ⟨hr3.sc, fun y i a b c => ⟨(hr3.obj y i a b c).1, fun d => .inl ((hr3.obj y i a b c).2 d)⟩, fun i x ob a b => ⟨(hr3.imp i x ob a b).1, fun d => .inl ((hr3.imp i x ob a b).2 d)⟩⟩
    ht4 (fun x hx0 => (hx1 x hx0).2) he
  exact L1'.append L2 d0 (by show s.next ≤ r.1.next; omega) (fun u h1 _ h2 => by omega)

theorem okP_cons (mx : Int) {v : Bool} {xs : List Nat} {e : TE} {rest : GL} (ihe : OkD mx x0 R e) (ihr : ∀ R', (∀ b, R b → R' b) → OkP mx x0 R' rest) : OkP mx x0 R (.cons v xs e rest) := by
  intro s h hx he
  have hx1 : ∀ x, x0 = some x → ExtOf x e = false ∧ ExtOfL x rest = false := fun x hx0 => by
    have := hx x hx0
    simp only [ExtOfL, Bool.or_eq_false_iff] at this
    exact this
  rw [initsP.eq_2]
  rw [parList.eq_2] at he ⊢
  try dsimp only at he ⊢
  have h0 := fr_addObjs No No xs s
  have fs0 := finds_addObjs xs s
  have nx0 := addObjs_next xs s
  have hr := h.step h0 fs0 (fun _ _ _ _ h => h)
  generalize addObjs s xs = s1 at *
  obtain ⟨c1, c2, _⟩ := frD mx e s1 .tmp none (LocOk.tmp (x0 := x0)).1
  have k1 := c1.next
  have d0 := (frP mx rest (typeCheck (typeDecl mx s1 .tmp none e)).1).1
  have he3 := d0.clean he
  have n2 := typeCheck_clean he3
  rw [n2] at he d0 he3 ⊢
  have hr2 := rdyD hr mx none e
  have L1 := (ihe s1 .tmp none hr LocOk.tmp (fun x hx0 => (hx1 x hx0).1) he3).pre (s := s) (by omega) (fun u h1 h2 => by omega)
  generalize typeDecl mx s1 .tmp none e = r at *
  have L2 := ihr (fun b => R b ∨ b ∈ initsT mx s1 .tmp none e) (fun _ h => .inl h) r.1
    ⟨hr2.sc, fun y i a b c => ⟨(hr2.obj y i a b c).1, fun d => .inl ((hr2.obj y i a b c).2 d)⟩, fun i x ob a b => ⟨(hr2.imp i x ob a b).1, fun d => .inl ((hr2.imp i x ob a b).2 d)⟩⟩
    (fun x hx0 => (hx1 x hx0).2) he
  exact L1.append L2 d0 (by omega) (fun u h1 _ h2 => h2)

mutual
theorem okD (mx : Int) : ∀ (e : TE) (R : Nat → Prop), OkD mx x0 R e
  | .name q, _ => okD_name mx q
  | .dyn e, R => okD_dyn mx (okD mx e R)
  | .arr _ e, R => okD_arr mx (okD mx e R)
  | .recd _ fs, R => okD_recd mx (okF mx fs R)
  | .ptrTo q, _ => okD_ptrTo mx q
  | .ptr e, R => okD_ptr mx (okD mx e R)
  | .proc ps _, R => okD_proc mx (okP mx ps R)
theorem okF (mx : Int) : ∀ (fs : GL) (R : Nat → Prop), OkF mx x0 R fs
  | .nil, _ => fun s t ban _ _ _ _ => by
    rw [initsF.eq_1, fieldList.eq_1]
    exact .nil fun t h1 h2 => by omega
  | .cons _ _ e rest, R => okF_cons mx (okD mx e R) (fun R' _ => okF mx rest R')
theorem okP (mx : Int) : ∀ (ps : GL) (R : Nat → Prop), OkP mx x0 R ps
  | .nil, _ => fun s _ _ _ => by
    rw [initsP.eq_1, parList.eq_1]
    exact .nil fun t h1 h2 => by dsimp only at h2; omega
  | .cons _ _ e rest, R => okP_cons mx (okD mx e R) (fun R' _ => okP mx rest R')
end

end Verif.TDInit
