import Verif.Common
import Verif.Safe.Spec
import Verif.Types.Props

namespace Verif.Safe
open Verif.Types

variable {T : Tab} {F : Flds}

/-! ### Types -/

theorem climb_val (hw : Wf T) (p : Nat) : ∀ (f q : Nat), (T q).comp = .record → (T q).extlev < f →
    climb T p f (some q) = none ∨ climb T p f (some q) = some p
  | 0, q, _, h => by omega
  | f + 1, q, hq, h => by
    have hu : q ≠ undftyp := by
      rintro rfl
      rw [hw.undf] at hq
      cases hq
    simp only [climb]
    by_cases h1 : q = p
    · rw [if_pos (.inl h1), h1]
      exact .inr rfl
    · rw [if_neg (by rintro (h | h); exacts [h1 h, hu h])]
      cases hb : (T q).base with
      | none => left; cases f <;> rfl
      | some b =>
        obtain ⟨h2, h3⟩ := hw.record q b hq hb
        exact climb_val hw p f b h2 (by omega)

theorem isExt_iff (hw : Wf T) {d t : Nat} (hd : (T d).comp = .record) : isExt T d t = true ↔ Ext T d t := by
  rw [← climb_eq hw t ((T d).extlev + 1) d hd (by omega), isExt]
  cases climb T t ((T d).extlev + 1) (some d) <;> simp

theorem climb_ext (hw : Wf T) {d t : Nat} (hd : (T d).comp = .record) : climb T t ((T d).extlev + 1) (some d) = some t ↔ Ext T d t := by
  rw [← climb_eq hw t ((T d).extlev + 1) d hd (by omega)]
  rcases climb_val hw t ((T d).extlev + 1) d hd (by omega) with h | h <;> rw [h] <;> simp

theorem Ext.trans {a b c : Nat} (h1 : Ext T a b) (h2 : Ext T b c) : Ext T a c := by
  induction h1 with
  | refl => exact h2
  | step h3 h4 _ ih => exact .step h3 h4 (ih h2)

theorem findField_ok (hw : Wf T) (f : Nat) : ∀ (k t t0 u : Nat), (T t).comp = .record → findField T F f k (some t) = some (t0, u) →
    Ext T t t0 ∧ F t0 f = some u
  | 0, _, _, _, _, h => by simp [findField] at h
  | k + 1, t, t0, u, ht, h => by
    simp only [findField] at h
    cases hf : F t f with
    | some w =>
      rw [hf] at h
      simp only [Option.some.injEq, Prod.mk.injEq] at h
      obtain ⟨rfl, rfl⟩ := h
      exact ⟨.refl t, hf⟩
    | none =>
      rw [hf] at h
      simp only at h
      cases hb : (T t).base with
      | none => rw [hb] at h; cases k <;> simp [findField] at h
      | some b =>
        rw [hb] at h
        obtain ⟨h1, h2⟩ := findField_ok hw f k b t0 u (hw.record t b ht hb).1 h
        exact ⟨.step ht hb h1, h2⟩

theorem walk_ext (hw : Wf T) (p : Nat) : ∀ (k q : Nat), (T q).comp = .record → walk T p k (some q) = some (some p) → Ext T q p
  | 0, _, _, h => by simp [walk] at h
  | k + 1, q, hq, h => by
    have hu : q ≠ undftyp := by
      rintro rfl
      rw [hw.undf] at hq
      cases hq
    simp only [walk] at h
    by_cases h1 : q = p
    · rw [h1]
      exact .refl p
    · rw [if_neg (by rintro (h | h); exacts [h1 h, hu h])] at h
      cases hb : (T q).base with
      | none => rw [hb] at h; cases k <;> simp [walk] at h
      | some b =>
        rw [hb] at h
        exact .step hq hb (walk_ext hw p k b (hw.record q b hq hb).1 h)

theorem gtt_ok (hw : Wf T) {K b u : Nat} {g : Bool} (hb : (T b).comp = .record) (hg : gtt T K b u = some g) :
    ((T u).comp = .record → Ext T u b) ∧ (g = false → u = b) := by
  simp only [gtt, Option.bind_eq_some_iff] at hg
  obtain ⟨a, h0, hg⟩ := hg
  by_cases h1 : a = some u
  · rw [if_pos h1] at hg
    by_cases h2 : b = u
    · subst h2
      exact ⟨fun _ => .refl b, fun _ => rfl⟩
    · rw [if_neg h2] at hg
      cases hg
  · rw [if_neg h1, Option.bind_eq_some_iff] at hg
    obtain ⟨c, h2, hg⟩ := hg
    by_cases h3 : c = some b ∨ (T b).form = .undef
    · rw [if_pos h3] at hg
      cases hg
      rcases h3 with h3 | h3
      · rw [h3] at h2
        exact ⟨fun hu => walk_ext hw b K u hu h2, fun h => (by cases h)⟩
      · rw [form_comp hw hb (by simp)] at h3
        cases h3
    · rw [if_neg h3] at hg
      cases hg

/-- A pointer type of the same records. -/
def Same (T : Tab) (a b : Nat) : Prop := a = b ∨ ∃ r, RecPtr T a r ∧ RecPtr T b r

/-- Everything that fits `a` fits `b`. -/
def Sub (T : Tab) (a b : Nat) : Prop := a = b ∨ ∃ r q, RecPtr T a r ∧ RecPtr T b q ∧ Ext T r q

theorem Same.sub {a b : Nat} (h : Same T a b) : Sub T b a := by
  rcases h with h | ⟨r, h1, h2⟩
  · exact .inl h.symm
  · exact .inr ⟨r, r, h2, h1, .refl r⟩

theorem Same.sub' {a b : Nat} (h : Same T a b) : Sub T a b := by
  rcases h with h | ⟨r, h1, h2⟩
  · exact .inl h
  · exact .inr ⟨r, r, h1, h2, .refl r⟩

theorem recPtr_inj {t a b : Nat} (h1 : RecPtr T t a) (h2 : RecPtr T t b) : a = b := by
  have := h1.2.1.symm.trans h2.2.1
  cases this
  rfl

theorem recPtr_not_int {t a : Nat} (h : RecPtr T t a) : (T t).form ≠ .int := by
  rw [h.1]
  simp

theorem Sub.trans {a b c : Nat} (h1 : Sub T a b) (h2 : Sub T b c) : Sub T a c := by
  rcases h1 with rfl | ⟨r, q, h3, h4, h5⟩
  · exact h2
  · rcases h2 with rfl | ⟨r', q', h6, h7, h8⟩
    · exact .inr ⟨r, q, h3, h4, h5⟩
    · obtain rfl := recPtr_inj h4 h6
      exact .inr ⟨r, q', h3, h7, Ext.trans h5 h8⟩

theorem Fits.sub {st : St} {a b : Nat} {v : Val} (h : Fits T st a v) (hs : Sub T a b) : Fits T st b v := by
  rcases hs with rfl | ⟨r, q, h1, h2, h3⟩
  · exact h
  · rcases h with ⟨h4, _⟩ | ⟨r', h4, h5⟩
    · exact absurd h4 (recPtr_not_int h1)
    · obtain rfl := recPtr_inj h1 h4
      refine .inr ⟨q, h2, ?_⟩
      rcases h5 with h5 | ⟨o, h5, h6, h7⟩
      · exact .inl h5
      · exact .inr ⟨o, h5, h6, Ext.trans h7 h3⟩

/-! ### States -/

/-- The types variables have at the moment: that of the innermost WITH. -/
abbrev World := Nat → Nat

structure StOk (T : Tab) (F : Flds) (W : World) (st : St) : Prop where
  vars : ∀ a, a < st.nv → Fits T st (W a) (st.vars a)
  recs : ∀ o, o < st.no → (T (st.objs o).typ).comp = .record
  objs : ∀ o, o < st.no → FieldsFit T F st o

structure Evolve (W : World) (st : St) (W' : World) (st' : St) : Prop where
  nv : st.nv ≤ st'.nv
  no : st.no ≤ st'.no
  vars : ∀ a, a < st.nv → W' a = W a
  objs : ∀ o, o < st.no → (st'.objs o).typ = (st.objs o).typ

theorem Evolve.rfl {W : World} {st : St} : Evolve W st W st := ⟨Nat.le_refl _, Nat.le_refl _, fun _ _ => _root_.rfl, fun _ _ => _root_.rfl⟩

theorem Evolve.trans {W W' W'' : World} {st st' st'' : St} (h1 : Evolve W st W' st') (h2 : Evolve W' st' W'' st'') : Evolve W st W'' st'' :=
  ⟨Nat.le_trans h1.nv h2.nv, Nat.le_trans h1.no h2.no, fun a h => (h2.vars a (Nat.lt_of_lt_of_le h h1.nv)).trans (h1.vars a h),
    fun o h => (h2.objs o (Nat.lt_of_lt_of_le h h1.no)).trans (h1.objs o h)⟩

theorem Fits.mono {W W' : World} {st st' : St} {t : Nat} {v : Val} (e : Evolve W st W' st') (h : Fits T st t v) : Fits T st' t v := by
  rcases h with h | ⟨b, h1, h2⟩
  · exact .inl h
  · refine .inr ⟨b, h1, ?_⟩
    rcases h2 with h | ⟨o, h3, h4, h5⟩
    · exact .inl h
    · exact .inr ⟨o, h3, Nat.lt_of_lt_of_le h4 e.no, by rw [e.objs o h4]; exact h5⟩

/-- A place for a value of type `t`. -/
def Place (T : Tab) (F : Flds) (W : World) (st : St) (t : Nat) : Ref → Prop
  | .var a => a < st.nv ∧ W a = t
  | .fld o t0 f => o < st.no ∧ Ext T (st.objs o).typ t0 ∧ F t0 f = some t
  | .obj _ _ => False

theorem Place.mono {W W' : World} {st st' : St} {t : Nat} {r : Ref} (e : Evolve W st W' st') (h : Place T F W st t r) : Place T F W' st' t r := by
  cases r with
  | var a => exact ⟨Nat.lt_of_lt_of_le h.1 e.nv, (e.vars a h.1).trans h.2⟩
  | fld o t0 f => exact ⟨Nat.lt_of_lt_of_le h.1 e.no, by rw [e.objs o h.1]; exact h.2.1, h.2.2⟩
  | obj => exact h

theorem Place.load {W : World} {st : St} {t : Nat} {r : Ref} (hs : StOk T F W st) (h : Place T F W st t r) :
    ∃ v, load st r = .ok v ∧ Fits T st t v := by
  cases r with
  | var a => exact ⟨_, rfl, by rw [← h.2]; exact hs.vars a h.1⟩
  | fld o t0 f => exact ⟨_, rfl, hs.objs o h.1 t0 f t h.2.1 h.2.2⟩
  | obj => exact h.elim

theorem Place.store {W : World} {st : St} {t : Nat} {r : Ref} {v : Val} (hs : StOk T F W st) (h : Place T F W st t r) (hv : Fits T st t v) :
    ∃ st', store st v r = .ok st' ∧ Evolve W st W st' ∧ StOk T F W st' := by
  cases r with
  | var a =>
    have e : Evolve W st W { st with vars := fun b => if b = a then v else st.vars b } :=
      ⟨Nat.le_refl _, Nat.le_refl _, fun _ _ => rfl, fun _ _ => rfl⟩
    refine ⟨_, rfl, e, fun b hb => ?_, hs.recs, fun o ho t0 f u h1 h2 => (hs.objs o ho t0 f u h1 h2).mono e⟩
    show Fits T _ (W b) (if b = a then v else st.vars b)
    by_cases hba : b = a
    · rw [if_pos hba, hba, h.2]
      exact hv.mono e
    · rw [if_neg hba]
      exact (hs.vars b hb).mono e
  | fld o t0 f =>
    have e : Evolve W st W { st with objs := fun q => if q = o then ⟨(st.objs o).typ, fun t' f' => if t' = t0 ∧ f' = f then v else (st.objs o).val t' f'⟩ else st.objs q } := by
      refine ⟨Nat.le_refl _, Nat.le_refl _, fun _ _ => rfl, fun q _ => ?_⟩
      show (if q = o then _ else st.objs q : Obj).typ = _
      by_cases hq : q = o
      · rw [if_pos hq, hq]
      · rw [if_neg hq]
    refine ⟨_, rfl, e, fun b hb => (hs.vars b hb).mono e, fun q hq => ?_, fun q hq t1 f1 u h1 h2 => ?_⟩
    · rw [e.objs q hq]
      exact hs.recs q hq
    · rw [e.objs q hq] at h1
      have hold := (hs.objs q hq t1 f1 u h1 h2).mono e
      show Fits T _ u ((if q = o then (⟨(st.objs o).typ, fun t' f' => if t' = t0 ∧ f' = f then v else (st.objs o).val t' f'⟩ : Obj) else st.objs q).val t1 f1)
      by_cases hqo : q = o
      · rw [if_pos hqo]
        show Fits T _ u (if t1 = t0 ∧ f1 = f then v else (st.objs o).val t1 f1)
        by_cases hk : t1 = t0 ∧ f1 = f
        · rw [if_pos hk]
          have : u = t := by
            have h3 := h.2.2
            rw [← hk.1, ← hk.2, h2] at h3
            cases h3
            rfl
          rw [this]
          exact hv.mono e
        · rw [if_neg hk]
          rw [hqo] at hold
          exact hold
      · rw [if_neg hqo]
        exact hold
  | obj => exact h.elim

/-- A name stands for a record of its type, or for a place of its type. -/
def NameOk (T : Tab) (F : Flds) (W : World) (st : St) (d : Decl) (r : Ref) : Prop :=
  ((T d.typ).comp = .record ∧ ∃ o, r = .obj o (st.objs o).typ ∧ o < st.no ∧ Ext T (st.objs o).typ d.typ ∧
    (d.varpar = false → (st.objs o).typ = d.typ)) ∨
  (Simple T d.typ ∧ ∃ t, Place T F W st t r ∧ Same T t d.typ)

theorem NameOk.mono {W W' : World} {st st' : St} {d : Decl} {r : Ref} (e : Evolve W st W' st') (h : NameOk T F W st d r) : NameOk T F W' st' d r := by
  rcases h with ⟨h1, o, h2, h3, h4, h5⟩ | ⟨h1, t, h2, h3⟩
  · refine .inl ⟨h1, o, ?_, Nat.lt_of_lt_of_le h3 e.no, ?_, ?_⟩ <;> rw [e.objs o h3] <;> assumption
  · exact .inr ⟨h1, t, h2.mono e, h3⟩

def FrameOk (T : Tab) (F : Flds) (W : World) (st : St) (G : Ctx) (env : Env) : Prop := ∀ x d, G x = some d → NameOk T F W st d (env x)

/-- What the address of a designator of class `c` and type `t` is. -/
def RefOk (T : Tab) (F : Flds) (W : World) (st : St) (c : Cls) (t : Nat) (r : Ref) : Prop :=
  ((T t).comp = .record ∧ ∃ o, r = .obj o (st.objs o).typ ∧ o < st.no ∧ Ext T (st.objs o).typ t ∧ (c = .nvar → (st.objs o).typ = t) ∧ c ≠ .nfield) ∨
  (Simple T t ∧ (∃ u, Place T F W st u r ∧ Sub T t u ∧ (c ≠ .nguard → Same T u t)) ∧ ∃ v, load st r = .ok v ∧ Fits T st t v)

/-- It is not wild, and what it gives is as it should be. -/
def Tame {α : Type} (P : α → Prop) (r : Res α) : Prop := r ≠ .wild ∧ ∀ a, r = .ok a → P a

theorem Tame.ok {α : Type} {P : α → Prop} {a : α} (h : P a) : Tame P (.ok a) := ⟨by simp, fun b hb => by cases hb; exact h⟩
theorem Tame.trap {α : Type} {P : α → Prop} : Tame P (.trap : Res α) := ⟨by simp, by simp⟩
theorem Tame.more {α : Type} {P : α → Prop} : Tame P (.more : Res α) := ⟨by simp, by simp⟩

theorem Tame.bind {α β : Type} {P : α → Prop} {Q : β → Prop} {r : Res α} {f : α → Res β} (h : Tame P r) (hf : ∀ a, P a → Tame Q (f a)) :
    Tame Q (r.bind f) := by
  cases r with
  | ok a => exact hf a (h.2 a rfl)
  | trap => exact .trap
  | wild => exact absurd rfl h.1
  | more => exact .more

theorem Tame.imp {α : Type} {P Q : α → Prop} {r : Res α} (h : Tame P r) (hf : ∀ a, P a → Q a) : Tame Q r := ⟨h.1, fun a ha => hf a (h.2 a ha)⟩

theorem simple_basic (hw : Wf T) {t : Nat} (h : Simple T t) : (T t).comp = .basic := by
  rcases h with h | ⟨b, h⟩
  · exact comp_basic hw (by rw [h]; simp)
  · exact comp_basic hw (by rw [h.1]; simp)

theorem RefOk.record (hw : Wf T) {W : World} {st : St} {c : Cls} {t : Nat} {r : Ref} (h : RefOk T F W st c t r) (ht : (T t).comp = .record) :
    ∃ o, r = .obj o (st.objs o).typ ∧ o < st.no ∧ Ext T (st.objs o).typ t ∧ (c = .nvar → (st.objs o).typ = t) ∧ c ≠ .nfield := by
  rcases h with h | ⟨h, _⟩
  · exact h.2
  · rw [simple_basic hw h] at ht
    cases ht

theorem RefOk.simple (hw : Wf T) {W : World} {st : St} {c : Cls} {t : Nat} {r : Ref} (h : RefOk T F W st c t r) (ht : (T t).comp ≠ .record) :
    Simple T t ∧ (∃ u, Place T F W st u r ∧ Sub T t u ∧ (c ≠ .nguard → Same T u t)) ∧ ∃ v, load st r = .ok v ∧ Fits T st t v := by
  rcases h with h | h
  · exact absurd h.1 ht
  · exact h

theorem RefOk.ptr (hw : Wf T) {W : World} {st : St} {c : Cls} {t : Nat} {r : Ref} (h : RefOk T F W st c t r) (ht : (T t).form = .ptr) :
    ∃ b, RecPtr T t b ∧ (∃ u, Place T F W st u r ∧ Sub T t u ∧ (c ≠ .nguard → Same T u t)) ∧
      ∃ v, load st r = .ok v ∧ (v = .nil ∨ ∃ o, v = .ref o ∧ o < st.no ∧ Ext T (st.objs o).typ b) := by
  have hb := comp_basic hw (t := t) (by rw [ht]; simp)
  obtain ⟨_, h2, v, h3, h4⟩ := h.simple hw (by rw [hb]; simp)
  rcases h4 with h4 | ⟨b, h4, h5⟩
  · rw [ht] at h4
    cases h4.1
  · exact ⟨b, h4, h2, v, h3, h5⟩

/-! ### Designators -/

theorem derefOf_ok (hw : Wf T) {W : World} {st : St} (hs : StOk T F W st) {env : Env} {r q : Node × Cls × Nat}
    (h : derefOf T r = some q) (hr : Tame (RefOk T F W st r.2.1 r.2.2) (loc T env st r.1)) :
    Tame (RefOk T F W st q.2.1 q.2.2) (loc T env st q.1) := by
  simp only [derefOf] at h
  by_cases h1 : (T r.2.2).form = .ptr ∧ r.2.2 ≠ sysptrtyp
  · rw [if_pos h1, Option.map_eq_some_iff] at h
    obtain ⟨b, hb, rfl⟩ := h
    simp only [loc]
    refine hr.bind fun a ha => ?_
    obtain ⟨b', hp, _, v, h3, h4⟩ := ha.ptr hw h1.1
    have := hp.2.1.symm.trans hb
    cases this
    rw [h3]
    rcases h4 with rfl | ⟨o, rfl, h4, h5⟩
    · exact .trap
    · exact .ok (.inl ⟨hp.2.2, o, rfl, h4, h5, by simp, by simp⟩)
  · rw [if_neg h1] at h
    cases h

theorem fieldOf_ok (hw : Wf T) (hF : ∀ t f u, F t f = some u → Simple T u) {W : World} {st : St} (hs : StOk T F W st) {env : Env} {f : Nat} {r q : Node × Cls × Nat}
    (h : fieldOf T F f r = some q) (hr : Tame (RefOk T F W st r.2.1 r.2.2) (loc T env st r.1)) :
    Tame (RefOk T F W st q.2.1 q.2.2) (loc T env st q.1) := by
  simp only [fieldOf] at h
  by_cases h1 : (T r.2.2).comp = .record
  · rw [if_pos h1, Option.map_eq_some_iff] at h
    obtain ⟨⟨t0, u⟩, hb, rfl⟩ := h
    obtain ⟨h2, h3⟩ := findField_ok hw f _ _ t0 u h1 hb
    simp only [loc]
    refine hr.bind fun a ha => ?_
    obtain ⟨o, rfl, h4, h5, _, _⟩ := ha.record hw h1
    have h6 := Ext.trans h5 h2
    simp only [fieldRef]
    rw [if_pos ((isExt_iff hw (hs.recs o h4)).mpr h6)]
    have hp : Place T F W st u (.fld o t0 f) := ⟨h4, h6, h3⟩
    exact .ok (.inr ⟨hF _ _ _ h3, ⟨u, hp, .inl rfl, fun _ => .inl rfl⟩, hp.load hs⟩)
  · rw [if_neg h1] at h
    cases h

/-- What the test of a type comes to. -/
theorem typTest_ok (hw : Wf T) {K : Nat} {c : Cls} {x t : Nat} {g p : Bool} {u : Nat} (hx : Simple T x ∨ (T x).comp = .record) (h : typTest T K c x t = some (g, p, u)) :
    (p = true ∧ (∃ b, RecPtr T x b ∧ (T t).form = .ptr ∧ (T t).base = some u ∧ ((T u).comp = .record → Ext T u b) ∧ (g = false → u = b))) ∨
    (p = false ∧ (T x).comp = .record ∧ c = .nvarpar ∧ u = t ∧ (T t).comp = .record ∧ Ext T t x ∧ (g = false → t = x)) := by
  simp only [typTest] at h
  by_cases h1 : (T x).form = .ptr
  · rw [if_pos h1] at h
    have hr : ∃ b, RecPtr T x b := by
      rcases hx with (hx | hx) | hx
      · rw [h1] at hx; cases hx
      · exact hx
      · rw [form_comp hw hx (by simp)] at h1; cases h1
    obtain ⟨b, hr⟩ := hr
    cases hu : (T t).base with
    | none => simp [hr.2.1, hu] at h
    | some v =>
      simp only [hr.2.1, hu] at h
      rw [if_neg (fun h => h.1 hr.2.2)] at h
      by_cases h2 : (T t).form = .ptr
      · rw [if_pos h2, Option.map_eq_some_iff] at h
        obtain ⟨g', hg, h⟩ := h
        cases h
        obtain ⟨h3, h4⟩ := gtt_ok hw hr.2.2 hg
        exact .inl ⟨rfl, b, hr, h2, rfl, h3, h4⟩
      · rw [if_neg h2] at h
        cases h
  · rw [if_neg h1] at h
    by_cases h2 : (T x).comp = .record ∧ c = .nvarpar ∧ (T t).comp = .record
    · rw [if_pos h2, Option.map_eq_some_iff] at h
      obtain ⟨g', hg, h⟩ := h
      cases h
      obtain ⟨h3, h4⟩ := gtt_ok hw h2.1 hg
      exact .inr ⟨rfl, h2.1, h2.2.1, rfl, h2.2.2, h3 h2.2.2, h4⟩
    · rw [if_neg h2] at h
      cases h

theorem RefOk.type {W : World} {st : St} {c : Cls} {t : Nat} {r : Ref} (h : RefOk T F W st c t r) : Simple T t ∨ (T t).comp = .record := by
  rcases h with h | h
  · exact .inr h.1
  · exact .inl h.1

theorem NameOk.ref {W : World} {st : St} (hs : StOk T F W st) {d : Decl} {r : Ref} (h : NameOk T F W st d r) :
    RefOk T F W st (if d.varpar then .nvarpar else .nvar) d.typ r := by
  rcases h with ⟨h1, o, h2, h3, h4, h5⟩ | ⟨h1, t, h2, h3⟩
  · refine .inl ⟨h1, o, h2, h3, h4, ?_, ?_⟩
    · cases hv : d.varpar
      · exact fun _ => h5 hv
      · simp
    · cases d.varpar <;> simp
  · obtain ⟨v, h4, h5⟩ := h2.load hs
    exact .inr ⟨h1, ⟨t, h2, h3.sub, fun _ => h3⟩, v, h4, h5.sub h3.sub'⟩

theorem ext_record {a b : Nat} (h : Ext T a b) (ha : (T a).comp = .record) (hw : Wf T) : (T b).comp = .record := by
  induction h with
  | refl => exact ha
  | step h1 h2 _ ih => exact ih (hw.record _ _ h1 h2).1

/-- After a test the type is as tested. -/
theorem tested_ptr (hw : Wf T) {W : World} {st : St} (hs : StOk T F W st) {c : Cls} {x t b u o : Nat} {r : Ref}
    (hx : RecPtr T x b) (ht : (T t).form = .ptr) (hu : (T t).base = some u) (he : (T u).comp = .record → Ext T u b)
    (ho : o < st.no) (hi : isExt T (st.objs o).typ u = true) (hl : load st r = .ok (.ref o))
    (hp : ∃ w, Place T F W st w r ∧ Sub T x w ∧ (c ≠ .nguard → Same T w x)) :
    RefOk T F W st .nguard t r ∧ RecPtr T t u ∧ Sub T t x ∧ Fits T st t (.ref o) := by
  have h1 := (isExt_iff hw (hs.recs o ho)).mp hi
  have h2 := ext_record h1 (hs.recs o ho) hw
  have h3 : RecPtr T t u := ⟨ht, hu, h2⟩
  have h4 : Sub T t x := .inr ⟨u, b, h3, hx, he h2⟩
  have h5 : Fits T st t (.ref o) := .inr ⟨u, h3, .inr ⟨o, rfl, ho, h1⟩⟩
  obtain ⟨w, h6, h7, _⟩ := hp
  exact ⟨.inr ⟨.inr ⟨u, h3⟩, ⟨w, h6, h4.trans h7, fun h => absurd rfl h⟩, _, hl, h5⟩, h3, h4, h5⟩

/-- The address is that of a record. -/
def IsObj (st : St) (r : Ref) : Prop := ∃ o, r = .obj o (st.objs o).typ ∧ o < st.no

/-- What holds of the nodes of designators. -/
structure NodeOk (T : Tab) (F : Flds) (W : World) (st : St) (env : Env) (r : Node × Cls × Nat) : Prop where
  ok : Tame (RefOk T F W st r.2.1 r.2.2) (loc T env st r.1)
  varpar : r.2.1 = .nvarpar → ∃ x, r.1 = .var x
  guardR : ∀ m t, r.1 = .guardR m t → (∃ x, m = .var x) ∧ Tame (IsObj st) (loc T env st m)
  guardP : ∀ m t, r.1 = .guardP m t → Tame (IsObj st) (loc T env st (.deref m))
  deref : ∀ m t, r.1 = .deref (.guardP m t) → Tame (IsObj st) (loc T env st (.deref m))

theorem derefOf_node (hw : Wf T) {W : World} {st : St} (hs : StOk T F W st) {env : Env} {r q : Node × Cls × Nat}
    (h : derefOf T r = some q) (hr : NodeOk T F W st env r) : NodeOk T F W st env q := by
  have h0 := derefOf_ok hw hs h hr.ok
  simp only [derefOf] at h
  by_cases h1 : (T r.2.2).form = .ptr ∧ r.2.2 ≠ sysptrtyp
  · rw [if_pos h1, Option.map_eq_some_iff] at h
    obtain ⟨b, hb, rfl⟩ := h
    refine ⟨h0, fun h => (by cases h), fun _ _ h => (by cases h), fun _ _ h => (by cases h), fun m t h => ?_⟩
    injection h with h
    exact hr.guardP m t h
  · rw [if_neg h1] at h
    cases h

theorem fieldOf_node (hw : Wf T) (hF : ∀ t f u, F t f = some u → Simple T u) {W : World} {st : St} (hs : StOk T F W st) {env : Env} {f : Nat}
    {r q : Node × Cls × Nat} (h : fieldOf T F f r = some q) (hr : NodeOk T F W st env r) : NodeOk T F W st env q := by
  have h0 := fieldOf_ok hw hF hs h hr.ok
  simp only [fieldOf] at h
  by_cases h1 : (T r.2.2).comp = .record
  · rw [if_pos h1, Option.map_eq_some_iff] at h
    obtain ⟨⟨t0, u⟩, hb, rfl⟩ := h
    exact ⟨h0, fun h => (by cases h), fun _ _ h => (by cases h), fun _ _ h => (by cases h), fun _ _ h => (by cases h)⟩
  · rw [if_neg h1] at h
    cases h

theorem guard_node (hw : Wf T) {W : World} {st : St} (hs : StOk T F W st) {env : Env} {K t : Nat} {r : Node × Cls × Nat} {g p : Bool} {u : Nat}
    (h : typTest T K r.2.1 r.2.2 t = some (g, p, u)) (hr : NodeOk T F W st env r) :
    NodeOk T F W st env (if g then (guardNode r.1 p u, .nguard, t) else (r.1, r.2.1, t)) := by
  cases g with
  | false =>
    refine ⟨hr.ok.imp fun a ha => ?_, hr.varpar, hr.guardR, hr.guardP, hr.deref⟩
    rcases typTest_ok hw ha.type h with ⟨rfl, b, h1, h2, h3, h4, h5⟩ | ⟨rfl, h1, h2, rfl, h4, h5, h6⟩
    · obtain rfl := h5 rfl
      have h6 : RecPtr T t u := ⟨h2, h3, h1.2.2⟩
      obtain ⟨_, _, ⟨w, h7, h8, h9⟩, v, h10, h11⟩ := ha.ptr hw h1.1
      refine .inr ⟨.inr ⟨u, h6⟩, ⟨w, h7, Sub.trans (.inr ⟨u, u, h6, h1, .refl u⟩) h8, fun hc => ?_⟩, v, h10, .inr ⟨u, h6, ?_⟩⟩
      · rcases h9 hc with rfl | ⟨q, h12, h13⟩
        · exact .inr ⟨u, h1, h6⟩
        · obtain rfl := recPtr_inj h1 h13
          exact .inr ⟨u, h12, h6⟩
      · rename_i b' h12
        obtain rfl := recPtr_inj h1 h12
        exact h11
    · obtain rfl := h6 rfl
      exact ha
  | true =>
    simp only [if_true]
    cases p with
    | true =>
      refine ⟨?_, fun h => (by cases h), fun _ _ h => (by cases h), fun m w hm => ?_, fun _ _ h => (by cases h)⟩
      · simp only [guardNode, if_true, loc]
        refine hr.ok.bind fun a ha => ?_
        rcases typTest_ok hw ha.type h with ⟨_, b, h1, h2, h3, h4, h5⟩ | ⟨h, _⟩
        · obtain ⟨b', h6, h7, v, h8, h9⟩ := ha.ptr hw h1.1
          obtain rfl := recPtr_inj h1 h6
          rw [h8]
          rcases h9 with rfl | ⟨o, rfl, h9, h10⟩
          · exact .trap
          · simp only [Res.bind, testP]
            by_cases hi : isExt T (st.objs o).typ u = true
            · rw [if_pos hi]
              exact .ok (tested_ptr hw hs h1 h2 h3 h4 h9 hi h8 h7).1
            · rw [if_neg hi]
              exact .trap
        · cases h
      · simp only [guardNode, if_true, Node.guardP.injEq] at hm
        obtain ⟨rfl, rfl⟩ := hm
        simp only [loc]
        refine hr.ok.bind fun a ha => ?_
        rcases typTest_ok hw ha.type h with ⟨_, b, h1, h2, h3, h4, h5⟩ | ⟨h, _⟩
        · obtain ⟨b', h6, h7, v, h8, h9⟩ := ha.ptr hw h1.1
          rw [h8]
          rcases h9 with rfl | ⟨o, rfl, h9, h10⟩
          · exact .trap
          · exact .ok ⟨o, rfl, h9⟩
        · cases h
    | false =>
      refine ⟨?_, fun h => (by cases h), fun m w hm => ?_, fun _ _ h => (by cases h), fun _ _ h => (by cases h)⟩
      · simp only [guardNode, Bool.false_eq_true, if_false, loc]
        refine hr.ok.bind fun a ha => ?_
        rcases typTest_ok hw ha.type h with ⟨h, _⟩ | ⟨_, h1, h2, rfl, h4, h5, h6⟩
        · cases h
        · obtain ⟨o, rfl, h7, h8, _, _⟩ := ha.record hw h1
          simp only [testR, Res.bind]
          by_cases hi : isExt T (st.objs o).typ u = true
          · rw [if_pos hi]
            exact .ok (.inl ⟨h4, o, rfl, h7, (isExt_iff hw (hs.recs o h7)).mp hi, by simp, by simp⟩)
          · rw [if_neg hi]
            exact .trap
      · simp only [guardNode, Bool.false_eq_true, if_false, Node.guardR.injEq] at hm
        obtain ⟨rfl, rfl⟩ := hm
        refine ⟨hr.varpar ?_, hr.ok.imp fun a ha => ?_⟩
        · simp only [typTest] at h
          by_cases h1 : (T r.2.2).form = .ptr
          · rw [if_pos h1] at h
            split at h
            · split at h
              · cases h
              · split at h
                · rw [Option.map_eq_some_iff] at h
                  obtain ⟨_, _, h⟩ := h
                  cases h
                · cases h
            · cases h
          · rw [if_neg h1] at h
            by_cases h2 : (T r.2.2).comp = .record ∧ r.2.1 = .nvarpar ∧ (T t).comp = .record
            · exact h2.2.1
            · rw [if_neg h2] at h
              cases h
        · rcases typTest_ok hw ha.type h with ⟨h, _⟩ | ⟨_, h1, h2, rfl, h4, h5, h6⟩
          · cases h
          · obtain ⟨o, rfl, h7, h8, _, _⟩ := ha.record hw h1
            exact ⟨o, rfl, h7⟩

theorem nodeOf_ok (hw : Wf T) (hF : ∀ t f u, F t f = some u → Simple T u) {W : World} {st : St} (hs : StOk T F W st) {K : Nat} {G : Ctx} {env : Env}
    (hf : FrameOk T F W st G env) : ∀ (d : Des) (r : Node × Cls × Nat), nodeOf T F K G d = some r → NodeOk T F W st env r := by
  intro d
  induction d with
  | var x =>
    intro r h
    simp only [nodeOf, Option.map_eq_some_iff] at h
    obtain ⟨d, hd, rfl⟩ := h
    exact ⟨.ok ((hf x d hd).ref hs), fun _ => ⟨x, rfl⟩, fun _ _ h => (by cases h), fun _ _ h => (by cases h), fun _ _ h => (by cases h)⟩
  | fld d f ih =>
    intro r h
    simp only [nodeOf, Option.bind_eq_some_iff] at h
    obtain ⟨q, hq, h⟩ := h
    have h1 := ih q hq
    by_cases h2 : (T q.2.2).form = .ptr
    · rw [if_pos h2, Option.bind_eq_some_iff] at h
      obtain ⟨q', hq', h⟩ := h
      exact fieldOf_node hw hF hs h (derefOf_node hw hs hq' h1)
    · rw [if_neg h2] at h
      exact fieldOf_node hw hF hs h h1
  | deref d ih =>
    intro r h
    simp only [nodeOf, Option.bind_eq_some_iff] at h
    obtain ⟨q, hq, h⟩ := h
    exact derefOf_node hw hs h (ih q hq)
  | guard d t ih =>
    intro r h
    simp only [nodeOf, Option.bind_eq_some_iff, Option.map_eq_some_iff] at h
    obtain ⟨q, hq, ⟨g, p, u⟩, h, rfl⟩ := h
    exact guard_node hw hs h (ih q hq)

/-! ### Expressions -/

theorem simple_var (hw : Wf T) {x : Nat} (h : Simple T x ∨ (T x).comp = .record) : VarType T x := by
  have : (T x).form = .int ∨ (T x).form = .ptr ∨ (T x).form = .comp := by
    rcases h with (h | ⟨b, h⟩) | h
    · exact .inl h
    · exact .inr (.inl h.1)
    · exact .inr (.inr (form_comp hw h (by simp)))
  rcases this with h | h | h <;> exact ⟨by rw [h]; simp, by rw [h]; simp, by rw [h]; simp, by rw [h]; simp⟩

end Verif.Safe
