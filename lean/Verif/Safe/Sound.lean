import Verif.Common
import Verif.Safe.Lemmas

namespace Verif.Safe
open Verif.Types

variable {T : Tab} {F : Flds}

theorem simple_not_sysptr (hw : Wf T) {x : Nat} (h : Simple T x) : x ≠ sysptrtyp := by
  rintro rfl
  rcases h with h | ⟨b, h⟩
  · rw [hw.sysptr.1] at h
    cases h
  · have := h.2.1.symm.trans hw.sysptr.2
    cases this
    have := h.2.2
    rw [hw.undf] at this
    cases this

theorem simple_form {x : Nat} (h : Simple T x) : (T x).form = .int ∨ (T x).form = .ptr := by
  rcases h with h | ⟨b, h⟩
  · exact .inl h
  · exact .inr h.1

theorem record_form (hw : Wf T) {x : Nat} (h : (T x).comp = .record) : (T x).form = .comp := form_comp hw h (by simp)

/-- What can be assigned to a variable of a simple type. -/
theorem compat_simple (hw : Wf T) {x : Nat} {e : Ex} (hx : Simple T x) (h : Compatible T x e) :
    e.typ = x ∨ ((T x).form = .int ∧ (T e.typ).form = .int) ∨ (∃ a b, RecPtr T x a ∧ RecPtr T e.typ b ∧ Ext T b a) ∨
      e.typ = niltyp ∧ ∃ b, RecPtr T x b := by
  have hb := simple_basic hw hx
  have hf := simple_form hx
  cases h with
  | same _ h => exact .inl h
  | numeric _ h =>
    rcases h with ⟨h1, h2, _⟩ | ⟨h1, _⟩ | ⟨h1, _⟩
    · exact .inr (.inl ⟨h1, h2⟩)
    · rw [h1] at hf; simp at hf
    · rw [h1] at hf; simp at hf
  | record _ h => rw [hb] at h; cases h
  | pointer _ h1 h2 h3 => exact .inr (.inr (.inl ⟨_, _, h1, h2, h3⟩))
  | nil _ h1 h2 =>
    refine .inr (.inr (.inr ⟨h1, ?_⟩))
    rcases hx with h | h
    · rw [h] at h2; simp at h2
    · exact h
  | string h => rw [hb] at h; cases h
  | char h => rw [hb] at h; cases h
  | proc h => rw [h] at hf; simp at hf
  | set _ h => rw [h] at hf; simp at hf
  | byte _ h => rw [h, hw.byte] at hf; simp at hf
  | sysptr _ h => exact absurd h (simple_not_sysptr hw hx)
  | array _ h => rw [hb] at h; cases h

theorem compat_record (hw : Wf T) {x : Nat} {e : Ex} (hx : (T x).comp = .record) (h : Compatible T x e) :
    (T e.typ).comp = .record ∧ Ext T e.typ x := by
  have hf := record_form hw hx
  cases h with
  | same _ h => rw [h]; exact ⟨hx, .refl x⟩
  | numeric _ h =>
    rcases h with ⟨h1, _⟩ | ⟨h1, _⟩ | ⟨h1, _⟩ <;> rw [hf] at h1 <;> cases h1
  | record _ _ h1 h2 => exact ⟨h1, h2⟩
  | pointer _ h1 => have := h1.1; rw [hf] at this; cases this
  | nil _ _ h2 => rw [hf] at h2; simp at h2
  | string h => rw [hx] at h; cases h
  | char h => rw [hx] at h; cases h
  | proc h => rw [hf] at h; cases h
  | set _ h => rw [hf] at h; cases h
  | byte _ h => rw [h, hw.byte] at hf; cases hf
  | sysptr _ h => rw [h, hw.sysptr.1] at hf; cases hf
  | array _ h => rw [hx] at h; cases h

theorem type_not_nil (hw : Wf T) {x : Nat} (h : Simple T x ∨ (T x).comp = .record) : x ≠ niltyp ∧ x ≠ stringtyp := by
  obtain ⟨_, h2, _, h4⟩ := simple_var hw h
  exact ⟨fun h => h4 (by rw [h, hw.nil]), fun h => h2 (by rw [h, hw.str])⟩

/-- A value that can be assigned fits. -/
theorem exp_ok (hw : Wf T) (hF : ∀ t f u, F t f = some u → Simple T u) {W : World} {st : St} (hs : StOk T F W st) {K : Nat} {G : Ctx} {env : Env}
    (hf : FrameOk T F W st G env) {e : Exp} {r : CE × Ex} (h : elabE T F K G e = some r) {x : Nat} (hx : Simple T x)
    (hc : (r.2.typ = stringtyp → ∃ len, r.2.kind = .const len) → Compatible T x r.2) : Tame (Fits T st x) (evalE T env st r.1) := by
  cases e with
  | nil =>
    simp only [elabE, Option.some.injEq] at h
    subst h
    refine .ok ?_
    have hnot := type_not_nil hw (.inl hx)
    rcases compat_simple hw hx (hc fun _ => ⟨0, rfl⟩) with h | ⟨_, h⟩ | ⟨a, b, _, h, _⟩ | ⟨_, b, h⟩
    · exact absurd h.symm hnot.1
    · simp only at h
      rw [hw.nil] at h
      cases h
    · have := h.1
      simp only at this
      rw [hw.nil] at this
      cases this
    · exact .inr ⟨b, h, .inl rfl⟩
  | int n t =>
    simp only [elabE] at h
    by_cases ht : (T t).form = .int
    · rw [if_pos ht, Option.some.injEq] at h
      subst h
      refine .ok ?_
      rcases compat_simple hw hx (hc fun _ => ⟨0, rfl⟩) with h | ⟨h, _⟩ | ⟨a, b, _, h, _⟩ | ⟨h, _⟩
      · simp only at h
        rw [← h]
        exact .inl ⟨ht, .inl ⟨n, rfl⟩⟩
      · exact .inl ⟨h, .inl ⟨n, rfl⟩⟩
      · exact absurd ht (recPtr_not_int h)
      · simp only at h
        rw [h, hw.nil] at ht
        cases ht
    · rw [if_neg ht] at h
      cases h
  | des d =>
    simp only [elabE, Option.map_eq_some_iff] at h
    obtain ⟨q, hq, rfl⟩ := h
    have h1 := (nodeOf_ok hw hF hs hf d q hq).ok
    simp only [evalE]
    refine h1.bind fun a ha => ?_
    have hn := type_not_nil hw ha.type
    have hcc := hc fun h => absurd h hn.2
    simp only [asVar] at hcc
    have hx2 : (T q.2.2).comp ≠ .record ∧ ∀ v, Fits T st q.2.2 v → Fits T st x v := by
      rcases compat_simple hw hx hcc with h | ⟨h, h'⟩ | ⟨a, b, h, h', h''⟩ | ⟨h, _⟩
      · simp only at h
        rw [h, simple_basic hw hx]
        exact ⟨by simp, fun v h => h⟩
      · simp only at h'
        refine ⟨?_, fun v hv => ?_⟩
        · rw [simple_basic hw (.inl h')]; simp
        · rcases hv with ⟨_, hv⟩ | ⟨_, hv, _⟩
          · exact .inl ⟨h, hv⟩
          · exact absurd h' (recPtr_not_int hv)
      · simp only at h'
        refine ⟨?_, fun v hv => hv.sub (.inr ⟨b, a, h', h, h''⟩)⟩
        rw [simple_basic hw (.inr ⟨b, h'⟩)]; simp
      · exact absurd h hn.1
    obtain ⟨_, _, v, h3, h4⟩ := ha.simple hw hx2.1
    rw [h3]
    exact .ok (hx2.2 v h4)

/-- A record that can be assigned. -/
theorem rec_ok (hw : Wf T) (hF : ∀ t f u, F t f = some u → Simple T u) {W : World} {st : St} (hs : StOk T F W st) {K : Nat} {G : Ctx} {env : Env}
    (hf : FrameOk T F W st G env) {e : Exp} {n : Node} {y : Ex} (h : elabE T F K G e = some (.load n, y)) {x : Nat} (hx : (T x).comp = .record)
    (hc : (y.typ = stringtyp → ∃ len, y.kind = .const len) → Compatible T x y) :
    Tame (fun r => ∃ o, r = .obj o (st.objs o).typ ∧ o < st.no ∧ Ext T (st.objs o).typ x) (loc T env st n) := by
  cases e with
  | nil => simp [elabE] at h
  | int n t =>
    simp only [elabE] at h
    split at h <;> simp at h
  | des d =>
    simp only [elabE, Option.map_eq_some_iff, Prod.mk.injEq, CE.load.injEq] at h
    obtain ⟨q, hq, rfl, rfl⟩ := h
    refine (nodeOf_ok hw hF hs hf d q hq).ok.imp fun a ha => ?_
    have hn := type_not_nil hw ha.type
    obtain ⟨h1, h2⟩ := compat_record hw hx (hc fun h => absurd h hn.2)
    obtain ⟨o, h3, h4, h5, _⟩ := ha.record hw h1
    exact ⟨o, h3, h4, Ext.trans h5 h2⟩

/-! ### Statements without statements in them -/

/-- The result of a statement: a state in which everything fits. -/
def Good (T : Tab) (F : Flds) (W : World) (st st' : St) : Prop := ∃ W', Evolve W st W' st' ∧ StOk T F W' st'

theorem copyTo_ok (hw : Wf T) {W : World} {st : St} (hs : StOk T F W st) {eq : Bool} {t o q : Nat} (ho : o < st.no) (hq : q < st.no)
    (ht : eq = true ∨ Ext T (st.objs o).typ t) (he : Ext T (st.objs q).typ t) (hr : (T t).comp = .record) :
    Tame (Good T F W st) (copyTo T st eq t (.obj o (st.objs o).typ) (.obj q (st.objs q).typ)) := by
  simp only [copyTo]
  by_cases h1 : eq = true ∧ (st.objs o).typ ≠ t
  · rw [if_pos h1]
    exact .trap
  · rw [if_neg h1]
    have h2 : Ext T (st.objs o).typ t := by
      rcases ht with h | h
      · by_cases h3 : (st.objs o).typ = t
        · rw [h3]
          exact .refl t
        · exact absurd ⟨h, h3⟩ h1
      · exact h
    rw [if_pos ⟨(isExt_iff hw (hs.recs o ho)).mpr h2, (isExt_iff hw (hs.recs q hq)).mpr he⟩]
    refine .ok ⟨W, ?_, ?_⟩
    all_goals
      have e : Evolve W st W { st with objs := fun i => if i = o then ⟨(st.objs o).typ, copied T st t q (st.objs o).val⟩ else st.objs i } := by
        refine ⟨Nat.le_refl _, Nat.le_refl _, fun _ _ => rfl, fun i _ => ?_⟩
        show (if i = o then _ else st.objs i : Obj).typ = _
        by_cases hi : i = o
        · rw [if_pos hi, hi]
        · rw [if_neg hi]
    · exact e
    · refine ⟨fun a ha => (hs.vars a ha).mono e, fun i hi => ?_, fun i hi t0 f u h3 h4 => ?_⟩
      · rw [e.objs i hi]
        exact hs.recs i hi
      · rw [e.objs i hi] at h3
        show Fits T _ u ((if i = o then (⟨(st.objs o).typ, copied T st t q (st.objs o).val⟩ : Obj) else st.objs i).val t0 f)
        by_cases hio : i = o
        · rw [if_pos hio]
          show Fits T _ u (if isExt T t t0 then (st.objs q).val t0 f else (st.objs o).val t0 f)
          by_cases hx : isExt T t t0 = true
          · rw [if_pos hx]
            exact (hs.objs q hq t0 f u (Ext.trans he ((isExt_iff hw hr).mp hx)) h4).mono e
          · rw [if_neg hx]
            rw [hio] at h3
            exact (hs.objs o ho t0 f u h3 h4).mono e
        · rw [if_neg hio]
          exact (hs.objs i hi t0 f u h3 h4).mono e

theorem compCopy_ok (hw : Wf T) {W : World} {st : St} (hs : StOk T F W st) {env : Env} {l : Node × Cls × Nat} {m : Node}
    (hl : NodeOk T F W st env l) (hx : (T l.2.2).comp = .record)
    (hm : Tame (fun r => ∃ o, r = .obj o (st.objs o).typ ∧ o < st.no ∧ Ext T (st.objs o).typ l.2.2) (loc T env st m)) :
    ∃ eq n, compCopy l m = .copy eq n l.2.2 m ∧
      Tame (Good T F W st) ((loc T env st n).bind fun r => (loc T env st m).bind fun q => copyTo T st eq l.2.2 r q) := by
  have key : ∀ n, Tame (IsObj st) (loc T env st n) →
      Tame (Good T F W st) ((loc T env st n).bind fun r => (loc T env st m).bind fun q => copyTo T st true l.2.2 r q) := by
    intro n hn
    refine hn.bind fun r hr => hm.bind fun q hq => ?_
    obtain ⟨o, rfl, ho⟩ := hr
    obtain ⟨q, rfl, hq, he⟩ := hq
    exact copyTo_ok hw hs ho hq (.inl rfl) he hx
  have key2 : Tame (Good T F W st) ((loc T env st l.1).bind fun r => (loc T env st m).bind fun q => copyTo T st false l.2.2 r q) := by
    refine hl.ok.bind fun r hr => hm.bind fun q hq => ?_
    obtain ⟨o, rfl, ho, h1, _⟩ := hr.record hw hx
    obtain ⟨q, rfl, hq, he⟩ := hq
    exact copyTo_ok hw hs ho hq (.inr h1) he hx
  have hobj : Tame (IsObj st) (loc T env st l.1) := hl.ok.imp fun r hr => by
    obtain ⟨o, h1, h2, _⟩ := hr.record hw hx
    exact ⟨o, h1, h2⟩
  have hun : Tame (IsObj st) (loc T env st (unguard l.1)) := by
    obtain ⟨n, c, t⟩ := l
    cases n with
    | guardR m' w =>
      obtain ⟨⟨x, rfl⟩, h⟩ := hl.guardR m' w rfl
      exact h
    | deref z =>
      cases z with
      | guardP m' w => exact hl.deref m' w rfl
      | _ => exact hobj
    | _ => exact hobj
  simp only [compCopy]
  split
  · rename_i hz
    exact ⟨true, _, rfl, key _ (by rw [← hz]; exact hun)⟩
  · exact ⟨true, _, rfl, key _ hun⟩
  · exact ⟨true, _, rfl, key _ hun⟩
  · exact ⟨false, _, rfl, key2⟩

theorem zero_fits (hF : ∀ t f u, F t f = some u → Simple T u) (st : St) {t f u : Nat} (h : F t f = some u) : Fits T st u (zero T F t f) := by
  simp only [zero, h]
  rcases hF t f u h with hu | ⟨b, hu⟩
  · rw [if_neg (by rw [hu]; simp)]
    exact .inl ⟨hu, .inl ⟨0, rfl⟩⟩
  · rw [if_pos hu.1]
    exact .inr ⟨b, hu, .inl rfl⟩

/-! ### Room for variables -/

def SlotOk (T : Tab) (F : Flds) (W : World) (st : St) (d : Decl) : Slot → Prop
  | .ref r => d.varpar = true ∧ NameOk T F W st d r
  | .val v => d.varpar = false ∧ Simple T d.typ ∧ Fits T st d.typ v
  | .obj b => d.varpar = false ∧ (T d.typ).comp = .record ∧ b.typ = d.typ ∧ ∀ t f u, Ext T b.typ t → F t f = some u → Fits T st u (b.val t f)

theorem SlotOk.mono {W W' : World} {st st' : St} {d : Decl} {s : Slot} (e : Evolve W st W' st') (h : SlotOk T F W st d s) : SlotOk T F W' st' d s := by
  cases s with
  | ref r => exact ⟨h.1, h.2.mono e⟩
  | val v => exact ⟨h.1, h.2.1, h.2.2.mono e⟩
  | obj b => exact ⟨h.1, h.2.1, h.2.2.1, fun t f u h1 h2 => (h.2.2.2 t f u h1 h2).mono e⟩

/-- A new record. -/
theorem obj_ok {W : World} {st : St} (hs : StOk T F W st) {b : Obj} (hb : (T b.typ).comp = .record)
    (h : ∀ t f u, Ext T b.typ t → F t f = some u → Fits T st u (b.val t f)) :
    Evolve W st W (alloc1 st (.obj b)).2 ∧ StOk T F W (alloc1 st (.obj b)).2 ∧ (alloc1 st (.obj b)).2.objs st.no = b := by
  have e : Evolve W st W (alloc1 st (.obj b)).2 := by
    refine ⟨Nat.le_refl _, Nat.le_succ _, fun _ _ => rfl, fun o ho => ?_⟩
    show (if o = st.no then b else st.objs o).typ = _
    rw [if_neg (by omega)]
  have hn : (alloc1 st (.obj b)).2.objs st.no = b := if_pos rfl
  have hlt : ∀ o, o < (alloc1 st (.obj b)).2.no → o < st.no ∨ o = st.no := fun o (ho : o < st.no + 1) => by omega
  have hold : ∀ o, o < st.no → (alloc1 st (.obj b)).2.objs o = st.objs o := fun o ho => if_neg (by omega)
  refine ⟨e, ⟨fun a ha => (hs.vars a ha).mono e, fun o ho => ?_, fun o ho t f u h1 h2 => ?_⟩, hn⟩
  · rcases hlt o ho with h1 | rfl
    · rw [hold o h1]
      exact hs.recs o h1
    · rw [hn]
      exact hb
  · rcases hlt o ho with h3 | rfl
    · rw [hold o h3] at h1 ⊢
      exact (hs.objs o h3 t f u h1 h2).mono e
    · rw [hn] at h1 ⊢
      exact (h t f u h1 h2).mono e

theorem alloc1_ok (hw : Wf T) {W : World} {st : St} (hs : StOk T F W st) {d : Decl} {s : Slot} (h : SlotOk T F W st d s) :
    ∃ W', Evolve W st W' (alloc1 st s).2 ∧ StOk T F W' (alloc1 st s).2 ∧ NameOk T F W' (alloc1 st s).2 d (alloc1 st s).1 ∧
      (d.varpar = false → ∀ a, (alloc1 st s).1 = .var a → st.nv ≤ a ∧ a < (alloc1 st s).2.nv) ∧
      (d.varpar = false → (T d.typ).form = .ptr → ∃ a, (alloc1 st s).1 = .var a) := by
  cases s with
  | ref r => exact ⟨W, .rfl, hs, h.2, fun h' => (by rw [h.1] at h'; cases h'), fun h' => (by rw [h.1] at h'; cases h')⟩
  | val v =>
    have e : Evolve W st (fun a => if a = st.nv then d.typ else W a) (alloc1 st (.val v)).2 :=
      ⟨Nat.le_succ _, Nat.le_refl _, fun a ha => if_neg (by omega), fun _ _ => rfl⟩
    refine ⟨_, e, ⟨fun a ha => ?_, hs.recs, fun o ho t f u h1 h2 => (hs.objs o ho t f u h1 h2).mono e⟩, ?_, ?_, ?_⟩
    · have ha : a < st.nv + 1 := ha
      show Fits T _ (if a = st.nv then d.typ else W a) (if a = st.nv then v else st.vars a)
      by_cases h1 : a = st.nv
      · rw [if_pos h1, if_pos h1]
        exact h.2.2.mono e
      · rw [if_neg h1, if_neg h1]
        exact (hs.vars a (by omega)).mono e
    · exact .inr ⟨h.2.1, d.typ, ⟨Nat.lt_succ_self _, if_pos rfl⟩, .inl rfl⟩
    · intro _ a ha
      simp only [alloc1, Ref.var.injEq] at ha
      subst ha
      exact ⟨Nat.le_refl _, Nat.lt_succ_self _⟩
    · exact fun _ _ => ⟨_, rfl⟩
  | obj b =>
    obtain ⟨h1, h2, h3⟩ := obj_ok hs (b := b) (by rw [h.2.2.1]; exact h.2.1) h.2.2.2
    refine ⟨W, h1, h2, .inl ⟨h.2.1, st.no, ?_, Nat.lt_succ_self _, ?_, fun _ => ?_⟩, fun _ a ha => ?_, fun _ hp => ?_⟩
    · rw [h3]; rfl
    · rw [h3, h.2.2.1]; exact .refl _
    · rw [h3, h.2.2.1]
    · simp [alloc1] at ha
    · rw [record_form hw h.2.1] at hp
      cases hp

def Slots (T : Tab) (F : Flds) (W : World) (st : St) (n : Nat) : List Decl → List Slot → Prop
  | [], [] => True
  | d :: ds, s :: ss => SlotOk T F W st d s ∧ (∀ a, s = .ref (.var a) → a < n) ∧ Slots T F W st n ds ss
  | _, _ => False

theorem Slots.mono {W W' : World} {st st' : St} {n : Nat} (e : Evolve W st W' st') : ∀ {ds : List Decl} {ss : List Slot}, Slots T F W st n ds ss → Slots T F W' st' n ds ss
  | [], [], _ => trivial
  | _ :: _, _ :: _, h => ⟨h.1.mono e, h.2.1, Slots.mono e h.2.2⟩

/-- The addresses given out. -/
structure Given (T : Tab) (F : Flds) (W : World) (st : St) (n lo : Nat) (ds : List Decl) (rs : List Ref) : Prop where
  name : ∀ (i : Nat) (d : Decl), ds[i]? = some d → ∃ r, rs[i]? = some r ∧ NameOk T F W st d r
  low : ∀ (i : Nat) (d : Decl) (a : Nat), ds[i]? = some d → rs[i]? = some (.var a) → d.varpar = true → a < n
  high : ∀ (i : Nat) (d : Decl) (a : Nat), ds[i]? = some d → rs[i]? = some (.var a) → d.varpar = false → lo ≤ a ∧ a < st.nv
  cell : ∀ (i : Nat) (d : Decl), ds[i]? = some d → d.varpar = false → (T d.typ).form = .ptr → ∃ a, rs[i]? = some (.var a)
  sep : ∀ (i j : Nat) (d d' : Decl) (a : Nat), ds[i]? = some d → ds[j]? = some d' → i ≠ j → d.varpar = false → rs[i]? = some (.var a) → rs[j]? ≠ some (.var a)

theorem alloc_ok (hw : Wf T) {n : Nat} : ∀ {ds : List Decl} {ss : List Slot} {W : World} {st : St}, StOk T F W st → n ≤ st.nv → Slots T F W st n ds ss →
    ∃ W', Evolve W st W' (alloc st ss).2 ∧ StOk T F W' (alloc st ss).2 ∧ Given T F W' (alloc st ss).2 n st.nv ds (alloc st ss).1
  | [], [], W, st, hs, hn, _ => ⟨W, .rfl, hs, by constructor <;> simp⟩
  | d :: ds, s :: ss, W, st, hs, hn, h => by
    obtain ⟨W1, e1, hs1, h1, h2, h3⟩ := alloc1_ok hw hs h.1
    obtain ⟨W2, e2, hs2, g⟩ := alloc_ok hw (n := n) hs1 (Nat.le_trans hn e1.nv) (h.2.2.mono e1)
    have low0 : ∀ a, (alloc1 st s).1 = .var a → d.varpar = true → a < n := by
      intro a ha hv
      cases s with
      | ref r => exact h.2.1 a (by rw [show r = Ref.var a from ha])
      | val v => have := h.1.1; rw [hv] at this; cases this
      | obj b => have := h.1.1; rw [hv] at this; cases this
    refine ⟨W2, e1.trans e2, hs2, ?_, ?_, ?_, ?_, ?_⟩
    · intro i d' hd
      cases i with
      | zero =>
        simp only [List.getElem?_cons_zero, Option.some.injEq] at hd
        subst hd
        exact ⟨_, rfl, h1.mono e2⟩
      | succ i => exact g.name i d' hd
    · intro i d' a hd ha hv
      cases i with
      | zero =>
        simp only [List.getElem?_cons_zero, Option.some.injEq] at hd
        subst hd
        simp only [alloc, List.getElem?_cons_zero, Option.some.injEq] at ha
        exact low0 a ha hv
      | succ i => exact g.low i d' a hd ha hv
    · intro i d' a hd ha hv
      cases i with
      | zero =>
        simp only [List.getElem?_cons_zero, Option.some.injEq] at hd
        subst hd
        simp only [alloc, List.getElem?_cons_zero, Option.some.injEq] at ha
        have := h2 hv a ha
        exact ⟨this.1, Nat.lt_of_lt_of_le this.2 e2.nv⟩
      | succ i =>
        have := g.high i d' a hd ha hv
        exact ⟨Nat.le_trans e1.nv this.1, this.2⟩
    · intro i d' hd hv hp
      cases i with
      | zero =>
        simp only [List.getElem?_cons_zero, Option.some.injEq] at hd
        subst hd
        obtain ⟨a, ha⟩ := h3 hv hp
        exact ⟨a, by simp [alloc, ha]⟩
      | succ i => exact g.cell i d' hd hv hp
    · intro i j d1 d2 a hi hj hij hv ha hb
      have e1nv := e1.nv
      cases i with
      | zero =>
        simp only [List.getElem?_cons_zero, Option.some.injEq] at hi
        subst hi
        simp only [alloc, List.getElem?_cons_zero, Option.some.injEq] at ha
        have h4 := h2 hv a ha
        cases j with
        | zero => exact hij rfl
        | succ j =>
          simp only [alloc, List.getElem?_cons_succ] at hb hj
          cases hv2 : d2.varpar with
          | false => have := g.high j d2 a hj hb hv2; omega
          | true => have := g.low j d2 a hj hb hv2; omega
      | succ i =>
        simp only [alloc, List.getElem?_cons_succ] at ha hi
        have h4 := g.high i d1 a hi ha hv
        cases j with
        | zero =>
          simp only [List.getElem?_cons_zero, Option.some.injEq] at hj
          subst hj
          simp only [alloc, List.getElem?_cons_zero, Option.some.injEq] at hb
          cases hv2 : d.varpar with
          | false => have := h2 hv2 a hb; omega
          | true => have := low0 a hb hv2; omega
        | succ j =>
          simp only [alloc, List.getElem?_cons_succ] at hb hj
          exact g.sep i j d1 d2 a hi hj (by omega) hv ha hb
  | [], _ :: _, _, _, _, _, h => h.elim
  | _ :: _, [], _, _, _, _, h => h.elim

/-! ### Parameters -/

theorem var_ok (hw : Wf T) (hF : ∀ t f u, F t f = some u → Simple T u) {W : World} {st : St} (hs : StOk T F W st) {K : Nat} {G : Ctx} {env : Env}
    (hf : FrameOk T F W st G env) {e : Exp} {n : Node} {y : Ex} (h : elabE T F K G e = some (.load n, y)) {d : Decl} (hv : d.varpar = true)
    (hd : Simple T d.typ ∨ (T d.typ).comp = .record) (hc : VarCompatible T d.typ y) : Tame (NameOk T F W st d) (loc T env st n) := by
  cases e with
  | nil => simp [elabE] at h
  | int n t =>
    simp only [elabE] at h
    split at h <;> simp at h
  | des ds =>
    simp only [elabE, Option.map_eq_some_iff, Prod.mk.injEq, CE.load.injEq] at h
    obtain ⟨q, hq, rfl, rfl⟩ := h
    refine (nodeOf_ok hw hF hs hf ds q hq).ok.imp fun a ha => ?_
    simp only [asVar] at hc
    have hrec : ∀ t, (T q.2.2).comp = .record → Ext T q.2.2 t → (T t).comp = .record → d.typ = t → NameOk T F W st d a := by
      rintro t h1 h2 h3 rfl
      obtain ⟨o, h4, h5, h6, _⟩ := ha.record hw h1
      exact .inl ⟨h3, o, h4, h5, Ext.trans h6 h2, fun h => (by rw [hv] at h; cases h)⟩
    rcases hd with hd | hd
    · have hb := simple_basic hw hd
      have hfm := simple_form hd
      cases hc with
      | same h1 h2 h3 h4 =>
        simp only at h2
        obtain ⟨h5, ⟨w, h6, h7, h8⟩, _⟩ := ha.simple hw (by rw [h2, hb]; simp)
        refine .inr ⟨hd, w, h6, ?_⟩
        by_cases hg : q.2.1 = .nguard
        · simp only [hg, decide_true, Kind.var.injEq, true_and] at h1
          rcases h4 h1.symm with h9 | h9
          · rcases h7 with h7 | ⟨_, _, h7, _⟩
            · left; rw [← h7, h2]
            · rw [h2] at h7
              exact absurd h7.1 h9
          · exact absurd h9 (simple_not_sysptr hw hd)
        · have := h8 hg
          rw [h2] at this
          exact this
      | record _ h1 => rw [hb] at h1; cases h1
      | array _ h1 => cases h1 <;> simp_all
      | sysptr _ h1 => exact absurd h1 (simple_not_sysptr hw hd)
      | byte _ h1 => rw [h1, hw.byte] at hfm; simp at hfm
    · have hfm := record_form hw hd
      cases hc with
      | same h1 h2 =>
        simp only at h2
        exact hrec d.typ (by rw [h2]; exact hd) (by rw [h2]; exact .refl _) hd rfl
      | record _ _ h2 h3 => exact hrec d.typ h2 h3 hd rfl
      | array _ h1 => cases h1 <;> simp_all
      | sysptr _ h1 => rw [h1, hw.sysptr.1] at hfm; cases hfm
      | byte _ h1 => rw [h1, hw.byte] at hfm; cases hfm

theorem value_compat {x : Nat} {e : Ex} (hx : (T x).comp ≠ .dyn) (h : ValueCompatible T x e) : Compatible T x e := by
  cases h with
  | assign _ h => exact h
  | string h => exact absurd h hx
  | array _ h => cases h <;> simp_all

theorem name_low {W : World} {st : St} {d : Decl} {a : Nat} (h : NameOk T F W st d (.var a)) : a < st.nv := by
  rcases h with ⟨_, o, h, _⟩ | ⟨_, t, h, _⟩
  · cases h
  · exact h.1

theorem arg_ok (hw : Wf T) (hF : ∀ t f u, F t f = some u → Simple T u) {W : World} {st : St} (hs : StOk T F W st) {K : Nat} {G : Ctx} {env : Env}
    (hf : FrameOk T F W st G env) {d : Decl} {e : Exp} {a : CA} (hd : Simple T d.typ ∨ (T d.typ).comp = .record) (h : compArg T F K G d e = some a) :
    Tame (fun s => SlotOk T F W st d s ∧ ∀ a, s = .ref (.var a) → a < st.nv) (evalArg T env st a) := by
  simp only [compArg, Option.bind_eq_some_iff] at h
  obtain ⟨⟨ce, y⟩, he, h⟩ := h
  simp only at h
  cases hv : d.varpar with
  | true =>
    rw [hv, if_pos rfl] at h
    by_cases hc : paramVar T d.typ y = []
    · rw [if_pos hc] at h
      cases ce with
      | load n =>
        simp only [Option.some.injEq] at h
        subst h
        simp only [evalArg]
        refine (var_ok hw hF hs hf he hv hd ((C53_var_param hw _ _).mp hc)).bind fun r hr => .ok ⟨⟨hv, hr⟩, fun a ha => ?_⟩
        injection ha with ha
        rw [ha] at hr
        exact name_low hr
      | _ => cases h
    · rw [if_neg hc] at h
      cases h
  | false =>
    rw [hv] at h
    simp only [Bool.false_eq_true, if_false] at h
    by_cases hc : paramVal T 0 d.typ y = some []
    · rw [if_pos hc] at h
      have hcc : (y.typ = stringtyp → ∃ len, y.kind = .const len) → Compatible T d.typ y := fun hk =>
        value_compat (by
          rcases hd with hd | hd
          · rw [simple_basic hw hd]; simp
          · rw [hd]; simp) ((C53_value_param hw 0 d.typ y [] (simple_var hw hd) hk hc).mp rfl)
      by_cases hr : (T d.typ).comp = .record
      · rw [if_pos hr] at h
        cases ce with
        | load n =>
          simp only [Option.some.injEq] at h
          subst h
          simp only [evalArg]
          refine (rec_ok hw hF hs hf he hr hcc).bind fun r hr' => ?_
          obtain ⟨o, rfl, h1, h2⟩ := hr'
          simp only
          rw [if_pos ((isExt_iff hw (hs.recs o h1)).mpr h2)]
          refine .ok ⟨⟨hv, hr, rfl, fun t f u h3 h4 => ?_⟩, fun a ha => by cases ha⟩
          simp only [copied]
          rw [if_pos ((isExt_iff hw hr).mpr h3)]
          exact hs.objs o h1 t f u (Ext.trans h2 h3) h4
        | _ => cases h
      · rw [if_neg hr, Option.some.injEq] at h
        subst h
        have hsi : Simple T d.typ := by
          rcases hd with hd | hd
          · exact hd
          · exact absurd hd hr
        simp only [evalArg]
        exact (exp_ok hw hF hs hf he hsi hcc).bind fun v hv' => .ok ⟨⟨hv, hsi, hv'⟩, fun a ha => by cases ha⟩
    · rw [if_neg hc] at h
      cases h

theorem args_ok (hw : Wf T) (hF : ∀ t f u, F t f = some u → Simple T u) {W : World} {st : St} (hs : StOk T F W st) {K : Nat} {G : Ctx} {env : Env}
    (hf : FrameOk T F W st G env) : ∀ {ds : List Decl} {es : List Exp} {as : List CA}, (∀ d ∈ ds, Simple T d.typ ∨ (T d.typ).comp = .record) →
      compArgs T F K G ds es = some as → Tame (Slots T F W st st.nv ds) (evalArgs T env st as)
  | [], [], as, _, h => by
    simp only [compArgs, Option.some.injEq] at h
    subst h
    exact .ok trivial
  | d :: ds, e :: es, as, hd, h => by
    simp only [compArgs, Option.bind_eq_some_iff, Option.map_eq_some_iff] at h
    obtain ⟨a, ha, as', has, rfl⟩ := h
    simp only [evalArgs]
    refine (arg_ok hw hF hs hf (hd d (by simp)) ha).bind fun s h1 => ?_
    exact (args_ok hw hF hs hf (fun d h => hd d (by simp [h])) has).bind fun ss h2 => .ok ⟨h1.1, h1.2, h2⟩
  | [], _ :: _, _, _, h => by simp [compArgs] at h
  | _ :: _, [], _, _, h => by simp [compArgs] at h

end Verif.Safe
