import Verif.Common
import Verif.Procs.Plain

/-! # Procedures bound to types: what the records contain after some headings -/
namespace Verif.Procs
open Verif.Types

/-! ### Headings with receivers -/

theorem binds_not_plain {E : Env} {h : Head} {r : Nat} (hb : Binds E h r) : ¬ h.plain := by
  obtain ⟨rc, t, h1, _⟩ := hb
  intro hp
  rw [show h.recv = none from hp] at h1
  cases h1

theorem rec_not_ptr {T : Tab} (hw : Wf T) {r : Nat} (h : (T r).comp = .record) : (T r).form ≠ .ptr := by
  have := (hw.comp r).mpr (by rw [h]; simp)
  rw [this]
  simp

theorem binds_unique {E : Env} (hw : Wf E.T) {h : Head} {r r' : Nat} (h1 : Binds E h r) (h2 : Binds E h r') : r = r' := by
  obtain ⟨rc, t, a1, a2, a3, a4, a5⟩ := h1
  obtain ⟨rc', t', b1, b2, b3, b4, b5⟩ := h2
  rw [a1] at b1
  cases b1
  rw [a2] at b2
  cases b2
  rcases a5 with ⟨h1, rfl⟩ | ⟨h1, h2, h3⟩ <;> rcases b5 with ⟨g1, rfl⟩ | ⟨g1, g2, g3⟩
  · rfl
  · rw [h1] at g1; cases g1
  · rw [h1] at g1; cases g1
  · rw [h3] at g3; cases g3; rfl

theorem receiver_ok {E : Env} (hw : Wf E.T) {h : Head} {rc : Recv} (hr : h.recv = some rc) :
    ((receiver E 0 rc).1 = [] → ∃ r, Binds E h r) ∧ (∀ r, Binds E h r → receiver E 0 rc = ([], some r)) := by
  constructor
  · intro h0
    unfold receiver at h0
    cases ht : rc.typ with
    | nothing => rw [ht] at h0; simp at h0
    | noType => rw [ht] at h0; simp at h0
    | type t =>
      rw [ht] at h0
      dsimp only at h0
      by_cases hc : ¬ (rc.var = false ∧ (E.T t).form = .ptr ∧ (E.T (if (E.T t).form = .ptr then (E.T t).base.getD undftyp else t)).comp = .record ∨
          rc.var = true ∧ (E.T t).comp = .record)
      · rw [if_pos hc] at h0
        simp at h0
      · rw [if_neg hc] at h0
        by_cases hm : E.mno (if (E.T t).form = .ptr then (E.T t).base.getD undftyp else t) ≠ ((0 : Nat) : Int)
        · rw [if_pos hm] at h0
          simp at h0
        · rw [not_not] at hc hm
          rcases hc with ⟨h1, h2, h3⟩ | ⟨h1, h2⟩
          · rw [if_pos h2] at h3 hm
            obtain ⟨b, hb⟩ := hw.ptr t h2
            rw [hb, Option.getD_some] at h3 hm
            exact ⟨b, rc, t, hr, ht, h3, hm, Or.inr ⟨h1, h2, hb⟩⟩
          · rw [if_neg (rec_not_ptr hw h2)] at hm
            exact ⟨t, rc, t, hr, ht, h2, hm, Or.inl ⟨h1, rfl⟩⟩
  · rintro r ⟨rc', t, h1, h2, h3, h4, h5⟩
    rw [hr] at h1
    cases h1
    unfold receiver
    rw [h2]
    dsimp only
    rcases h5 with ⟨g1, rfl⟩ | ⟨g1, g2, g3⟩
    · rw [if_neg (rec_not_ptr hw h3), if_neg (by rw [not_not]; exact Or.inr ⟨g1, h3⟩), if_neg (by rw [not_not]; exact h4)]
    · rw [if_pos g2, g3, Option.getD_some, if_neg (by rw [not_not]; exact Or.inl ⟨g1, g2, h3⟩), if_neg (by rw [not_not]; exact h4)]

theorem method_all {h : Head} {rc : Recv} (hr : h.recv = some rc) : h.all = rc.par :: h.pars := by
  unfold Head.all
  rw [hr]

/-- The receiver `p` of a procedure bound to `r`. -/
def RecvOf (T : Tab) (r : Nat) (p : Par) : Prop :=
  (T r).comp = .record ∧ (p.var = true ∧ p.typ = r ∨ p.var = false ∧ (T p.typ).form = .ptr ∧ (T p.typ).base = some r)

theorem binds_recv {E : Env} {h : Head} {r : Nat} (hb : Binds E h r) : ∃ rc, h.recv = some rc ∧ RecvOf E.T r rc.par := by
  obtain ⟨rc, t, h1, h2, h3, h4, h5⟩ := hb
  refine ⟨rc, h1, h3, ?_⟩
  simpa only [Recv.par, h2] using h5

/-! ### Members -/

/-- A member stands for the procedure of some of the headings. -/
structure MFrom (E : Env) (pre : List Head) (r : Nat) (o : Obj) (e : Head) : Prop where
  mem : e ∈ pre
  binds : Binds E e r
  name : e.name = o.name
  pars : o.pars = e.all
  res : o.res = e.res
  vis : o.vis = e.vis
  lev : o.lev = 0
  mode : o.mode = .tproc
  body : o.hasBody = true ↔ ∃ e' ∈ pre, Binds E e' r ∧ e'.name = o.name ∧ ¬ e'.forward
  redef : o.isRedef = true ↔ Redefinition E pre r o.name

/-- The members of the records after the headings `pre`. -/
structure RInv (E : Env) (pre : List Head) (recs : List (Nat × Obj)) : Prop where
  nodup : (recs.map key).Nodup
  src : ∀ x ∈ recs, (∃ m, (x.1, x.2.name, m) ∈ E.init ∧ x = memObj E (x.1, x.2.name, m)) ∨ ∃ e, MFrom E pre x.1 x.2 e
  inits : ∀ y ∈ E.init, memObj E y ∈ recs
  pres : ∀ e ∈ pre, ∀ r, Binds E e r → ∃ o e', (r, o) ∈ recs ∧ o.name = e.name ∧ MFrom E pre r o e'
  agree : ∀ e ∈ pre, ∀ e' ∈ pre, ∀ r, Binds E e r → Binds E e' r → e.name = e'.name → Agree E.T e e'
  inh : ∀ e ∈ pre, ∀ r, Binds E e r → ∀ b, Base E pre e.name r b .field → E.mno b ≠ 0

theorem memObj_name (E : Env) (y : Nat × Nat × Mem) : (memObj E y).2.name = y.2.1 ∧ (memObj E y).1 = y.1 := by
  obtain ⟨r, n, m⟩ := y
  cases m <;> exact ⟨rfl, rfl⟩

/-- An object and a signature say the same. -/
def Same (T : Tab) (o : Obj) (s : Sig) : Prop :=
  o.vis = s.vis ∧ o.res = s.res ∧ ∃ p ps, o.pars = p :: ps ∧ p.var = s.recv.var ∧ Match T ps s.pars

theorem agree_same {E : Env} {r : Nat} {e d : Head} {o : Obj} (hb : Binds E d r) (ha : Agree E.T e d) (h1 : o.pars = e.all)
    (h2 : o.res = e.res) (h3 : o.vis = e.vis) : Same E.T o d.sig := by
  obtain ⟨rc, hr, _⟩ := binds_recv hb
  obtain ⟨a1, a2, a3, _⟩ := ha
  have hall : d.all = rc.par :: d.pars := method_all hr
  rw [hall, ← h1] at a3
  refine ⟨by rw [h3, a1]; rfl, by rw [h2, a2]; rfl, ?_⟩
  cases hp : o.pars with
  | nil => rw [hp] at a3; cases a3
  | cons p ps =>
    rw [hp] at a3
    cases a3 with
    | cons c1 c2 c3 =>
      refine ⟨p, ps, rfl, ?_, c3⟩
      simp only [Head.sig, hall, List.headD_cons]
      exact c1

/-- What a member found in a record tells about it. -/
theorem has_of_mem {E : Env} {pre : List Head} {recs : List (Nat × Obj)} (hi : RInv E pre recs) {x : Nat × Obj}
    (hx : x ∈ recs) : (x.2.mode ≠ .tproc ∧ Has E pre x.1 x.2.name .field) ∨
      (x.2.mode = .tproc ∧ ∃ s, Has E pre x.1 x.2.name (.method s)) := by
  rcases hi.src x hx with ⟨m, h1, h2⟩ | ⟨e, he⟩
  · cases m with
    | field =>
      refine Or.inl ⟨?_, .init h1⟩
      rw [h2]
      simp [memObj]
    | method s =>
      refine Or.inr ⟨?_, s, .init h1⟩
      rw [h2]
      simp [memObj]
  · exact Or.inr ⟨he.mode, _, .bound he.mem he.binds he.name⟩

theorem mem_of_has {E : Env} {pre : List Head} {recs : List (Nat × Obj)} (hi : RInv E pre recs) {r n : Nat} {m : Mem}
    (hm : Has E pre r n m) : ∃ o, (r, o) ∈ recs ∧ o.name = n := by
  cases hm with
  | init h =>
    have := hi.inits _ h
    obtain ⟨h1, h2⟩ := memObj_name E (r, n, m)
    refine ⟨(memObj E (r, n, m)).2, ?_, h1⟩
    rw [show (r, (memObj E (r, n, m)).2) = memObj E (r, n, m) from Prod.ext h2.symm rfl]
    exact this
  | bound h1 h2 h3 =>
    obtain ⟨o, _, h4, h5, _⟩ := hi.pres _ h1 r h2
    exact ⟨o, h4, h5.trans h3⟩

/-- A field is not also a procedure. -/
theorem has_kind {E : Env} {pre : List Head} {recs : List (Nat × Obj)} (hi : RInv E pre recs) {r n : Nat} {m : Mem}
    (hm : Has E pre r n m) {o : Obj} (ho : (r, o) ∈ recs) (hn : o.name = n) :
    (m = .field → o.mode = .fld) ∧ (∀ s, m = .method s → o.mode = .tproc ∧ Same E.T o s) := by
  cases hm with
  | init h =>
    have h0 := hi.inits _ h
    obtain ⟨h1, h2⟩ := memObj_name E (r, n, m)
    have heq := nodup_key hi.nodup ho h0 h2.symm (by rw [h1]; exact hn)
    have ho : o = (memObj E (r, n, m)).2 := by rw [← heq]
    constructor
    · rintro rfl
      rw [ho]
      rfl
    · rintro s rfl
      rw [ho]
      exact ⟨rfl, rfl, rfl, s.recv, s.pars, rfl, rfl, match_refl _⟩
  | @bound e h1 h2 h3 =>
    obtain ⟨o', e', h4, h5, h6⟩ := hi.pres _ h1 r h2
    have heq := nodup_key hi.nodup ho h4 rfl (by rw [hn, h5, h3])
    obtain rfl : o = o' := (Prod.mk.injEq .. ▸ heq).2
    refine ⟨fun h => (by cases h), ?_⟩
    rintro s hs
    cases hs
    exact ⟨h6.mode, agree_same h2 (hi.agree e' h6.mem e h1 r h6.binds h2 (by rw [h6.name, h5])) h6.pars h6.res h6.vis⟩

/-- The receiver of a procedure found in a record. -/
theorem recv_of_mem {E : Env} (hE : E.Ok) {pre : List Head} {recs : List (Nat × Obj)} (hi : RInv E pre recs) {x : Nat × Obj}
    (hx : x ∈ recs) (hm : x.2.mode = .tproc) : ∃ p ps, x.2.pars = p :: ps ∧ RecvOf E.T x.1 p := by
  rcases hi.src x hx with ⟨m, h1, h2⟩ | ⟨e, he⟩
  · cases m with
    | field => rw [h2] at hm; simp [memObj] at hm
    | method s =>
      refine ⟨s.recv, s.pars, ?_, hE.recv _ _ _ h1⟩
      rw [h2]
      rfl
  · obtain ⟨rc, h1, h2⟩ := binds_recv he.binds
    exact ⟨rc.par, e.pars, by rw [he.pars, method_all h1], h2⟩

/-! ### Searching upwards -/

/-- The nearest member, seen from the type itself. -/
def Near (E : Env) (pre : List Head) (n b c : Nat) (m : Mem) : Prop :=
  (c = b ∧ Has E pre b n m) ∨ ((∀ m, ¬ Has E pre b n m) ∧ Base E pre n b c m)

theorem base_near {E : Env} {pre : List Head} {n r c : Nat} {m : Mem} :
    Base E pre n r c m ↔ ∃ b, (E.T r).base = some b ∧ Near E pre n b c m := by
  constructor
  · rintro (⟨h1, h2⟩ | ⟨h1, h2, h3⟩)
    · exact ⟨_, h1, Or.inl ⟨rfl, h2⟩⟩
    · exact ⟨_, h1, Or.inr ⟨h2, h3⟩⟩
  · rintro ⟨b, h1, ⟨rfl, h2⟩ | ⟨h2, h3⟩⟩
    · exact .here h1 h2
    · exact .up h1 h2 h3

theorem find_near {E : Env} (hE : E.Ok) {pre : List Head} {recs : List (Nat × Obj)} (hi : RInv E pre recs) (n : Nat) :
    ∀ (f b : Nat), (E.T b).comp = .record → (E.T b).extlev < f →
      (findField E.T recs n f (some b) = none → ∀ c m, ¬ Near E pre n b c m) ∧
      (∀ x, findField E.T recs n f (some b) = some x → x ∈ recs ∧ x.2.name = n ∧ (E.T x.1).extlev ≤ (E.T b).extlev ∧
        (E.T x.1).comp = .record ∧ ∀ c m, Near E pre n b c m ↔ c = x.1 ∧ Has E pre x.1 n m)
  | 0, b, _, hf => by omega
  | f + 1, b, hb, hf => by
    simp only [findField]
    cases h0 : recs.find? (fun x => x.1 == b && x.2.name == n) with
    | some x =>
      obtain ⟨h1, h2, h3⟩ := findr_mem h0
      refine ⟨fun h => (by cases h), ?_⟩
      rintro y hy
      cases hy
      refine ⟨h1, h3, by rw [h2], by rw [h2]; exact hb, ?_⟩
      intro c m
      constructor
      · rintro (⟨rfl, hm⟩ | ⟨hm, _⟩)
        · exact ⟨h2.symm, by rw [h2]; exact hm⟩
        · rcases has_of_mem hi h1 with ⟨_, h4⟩ | ⟨_, s, h4⟩
          · rw [h2, h3] at h4
            exact absurd h4 (hm _)
          · rw [h2, h3] at h4
            exact absurd h4 (hm _)
      · rintro ⟨rfl, hm⟩
        exact Or.inl ⟨h2, by rw [h2] at hm; exact hm⟩
    | none =>
      have hno : ∀ m, ¬ Has E pre b n m := by
        intro m hm
        obtain ⟨o, h1, h2⟩ := mem_of_has hi hm
        exact findr_none h0 _ h1 rfl h2
      dsimp only
      cases hbb : (E.T b).base with
      | none =>
        constructor
        · rintro - c m (⟨_, hm⟩ | ⟨_, hm⟩)
          · exact hno m hm
          · rw [base_near] at hm
            obtain ⟨b', h1, _⟩ := hm
            rw [hbb] at h1
            cases h1
        · intro x hx
          cases f <;> simp [findField] at hx
      | some b' =>
        obtain ⟨h1, h2⟩ := hE.wf.record b b' hb hbb
        obtain ⟨i1, i2⟩ := find_near hE hi n f b' h1 (by omega)
        have hnear : ∀ c m, Near E pre n b c m ↔ Near E pre n b' c m := by
          intro c m
          constructor
          · rintro (⟨_, hm⟩ | ⟨_, hm⟩)
            · exact absurd hm (hno m)
            · rw [base_near] at hm
              obtain ⟨b'', g1, g2⟩ := hm
              rw [hbb] at g1
              cases g1
              exact g2
          · intro hm
            exact Or.inr ⟨hno, base_near.mpr ⟨b', hbb, hm⟩⟩
        constructor
        · intro h3 c m hm
          exact i1 h3 c m ((hnear c m).mp hm)
        · intro x hx
          obtain ⟨g1, g2, g3, g4, g5⟩ := i2 x hx
          exact ⟨g1, g2, by omega, g4, fun c m => (hnear c m).trans (g5 c m)⟩

theorem find_base {E : Env} (hE : E.Ok) {pre : List Head} {recs : List (Nat × Obj)} (hi : RInv E pre recs) (n : Nat) {r : Nat}
    (hr : (E.T r).comp = .record) :
    (fieldOf E.T recs n (E.T r).base = none → ∀ c m, ¬ Base E pre n r c m) ∧
    (∀ x, fieldOf E.T recs n (E.T r).base = some x → x ∈ recs ∧ x.2.name = n ∧ (E.T x.1).extlev < (E.T r).extlev ∧
      (E.T x.1).comp = .record ∧ ∀ c m, Base E pre n r c m ↔ c = x.1 ∧ Has E pre x.1 n m) := by
  cases hb : (E.T r).base with
  | none =>
    constructor
    · rintro - c m hm
      rw [base_near] at hm
      obtain ⟨b', h1, _⟩ := hm
      rw [hb] at h1
      cases h1
    · intro x hx
      simp [fieldOf] at hx
  | some b =>
    obtain ⟨h1, h2⟩ := hE.wf.record r b hr hb
    obtain ⟨i1, i2⟩ := find_near hE hi n ((E.T b).extlev + 1) b h1 (by omega)
    have hnear : ∀ c m, Base E pre n r c m ↔ Near E pre n b c m := by
      intro c m
      rw [base_near]
      constructor
      · rintro ⟨b', g1, g2⟩
        rw [hb] at g1
        cases g1
        exact g2
      · intro g
        exact ⟨b, hb, g⟩
    simp only [fieldOf]
    refine ⟨fun h c m hm => i1 h c m ((hnear c m).mp hm), fun x hx => ?_⟩
    obtain ⟨g1, g2, g3, g4, g5⟩ := i2 x hx
    exact ⟨g1, g2, by omega, g4, fun c m => (hnear c m).trans (g5 c m)⟩

theorem fieldOf_self {E : Env} (hE : E.Ok) (recs : List (Nat × Obj)) (n : Nat) {r : Nat} (hr : (E.T r).comp = .record) :
    fieldOf E.T recs n (some r) = match recs.find? (fun x => x.1 == r && x.2.name == n) with
      | some x => some x
      | none => fieldOf E.T recs n (E.T r).base := by
  simp only [fieldOf, findField]
  cases recs.find? (fun x => x.1 == r && x.2.name == n) with
  | some x => rfl
  | none =>
    dsimp only
    cases hb : (E.T r).base with
    | none => cases (E.T r).extlev <;> rfl
    | some b =>
      obtain ⟨_, h2⟩ := hE.wf.record r b hr hb
      rw [h2]
      rfl

theorem ascend_base {E : Env} (hw : Wf E.T) {pre : List Head} {n r c : Nat} {m : Mem} (h : Base E pre n r c m) :
    ∀ f, (E.T r).comp = .record → (E.T r).extlev < f → ascend E.T c f r = some c := by
  induction h with
  | @here r b m h1 h2 =>
    intro f hr hf
    cases f with
    | zero => omega
    | succ f => simp [ascend, h1]
  | @up r b c m h1 h2 h3 ih =>
    intro f hr hf
    cases f with
    | zero => omega
    | succ f =>
      obtain ⟨g1, g2⟩ := hw.record r b hr h1
      simp only [ascend, h1]
      split
      · rename_i h; rw [h]
      · exact ih f g1 (by omega)

/-- The receiver of a redefinition extends the receiver redefined. -/
theorem extends_ok {E : Env} (hw : Wf E.T) {pre : List Head} {n r c : Nat} {m : Mem} (h : Base E pre n r c m) {p q : Par}
    (hp : RecvOf E.T r p) (hq : RecvOf E.T c q) (hv : p.var = q.var) : extends_ E.T p.typ q.typ = true := by
  have ha := ascend_base hw h ((E.T r).extlev + 1) hp.1 (by omega)
  obtain ⟨hr, h1⟩ := hp
  obtain ⟨hc, h2⟩ := hq
  have key : ∀ x b : Nat, (if (E.T b).form = .ptr ∧ (E.T x).form = .ptr then ((E.T x).base.getD undftyp, (E.T b).base.getD undftyp) else (x, b)) = (r, c) →
      extends_ E.T x b = true := by
    intro x b hxb
    unfold extends_
    rw [hxb]
    dsimp only
    rw [if_pos ⟨hc, hr⟩, ha]
    simp
  apply key
  rcases h1 with ⟨a1, a2⟩ | ⟨a1, a2, a3⟩ <;> rcases h2 with ⟨b1, b2⟩ | ⟨b1, b2, b3⟩
  · rw [a2, b2, if_neg (fun hh => rec_not_ptr hw hr hh.2)]
  · rw [a1, b1] at hv; cases hv
  · rw [a1, b1] at hv; cases hv
  · rw [if_pos ⟨b2, a2⟩, a3, b3]
    rfl

/-- The comparison with the procedure that is redefined. -/
theorem redef_ok {E : Env} (hE : E.Ok) {pre : List Head} {recs : List (Nat × Obj)} (hi : RInv E pre recs) {h : Head} {rc : Recv} {r : Nat}
    (hr : h.recv = some rc) (hb : Binds E h r) {o : Obj} (h1 : Match E.T o.pars.tail h.pars) (h2 : o.res = h.res) (h3 : o.vis = h.vis)
    {x : Nat × Obj} (hx : x ∈ recs) (hn : x.2.name = h.name) (hm : x.2.mode = .tproc)
    (hbase : ∀ c m, Base E pre h.name r c m ↔ c = x.1 ∧ Has E pre x.1 h.name m) :
    redefErrs E rc (some r) o x.2 = [] ↔ ∀ b s, Base E pre h.name r b (.method s) → Redefines E h r s := by
  obtain ⟨p, ps, hp, hq⟩ := recv_of_mem hE hi hx hm
  obtain ⟨rc', hr', hrp⟩ := binds_recv hb
  rw [hr] at hr'
  cases hr'
  have hsig : ∃ s, Has E pre x.1 h.name (.method s) := by
    rcases has_of_mem hi hx with ⟨h4, _⟩ | ⟨_, s, h4⟩
    · exact absurd hm h4
    · exact ⟨s, by rw [← hn]; exact h4⟩
  have hsame : ∀ s, Has E pre x.1 h.name (.method s) → x.2.vis = s.vis ∧ x.2.res = s.res ∧ p.var = s.recv.var ∧ Match E.T ps s.pars := by
    intro s hs
    obtain ⟨_, h4⟩ := has_kind hi hs (o := x.2) hx hn
    obtain ⟨a1, a2, p', ps', a3, a4, a5⟩ := (h4 s rfl).2
    rw [hp] at a3
    cases a3
    exact ⟨a1, a2, a4, a5⟩
  have hvar : rc.par.var = rc.var := rfl
  unfold redefErrs
  simp only [List.append_eq_nil_iff, ite_nil, chk_iff hE, hp, List.headD_cons, List.tail_cons, Option.bind_some]
  constructor
  · rintro ⟨⟨⟨a1, a2, _⟩, a3⟩, a4⟩ b s hbs
    obtain ⟨rfl, hs⟩ := (hbase b _).mp hbs
    obtain ⟨s1, s2, s3, s4⟩ := hsame s hs
    refine ⟨?_, ?_, ?_, ?_⟩
    · intro rc' hrc
      rw [hr] at hrc
      cases hrc
      rw [← s3]
      by_contra hne
      exact a1 (Or.inl hne)
    · exact match_trans hE.wf (match_symm h1) _ (match_trans hE.wf a2 _ s4)
    · rw [not_not] at a3
      rw [← h2, a3, s2]
    · intro g1 g2 g3
      exact a4 ⟨by rw [s1]; exact g1, by rw [h3]; exact g3, g2⟩
  · intro hall
    obtain ⟨s, hs⟩ := hsig
    have hbs := (hbase x.1 (.method s)).mpr ⟨rfl, hs⟩
    have hd := hall x.1 s hbs
    obtain ⟨s1, s2, s3, s4⟩ := hsame s hs
    have hv : rc.par.var = p.var := by
      rw [hvar, hd.recv rc hr, s3]
    refine ⟨⟨⟨?_, ?_, ?_⟩, ?_⟩, ?_⟩
    · rintro (h4 | h4)
      · exact h4 hv
      · rw [extends_ok hE.wf hbs hrp hq hv] at h4
        cases h4
    · exact match_trans hE.wf h1 _ (match_trans hE.wf hd.pars _ (match_symm s4))
    · intro h4
      cases h4
    · rw [not_not, h2, hd.res, s2]
    · rintro ⟨g1, g2, g3⟩
      exact hd.vis (by rw [← s1]; exact g1) g3 (by rw [← h3]; exact g2)

/-! ### One more heading -/

theorem has_snoc {E : Env} {pre : List Head} {h : Head} {r n : Nat} {m : Mem} (hno : ¬ (Binds E h r ∧ h.name = n)) :
    Has E (pre ++ [h]) r n m ↔ Has E pre r n m := by
  constructor
  · rintro (h1 | ⟨h1, h2, h3⟩)
    · exact .init h1
    · rcases List.mem_append.mp h1 with h1 | h1
      · exact .bound h1 h2 h3
      · rw [List.mem_singleton] at h1
        subst h1
        exact absurd ⟨h2, h3⟩ hno
  · rintro (h1 | ⟨h1, h2, h3⟩)
    · exact .init h1
    · exact .bound (List.mem_append_left _ h1) h2 h3

theorem has_mono {E : Env} {pre : List Head} {h : Head} {r n : Nat} {m : Mem} (hm : Has E pre r n m) : Has E (pre ++ [h]) r n m := by
  cases hm with
  | init h1 => exact .init h1
  | bound h1 h2 h3 => exact .bound (List.mem_append_left _ h1) h2 h3

theorem base_field_snoc {E : Env} {pre : List Head} {h : Head} {r n b : Nat} (hb : Base E (pre ++ [h]) n r b .field) :
    Base E pre n r b .field := by
  generalize hm : Mem.field = m at hb
  induction hb with
  | here h1 h2 =>
    subst hm
    cases h2 with
    | init h2 => exact .here h1 (.init h2)
  | up h1 h2 h3 ih => exact .up h1 (fun m hm' => h2 m (has_mono hm')) (ih hm)

theorem split_snoc {α : Type} {pre : List α} {h : α} {p1 p2 : List α} {x : α} (hs : pre ++ [h] = p1 ++ x :: p2) :
    (p2 = [] ∧ p1 = pre ∧ x = h) ∨ ∃ p3, p2 = p3 ++ [h] ∧ pre = p1 ++ x :: p3 := by
  rcases List.eq_nil_or_concat p2 with rfl | ⟨p3, y, rfl⟩
  · have := List.append_inj' hs rfl
    obtain ⟨h1, h2⟩ := this
    cases h2
    exact Or.inl ⟨rfl, h1.symm, rfl⟩
  · right
    rw [List.concat_eq_append] at hs ⊢
    rw [← List.cons_append, ← List.append_assoc] at hs
    obtain ⟨h1, h2⟩ := List.append_inj' hs rfl
    cases h2
    exact ⟨p3, rfl, h1⟩

theorem redefinition_snoc {E : Env} {pre : List Head} {h : Head} {r n : Nat} : Redefinition E (pre ++ [h]) r n ↔
    Redefinition E pre r n ∨ (Binds E h r ∧ h.name = n ∧ ∃ b s, Base E pre n r b (.method s)) := by
  constructor
  · rintro ⟨p1, x, p2, b, s, h1, h2, h3, h4⟩
    rcases split_snoc h1 with ⟨_, rfl, rfl⟩ | ⟨p3, rfl, rfl⟩
    · exact Or.inr ⟨h2, h3, b, s, h4⟩
    · exact Or.inl ⟨p1, x, p3, b, s, rfl, h2, h3, h4⟩
  · rintro (⟨p1, x, p2, b, s, rfl, h2, h3, h4⟩ | ⟨h2, h3, b, s, h4⟩)
    · exact ⟨p1, x, p2 ++ [h], b, s, by simp, h2, h3, h4⟩
    · exact ⟨pre, h, [], b, s, rfl, h2, h3, h4⟩

theorem MFrom.snoc {E : Env} {pre : List Head} {r : Nat} {o : Obj} {e h : Head} (hf : MFrom E pre r o e)
    (hno : ¬ (Binds E h r ∧ h.name = o.name)) : MFrom E (pre ++ [h]) r o e where
  mem := List.mem_append_left _ hf.mem
  binds := hf.binds
  name := hf.name
  pars := hf.pars
  res := hf.res
  vis := hf.vis
  lev := hf.lev
  mode := hf.mode
  body := by
    rw [hf.body]
    constructor
    · rintro ⟨e', h1, h2⟩
      exact ⟨e', List.mem_append_left _ h1, h2⟩
    · rintro ⟨e', h1, h2, h3, h4⟩
      rcases List.mem_append.mp h1 with h1 | h1
      · exact ⟨e', h1, h2, h3, h4⟩
      · rw [List.mem_singleton] at h1
        subst h1
        exact absurd ⟨h2, h3⟩ hno
  redef := by
    rw [hf.redef, redefinition_snoc]
    constructor
    · exact Or.inl
    · rintro (h1 | ⟨h1, h2, _⟩)
      · exact h1
      · exact absurd ⟨h1, h2⟩ hno

/-- An ordinary procedure does not change the records. -/
theorem RInv.plain {E : Env} {pre : List Head} {recs : List (Nat × Obj)} {h : Head} (hi : RInv E pre recs) (hp : h.plain) :
    RInv E (pre ++ [h]) recs := by
  have hno : ∀ r n, ¬ (Binds E h r ∧ h.name = n) := fun r n hb => binds_not_plain hb.1 hp
  have hmem : ∀ e ∈ pre ++ [h], ∀ r, Binds E e r → e ∈ pre := by
    intro e he r hb
    rcases List.mem_append.mp he with h1 | h1
    · exact h1
    · rw [List.mem_singleton] at h1
      subst h1
      exact absurd hp (binds_not_plain hb)
  refine ⟨hi.nodup, ?_, hi.inits, ?_, ?_, ?_⟩
  · intro x hx
    rcases hi.src x hx with h1 | ⟨e, he⟩
    · exact Or.inl h1
    · exact Or.inr ⟨e, he.snoc (hno _ _)⟩
  · intro e he r hb
    obtain ⟨o, e', h1, h2, h3⟩ := hi.pres e (hmem e he r hb) r hb
    exact ⟨o, e', h1, h2, h3.snoc (hno _ _)⟩
  · intro e he e' he' r hb hb' hn
    exact hi.agree e (hmem e he r hb) e' (hmem e' he' r hb') r hb hb' hn
  · intro e he r hb b hf
    exact hi.inh e (hmem e he r hb) r hb b (base_field_snoc hf)

/-- A procedure bound to a type does not change the scope. -/
theorem TInv.method {E : Env} {lev : Nat} {names : List Nat} {pre : List Head} {top : List Obj} {h : Head} (hi : TInv E lev names pre top)
    (hp : ¬ h.plain) : TInv E lev names (pre ++ [h]) top := by
  have hmem : ∀ e ∈ pre ++ [h], e.plain → e ∈ pre := by
    intro e he hb
    rcases List.mem_append.mp he with h1 | h1
    · exact h1
    · rw [List.mem_singleton] at h1
      subst h1
      exact absurd hb hp
  refine ⟨hi.nodup, hi.levs, ?_, hi.has, ?_, ?_, ?_⟩
  · intro o ho
    rcases hi.src o ho with h1 | ⟨e, he⟩
    · exact Or.inl h1
    · exact Or.inr ⟨e, he.snoc (fun h1 => hp h1.1)⟩
  · exact fun e he hb => hi.pres e (hmem e he hb) hb
  · exact fun hl e he hb => hi.pred hl e (hmem e he hb) hb
  · exact fun e he e' he' hb hb' hn => hi.agree e (hmem e he hb) e' (hmem e' he' hb') hb hb' hn

abbrev newMeth (h : Head) (redef : Bool) : Obj :=
  { name := h.name, mode := .tproc, lev := 0, vis := h.vis, pars := h.all, res := h.res, hasBody := decide (h.mark ≠ .arrow), isRedef := redef }

/-- A new procedure of a type. -/
theorem method_new {E : Env} {pre : List Head} {recs : List (Nat × Obj)} {h : Head} {r : Nat} {redef : Bool} (hE : E.Ok)
    (hi : RInv E pre recs) (hb : Binds E h r) (hnew : ∀ x ∈ recs, x.1 = r → x.2.name ≠ h.name)
    (hre : redef = true ↔ ∃ b s, Base E pre h.name r b (.method s)) (hinh : ∀ b, Base E pre h.name r b .field → E.mno b ≠ 0) :
    RInv E (pre ++ [h]) (recs ++ [(r, newMeth h redef)]) := by
  have hpre : ∀ e ∈ pre, Binds E e r → e.name ≠ h.name := by
    intro e he hbe hn
    obtain ⟨o, _, h1, h2, _⟩ := hi.pres e he r hbe
    exact hnew _ h1 rfl (h2.trans hn)
  have hself : MFrom E (pre ++ [h]) r (newMeth h redef) h := by
    refine ⟨by simp, hb, rfl, rfl, rfl, rfl, rfl, rfl, ?_, ?_⟩
    · simp only [ne_eq, decide_not, Bool.not_eq_true', decide_eq_false_iff_not]
      constructor
      · intro hm
        exact ⟨h, by simp, hb, rfl, hm⟩
      · rintro ⟨e', h1, h2, h3, h4⟩
        rcases List.mem_append.mp h1 with h1 | h1
        · exact absurd h3 (hpre e' h1 h2)
        · rw [List.mem_singleton] at h1
          subst h1
          exact h4
    · rw [redefinition_snoc]
      dsimp only
      rw [hre]
      constructor
      · intro h1
        exact Or.inr ⟨hb, rfl, h1⟩
      · rintro (⟨p1, x, p2, b, s, h1, h2, h3, _⟩ | ⟨_, _, h1⟩)
        · exact absurd h3 (hpre x (by rw [h1]; simp) h2)
        · exact h1
  have hold : ∀ x ∈ recs, ¬ (Binds E h x.1 ∧ h.name = x.2.name) := by
    rintro x hx ⟨h1, h2⟩
    exact hnew x hx (binds_unique hE.wf h1 hb) h2.symm
  refine ⟨?_, ?_, ?_, ?_, ?_, ?_⟩
  · rw [List.map_append, List.nodup_append]
    refine ⟨hi.nodup, by simp, ?_⟩
    intro a ha b hbb
    simp only [List.map_cons, List.map_nil, List.mem_singleton] at hbb
    rw [hbb]
    rintro rfl
    obtain ⟨x, hx, hk⟩ := List.mem_map.mp ha
    simp only [key, Prod.mk.injEq] at hk
    exact hnew x hx hk.1 hk.2
  · intro x hx
    rcases List.mem_append.mp hx with h1 | h1
    · rcases hi.src x h1 with h2 | ⟨e, he⟩
      · exact Or.inl h2
      · exact Or.inr ⟨e, he.snoc (hold x h1)⟩
    · rw [List.mem_singleton] at h1
      subst h1
      exact Or.inr ⟨h, hself⟩
  · exact fun y hy => List.mem_append_left _ (hi.inits y hy)
  · intro e he r' hbe
    rcases List.mem_append.mp he with h1 | h1
    · obtain ⟨o, e', h2, h3, h4⟩ := hi.pres e h1 r' hbe
      exact ⟨o, e', List.mem_append_left _ h2, h3, h4.snoc (hold _ h2)⟩
    · rw [List.mem_singleton] at h1
      subst h1
      obtain rfl := binds_unique hE.wf hb hbe
      exact ⟨_, e, List.mem_append_right _ (.head _), rfl, hself⟩
  · intro e he e' he' r' hbe hbe' hn
    rcases List.mem_append.mp he with h1 | h1 <;> rcases List.mem_append.mp he' with h2 | h2
    · exact hi.agree e h1 e' h2 r' hbe hbe' hn
    · rw [List.mem_singleton] at h2
      subst h2
      obtain rfl := binds_unique hE.wf hb hbe'
      exact absurd hn (hpre e h1 hbe)
    · rw [List.mem_singleton] at h1
      subst h1
      obtain rfl := binds_unique hE.wf hb hbe
      exact absurd hn.symm (hpre e' h2 hbe')
    · rw [List.mem_singleton] at h1 h2
      subst h1
      subst h2
      exact Agree.refl _
  · intro e he r' hbe b hf
    replace hf := base_field_snoc hf
    rcases List.mem_append.mp he with h1 | h1
    · exact hi.inh e h1 r' hbe b hf
    · rw [List.mem_singleton] at h1
      subst h1
      obtain rfl := binds_unique hE.wf hb hbe
      exact hinh b hf

/-- The body of a forward declaration (or another forward declaration). -/
theorem method_again {E : Env} {pre : List Head} {recs : List (Nat × Obj)} {h e : Head} {r : Nat} {o : Obj} {redef : Bool} (hE : E.Ok)
    (hi : RInv E pre recs) (hb : Binds E h r) (ho : (r, o) ∈ recs) (hn : o.name = h.name) (hf : MFrom E pre r o e)
    (hbody : o.hasBody = false) (ha : Agree E.T e h) (hre : redef = true ↔ ∃ b s, Base E pre h.name r b (.method s)) :
    RInv E (pre ++ [h]) (modifyRec r h.name (fun o => { o with
          hasBody := o.hasBody || decide (h.mark ≠ .arrow)
          isRedef := o.isRedef || redef }) recs) := by
  have hg : ∀ o : Obj, ({ o with hasBody := o.hasBody || decide (h.mark ≠ .arrow), isRedef := o.isRedef || redef } : Obj).name = o.name :=
    fun _ => rfl
  have huniq : ∀ o', (r, o') ∈ recs → o'.name = h.name → o' = o := fun o' h1 h2 => by
    have := nodup_key hi.nodup h1 ho rfl (h2.trans hn.symm)
    exact (Prod.mk.injEq .. ▸ this).2
  have hag : ∀ e' ∈ pre, Binds E e' r → e'.name = h.name → Agree E.T e' h := fun e' h1 h2 h3 =>
    (hi.agree e' h1 e hf.mem r h2 hf.binds (by rw [h3, hf.name, hn])).trans hE.wf ha
  have hmod : ∀ x, x ∈ modifyRec r h.name (fun o => { o with
          hasBody := o.hasBody || decide (h.mark ≠ .arrow)
          isRedef := o.isRedef || redef }) recs ↔ _ := fun x => mem_modifyRec hg hi.nodup x
  have hself : MFrom E (pre ++ [h]) r { o with hasBody := o.hasBody || decide (h.mark ≠ .arrow), isRedef := o.isRedef || redef } e := by
    refine ⟨List.mem_append_left _ hf.mem, hf.binds, hf.name, hf.pars, hf.res, hf.vis, hf.lev, hf.mode, ?_, ?_⟩
    · simp only [hbody, Bool.false_or, ne_eq, decide_not, Bool.not_eq_true', decide_eq_false_iff_not]
      constructor
      · intro hm
        exact ⟨h, by simp, hb, hn.symm, hm⟩
      · rintro ⟨e', h3, h4, h5, h6⟩
        rcases List.mem_append.mp h3 with h3 | h3
        · have := hf.body.mpr ⟨e', h3, h4, h5, h6⟩
          rw [hbody] at this
          cases this
        · rw [List.mem_singleton] at h3
          subst h3
          exact h6
    · rw [redefinition_snoc]
      simp only [Bool.or_eq_true]
      rw [hf.redef, hre, hn]
      constructor
      · rintro (h1 | h1)
        · exact Or.inl h1
        · exact Or.inr ⟨hb, rfl, h1⟩
      · rintro (h1 | ⟨_, _, h1⟩)
        · exact Or.inl h1
        · exact Or.inr h1
  refine ⟨?_, ?_, ?_, ?_, ?_, ?_⟩
  · rw [modifyRec_keys _ _ _ hg]
    exact hi.nodup
  · intro x hx
    rcases (hmod x).mp hx with ⟨h1, h2⟩ | ⟨o', h1, h2, rfl⟩
    · rcases hi.src x h1 with h3 | ⟨e', he⟩
      · exact Or.inl h3
      · refine Or.inr ⟨e', he.snoc ?_⟩
        rintro ⟨h3, h4⟩
        exact h2 ⟨binds_unique hE.wf h3 hb, h4.symm⟩
    · obtain rfl := huniq o' h1 h2
      exact Or.inr ⟨e, hself⟩
  · intro y hy
    refine (hmod _).mpr (Or.inl ⟨hi.inits y hy, ?_⟩)
    rintro ⟨h1, h2⟩
    obtain ⟨g1, g2⟩ := memObj_name E y
    have := nodup_key hi.nodup (hi.inits y hy) ho h1 (h2.trans hn.symm)
    obtain ⟨r', n', m⟩ := y
    have h3 : (memObj E (r', n', m)).2 = o := by rw [this]
    cases m with
    | field =>
      have := hf.mode
      rw [← h3] at this
      simp [memObj] at this
    | method s =>
      have h4 := hf.lev
      rw [← h3] at h4
      exact hE.own _ _ _ hy h4
  · intro e' he' r' hbe
    have : ∃ o' e'', (r', o') ∈ recs ∧ o'.name = e'.name ∧ MFrom E pre r' o' e'' := by
      rcases List.mem_append.mp he' with h1 | h1
      · exact hi.pres e' h1 r' hbe
      · rw [List.mem_singleton] at h1
        subst h1
        obtain rfl := binds_unique hE.wf hb hbe
        exact ⟨o, e, ho, hn, hf⟩
    obtain ⟨o', e'', h1, h2, h3⟩ := this
    by_cases hxn : r' = r ∧ o'.name = h.name
    · obtain ⟨rfl, hxn⟩ := hxn
      obtain rfl := huniq o' h1 hxn
      exact ⟨_, e, (hmod _).mpr (Or.inr ⟨o', h1, hxn, rfl⟩), h2, hself⟩
    · refine ⟨o', e'', (hmod _).mpr (Or.inl ⟨h1, hxn⟩), h2, h3.snoc ?_⟩
      rintro ⟨h4, h5⟩
      exact hxn ⟨binds_unique hE.wf h4 hb, h5.symm⟩
  · intro e1 he1 e2 he2 r' hp1 hp2 hnn
    rcases List.mem_append.mp he1 with h1 | h1 <;> rcases List.mem_append.mp he2 with h2 | h2
    · exact hi.agree e1 h1 e2 h2 r' hp1 hp2 hnn
    · rw [List.mem_singleton] at h2
      subst h2
      obtain rfl := binds_unique hE.wf hb hp2
      exact hag e1 h1 hp1 hnn
    · rw [List.mem_singleton] at h1
      subst h1
      obtain rfl := binds_unique hE.wf hb hp1
      exact (hag e2 h2 hp2 hnn.symm).symm
    · rw [List.mem_singleton] at h1 h2
      subst h1
      subst h2
      exact Agree.refl _
  · intro e' he' r' hbe b hbf
    replace hbf := base_field_snoc hbf
    rcases List.mem_append.mp he' with h1 | h1
    · exact hi.inh e' h1 r' hbe b hbf
    · rw [List.mem_singleton] at h1
      subst h1
      obtain rfl := binds_unique hE.wf hb hbe
      exact hi.inh e hf.mem r hf.binds b (by rw [hf.name, hn]; exact hbf)
end Verif.Procs
