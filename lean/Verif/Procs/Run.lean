import Verif.Common
import Verif.Procs.Step

/-! # A whole module -/
namespace Verif.Procs
open Verif.Types

/-! ### Errors are only added -/

theorem heading_frame (E : Env) (lev : Nat) (outer : List (List Obj)) (s : St) (h : Head) :
    (∃ es, (heading E lev outer s h).st.errs = s.errs ++ es) ∧ (heading E lev outer s h).st.errs2 = s.errs2 := by
  unfold heading
  cases h.recv with
  | none =>
    refine ⟨?_, (plainHead_frame E lev outer s h).2⟩
    unfold plainHead
    dsimp only
    generalize hfw : Option.filter waiting _ = fwd
    cases fwd <;> exact ⟨_, rfl⟩
  | some rc =>
    refine ⟨?_, (methodHead_frame E lev s rc h).2⟩
    unfold methodHead
    dsimp only
    generalize hfw : Option.filter (fun x : Nat × Obj => decide (x.2.mode = .tproc ∧ x.2.hasBody = false)) _ = fwd
    cases fwd <;> exact ⟨_, rfl⟩

theorem runDecl_frame (E : Env) (lev : Nat) (outer : List (List Obj)) (s : St) (d : Decl) :
    (∃ es, (runDecl E lev outer s d).errs = s.errs ++ es) ∧ ∃ es, (runDecl E lev outer s d).errs2 = s.errs2 ++ es := by
  obtain ⟨h, locals, body⟩ := d
  obtain ⟨⟨es, h1⟩, h2⟩ := heading_frame E lev outer s h
  simp only [runDecl]
  split
  · rw [h1, h2]
    exact ⟨⟨_, List.append_assoc _ _ _⟩, _, rfl⟩
  · exact ⟨⟨es, h1⟩, [], by rw [h2, List.append_nil]⟩

theorem runDecls_frame (E : Env) (lev : Nat) (outer : List (List Obj)) : ∀ (ds : Decls) (s : St),
    (∃ es, (runDecls E lev outer s ds).errs = s.errs ++ es) ∧ ∃ es, (runDecls E lev outer s ds).errs2 = s.errs2 ++ es
  | .nil, s => ⟨⟨[], by simp [runDecls]⟩, [], by simp [runDecls]⟩
  | .cons d ds, s => by
    obtain ⟨⟨e1, h1⟩, e2, h2⟩ := runDecl_frame E lev outer s d
    obtain ⟨⟨e3, h3⟩, e4, h4⟩ := runDecls_frame E lev outer ds (runDecl E lev outer s d)
    simp only [runDecls]
    exact ⟨⟨e1 ++ e3, by rw [h3, h1, List.append_assoc]⟩, e2 ++ e4, by rw [h4, h2, List.append_assoc]⟩

/-! ### The rules, by recursion -/

def headsOf (ds : Decls) : List Head := ds.toList.map Decl.head

/-- What is declared forward is declared. -/
def Complete (ds : Decls) : Prop :=
  ∀ h ∈ headsOf ds, h.plain → ∃ e ∈ headsOf ds, e.plain ∧ e.name = h.name ∧ ¬ e.forward

mutual
def OkBody (E : Env) (lev : Nat) : Decl → Prop
  | .mk h locals body => h.hasBlock → h.endName = h.name ∧ (h.all.map Par.name ++ locals).Nodup ∧
      OkDecls E (lev + 1) (h.all.map Par.name ++ locals) [] body ∧ Complete body
def OkDecls (E : Env) (lev : Nat) (names : List Nat) (pre : List Head) : Decls → Prop
  | .nil => True
  | .cons d ds => StepOk E lev names pre d.head ∧ OkBody E lev d ∧ OkDecls E lev names (pre ++ [d.head]) ds
end

theorem unfinished_iff {E : Env} {lev : Nat} {names : List Nat} {hs : List Head} {top : List Obj} (hi : TInv E lev names hs top) :
    unfinished top = [] ↔ ∀ h ∈ hs, h.plain → ∃ e ∈ hs, e.plain ∧ e.name = h.name ∧ ¬ e.forward := by
  unfold unfinished
  rw [List.flatMap_eq_nil_iff]
  constructor
  · intro hu h hh hp
    obtain ⟨o, ho, h1, h2⟩ := hi.pres h hh hp
    rcases hi.src o ho with ⟨_, h3⟩ | ⟨e, he⟩
    · exact absurd h3 h2
    · have := hu o ho
      rw [ite_nil] at this
      cases hb : o.hasBody with
      | false => exact absurd ⟨he.mode, hb, he.redef⟩ this
      | true =>
        obtain ⟨e', g1, g2, g3, g4⟩ := he.body.mp hb
        exact ⟨e', g1, g2, g3.trans h1, g4⟩
  · intro hall o ho
    rw [ite_nil]
    rintro ⟨h1, h2, h3⟩
    rcases hi.src o ho with ⟨_, h4⟩ | ⟨e, he⟩
    · rw [h4] at h1
      simp at h1
    · obtain ⟨e', g1, g2, g3, g4⟩ := hall e he.mem he.plain
      have := he.body.mpr ⟨e', g1, g2, g3.trans he.name, g4⟩
      rw [h2] at this
      cases this

/-- The scope of a block before its procedures. -/
theorem start_inv (E : Env) (lev : Nat) {names : List Nat} {top : List Obj} (h1 : top.map Obj.name = names) (h2 : names.Nodup)
    (h3 : ∀ o ∈ top, o.lev ≤ lev ∧ o.mode = .other) : TInv E lev names [] top := by
  refine ⟨by rw [h1]; exact h2, fun o ho => (h3 o ho).1, ?_, ?_, ?_, ?_, ?_⟩
  · intro o ho
    exact Or.inl ⟨by rw [← h1]; exact List.mem_map_of_mem ho, (h3 o ho).2⟩
  · intro n hn
    rw [← h1] at hn
    obtain ⟨o, ho, rfl⟩ := List.mem_map.mp hn
    exact ⟨o, ho, rfl, (h3 o ho).2⟩
  · intro e he
    cases he
  · intro _ e he
    cases he
  · intro e he
    cases he

theorem outer_inner {E : Env} {lev : Nat} {outer : List (List Obj)} {top : List Obj} (ho : Outer E lev outer) (ht : ∀ o ∈ top, o.lev ≤ lev) :
    Outer E (lev + 1) (top :: outer) := by
  refine Or.inr ⟨by omega, ?_⟩
  intro s hs o hos
  rcases List.mem_cons.mp hs with rfl | hs
  · have := ht o hos
    push_cast
    omega
  · rcases ho with ⟨rfl, rfl⟩ | ⟨_, ho⟩
    · rw [List.mem_singleton] at hs
      subst hs
      obtain ⟨x, _, rfl⟩ := List.mem_map.mp hos
      simp [univObj]
    · have := ho s hs o hos
      push_cast
      omega

/-- What is known when the parser has read some procedures. -/
structure SInv (E : Env) (lev : Nat) (names : List Nat) (pre : List Head) (recs0 : List (Nat × Obj)) (s : St) : Prop where
  top : TInv E lev names pre s.top
  recs : lev = 0 → RInv E pre s.recs
  same : 0 < lev → s.recs = recs0

mutual
theorem runDecl_ok {E : Env} (hE : E.Ok) : ∀ (d : Decl) (lev : Nat) (outer : List (List Obj)) (names : List Nat) (pre : List Head)
    (recs0 : List (Nat × Obj)) (s : St), SInv E lev names pre recs0 s → Outer E lev outer → s.errs = [] → s.errs2 = [] →
    ((runDecl E lev outer s d).errs = [] ∧ (runDecl E lev outer s d).errs2 = [] ↔ StepOk E lev names pre d.head ∧ OkBody E lev d) ∧
    ((runDecl E lev outer s d).errs = [] → (runDecl E lev outer s d).errs2 = [] →
      SInv E lev names (pre ++ [d.head]) recs0 (runDecl E lev outer s d))
  | .mk h locals body, lev, outer, names, pre, recs0, s, hs, ho, he, he2 => by
    obtain ⟨f2, es, f1, hes, hinv⟩ := heading_ok hE hs.top hs.recs ho (h := h)
    rw [he, List.nil_append] at f1
    rw [he2] at f2
    simp only [runDecl, OkBody, Decl.head]
    by_cases h0 : es = []
    · obtain ⟨i1, i2, i3, i4⟩ := hinv h0
      have hstep := hes.mp h0
      rw [h0] at f1
      have hsinv : ∀ q : St, q.top = (heading E lev outer s h).st.top → q.recs = (heading E lev outer s h).st.recs →
          SInv E lev names (pre ++ [h]) recs0 q := by
        intro q hq1 hq2
        refine ⟨by rw [hq1]; exact i1, fun hl => by rw [hq2]; exact i2 hl, fun hl => ?_⟩
        rw [hq2, i3 hl, hs.same hl]
      by_cases hb : h.hasBlock
      · rw [if_pos hb]
        simp only [f1, f2, List.nil_append, hb, forall_const]
        generalize hp : heading E lev outer s h = p at *
        have hnames : (p.scope ++ locals.map fun n => ({ name := n, mode := .other, lev := (lev : Int) + 1 } : Obj)).map Obj.name =
            h.all.map Par.name ++ locals := by
          rw [i4, List.map_append, parObj_names, List.map_map]
          congr 1
          exact List.map_id _
        have hsc : (p.scope.map Obj.name).Nodup := by
          rw [i4, parObj_names]
          exact hstep.1.params
        have hins := insertAll_errs (locals.map fun n => ({ name := n, mode := .other, lev := (lev : Int) + 1 } : Obj)) p.scope hsc
        rw [hnames] at hins
        have htop := insertAll_eq (locals.map fun n => ({ name := n, mode := .other, lev := (lev : Int) + 1 } : Obj)) p.scope
        generalize insertAll p.scope (locals.map fun n => ({ name := n, mode := .other, lev := (lev : Int) + 1 } : Obj)) = i at *
        by_cases hnd : (h.all.map Par.name ++ locals).Nodup
        · have hi2 := hins.mpr hnd
          have hst : SInv E (lev + 1) (h.all.map Par.name ++ locals) [] p.st.recs { top := i.1, recs := p.st.recs, errs := i.2 } := by
            refine ⟨start_inv E (lev + 1) (by rw [htop, hnames]) hnd ?_, fun hl => by omega, fun _ => rfl⟩
            intro o hoi
            dsimp only at hoi
            rw [htop, i4] at hoi
            rcases List.mem_append.mp hoi with h1 | h1
            · obtain ⟨x, _, rfl⟩ := List.mem_map.mp h1
              simp [parObj]
            · obtain ⟨x, _, rfl⟩ := List.mem_map.mp h1
              simp
          obtain ⟨j1, j2⟩ := runDecls_ok hE body (lev + 1) (p.st.top :: outer) _ [] p.st.recs _ hst (outer_inner ho i1.levs) hi2 rfl
          generalize runDecls E (lev + 1) (p.st.top :: outer) { top := i.1, recs := p.st.recs, errs := i.2 } body = q at *
          simp only [List.append_eq_nil_iff, ite_nil, ne_eq, not_not, List.nil_append] at j1 j2 ⊢
          constructor
          · constructor
            · rintro ⟨⟨k1, k2⟩, ⟨k3, k4⟩⟩
              refine ⟨hstep, k2, hnd, j1.mp ⟨k1, k3⟩, ?_⟩
              exact (unfinished_iff (j2 k1 k3).top).mp k4
            · rintro ⟨_, k2, _, k3, k4⟩
              obtain ⟨k1, k3⟩ := j1.mpr k3
              exact ⟨⟨k1, k2⟩, k3, (unfinished_iff (j2 k1 k3).top).mpr k4⟩
          · rintro ⟨k1, k2⟩ ⟨k3, k4⟩
            exact hsinv _ rfl ((j2 k1 k3).same (by omega))
        · have hi2 : i.2 ≠ [] := fun h1 => hnd (hins.mp h1)
          obtain ⟨⟨e1, g1⟩, _⟩ := runDecls_frame E (lev + 1) (p.st.top :: outer) body { top := i.1, recs := p.st.recs, errs := i.2 }
          generalize runDecls E (lev + 1) (p.st.top :: outer) { top := i.1, recs := p.st.recs, errs := i.2 } body = q at *
          simp only [List.append_eq_nil_iff, g1]
          constructor
          · constructor
            · rintro ⟨⟨⟨k1, _⟩, _⟩, _⟩
              exact absurd k1 hi2
            · rintro ⟨_, _, k, _⟩
              exact absurd k hnd
          · rintro ⟨⟨k1, _⟩, _⟩
            exact absurd k1 hi2
      · rw [if_neg hb]
        simp only [f1, f2, hb, false_imp_iff, and_true, and_self, true_iff]
        exact ⟨hstep, fun _ _ => hsinv _ rfl rfl⟩
    · have hns : ¬ StepOk E lev names pre h := fun h1 => h0 (hes.mpr h1)
      by_cases hb : h.hasBlock
      · simp only [if_pos hb, f1, List.append_eq_nil_iff]
        exact ⟨⟨fun h1 => absurd h1.1.1 h0, fun h1 => absurd h1.1 hns⟩, fun h1 => absurd h1.1 h0⟩
      · simp only [if_neg hb, f1]
        exact ⟨⟨fun h1 => absurd h1.1 h0, fun h1 => absurd h1.1 hns⟩, fun h1 => absurd h1 h0⟩
theorem runDecls_ok {E : Env} (hE : E.Ok) : ∀ (ds : Decls) (lev : Nat) (outer : List (List Obj)) (names : List Nat) (pre : List Head)
    (recs0 : List (Nat × Obj)) (s : St), SInv E lev names pre recs0 s → Outer E lev outer → s.errs = [] → s.errs2 = [] →
    ((runDecls E lev outer s ds).errs = [] ∧ (runDecls E lev outer s ds).errs2 = [] ↔ OkDecls E lev names pre ds) ∧
    ((runDecls E lev outer s ds).errs = [] → (runDecls E lev outer s ds).errs2 = [] →
      SInv E lev names (pre ++ headsOf ds) recs0 (runDecls E lev outer s ds))
  | .nil, lev, outer, names, pre, recs0, s, hs, ho, he, he2 => by
    simp only [runDecls, OkDecls, he, he2, and_self, true_and, forall_const]
    simpa [headsOf, Decls.toList] using hs
  | .cons d ds, lev, outer, names, pre, recs0, s, hs, ho, he, he2 => by
    obtain ⟨j1, j2⟩ := runDecl_ok hE d lev outer names pre recs0 s hs ho he he2
    simp only [runDecls, OkDecls]
    have hh : pre ++ headsOf (.cons d ds) = (pre ++ [d.head]) ++ headsOf ds := by simp [headsOf, Decls.toList]
    rw [hh]
    obtain ⟨⟨e3, h3⟩, e4, h4⟩ := runDecls_frame E lev outer ds (runDecl E lev outer s d)
    by_cases hd : (runDecl E lev outer s d).errs = [] ∧ (runDecl E lev outer s d).errs2 = []
    · obtain ⟨k1, k2⟩ := runDecls_ok hE ds lev outer names (pre ++ [d.head]) recs0 _ (j2 hd.1 hd.2) ho hd.1 hd.2
      refine ⟨?_, k2⟩
      rw [k1]
      have := j1.mp hd
      exact ⟨fun h1 => ⟨this.1, this.2, h1⟩, fun h1 => h1.2.2⟩
    · have hno : ¬ ((runDecls E lev outer (runDecl E lev outer s d) ds).errs = [] ∧ (runDecls E lev outer (runDecl E lev outer s d) ds).errs2 = []) := by
        rintro ⟨h1, h2⟩
        rw [h3, List.append_eq_nil_iff] at h1
        rw [h4, List.append_eq_nil_iff] at h2
        exact hd ⟨h1.1, h2.1⟩
      refine ⟨⟨fun h1 => absurd h1 hno, fun h1 => absurd (j1.mpr ⟨h1.1, h1.2.1⟩) hd⟩, fun h1 h2 => absurd ⟨h1, h2⟩ hno⟩
end

/-! ### The procedures bound to types, when all is read -/

theorem start_recs {E : Env} (hE : E.Ok) : RInv E [] (E.init.map (memObj E)) := by
  refine ⟨?_, ?_, ?_, ?_, ?_, ?_⟩
  · rw [List.map_map]
    have : (key ∘ memObj E) = fun x => (x.1, x.2.1) := by
      funext x
      obtain ⟨h1, h2⟩ := memObj_name E x
      simp [key, h1, h2]
    rw [this]
    exact hE.keys
  · intro x hx
    obtain ⟨y, hy, rfl⟩ := List.mem_map.mp hx
    obtain ⟨h1, h2⟩ := memObj_name E y
    refine Or.inl ⟨y.2.2, ?_, ?_⟩
    · rw [h1, h2]
      exact hy
    · rw [h1, h2]
  · exact fun y hy => List.mem_map_of_mem hy
  · intro e he
    cases he
  · intro e he
    cases he
  · intro e he
    cases he

theorem methodErrs_iff {E : Env} (hE : E.Ok) {hs : List Head} {recs : List (Nat × Obj)} (hi : RInv E hs recs) :
    methodErrs E recs = [] ↔ MethodsOk E hs := by
  have hfrom : ∀ x ∈ recs, x.2.mode = .tproc → E.mno x.1 = 0 → ∃ e, MFrom E hs x.1 x.2 e := by
    intro x hx h1 h2
    rcases hi.src x hx with ⟨m, h3, h4⟩ | h3
    · cases m with
      | field =>
        rw [h4] at h1
        simp [memObj] at h1
      | method s => exact absurd h2 (hE.own _ _ _ h3)
    · exact h3
  have hbase : ∀ (x : Nat × Obj) (e : Head), MFrom E hs x.1 x.2 e → ((fieldOf E.T recs x.2.name (E.T x.1).base).isSome = true ↔ ∃ b m, Base E hs x.2.name x.1 b m) := by
    intro x e he
    obtain ⟨rc, _, hr⟩ := binds_recv he.binds
    obtain ⟨h1, h2⟩ := find_base hE hi x.2.name hr.1
    constructor
    · intro hs
      obtain ⟨y, hy⟩ := Option.isSome_iff_exists.mp hs
      obtain ⟨g1, g2, g3, g4, g5⟩ := h2 y hy
      rcases has_of_mem hi g1 with ⟨_, h4⟩ | ⟨_, sg, h4⟩
      · rw [g2] at h4
        exact ⟨y.1, _, (g5 _ _).mpr ⟨rfl, h4⟩⟩
      · rw [g2] at h4
        exact ⟨y.1, _, (g5 _ _).mpr ⟨rfl, h4⟩⟩
    · rintro ⟨b, m, hb⟩
      cases hf : fieldOf E.T recs x.2.name (E.T x.1).base with
      | none => exact absurd hb (h1 hf _ _)
      | some y => rfl
  unfold methodErrs
  rw [List.flatMap_eq_nil_iff]
  constructor
  · intro hall
    have hone : ∀ h ∈ hs, ∀ r, Binds E h r → ∃ o e, o.name = h.name ∧ MFrom E hs r o e ∧
        ¬ ((fieldOf E.T recs o.name (E.T r).base).isSome = true ∧ o.isRedef = false) ∧ ¬ (o.hasBody = false ∧ o.isRedef = false) := by
      intro h hh r hb
      obtain ⟨o, e, h1, h2, h3⟩ := hi.pres h hh r hb
      have := hall (r, o) h1
      have hm : E.mno r = 0 := by
        obtain ⟨_, _, _, _, _, g, _⟩ := hb
        exact g
      rw [if_pos ⟨h3.mode, hm⟩, List.append_eq_nil_iff, ite_nil, ite_nil] at this
      exact ⟨o, e, h2, h3, this.1, this.2⟩
    constructor
    · intro h hh r hb
      obtain ⟨o, e, h1, h2, _, h4⟩ := hone h hh r hb
      cases hbd : o.hasBody with
      | true =>
        obtain ⟨e', g1, g2, g3, g4⟩ := h2.body.mp hbd
        exact Or.inl ⟨e', g1, g2, g3.trans h1, g4⟩
      | false =>
        cases hrd : o.isRedef with
        | true => exact Or.inr (by rw [← h1]; exact h2.redef.mp hrd)
        | false => exact absurd ⟨hbd, hrd⟩ h4
    · intro h hh r hb b m hbm
      obtain ⟨o, e, h1, h2, h3, _⟩ := hone h hh r hb
      cases hrd : o.isRedef with
      | true => rw [← h1]; exact h2.redef.mp hrd
      | false =>
        refine absurd ⟨?_, hrd⟩ h3
        exact (hbase (r, o) e h2).mpr ⟨b, m, by rw [h1]; exact hbm⟩
  · rintro ⟨m1, m2⟩ x hx
    by_cases hc : x.2.mode = .tproc ∧ E.mno x.1 = 0
    · rw [if_pos hc, List.append_eq_nil_iff, ite_nil, ite_nil]
      obtain ⟨e, he⟩ := hfrom x hx hc.1 hc.2
      constructor
      · rintro ⟨h1, h2⟩
        obtain ⟨b, m, hb⟩ := (hbase x e he).mp h1
        have := m2 e he.mem x.1 he.binds b m (by rw [he.name]; exact hb)
        rw [he.name] at this
        have := he.redef.mpr this
        rw [h2] at this
        cases this
      · rintro ⟨h1, h2⟩
        rcases m1 e he.mem x.1 he.binds with ⟨e', g1, g2, g3, g4⟩ | h3
        · have := he.body.mpr ⟨e', g1, g2, g3.trans he.name, g4⟩
          rw [h1] at this
          cases this
        · rw [he.name] at h3
          have := he.redef.mpr h3
          rw [h2] at this
          cases this
    · rw [if_neg hc]

/-! ### The rules block by block -/

/-- A block and all blocks in it. -/
def OkBlock (E : Env) (b : Block) : Prop := b.names.Nodup ∧ OkDecls E b.lev b.names [] b.procs ∧ Complete b.procs

def innerBlock (lev : Nat) (d : Decl) : Block := ⟨lev + 1, d.head.all.map Par.name ++ d.locals, d.body⟩

theorem okBody_iff (E : Env) (lev : Nat) (d : Decl) :
    OkBody E lev d ↔ (d.head.hasBlock → d.head.endName = d.head.name ∧ OkBlock E (innerBlock lev d)) := by
  obtain ⟨h, locals, body⟩ := d
  simp only [OkBody, OkBlock, innerBlock, Decl.head, Decl.locals, Decl.body]

theorem okDecls_iff (E : Env) (lev : Nat) (names : List Nat) : ∀ (ds : Decls) (pre : List Head), OkDecls E lev names pre ds ↔
    (∀ p1 h p2, headsOf ds = p1 ++ h :: p2 → StepOk E lev names (pre ++ p1) h) ∧ ∀ d ∈ ds.toList, OkBody E lev d
  | .nil, pre => by simp [OkDecls, headsOf, Decls.toList]
  | .cons d ds, pre => by
    simp only [OkDecls, okDecls_iff E lev names ds]
    have hh : headsOf (.cons d ds) = d.head :: headsOf ds := rfl
    rw [hh]
    constructor
    · rintro ⟨h1, h2, h3, h4⟩
      constructor
      · intro p1 h p2 hs
        cases p1 with
        | nil =>
          simp only [List.nil_append, List.cons.injEq] at hs
          rw [← hs.1, List.append_nil]
          exact h1
        | cons x p1 =>
          simp only [List.cons_append, List.cons.injEq] at hs
          have := h3 p1 h p2 hs.2
          rw [List.append_assoc, List.singleton_append, hs.1] at this
          exact this
      · intro d' hd
        rcases List.mem_cons.mp hd with rfl | hd
        · exact h2
        · exact h4 d' hd
    · rintro ⟨h1, h2⟩
      refine ⟨?_, h2 d (.head _), ?_, fun d' hd => h2 d' (.tail _ hd)⟩
      · have := h1 [] d.head (headsOf ds) rfl
        rwa [List.append_nil] at this
      · intro p1 h p2 hs
        have := h1 (d.head :: p1) h p2 (by rw [hs]; rfl)
        rwa [List.append_assoc, List.singleton_append]

theorem within_trans {a b c : Block} (h1 : Within a b) (h2 : Within b c) : Within a c := by
  induction h2 with
  | self => exact h1
  | inner _ h3 h4 ih => exact .inner ih h3 h4

theorem blockOk_of (E : Env) (b : Block) (h : OkBlock E b) : BlockOk E b ∧
    ∀ d ∈ b.procs.toList, d.head.hasBlock → OkBlock E (innerBlock b.lev d) := by
  obtain ⟨h1, h2, h3⟩ := h
  rw [okDecls_iff] at h2
  obtain ⟨h2, h4⟩ := h2
  simp only [List.nil_append] at h2
  constructor
  · refine ⟨h1, ?_, ?_, ?_, h3⟩
    · intro h hh
      obtain ⟨d, hd, rfl⟩ := List.mem_map.mp hh
      obtain ⟨p1, p2, hs⟩ := List.append_of_mem hh
      have := (h2 p1 _ p2 hs).1
      exact ⟨this.sys, this.exported, this.marks, this.params, fun hb => ((okBody_iff E b.lev d).mp (h4 d hd) hb).1⟩
    · exact fun pre h post hs hp => (h2 pre h post hs).2.1 hp
    · exact fun pre h post hs hp => (h2 pre h post hs).2.2 hp
  · exact fun d hd hb => ((okBody_iff E b.lev d).mp (h4 d hd) hb).2

theorem within_ok {E : Env} {b c : Block} (hb : OkBlock E b) (hw : Within b c) : OkBlock E c := by
  induction hw with
  | self => exact hb
  | inner _ h1 h2 ih => exact (blockOk_of E _ ih).2 _ h1 h2

theorem stepOk_of {E : Env} {b : Block} (hb : BlockOk E b) : ∀ p1 h p2, headsOf b.procs = p1 ++ h :: p2 → StepOk E b.lev b.names p1 h := by
  intro p1 h p2 hs
  have hh := hb.head h (by rw [show b.heads = headsOf b.procs from rfl, hs]; simp)
  exact ⟨⟨hh.sys, hh.exported, hh.marks, hh.params⟩, hb.plain p1 h p2 hs, hb.method p1 h p2 hs⟩

mutual
theorem okBody_of {E : Env} : ∀ (d : Decl) (lev : Nat), (d.head.hasBlock → d.head.endName = d.head.name ∧
    ∀ c, Within (innerBlock lev d) c → BlockOk E c) → OkBody E lev d
  | .mk h locals body, lev, hw => by
    rw [okBody_iff]
    intro hb
    obtain ⟨h1, h2⟩ := hw hb
    have h0 := h2 _ .self
    refine ⟨h1, h0.names, ?_, h0.complete⟩
    rw [okDecls_iff]
    refine ⟨fun p1 h p2 hs => by rw [List.nil_append]; exact stepOk_of h0 p1 h p2 hs, ?_⟩
    intro d hd
    exact okBodies_of body (lev + 1) (fun d hd hb => ⟨(h0.head d.head (List.mem_map_of_mem hd)).ends hb, fun c hc => h2 c (within_trans (.inner .self hd hb) hc)⟩) d hd
theorem okBodies_of {E : Env} : ∀ (ds : Decls) (lev : Nat), (∀ d ∈ ds.toList, d.head.hasBlock → d.head.endName = d.head.name ∧
    ∀ c, Within (innerBlock lev d) c → BlockOk E c) → ∀ d ∈ ds.toList, OkBody E lev d
  | .nil, lev, _, d, hd => by cases hd
  | .cons e ds, lev, hw, d, hd => by
    rcases List.mem_cons.mp hd with h1 | h1
    · rw [h1]
      exact okBody_of e lev (hw e (.head _))
    · exact okBodies_of ds lev (fun d hd => hw d (.tail _ hd)) d h1
end

theorem okBlock_iff (E : Env) (b : Block) : OkBlock E b ↔ ∀ c, Within b c → BlockOk E c := by
  constructor
  · exact fun h c hc => (blockOk_of E c (within_ok h hc)).1
  · intro hw
    have h0 := hw b .self
    refine ⟨h0.names, ?_, h0.complete⟩
    rw [okDecls_iff]
    refine ⟨fun p1 h p2 hs => by rw [List.nil_append]; exact stepOk_of h0 p1 h p2 hs, ?_⟩
    exact okBodies_of b.procs b.lev (fun d hd hb => ⟨(h0.head d.head (List.mem_map_of_mem hd)).ends hb,
      fun c hc => hw c (within_trans (.inner .self hd hb) hc)⟩)

theorem errors_iff {E : Env} (hE : E.Ok) (names : List (Nat × Int)) (hn : ∀ x ∈ names, x.2 ≤ 0) (ds : Decls) :
    errors E names ds = [] ↔ ModuleOk E (names.map Prod.fst) ds := by
  have hmod : ModuleOk E (names.map Prod.fst) ds ↔ OkBlock E ⟨0, names.map Prod.fst, ds⟩ ∧ MethodsOk E (headsOf ds) := by
    rw [okBlock_iff]
    exact ⟨fun h => ⟨h.blocks, h.methods⟩, fun h => ⟨h.1, h.2⟩⟩
  rw [hmod]
  have hnames : (names.map fun x => ({ name := x.1, mode := .other, lev := x.2 } : Obj)).map Obj.name = names.map Prod.fst := by
    rw [List.map_map]
    rfl
  have hins := insertAll_errs (names.map fun x => ({ name := x.1, mode := .other, lev := x.2 } : Obj)) [] (by simp)
  rw [List.nil_append, hnames] at hins
  have htop := insertAll_eq (names.map fun x => ({ name := x.1, mode := .other, lev := x.2 } : Obj)) []
  rw [List.nil_append] at htop
  by_cases hnd : (names.map Prod.fst).Nodup
  · have hst : SInv E 0 (names.map Prod.fst) [] [] (start E names) := by
      refine ⟨start_inv E 0 (by simp only [start]; rw [htop, hnames]) hnd ?_, fun _ => start_recs hE, fun hl => by omega⟩
      intro o ho
      simp only [start] at ho
      rw [htop] at ho
      obtain ⟨x, hx, rfl⟩ := List.mem_map.mp ho
      exact ⟨hn x hx, rfl⟩
    obtain ⟨h1, h2⟩ := runDecls_ok hE ds 0 [E.univ.map univObj] _ [] [] _ hst (Or.inl ⟨rfl, rfl⟩) (hins.mpr hnd) rfl
    simp only [List.nil_append] at h2
    rw [show runDecls E 0 [E.univ.map univObj] (start E names) ds = compile E names ds from rfl] at h1 h2
    simp only [errors]
    constructor
    · intro h0
      by_cases he : (compile E names ds).errs = []
      · rw [if_pos he] at h0
        simp only [List.append_eq_nil_iff] at h0
        have hq := h2 he h0.1.1
        exact ⟨⟨hnd, h1.mp ⟨he, h0.1.1⟩, (unfinished_iff hq.top).mp h0.1.2⟩, (methodErrs_iff hE (hq.recs rfl)).mp h0.2⟩
      · rw [if_neg he] at h0
        exact absurd h0 he
    · rintro ⟨⟨_, k1, k2⟩, k3⟩
      obtain ⟨he, he2⟩ := h1.mpr k1
      have hq := h2 he he2
      rw [if_pos he, he2, (unfinished_iff hq.top).mpr k2, (methodErrs_iff hE (hq.recs rfl)).mpr k3]
      rfl
  · obtain ⟨⟨e1, g1⟩, _⟩ := runDecls_frame E 0 [E.univ.map univObj] ds (start E names)
    have hne : (start E names).errs ≠ [] := fun h => hnd (hins.mp h)
    have hne' : (compile E names ds).errs ≠ [] := by
      simp only [compile]
      rw [g1]
      simp [hne]
    simp only [errors, if_neg hne']
    exact ⟨fun h => absurd h hne', fun h => absurd h.1.1 hnd⟩
end Verif.Procs
