import Verif.Common
import Verif.Procs.Run

/-!
# What the compiler accepts as declarations of procedures (C67)
-/
namespace Verif.Procs
open Verif.Types

/-- **C67**: the compiler reports no error in the procedure headings of a module if and only if they obey the rules: in every block, at any
depth, names are declared once; a procedure follows forward declarations that agree with it and is not missing; procedures bound to types are
bound to record types of the module, do not have the name of a field, and have the parameters and results of the procedures they redefine,
which stand before them. -/
theorem C67_procedures_partial {E : Env} (hE : E.Ok) (names : List (Nat × Int)) (hn : ∀ x ∈ names, x.2 ≤ 0) (ds : Decls) :
    errors E names ds = [] ↔ ModuleOk E (names.map Prod.fst) ds := errors_iff hE names hn ds

/-- **C67**: in a module that is accepted every ordinary procedure has exactly one declaration that is not a forward declaration; forward
declarations stand before it and agree with it. -/
theorem C67_one_body {E : Env} (hE : E.Ok) (names : List (Nat × Int)) (hn : ∀ x ∈ names, x.2 ≤ 0) (ds : Decls)
    (h0 : errors E names ds = []) (b : Block) (hb : Within ⟨0, names.map Prod.fst, ds⟩ b) (h : Head) (hh : h ∈ b.heads) (hp : h.plain) :
    ∃ pre e post, b.heads = pre ++ e :: post ∧ e.plain ∧ e.name = h.name ∧ ¬ e.forward ∧
      (∀ d ∈ pre, d.plain → d.name = h.name → d.forward ∧ Agree E.T d e) ∧ (∀ d ∈ post, d.plain → d.name ≠ h.name) := by
  have hok := ((C67_procedures_partial hE names hn ds).mp h0).blocks b hb
  obtain ⟨e, he, h1, h2, h3⟩ := hok.complete h hh hp
  obtain ⟨pre, post, hs⟩ := List.append_of_mem he
  refine ⟨pre, e, post, hs, h1, h2, h3, ?_, ?_⟩
  · intro d hd g1 g2
    exact (hok.plain pre e post hs h1).fwd d hd g1 (g2.trans h2.symm)
  · intro d hd g1 g2
    obtain ⟨p1, p2, hs2⟩ := List.append_of_mem hd
    have hs3 : b.heads = (pre ++ e :: p1) ++ d :: p2 := by rw [hs, hs2]; simp
    exact h3 ((hok.plain _ d p2 hs3 g1).fwd e (by simp) h1 (h2.trans g2.symm)).1

/-- **C67**: two declarations in an accepted module of the same procedure bound to a type: the one that stands before is a forward declaration
of the other, and they agree.  So there is at most one body. -/
theorem C67_one_method {E : Env} (hE : E.Ok) (names : List (Nat × Int)) (hn : ∀ x ∈ names, x.2 ≤ 0) (ds : Decls)
    (h0 : errors E names ds = []) (p1 p2 p3 : List Head) (e h : Head) (r : Nat)
    (hs : Block.heads ⟨0, names.map Prod.fst, ds⟩ = p1 ++ e :: (p2 ++ h :: p3)) (he : Binds E e r) (hh : Binds E h r) (hname : e.name = h.name) :
    e.forward ∧ Agree E.T e h := by
  have hok := ((C67_procedures_partial hE names hn ds).mp h0).blocks _ .self
  obtain ⟨_, r', hm⟩ := hok.method (p1 ++ e :: p2) h p3 (by rw [hs]; simp) (binds_not_plain hh)
  have hr := binds_unique hE.wf hm.binds hh
  subst hr
  exact hm.fwd e (by simp) he hname

/-! ### Redefinition -/

/-- `r` extends `a` and is not `a`. -/
inductive Above (T : Tab) : Nat → Nat → Prop
  | one {r b : Nat} : (T r).base = some b → Above T r b
  | up {r b a : Nat} : (T r).base = some b → Above T b a → Above T r a

/-- Two procedures can be called in the same way: receivers of the same kind, matching parameters, the same result. -/
def SameCall (T : Tab) (s s' : Sig) : Prop := s.recv.var = s'.recv.var ∧ Match T s.pars s'.pars ∧ s.res = s'.res

theorem SameCall.symm {T : Tab} {s s' : Sig} (h : SameCall T s s') : SameCall T s' s := ⟨h.1.symm, match_symm h.2.1, h.2.2.symm⟩
theorem SameCall.trans {T : Tab} (hw : Wf T) {s s' s'' : Sig} (h : SameCall T s s') (g : SameCall T s' s'') : SameCall T s s'' :=
  ⟨h.1.trans g.1, match_trans hw h.2.1 _ g.2.1, h.2.2.trans g.2.2⟩

theorem base_above {E : Env} {pre : List Head} {n r b : Nat} {m : Mem} (h : Base E pre n r b m) : Above E.T r b ∧ Has E pre b n m := by
  induction h with
  | here h1 h2 => exact ⟨.one h1, h2⟩
  | up h1 _ _ ih => exact ⟨.up h1 ih.1, ih.2⟩

theorem above_record {T : Tab} (hw : Wf T) {r a : Nat} (h : Above T r a) : (T r).comp = .record → (T a).comp = .record ∧ (T a).extlev < (T r).extlev := by
  induction h with
  | one h1 =>
    intro hr
    obtain ⟨g1, g2⟩ := hw.record _ _ hr h1
    exact ⟨g1, by omega⟩
  | up h1 _ ih =>
    intro hr
    obtain ⟨g1, g2⟩ := hw.record _ _ hr h1
    obtain ⟨g3, g4⟩ := ih g1
    exact ⟨g3, by omega⟩

/-- The types that a type extends stand in a row. -/
theorem above_linear {T : Tab} {r a : Nat} (h : Above T r a) : ∀ b, Above T r b → a = b ∨ Above T a b ∨ Above T b a := by
  induction h with
  | one h1 =>
    intro b hb
    cases hb with
    | one h2 => rw [h1] at h2; exact Or.inl (Option.some.inj h2)
    | up h2 h3 => rw [h1] at h2; cases h2; exact Or.inr (Or.inl h3)
  | up h1 h2 ih =>
    intro b hb
    cases hb with
    | one h3 => rw [h1] at h3; cases h3; exact Or.inr (Or.inr h2)
    | up h3 h4 => rw [h1] at h3; cases h3; exact ih b h4

theorem base_exists {E : Env} {hs : List Head} {n r a : Nat} (h : Above E.T r a) :
    ∀ {m : Mem}, Has E hs a n m → ∃ b m', Base E hs n r b m' := by
  induction h with
  | one h1 => exact fun hm => ⟨_, _, .here h1 hm⟩
  | @up r b a h1 _ ih =>
    intro m hm
    by_cases hb : ∃ m', Has E hs b n m'
    · obtain ⟨m', hb⟩ := hb
      exact ⟨_, _, .here h1 hb⟩
    · obtain ⟨c, m', hc⟩ := ih hm
      exact ⟨c, m', .up h1 (fun m'' h2 => hb ⟨m'', h2⟩) hc⟩

theorem has_sub {E : Env} {pre hs : List Head} (hsub : ∀ h ∈ pre, h ∈ hs) {r n : Nat} {m : Mem} (h : Has E pre r n m) : Has E hs r n m := by
  cases h with
  | init h => exact .init h
  | bound h1 h2 h3 => exact .bound (hsub _ h1) h2 h3

theorem agree_samecall {E : Env} {r : Nat} {e d : Head} (he : Binds E e r) (hd : Binds E d r) (ha : Agree E.T e d) : SameCall E.T e.sig d.sig := by
  obtain ⟨rc, h1, _⟩ := binds_recv he
  obtain ⟨rc', h2, _⟩ := binds_recv hd
  obtain ⟨_, a2, a3, _⟩ := ha
  simp only [Head.sig, method_all h1, method_all h2] at *
  cases a3 with
  | cons h3 _ h5 => exact ⟨h3, h5, a2⟩

/-- What is imported is consistent: imported types extend imported types, and procedures bound to them are called like those they redefine. -/
structure Imported (E : Env) : Prop where
  base : ∀ r b, E.mno r ≠ 0 → (E.T r).base = some b → E.mno b ≠ 0
  same : ∀ r a n s s', (r, n, .method s) ∈ E.init → (a, n, .method s') ∈ E.init → Above E.T r a → SameCall E.T s s'

theorem imported_above {E : Env} (hi : Imported E) {r a : Nat} (h : Above E.T r a) : E.mno r ≠ 0 → E.mno a ≠ 0 := by
  induction h with
  | one h1 => exact fun hr => hi.base _ _ hr h1
  | up h1 _ ih => exact fun hr => ih (hi.base _ _ hr h1)

theorem has_imported {E : Env} {hs : List Head} {r n : Nat} {m : Mem} (h : Has E hs r n m) (hr : E.mno r ≠ 0) : (r, n, m) ∈ E.init := by
  cases h with
  | init h => exact h
  | bound _ h2 _ =>
    obtain ⟨_, _, _, _, _, g, _⟩ := h2
    exact absurd g hr

theorem has_own {E : Env} (hE : E.Ok) {hs : List Head} {r n : Nat} {s : Sig} (h : Has E hs r n (.method s)) (hr : E.mno r = 0) :
    ∃ e ∈ hs, Binds E e r ∧ e.name = n ∧ s = e.sig := by
  generalize hm : Mem.method s = m at h
  cases h with
  | init h =>
    subst hm
    exact absurd hr (hE.own _ _ _ h)
  | bound h1 h2 h3 => exact ⟨_, h1, h2, h3, by injection hm⟩

/-- In an accepted module, two headings of one procedure bound to a type can be called in the same way. -/
theorem same_member {E : Env} (hE : E.Ok) {names : List Nat} {ds : Decls} (hok : ModuleOk E names ds) {r n : Nat} {s s' : Sig}
    (h : Has E (Block.heads ⟨0, names, ds⟩) r n (.method s)) (g : Has E (Block.heads ⟨0, names, ds⟩) r n (.method s')) : SameCall E.T s s' := by
  by_cases hr : E.mno r = 0
  · obtain ⟨e, h1, h2, h3, rfl⟩ := has_own hE h hr
    obtain ⟨d, g1, g2, g3, rfl⟩ := has_own hE g hr
    have hb := hok.blocks _ .self
    have key : ∀ x y p1 p2 p3, Block.heads ⟨0, names, ds⟩ = p1 ++ x :: (p2 ++ y :: p3) → Binds E x r → Binds E y r → x.name = y.name →
        Agree E.T x y := by
      intro x y p1 p2 p3 hs hx hy hxy
      obtain ⟨_, r', hm⟩ := hb.method (p1 ++ x :: p2) y p3 (by rw [hs]; simp) (binds_not_plain hy)
      have := binds_unique hE.wf hm.binds hy
      subst this
      exact (hm.fwd x (by simp) hx hxy).2
    obtain ⟨p1, p2, hs⟩ := List.append_of_mem h1
    rw [hs] at g1
    rcases List.mem_append.mp g1 with g | g
    · obtain ⟨q1, q2, hq⟩ := List.append_of_mem g
      exact (agree_samecall g2 h2 (key d e q1 q2 p2 (by rw [hs, hq]; simp) g2 h2 (g3.trans h3.symm))).symm
    · rcases List.mem_cons.mp g with rfl | g
      · exact ⟨rfl, match_refl _, rfl⟩
      · obtain ⟨q1, q2, hq⟩ := List.append_of_mem g
        exact agree_samecall h2 g2 (key e d p1 q1 q2 (by rw [hs, hq]) h2 g2 (h3.trans g3.symm))
  · have h1 := has_imported h hr
    have h2 := has_imported g hr
    have := List.inj_on_of_nodup_map hE.keys h1 h2 rfl
    injection this with _ this
    injection this with _ this
    injection this with this
    subst this
    exact ⟨rfl, match_refl _, rfl⟩

theorem chain {E : Env} (hE : E.Ok) (hI : Imported E) {names : List Nat} {ds : Decls} (hok : ModuleOk E names ds) (n : Nat) :
    ∀ (k r : Nat), (E.T r).extlev ≤ k → (E.T r).comp = .record → ∀ a s s', Above E.T r a →
      Has E (Block.heads ⟨0, names, ds⟩) r n (.method s) → Has E (Block.heads ⟨0, names, ds⟩) a n (.method s') → SameCall E.T s s' := by
  intro k
  induction k with
  | zero =>
    intro r hk hc a s s' ha _ _
    have := (above_record hE.wf ha hc).2
    omega
  | succ k ih =>
    intro r hk hc a s s' ha hr hs'
    by_cases hm : E.mno r = 0
    · obtain ⟨e, h1, h2, h3, rfl⟩ := has_own hE hr hm
      obtain ⟨b, m, hb⟩ := base_exists ha hs'
      rw [← h3] at hb
      obtain ⟨pre, h, post, b', s0, g1, g2, g3, g4⟩ := hok.methods.order e h1 r h2 b m hb
      obtain ⟨_, r', hmo⟩ := (hok.blocks _ .self).method pre h post g1 (binds_not_plain g2)
      have := binds_unique hE.wf hmo.binds g2
      subst this
      rw [← g3] at g4
      have hred := hmo.redef b' s0 g4
      obtain ⟨hab, hhas⟩ := base_above g4
      rw [g3, h3] at hhas
      have hhas' : Has E (Block.heads ⟨0, names, ds⟩) b' n (.method s0) := has_sub (fun x hx => by rw [g1]; simp [hx]) hhas
      obtain ⟨rc, hrc, _⟩ := binds_recv g2
      have hsame : SameCall E.T h.sig s0 := by
        refine ⟨?_, hred.pars, hred.res⟩
        have := hred.recv rc hrc
        simp only [Head.sig, method_all hrc]
        exact this
      have hh : Has E (Block.heads ⟨0, names, ds⟩) r' n (.method h.sig) := .bound (by rw [g1]; simp) g2 (g3.trans h3)
      have hes := (same_member hE hok hr hh).trans hE.wf hsame
      obtain ⟨ca, la⟩ := above_record hE.wf ha hc
      obtain ⟨cb, lb⟩ := above_record hE.wf hab hc
      rcases above_linear ha b' hab with hx | hx | hx
      · subst hx
        exact hes.trans hE.wf (same_member hE hok hhas' hs')
      · exact hes.trans hE.wf (ih a (by omega) ca b' s' s0 hx hs' hhas').symm
      · exact hes.trans hE.wf (ih b' (by omega) cb a s0 s' hx hhas' hs')
    · exact hI.same r a n s s' (has_imported hr hm) (has_imported hs' (imported_above hI ha hm)) ha

/-- **C67**: in an accepted module a procedure bound to a type can be called like every procedure of that name bound to a type that it
extends, here or in an imported module, in whatever order they are declared.  So a call through a pointer or VAR parameter of the base type
hands over what the procedure that is called at run time expects. -/
theorem C67_redefinition {E : Env} (hE : E.Ok) (hI : Imported E) (names : List (Nat × Int)) (hn : ∀ x ∈ names, x.2 ≤ 0) (ds : Decls)
    (h0 : errors E names ds = []) (r a n : Nat) (s s' : Sig) (hr : (E.T r).comp = .record) (ha : Above E.T r a)
    (h1 : Has E (Block.heads ⟨0, names.map Prod.fst, ds⟩) r n (.method s)) (h2 : Has E (Block.heads ⟨0, names.map Prod.fst, ds⟩) a n (.method s')) :
    SameCall E.T s s' :=
  chain hE hI ((C67_procedures_partial hE names hn ds).mp h0) n _ r (Nat.le_refl _) hr a s s' ha h1 h2

/-! ### A concrete module -/

/-- Records 12, 13 (extends 12), 14 (extends 13), and pointers to them, 15, 16, 17; an imported record 19, 20 that extends it, and pointers,
22 and 21. -/
def pT : Tab := fun t =>
  match t with
  | 0 => { form := .undef }
  | 1 => { form := .no }
  | 2 => { form := .str }
  | 3 => { form := .nil }
  | 4 => { form := .byte }
  | 5 => { form := .ptr, size := 8, base := some 0 }
  | 6 => { form := .bool }
  | 7 => { form := .char }
  | 8 => { form := .real, size := 4 }
  | 9 => { form := .lreal, size := 8 }
  | 12 => { form := .comp, comp := .record, base := none }
  | 13 => { form := .comp, comp := .record, extlev := 1, base := some 12 }
  | 14 => { form := .comp, comp := .record, extlev := 2, base := some 13 }
  | 15 => { form := .ptr, size := 8, base := some 12 }
  | 16 => { form := .ptr, size := 8, base := some 13 }
  | 17 => { form := .ptr, size := 8, base := some 14 }
  | 18 => { form := .comp, comp := .dyn, n := 0, base := some 7 }
  | 19 => { form := .comp, comp := .record, base := none }
  | 20 => { form := .comp, comp := .record, extlev := 1, base := some 19 }
  | 21 => { form := .ptr, size := 8, base := some 20 }
  | 22 => { form := .ptr, size := 8, base := some 19 }
  | 23 => { form := .comp, comp := .dyn, n := 0, base := some 7 }
  | _ => { form := .int, size := 4 }

theorem pT_all (P : Nat → Ty → Prop) (h1 : ∀ t, t ≤ 23 → P t (pT t)) (h2 : ∀ t, P t { form := .int, size := 4 }) (t : Nat) : P t (pT t) := by
  by_cases h : t ≤ 23
  · exact h1 t h
  · have : pT t = { form := .int, size := 4 } := by
      simp only [pT]
      split <;> first | omega | rfl
    rw [this]
    exact h2 t

theorem pT_wf : Wf pT := by
  refine ⟨rfl, rfl, rfl, rfl, rfl, ⟨rfl, rfl⟩, rfl, rfl, rfl, rfl, ?_, ?_, ?_, ?_, ?_, ?_, ?_, ?_, ?_, ?_, ?_, ?_, ?_⟩
  · exact pT_all (fun t y => y.form = .comp ↔ y.comp ≠ .basic) (by decide) (by intro; simp)
  · exact pT_all (fun t y => y.form = .undef → t = undftyp) (by decide) (by intro; simp)
  · exact pT_all (fun t y => y.form = .str → t = stringtyp) (by decide) (by intro; simp)
  · exact pT_all (fun t y => y.form = .nil → t = niltyp) (by decide) (by intro; simp)
  · exact pT_all (fun t y => y.form = .byte → t = bytetyp) (by decide) (by intro; simp)
  · exact pT_all (fun t y => y.form = .bool → t = booltyp) (by decide) (by intro; simp)
  · exact pT_all (fun t y => y.form = .char → t = chartyp) (by decide) (by intro; simp)
  · exact pT_all (fun t y => y.form = .real → t = realtyp) (by decide) (by intro; simp)
  · exact pT_all (fun t y => y.form = .lreal → t = lrltyp) (by decide) (by intro; simp)
  · intro t b
    refine pT_all (fun t y => y.comp = .record → y.base = some b → (pT b).comp = .record ∧ y.extlev = (pT b).extlev + 1) ?_ (by intro; simp) t
    intro t ht h1 h2
    have ht' : t = 13 ∨ t = 14 ∨ t = 20 ∨ (pT t).comp ≠ .record ∨ (pT t).base = none := by
      clear h1 h2
      revert t; decide
    rcases ht' with rfl | rfl | rfl | h | h
    · cases h2; decide
    · cases h2; decide
    · cases h2; decide
    · exact absurd h1 h
    · rw [h] at h2; cases h2
  · refine pT_all (fun t y => y.comp = .array → ∃ b, y.base = some b ∧ (pT b).comp ≠ .dyn) ?_ (by intro; simp)
    intro t ht h1
    have ht' : (pT t).comp ≠ .array := by clear h1; revert t; decide
    exact absurd h1 ht'
  · refine pT_all (fun t y => y.comp = .dyn → ∃ b, y.base = some b ∧ ((pT b).comp = .dyn → y.n = (pT b).n + 1)) ?_ (by intro; simp)
    intro t ht h1
    have ht' : t = 18 ∨ t = 23 ∨ (pT t).comp ≠ .dyn := by clear h1; revert t; decide
    rcases ht' with rfl | rfl | h
    · exact ⟨7, rfl, by decide⟩
    · exact ⟨7, rfl, by decide⟩
    · exact absurd h1 h
  · refine pT_all (fun t y => y.form = .ptr → ∃ b, y.base = some b) ?_ (by intro; simp)
    intro t ht h1
    have ht' : (pT t).form = .ptr → (pT t).base.isSome := by clear h1; revert t; decide
    exact Option.isSome_iff_exists.mp (ht' h1)

theorem pT_proc (t : Nat) : (pT t).form ≠ .proc := pT_all (fun _ y => y.form ≠ .proc) (by decide) (by intro; simp) t

/-- Without procedure types the comparison of parameters takes one step for each. -/
theorem pT_chk : ∀ (ps qs : List Par) (names : Bool), ∃ es, checkPars pT (ps.length + 1) names ps qs = some es
  | [], [], _ => ⟨_, rfl⟩
  | [], _ :: _, _ => ⟨_, rfl⟩
  | p :: ps, [], names => by
    obtain ⟨es, h⟩ := pT_chk ps [] names
    exact ⟨116 :: es, by rw [List.length_cons]; simp only [checkPars]; rw [h]; rfl⟩
  | p :: ps, q :: qs, names => by
    obtain ⟨es, h⟩ := pT_chk ps qs names
    rw [List.length_cons]
    simp only [checkPars, pT_proc, false_and, if_false]
    rw [h]
    split <;> exact ⟨_, rfl⟩

/-- Names: 50, 51 predeclared (a type; a procedure); 60 a field of 13; 70 the procedure bound to the imported record. -/
def pE : Env where
  T := pT
  mno t := if t = 19 then -1 else 0
  strvis t := if t = 12 ∨ t = 13 ∨ t = 14 then some .external else none
  sys := true
  univ := [(50, false), (51, true)]
  init := [(13, 60, .field), (19, 70, .method ⟨.external, ⟨true, 19, 1⟩, [⟨false, 24, 2⟩, ⟨true, 18, 3⟩], 24⟩)]
  chk names ps qs := (checkPars pT (ps.length + 1) names ps qs).getD [0]

theorem pE_ok : pE.Ok := by
  refine ⟨pT_wf, ?_, by decide, by decide, ?_, ?_⟩
  · intro names ps qs
    obtain ⟨es, h⟩ := pT_chk ps qs names
    refine ⟨ps.length + 1, ?_⟩
    show checkPars pT _ _ _ _ = some ((checkPars pT (ps.length + 1) names ps qs).getD [0])
    rw [h]
    rfl
  · intro r n s h
    simp only [pE, List.mem_cons, Prod.mk.injEq, reduceCtorEq, and_false, false_or, List.not_mem_nil, or_false] at h
    rw [h.1]
    decide
  · intro r n s h
    simp only [pE, List.mem_cons, Prod.mk.injEq, reduceCtorEq, and_false, false_or, List.not_mem_nil, or_false, Mem.method.injEq] at h
    obtain ⟨rfl, rfl, rfl⟩ := h
    exact ⟨rfl, Or.inl ⟨rfl, rfl⟩⟩

theorem pE_imported : Imported pE := by
  constructor
  · intro r b hr hb
    have h19 : r = 19 := by
      by_contra h
      exact hr (by simp [pE, h])
    subst h19
    cases hb
  · intro r a n s s' h1 h2 ha
    simp only [pE, List.mem_cons, Prod.mk.injEq, reduceCtorEq, and_false, false_or, List.not_mem_nil, or_false, Mem.method.injEq] at h1 h2
    obtain ⟨rfl, rfl, rfl⟩ := h1
    obtain ⟨rfl, _, rfl⟩ := h2
    exact ⟨rfl, match_refl _, rfl⟩

def one (h : Head) (locals : List Nat := []) (body : Decls := .nil) : Decl := .mk h locals body
def decls : List Decl → Decls
  | [] => .nil
  | d :: ds => .cons d (decls ds)

/-- `PROCEDURE ^ P (x: INTEGER): INTEGER;  PROCEDURE ^ (a: A) M* (c: ARRAY OF CHAR);  PROCEDURE P (x: INTEGER): INTEGER; VAR y: ..;
PROCEDURE x.. ` and so on: forward declarations, a procedure in a procedure, redefinitions in another order than that of the types, a
redefinition of an imported procedure. -/
def good : Decls := decls [
  one { mark := .arrow, name := 100, pars := [⟨false, 24, 1⟩], res := 24 },
  one { mark := .arrow, recv := some ⟨false, 2, .type 15⟩, name := 101, vis := .external, pars := [⟨false, 18, 3⟩] },
  one { name := 100, pars := [⟨false, 24, 1⟩], res := 24 } [4, 5] (decls [
    one { mark := .arrow, name := 100 }, one { name := 50, pars := [⟨true, 18, 4⟩] } [1], one { name := 100 }]),
  one { recv := some ⟨false, 2, .type 17⟩, name := 101, vis := .external, pars := [⟨false, 23, 7⟩] },
  one { recv := some ⟨false, 2, .type 16⟩, name := 101, vis := .external, pars := [⟨false, 18, 3⟩] },
  one { recv := some ⟨false, 2, .type 15⟩, name := 101, vis := .external, pars := [⟨false, 18, 3⟩] },
  one { recv := some ⟨true, 9, .type 20⟩, name := 70, pars := [⟨false, 24, 5⟩, ⟨true, 23, 6⟩], res := 24 }]

/-- **C67**, a concrete case: the module is accepted, so it obeys the rules. -/
theorem C67_case : errors pE [(40, 0), (41, -1)] good = [] ∧ ModuleOk pE [40, 41] good := by
  have h : errors pE [(40, 0), (41, -1)] good = [] := by decide +kernel
  exact ⟨h, (C67_procedures_partial pE_ok _ (by decide) good).mp h⟩

/-- The third method can be called like the first, though it was declared before the second. -/
example : SameCall pT ⟨.external, ⟨false, 17, 2⟩, [⟨false, 23, 7⟩], notyp⟩ ⟨.external, ⟨false, 15, 2⟩, [⟨false, 18, 3⟩], notyp⟩ := by
  refine C67_redefinition pE_ok pE_imported _ (by decide) good C67_case.1 14 12 101 _ _ rfl (.up rfl (.one rfl)) ?_ ?_
  · exact .bound (h := { recv := some ⟨false, 2, .type 17⟩, name := 101, vis := .external, pars := [⟨false, 23, 7⟩] }) (by decide)
      ⟨_, 17, rfl, rfl, rfl, rfl, Or.inr ⟨rfl, rfl, rfl⟩⟩ rfl
  · exact .bound (h := { recv := some ⟨false, 2, .type 15⟩, name := 101, vis := .external, pars := [⟨false, 18, 3⟩] }) (by decide)
      ⟨_, 15, rfl, rfl, rfl, rfl, Or.inr ⟨rfl, rfl, rfl⟩⟩ rfl

/-- Wrong modules: a name twice, a missing procedure, a parameter of another type, a result of another type, another kind of receiver, the name of a
field, a redefinition that stands before what it redefines, an imported type, export of a local name. -/
example : errors pE [(100, 0)] (decls [one { name := 100 }]) = [1, 1] ∧
    errors pE [] (decls [one { mark := .arrow, name := 100 }]) = [129] ∧
    errors pE [] (decls [one { mark := .arrow, name := 100, pars := [⟨true, 24, 1⟩] }, one { name := 100, pars := [⟨false, 24, 1⟩] }]) = [115] ∧
    errors pE [] (decls [one { recv := some ⟨true, 1, .type 12⟩, name := 101 }, one { recv := some ⟨true, 1, .type 13⟩, name := 101, res := 24 }]) = [117] ∧
    errors pE [] (decls [one { recv := some ⟨true, 1, .type 12⟩, name := 101 }, one { recv := some ⟨false, 1, .type 16⟩, name := 101 }]) = [115] ∧
    errors pE [] (decls [one { recv := some ⟨true, 1, .type 13⟩, name := 60 }]) = [1, 1] ∧
    errors pE [] (decls [one { recv := some ⟨true, 1, .type 14⟩, name := 60 }]) = [1] ∧
    errors pE [] (decls [one { recv := some ⟨true, 1, .type 13⟩, name := 101 }, one { recv := some ⟨true, 1, .type 12⟩, name := 101 }]) = [119] ∧
    errors pE [] (decls [one { recv := some ⟨true, 1, .type 19⟩, name := 101 }]) = [72] ∧
    errors pE [] (decls [one { name := 100 } [] (decls [one { name := 101, vis := .external }])]) = [47, 73] := by decide +kernel

/-! ### Where the compiler deviates from the report -/

/-- **C67**, deviation: a procedure that redefines another and is declared forward can be missing.  Here `PROCEDURE (VAR a: A) M; END M;
PROCEDURE ^ (VAR b: B) M;` is accepted although `B.M` has no body. -/
theorem C67_missing_body : ∃ ds, errors pE [] ds = [] ∧ ∃ h ∈ Block.heads ⟨0, [], ds⟩, Binds pE h 13 ∧
    ∀ e ∈ Block.heads ⟨0, [], ds⟩, Binds pE e 13 → e.forward := by
  refine ⟨decls [one { recv := some ⟨true, 1, .type 12⟩, name := 101 }, one { mark := .arrow, recv := some ⟨true, 1, .type 13⟩, name := 101 }],
    by decide +kernel, { mark := .arrow, recv := some ⟨true, 1, .type 13⟩, name := 101 }, by decide, ⟨_, 13, rfl, rfl, rfl, rfl, Or.inl ⟨rfl, rfl⟩⟩, ?_⟩
  intro e he hb
  have : e = { recv := some ⟨true, 1, .type 12⟩, name := 101 } ∨ e = { mark := .arrow, recv := some ⟨true, 1, .type 13⟩, name := 101 } := by
    simpa [Block.heads, decls, Decls.toList, one, Decl.head] using he
  rcases this with rfl | rfl
  · have := binds_unique pT_wf hb ⟨_, 12, rfl, rfl, rfl, rfl, Or.inl ⟨rfl, rfl⟩⟩
    cases this
  · rfl

/-- **C67**, deviation: a code procedure (`PROCEDURE - P "..."`) that follows a forward declaration of `P` is accepted, but `P` stays an ordinary
procedure for which no statements are compiled: its calls call a C function that is defined nowhere. -/
theorem C67_code_after_forward :
    errors pE [] (decls [one { mark := .arrow, name := 100 }, one { mark := .minus, name := 100 }]) = [] ∧
    (compile pE [] (decls [one { mark := .arrow, name := 100 }, one { mark := .minus, name := 100 }])).top.map (fun o => (o.name, o.mode, o.hasBody)) =
      [(100, .lproc, true)] ∧
    (compile pE [] (decls [one { mark := .arrow, name := 100 }, one { mark := .minus, name := 100 }])).code = [] := by decide +kernel

/-- **C67**, deviation: in a module the predeclared names of types and constants cannot be declared as procedures, though in procedures they can,
and those of predeclared procedures can everywhere. -/
theorem C67_predeclared_name : errors pE [] (decls [one { name := 50 }]) = [1] ∧ errors pE [] (decls [one { name := 51 }]) = [] ∧
    errors pE [] (decls [one { name := 100 } [] (decls [one { name := 50 }])]) = [] := by decide +kernel

/-- **C67**, deviation: a procedure may be bound to a type though an extension of the type has a field of that name. -/
theorem C67_field_below : (13, 60, .field) ∈ pE.init ∧ Above pE.T 13 12 ∧
    errors pE [] (decls [one { recv := some ⟨true, 1, .type 12⟩, name := 60 }]) = [] := ⟨by decide, .one rfl, by decide +kernel⟩

/-- **C67**, deviation: a procedure that redefines an exported one and is bound to an exported type need not be exported, if it is declared
before the one that it redefines and there is another above.  Here `A.M` is not exported, `C.M` is not, `B.M` is, in this order; `C` is
exported and extends `B`. -/
theorem C67_export_order : ∃ ds, errors pE [] ds = [] ∧ ∃ h ∈ Block.heads ⟨0, [], ds⟩, Binds pE h 14 ∧ h.vis = .internal ∧
    pE.strvis 14 = some .external ∧ ∃ s, Base pE (Block.heads ⟨0, [], ds⟩) h.name 14 13 (.method s) ∧ s.vis = .external := by
  refine ⟨decls [one { recv := some ⟨true, 1, .type 12⟩, name := 101 }, one { recv := some ⟨true, 1, .type 14⟩, name := 101 },
      one { recv := some ⟨true, 1, .type 13⟩, name := 101, vis := .external }],
    by decide +kernel, { recv := some ⟨true, 1, .type 14⟩, name := 101 }, by decide, ⟨_, 14, rfl, rfl, rfl, rfl, Or.inl ⟨rfl, rfl⟩⟩, rfl, rfl, _,
    .here rfl (.bound (h := { recv := some ⟨true, 1, .type 13⟩, name := 101, vis := .external }) (by decide)
      ⟨_, 13, rfl, rfl, rfl, rfl, Or.inl ⟨rfl, rfl⟩⟩ rfl), rfl⟩
end Verif.Procs
