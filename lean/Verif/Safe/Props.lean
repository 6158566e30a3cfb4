import Verif.Common
import Verif.Safe.Sound

namespace Verif.Safe
open Verif.Types

variable {T : Tab} {F : Flds}

/-! ### Only the names that are used matter -/

def Agree (G G' : Ctx) (u : Nat → Bool) : Prop := ∀ x, (∀ i, x = .glob i → u i = true) → G x = G' x

theorem Agree.imp {G G' : Ctx} {u v : Nat → Bool} (h : Agree G G' u) (hi : ∀ i, v i = true → u i = true) : Agree G G' v :=
  fun x hx => h x fun i hxi => hi i (hx i hxi)

theorem nodeOf_congr {K : Nat} {G G' : Ctx} : ∀ (d : Des), Agree G G' (fun i => d.uses i) → nodeOf T F K G d = nodeOf T F K G' d
  | .var x, h => by
    simp only [nodeOf]
    rw [h x fun i hx => by simp [Des.uses, hx]]
  | .fld d f, h => by simp only [nodeOf]; rw [nodeOf_congr d h]
  | .deref d, h => by simp only [nodeOf]; rw [nodeOf_congr d h]
  | .guard d t, h => by simp only [nodeOf]; rw [nodeOf_congr d h]

theorem elabE_congr {K : Nat} {G G' : Ctx} (e : Exp) (h : Agree G G' (fun i => e.uses i)) : elabE T F K G e = elabE T F K G' e := by
  cases e with
  | des d => simp only [elabE]; rw [nodeOf_congr d h]
  | _ => rfl

theorem elabC_congr {K : Nat} {G G' : Ctx} (c : Cond) (h : Agree G G' (fun i => c.uses i)) : elabC T F K G c = elabC T F K G' c := by
  cases c <;> simp only [elabC] <;> rw [nodeOf_congr _ h]

theorem compArgs_congr {K : Nat} {G G' : Ctx} : ∀ (ds : List Decl) (es : List Exp), Agree G G' (fun i => es.any fun e => e.uses i) →
    compArgs T F K G ds es = compArgs T F K G' ds es
  | [], [], _ => rfl
  | [], _ :: _, _ => rfl
  | _ :: _, [], _ => rfl
  | d :: ds, e :: es, h => by
    simp only [compArgs, compArg]
    rw [elabE_congr e (h.imp fun i hi => by simp [hi]), compArgs_congr ds es (h.imp fun i hi => by
      simp only [List.any_cons, hi, Bool.or_true])]

theorem comp_congr {K : Nat} {procs : List Proc} {leaf : Name → Bool} : ∀ (s : Stmt) {G G' : Ctx}, Agree G G' (fun i => s.uses i) →
    comp T F K procs leaf G s = comp T F K procs leaf G' s
  | .skip, _, _, _ => rfl
  | .halt, _, _, _ => rfl
  | .seq s u, _, _, h => by
    simp only [comp]
    rw [comp_congr s (h.imp fun i hi => by simp [Stmt.uses, hi]), comp_congr u (h.imp fun i hi => by simp [Stmt.uses, hi])]
  | .assign d e, _, _, h => by
    simp only [comp]
    rw [nodeOf_congr d (h.imp fun i hi => by simp [Stmt.uses, hi]), elabE_congr e (h.imp fun i hi => by simp [Stmt.uses, hi])]
  | .new d, _, _, h => by
    simp only [comp]
    rw [nodeOf_congr d (h.imp fun i hi => by simp [Stmt.uses, hi])]
  | .ite c s u, _, _, h => by
    simp only [comp]
    rw [elabC_congr c (h.imp fun i hi => by simp [Stmt.uses, hi]), comp_congr s (h.imp fun i hi => by simp [Stmt.uses, hi]),
      comp_congr u (h.imp fun i hi => by simp [Stmt.uses, hi])]
  | .while c s, _, _, h => by
    simp only [comp]
    rw [elabC_congr c (h.imp fun i hi => by simp [Stmt.uses, hi]), comp_congr s (h.imp fun i hi => by simp [Stmt.uses, hi])]
  | .call p as, _, _, h => by
    simp only [comp]
    cases procs[p]? with
    | none => rfl
    | some pr =>
      simp only [Option.bind_some]
      rw [compArgs_congr pr.pars as (h.imp fun i hi => by simpa [Stmt.uses] using hi)]
  | .with x t s u, G, G', h => by
    simp only [comp]
    rw [h x fun i hx => by simp [Stmt.uses, hx], elabC_congr (.is (.var x) t) (h.imp fun i hi => by
      simp only [Cond.uses, Des.uses] at hi
      simp only [Stmt.uses, hi, Bool.true_or])]
    rw [comp_congr u (h.imp fun i hi => by simp [Stmt.uses, hi])]
    congr 1
    funext d
    rw [comp_congr s (G := narrow G x ⟨d.varpar, t⟩) (G' := narrow G' x ⟨d.varpar, t⟩)]
    intro y hy
    simp only [narrow]
    by_cases hyx : y = x
    · rw [if_pos hyx, if_pos hyx]
    · rw [if_neg hyx, if_neg hyx]
      exact h y fun i hi => by simp [Stmt.uses, hy i hi]

/-! ### Names -/

/-- A variable that WITH can narrow is reached by no other name. -/
def Unshared (T : Tab) (leaf : Name → Bool) (G : Ctx) (env : Env) : Prop :=
  ∀ x d, G x = some d → d.varpar = false → leaf x = true → (T d.typ).form = .ptr →
    ∃ a, env x = .var a ∧ ∀ y d', y ≠ x → G y = some d' → env y ≠ .var a

/-- The variables that procedures use have their declared types. -/
def SharedOk (p : Prog) (leaf : Name → Bool) (G : Ctx) : Prop :=
  ∀ i, p.shared i = true → leaf (.glob i) = false ∧ G (.glob i) = (p.globs[i]?).map fun t => ⟨false, t⟩

theorem FrameOk.mono {W W' : World} {st st' : St} {G : Ctx} {env : Env} (e : Evolve W st W' st') (h : FrameOk T F W st G env) : FrameOk T F W' st' G env :=
  fun x d hx => (h x d hx).mono e

theorem Good.trans {W W' : World} {st st' st'' : St} (e : Evolve W st W' st') (h : Good T F W' st' st'') : Good T F W st st'' := by
  obtain ⟨W2, h1, h2⟩ := h
  exact ⟨W2, e.trans h1, h2⟩

/-- A variable with another type for a while. -/
theorem narrow_ok {W : World} {st : St} {a t : Nat} (hs : StOk T F W st) (hv : Fits T st t (st.vars a)) :
    StOk T F (fun b => if b = a then t else W b) st := by
  refine ⟨fun b hb => ?_, hs.recs, hs.objs⟩
  by_cases h : b = a
  · simp only [h, if_true]
    exact hv
  · simp only [if_neg h]
    exact hs.vars b hb

theorem Place.other {W : World} {st : St} {a t u : Nat} {r : Ref} (h : Place T F W st u r) (hr : r ≠ .var a) :
    Place T F (fun b => if b = a then t else W b) st u r := by
  cases r with
  | var b => exact ⟨h.1, (if_neg (fun hb => hr (by rw [hb]))).trans h.2⟩
  | fld o t0 f => exact h
  | obj => exact h

theorem NameOk.other {W : World} {st : St} {a t : Nat} {d : Decl} {r : Ref} (h : NameOk T F W st d r) (hr : r ≠ .var a) :
    NameOk T F (fun b => if b = a then t else W b) st d r := by
  rcases h with h | ⟨h1, u, h2, h3⟩
  · exact .inl h
  · exact .inr ⟨h1, u, h2.other hr, h3⟩

theorem Good.widen {W : World} {st st' : St} {a t : Nat} (ha : a < st.nv) (hsub : Sub T t (W a)) (h : Good T F (fun b => if b = a then t else W b) st st') :
    Good T F W st st' := by
  obtain ⟨W', e, hs⟩ := h
  refine ⟨fun b => if b = a then W a else W' b, ⟨e.nv, e.no, fun b hb => ?_, e.objs⟩, fun b hb => ?_, hs.recs, hs.objs⟩
  · by_cases h : b = a
    · simp only [h, if_true]
    · simp only [if_neg h]
      rw [e.vars b hb, if_neg h]
  · by_cases h : b = a
    · simp only [h, if_true]
      have h1 := hs.vars a (Nat.lt_of_lt_of_le ha e.nv)
      rw [e.vars a ha, if_pos rfl] at h1
      exact h1.sub hsub
    · simp only [if_neg h]
      exact hs.vars b hb

/-- The compiled procedures. -/
def Compiled (T : Tab) (F : Flds) (K : Nat) (p : Prog) (cs : List CProc) : Prop :=
  ∀ (i : Nat) (pr : Proc), p.procs[i]? = some pr → ∃ c, cs[i]? = some c ∧ compProc T F K p pr = some c

theorem mapM_get {α β : Type} (f : α → Option β) : ∀ {l : List α} {m : List β}, l.mapM f = some m →
    ∀ (i : Nat) (a : α), l[i]? = some a → ∃ b, m[i]? = some b ∧ f a = some b
  | [], m, h, i, a, hi => by simp at hi
  | x :: l, m, h, i, a, hi => by
    rw [List.mapM_cons] at h
    simp only [Option.bind_eq_bind, Option.pure_def, Option.bind_eq_some_iff, Option.some.injEq] at h
    obtain ⟨y, hy, ys, hys, rfl⟩ := h
    cases i with
    | zero =>
      simp only [List.getElem?_cons_zero, Option.some.injEq] at hi
      subst hi
      exact ⟨y, rfl, hy⟩
    | succ i => exact mapM_get f hys i a hi

/-- The condition of a type test. -/
theorem cond_ok (hw : Wf T) (hF : ∀ t f u, F t f = some u → Simple T u) {W : World} {st : St} (hs : StOk T F W st) {K : Nat} {G : Ctx} {env : Env}
    (hf : FrameOk T F W st G env) {c : Cond} {cc : CC} (h : elabC T F K G c = some cc) : Tame (fun _ => True) (evalC T env st cc) := by
  cases c with
  | is d t =>
    simp only [elabC, Option.bind_eq_some_iff, Option.map_eq_some_iff] at h
    obtain ⟨r, hr, ⟨g, p, u⟩, ht, rfl⟩ := h
    have hn := (nodeOf_ok hw hF hs hf d r hr).ok
    simp only
    by_cases hg : g = true ∨ r.2.1 = .nguard
    · rw [if_pos hg]
      cases p with
      | true =>
        simp only [if_true, evalC]
        refine hn.bind fun a ha => ?_
        rcases typTest_ok hw ha.type ht with ⟨_, b, h1, _⟩ | ⟨h, _⟩
        · obtain ⟨_, _, _, v, h2, h3⟩ := ha.ptr hw h1.1
          rw [h2]
          rcases h3 with rfl | ⟨o, rfl, _⟩
          · exact .trap
          · exact .ok trivial
        · cases h
      | false =>
        simp only [Bool.false_eq_true, if_false, evalC]
        refine hn.bind fun a ha => ?_
        rcases typTest_ok hw ha.type ht with ⟨h, _⟩ | ⟨_, h1, _⟩
        · cases h
        · obtain ⟨o, rfl, _⟩ := ha.record hw h1
          exact .ok trivial
    · rw [if_neg hg]
      exact .ok trivial
  | isNil d =>
    simp only [elabC, Option.bind_eq_some_iff] at h
    obtain ⟨r, hr, h⟩ := h
    by_cases h1 : (T r.2.2).form = .ptr
    · rw [if_pos h1, Option.some.injEq] at h
      subst h
      simp only [evalC]
      refine (nodeOf_ok hw hF hs hf d r hr).ok.bind fun a ha => ?_
      obtain ⟨_, _, _, v, h2, h3⟩ := ha.ptr hw h1
      rw [h2]
      rcases h3 with rfl | ⟨o, rfl, _⟩ <;> exact .ok trivial
    · rw [if_neg h1] at h
      cases h

/-- The test of a WITH: in the branch taken the variable is as tested. -/
theorem with_ok (hw : Wf T) {W : World} {st : St} (hs : StOk T F W st) {K : Nat} {leaf : Name → Bool} {p : Prog} {G : Ctx} {env : Env}
    (hf : FrameOk T F W st G env) (hu : Unshared T leaf G env) (hsh : SharedOk p leaf G) {x : Name} {t : Nat} {d : Decl} (hx : G x = some d)
    (hwo : withOk T leaf x d = true) {cc : CC} (h : elabC T F K G (.is (.var x) t) = some cc) :
    Tame (fun b => b = true → ∃ W1, StOk T F W1 st ∧ FrameOk T F W1 st (narrow G x ⟨d.varpar, t⟩) env ∧
      Unshared T leaf (narrow G x ⟨d.varpar, t⟩) env ∧ SharedOk p leaf (narrow G x ⟨d.varpar, t⟩) ∧ ∀ st', Good T F W1 st st' → Good T F W st st')
      (evalC T env st cc) := by
  simp only [elabC, nodeOf, hx, Option.map_some, Option.bind_some, Option.map_eq_some_iff] at h
  obtain ⟨⟨g, q, u⟩, ht, rfl⟩ := h
  have hr := (hf x d hx).ref hs
  have hcl : (if d.varpar = true then Cls.nvarpar else Cls.nvar) ≠ .nguard := by cases d.varpar <;> simp
  simp only [hcl, or_false]
  -- names
  have hun : ∀ (hv : d.varpar = false → (T t).form = .ptr → (T d.typ).form = .ptr), Unshared T leaf (narrow G x ⟨d.varpar, t⟩) env := by
    intro hv y dy hy hyv hyl hyp
    simp only [narrow] at hy
    by_cases hyx : y = x
    · rw [if_pos hyx, Option.some.injEq] at hy
      subst hy
      subst hyx
      obtain ⟨a, h1, h2⟩ := hu y d hx hyv hyl (hv hyv hyp)
      refine ⟨a, h1, fun z dz hzy hz => ?_⟩
      simp only [narrow, if_neg hzy] at hz
      exact h2 z dz hzy hz
    · rw [if_neg hyx] at hy
      obtain ⟨a, h1, h2⟩ := hu y dy hy hyv hyl hyp
      refine ⟨a, h1, fun z dz hzy hz => ?_⟩
      simp only [narrow] at hz
      by_cases hzx : z = x
      · rw [hzx]
        exact h2 x d (fun h => hyx h.symm) hx
      · rw [if_neg hzx] at hz
        exact h2 z dz hzy hz
  have hsh' : (d.varpar = true ∨ leaf x = true) → SharedOk p leaf (narrow G x ⟨d.varpar, t⟩) := by
    intro hor i hi
    obtain ⟨h1, h2⟩ := hsh i hi
    refine ⟨h1, ?_⟩
    simp only [narrow]
    rw [if_neg]
    · exact h2
    · rintro rfl
      rw [hx] at h2
      rcases hor with hor | hor
      · cases hgi : p.globs[i]? with
        | none => rw [hgi] at h2; cases h2
        | some w =>
          rw [hgi] at h2
          simp only [Option.map_some, Option.some.injEq] at h2
          rw [h2] at hor
          cases hor
      · rw [h1] at hor
        cases hor
  rcases typTest_ok hw hr.type ht with ⟨rfl, b, h1, h2, h3, h4, h5⟩ | ⟨rfl, h1, h2, rfl, h4, h5, h6⟩
  · -- pointers
    have hvl : d.varpar = false ∧ leaf x = true := by
      simp only [withOk, h1.1, decide_true, Bool.true_and, Bool.not_or, Bool.not_not, Bool.and_eq_true, Bool.not_eq_true'] at hwo
      exact hwo
    obtain ⟨a, hea, hno⟩ := hu x d hx hvl.1 hvl.2 h1.1
    obtain ⟨b', hb', ⟨w, hw1, hw2, hw3⟩, v, hl, hv⟩ := hr.ptr hw h1.1
    obtain rfl := recPtr_inj h1 hb'
    have hsame := hw3 hcl
    rw [hea] at hw1 hl
    obtain ⟨hlt, hWa⟩ := hw1
    simp only [load, Res.ok.injEq] at hl
    -- given that the value fits
    have key : Fits T st t (st.vars a) → Simple T t → Sub T t d.typ → ∃ W1, StOk T F W1 st ∧ FrameOk T F W1 st (narrow G x ⟨d.varpar, t⟩) env ∧
        Unshared T leaf (narrow G x ⟨d.varpar, t⟩) env ∧ SharedOk p leaf (narrow G x ⟨d.varpar, t⟩) ∧ ∀ st', Good T F W1 st st' → Good T F W st st' := by
      intro hfit hsi hsub
      refine ⟨fun b => if b = a then t else W b, narrow_ok hs hfit, fun y dy hy => ?_, hun (fun _ _ => h1.1), hsh' (.inr hvl.2), fun st' hg => hg.widen hlt ?_⟩
      · simp only [narrow] at hy
        by_cases hyx : y = x
        · rw [if_pos hyx, Option.some.injEq] at hy
          subst hy
          subst hyx
          rw [hea]
          exact .inr ⟨hsi, t, ⟨hlt, if_pos rfl⟩, .inl rfl⟩
        · rw [if_neg hyx] at hy
          exact (hf y dy hy).other (hno y dy hyx hy)
      · rw [hWa]
        exact hsub.trans hsame.sub
    cases g with
    | true =>
      simp only [if_true, evalC, loc, Res.bind, hea, load, hl]
      rcases hv with rfl | ⟨o, rfl, ho, he⟩
      · exact .trap
      · simp only [testP]
        refine .ok fun hi => ?_
        obtain ⟨_, h7, h8, h9⟩ := tested_ptr (F := F) (W := W) (c := .nvar) hw hs (r := .var a) h1 h2 h3 h4 ho hi (by simp only [load, hl]) ⟨w, ⟨hlt, hWa⟩, hw2, fun _ => hsame⟩
        exact key (by rw [hl]; exact h9) (.inr ⟨u, h7⟩) h8
    | false =>
      simp only [Bool.false_eq_true, if_false, evalC]
      refine .ok fun _ => ?_
      obtain rfl := h5 rfl
      have h7 : RecPtr T t u := ⟨h2, h3, h1.2.2⟩
      exact key (.inr ⟨u, h7, by rw [hl]; exact hv⟩) (.inr ⟨u, h7⟩) (.inr ⟨u, u, h7, h1, .refl u⟩)
  · -- records
    have hv : d.varpar = true := by
      cases hv : d.varpar with
      | true => rfl
      | false => rw [hv] at h2; simp at h2
    obtain ⟨o, heo, ho, hext, _⟩ := hr.record hw h1
    have key : Ext T (st.objs o).typ u → ∃ W1, StOk T F W1 st ∧ FrameOk T F W1 st (narrow G x ⟨d.varpar, u⟩) env ∧
        Unshared T leaf (narrow G x ⟨d.varpar, u⟩) env ∧ SharedOk p leaf (narrow G x ⟨d.varpar, u⟩) ∧ ∀ st', Good T F W1 st st' → Good T F W st st' := by
      intro he
      refine ⟨W, hs, fun y dy hy => ?_, hun (fun h => (by rw [hv] at h; cases h)), hsh' (.inl hv), fun _ h => h⟩
      simp only [narrow] at hy
      by_cases hyx : y = x
      · rw [if_pos hyx, Option.some.injEq] at hy
        subst hy
        subst hyx
        exact .inl ⟨h4, o, heo, ho, he, fun h => (by simp only [hv] at h; cases h)⟩
      · rw [if_neg hyx] at hy
        exact hf y dy hy
    cases g with
    | true =>
      simp only [if_true, Bool.false_eq_true, if_false, evalC, loc, Res.bind, heo, testR]
      exact .ok fun hi => key ((isExt_iff hw (hs.recs o ho)).mp hi)
    | false =>
      simp only [Bool.false_eq_true, if_false, evalC]
      refine .ok fun _ => key ?_
      rw [h6 rfl]
      exact hext

/-! ### Calls -/

/-- The names in a procedure, without the global variables that no procedure uses. -/
def Prog.ownCtx (p : Prog) (pr : Proc) : Ctx
  | .glob i => if p.shared i then p.procCtx pr (.glob i) else none
  | y => p.procCtx pr y

theorem ownCtx_comp {K : Nat} {p : Prog} {pr : Proc} (hpr : pr ∈ p.procs) :
    comp T F K p.procs procLeaf (p.procCtx pr) pr.body = comp T F K p.procs procLeaf (p.ownCtx pr) pr.body := by
  refine comp_congr pr.body fun x hx => ?_
  cases x with
  | glob i =>
    have h : p.shared i = true := by
      simp only [Prog.shared, List.any_eq_true]
      exact ⟨pr, hpr, hx i rfl⟩
    simp only [Prog.ownCtx, h, if_true]
  | par i => rfl
  | loc i => rfl

theorem locals_ok (hw : Wf T) {W : World} {st : St} {n : Nat} : ∀ (ls : List Nat), (∀ t ∈ ls, Simple T t ∨ (T t).comp = .record ∧ NoPointers T F t) →
    Slots T F W st n (ls.map fun t => ⟨false, t⟩) (ls.map (localSlot T))
  | [], _ => trivial
  | t :: ls, h => by
    refine ⟨?_, fun a ha => ?_, locals_ok hw ls fun t ht => h t (by simp [ht])⟩
    · simp only [localSlot]
      rcases h t (by simp) with h1 | ⟨h1, h2⟩
      · rw [if_neg (by rw [simple_basic hw h1]; simp)]
        rcases h1 with h1 | ⟨b, h1⟩
        · rw [if_neg (by rw [h1]; simp)]
          exact ⟨rfl, .inl h1, .inl ⟨h1, .inr rfl⟩⟩
        · rw [if_pos h1.1]
          exact ⟨rfl, .inr ⟨b, h1⟩, .inr ⟨b, h1, .inl rfl⟩⟩
      · rw [if_pos h1]
        exact ⟨rfl, h1, rfl, fun t0 f u h3 h4 => .inl ⟨h2 t0 f u h3 h4, .inr rfl⟩⟩
    · simp only [localSlot] at ha
      split at ha
      · cases ha
      · split at ha <;> cases ha

theorem getD_of {rs : List Ref} {i : Nat} {r d : Ref} (h : rs[i]? = some r) : rs.getD i d = r := by
  simp [List.getD, h]

theorem map_decl {ls : List Nat} {i : Nat} {d : Decl} (h : (ls[i]?).map (fun t => (⟨false, t⟩ : Decl)) = some d) :
    (ls.map fun t => (⟨false, t⟩ : Decl))[i]? = some d ∧ d.varpar = false := by
  rw [List.getElem?_map]
  refine ⟨h, ?_⟩
  rw [Option.map_eq_some_iff] at h
  obtain ⟨t, _, rfl⟩ := h
  rfl

theorem call_ok {p : Prog} {pr : Proc} {leaf : Name → Bool} {G : Ctx} {env : Env} {W W1 W2 : World} {st st1 st2 : St} {ps ls : List Ref}
    (hf : FrameOk T F W st G env) (hsh : SharedOk p leaf G) (e1 : Evolve W st W1 st1) (e2 : Evolve W1 st1 W2 st2)
    (g1 : Given T F W1 st1 st.nv st.nv pr.pars ps) (g2 : Given T F W2 st2 st1.nv st1.nv (pr.locs.map fun t => ⟨false, t⟩) ls) :
    FrameOk T F W2 st2 (p.ownCtx pr) (procEnv env ps ls) ∧ Unshared T procLeaf (p.ownCtx pr) (procEnv env ps ls) ∧
      SharedOk p procLeaf (p.ownCtx pr) := by
  have hglob : ∀ i d, p.ownCtx pr (.glob i) = some d → NameOk T F W st d (env (.glob i)) := by
    intro i d h
    simp only [Prog.ownCtx] at h
    by_cases hi : p.shared i = true
    · rw [if_pos hi] at h
      refine hf (.glob i) d ?_
      rw [(hsh i hi).2]
      exact h
    · rw [if_neg hi] at h
      cases h
  have hpar : ∀ (i : Nat) (d : Decl), p.ownCtx pr (.par i) = some d → ∃ r, ps[i]? = some r ∧ NameOk T F W1 st1 d r := fun i d h => g1.name i d h
  have hloc : ∀ (i : Nat) (d : Decl), p.ownCtx pr (.loc i) = some d → ∃ r, ls[i]? = some r ∧ NameOk T F W2 st2 d r := fun i d h => g2.name i d (map_decl h).1
  refine ⟨fun x d h => ?_, fun x d h hv hl hp => ?_, fun i hi => ⟨rfl, by simp only [Prog.ownCtx, hi, if_true, Prog.procCtx]⟩⟩
  · cases x with
    | glob i => exact (hglob i d h).mono (e1.trans e2)
    | par i =>
      obtain ⟨r, h1, h2⟩ := hpar i d h
      simp only [procEnv, getD_of h1]
      exact h2.mono e2
    | loc i =>
      obtain ⟨r, h1, h2⟩ := hloc i d h
      simp only [procEnv, getD_of h1]
      exact h2
  · have := e1.nv
    cases x with
    | glob i => simp [procLeaf] at hl
    | par i =>
      obtain ⟨a, ha⟩ := g1.cell i d h hv hp
      have hr := g1.high i d a h ha hv
      refine ⟨a, by simp only [procEnv, getD_of ha], fun y d' hy hyd heq => ?_⟩
      cases y with
      | glob j =>
        have h1 := hglob j d' hyd
        rw [show env (.glob j) = .var a from heq] at h1
        have := name_low h1
        omega
      | par j =>
        obtain ⟨r, h1, h2⟩ := hpar j d' hyd
        simp only [procEnv, getD_of h1] at heq
        rw [heq] at h1
        exact g1.sep i j d d' a h hyd (fun hij => hy (by rw [hij])) hv ha h1
      | loc j =>
        obtain ⟨r, h1, h2⟩ := hloc j d' hyd
        simp only [procEnv, getD_of h1] at heq
        rw [heq] at h1
        have := g2.high j d' a (map_decl hyd).1 h1 (map_decl hyd).2
        omega
    | loc i =>
      obtain ⟨a, ha⟩ := g2.cell i d (map_decl h).1 hv hp
      have hr := g2.high i d a (map_decl h).1 ha hv
      refine ⟨a, by simp only [procEnv, getD_of ha], fun y d' hy hyd heq => ?_⟩
      cases y with
      | glob j =>
        have h1 := hglob j d' hyd
        rw [show env (.glob j) = .var a from heq] at h1
        have := name_low h1
        omega
      | par j =>
        obtain ⟨r, h1, h2⟩ := hpar j d' hyd
        simp only [procEnv, getD_of h1] at heq
        rw [heq] at h2
        have := name_low h2
        omega
      | loc j =>
        obtain ⟨r, h1, h2⟩ := hloc j d' hyd
        simp only [procEnv, getD_of h1] at heq
        rw [heq] at h1
        exact g2.sep i j d d' a (map_decl h).1 (map_decl hyd).1 (fun hij => hy (by rw [hij])) hv ha h1

/-! ### Statements -/

theorem exec_ok (hw : Wf T) {K : Nat} {p : Prog} (hok : Okay T F p) {cs : List CProc} (hcs : Compiled T F K p cs) :
    ∀ (k : Nat) (s : Stmt) (leaf : Name → Bool) (G : Ctx) (env : Env) (c : CStmt) (W : World) (st : St), comp T F K p.procs leaf G s = some c →
      FrameOk T F W st G env → Unshared T leaf G env → SharedOk p leaf G → StOk T F W st → Tame (Good T F W st) (exec T F cs k env c st) := by
  have hF := hok.fields
  intro k
  induction k with
  | zero =>
    intros
    exact .more
  | succ k ih =>
    intro s leaf G env c W st hc hf hu hsh hs
    cases s with
    | skip =>
      simp only [comp, Option.some.injEq] at hc
      subst hc
      exact .ok ⟨W, .rfl, hs⟩
    | halt =>
      simp only [comp, Option.some.injEq] at hc
      subst hc
      exact .trap
    | seq s u =>
      simp only [comp, Option.bind_eq_some_iff, Option.map_eq_some_iff] at hc
      obtain ⟨a, ha, b, hb, rfl⟩ := hc
      simp only [exec]
      refine (ih s leaf G env a W st ha hf hu hsh hs).bind fun st1 h1 => ?_
      obtain ⟨W1, e1, hs1⟩ := h1
      exact (ih u leaf G env b W1 st1 hb (hf.mono e1) hu hsh hs1).imp fun _ h => h.trans e1
    | assign d e =>
      simp only [comp, Option.bind_eq_some_iff] at hc
      obtain ⟨l, hl, r, hr, hc⟩ := hc
      have hn := nodeOf_ok hw hF hs hf d l hl
      simp only [compAssign] at hc
      by_cases hca : checkAssign T 0 l.2.2 r.2 = some []
      · rw [if_pos hca] at hc
        by_cases hrec : (T l.2.2).comp = .record
        · rw [if_pos hrec] at hc
          obtain ⟨ce, y⟩ := r
          cases ce with
          | load m =>
            simp only [Option.some.injEq] at hc
            subst hc
            have hm := rec_ok hw hF hs hf hr hrec fun hk => (C53_assign hw 0 l.2.2 y [] (simple_var hw (.inr hrec)) hk hca).mp rfl
            obtain ⟨eq, n, h1, h2⟩ := compCopy_ok hw hs hn hrec hm
            rw [h1]
            exact h2
          | _ => cases hc
        · rw [if_neg hrec, Option.some.injEq] at hc
          subst hc
          simp only [exec]
          refine hn.ok.bind fun a ha => ?_
          obtain ⟨hsi, ⟨w, h1, h2, _⟩, _⟩ := ha.simple hw hrec
          refine (exp_ok hw hF hs hf hr hsi fun hk => (C53_assign hw 0 l.2.2 r.2 [] (simple_var hw (.inl hsi)) hk hca).mp rfl).bind fun v hv => ?_
          obtain ⟨st', h3, h4, h5⟩ := h1.store hs (hv.sub h2)
          rw [h3]
          exact .ok ⟨W, h4, h5⟩
      · rw [if_neg hca] at hc
        cases hc
    | new d =>
      simp only [comp, Option.bind_eq_some_iff] at hc
      obtain ⟨l, hl, hc⟩ := hc
      by_cases h1 : (T l.2.2).form = .ptr ∧ l.2.2 ≠ sysptrtyp
      · rw [if_pos h1, Option.bind_eq_some_iff] at hc
        obtain ⟨b, hb, hc⟩ := hc
        by_cases h2 : (T b).comp = .record
        · rw [if_pos h2, Option.some.injEq] at hc
          subst hc
          simp only [exec]
          refine (nodeOf_ok hw hF hs hf d l hl).ok.bind fun a ha => ?_
          obtain ⟨b', h3, ⟨w, h4, h5, _⟩, _⟩ := ha.ptr hw h1.1
          obtain ⟨e1, hs1, h6⟩ := obj_ok hs (b := ⟨b, zero T F⟩) h2 fun t f u _ h => zero_fits hF st h
          have hfit : Fits T (alloc1 st (.obj ⟨b, zero T F⟩)).2 l.2.2 (.ref st.no) :=
            .inr ⟨b, ⟨h1.1, hb, h2⟩, .inr ⟨st.no, rfl, Nat.lt_succ_self _, by rw [h6]; exact .refl b⟩⟩
          obtain ⟨st', h7, h8, h9⟩ := (h4.mono e1).store hs1 (hfit.sub h5)
          rw [h7]
          exact .ok ⟨W, e1.trans h8, h9⟩
        · rw [if_neg h2] at hc
          cases hc
      · rw [if_neg h1] at hc
        cases hc
    | ite cd s u =>
      simp only [comp, Option.bind_eq_some_iff, Option.map_eq_some_iff] at hc
      obtain ⟨c', hc', a, ha, b, hb, rfl⟩ := hc
      simp only [exec]
      refine (cond_ok hw hF hs hf hc').bind fun x _ => ?_
      cases x with
      | true => exact ih s leaf G env a W st ha hf hu hsh hs
      | false => exact ih u leaf G env b W st hb hf hu hsh hs
    | «while» cd s =>
      have hc0 := hc
      simp only [comp, Option.bind_eq_some_iff, Option.map_eq_some_iff] at hc
      obtain ⟨c', hc', a, ha, rfl⟩ := hc
      simp only [exec]
      refine (cond_ok hw hF hs hf hc').bind fun x _ => ?_
      cases x with
      | true =>
        simp only [if_true]
        refine (ih s leaf G env a W st ha hf hu hsh hs).bind fun st1 h1 => ?_
        obtain ⟨W1, e1, hs1⟩ := h1
        exact (ih (.while cd s) leaf G env (.while c' a) W1 st1 hc0 (hf.mono e1) hu hsh hs1).imp fun _ h => h.trans e1
      | false => exact .ok ⟨W, .rfl, hs⟩
    | call q as =>
      simp only [comp, Option.bind_eq_some_iff, Option.map_eq_some_iff] at hc
      obtain ⟨pr, hpr, as', has, rfl⟩ := hc
      obtain ⟨cp, h1, h2⟩ := hcs q pr hpr
      have hmem : pr ∈ p.procs := List.mem_of_getElem? hpr
      simp only [compProc, Option.map_eq_some_iff] at h2
      obtain ⟨body, hbody, rfl⟩ := h2
      simp only [exec, h1]
      refine (args_ok hw hF hs hf (hok.pars pr hmem) has).bind fun ss hss => ?_
      obtain ⟨W1, e1, hs1, g1⟩ := alloc_ok hw hs (Nat.le_refl _) hss
      obtain ⟨W2, e2, hs2, g2⟩ := alloc_ok hw hs1 (Nat.le_refl _) (locals_ok hw pr.locs (hok.locs pr hmem))
      obtain ⟨h3, h4, h5⟩ := call_ok hf hsh e1 e2 g1 g2
      rw [ownCtx_comp hmem] at hbody
      exact (ih pr.body procLeaf (p.ownCtx pr) _ body W2 _ hbody h3 h4 h5 hs2).imp fun _ h => h.trans (e1.trans e2)
    | «with» x t s u =>
      simp only [comp, Option.bind_eq_some_iff] at hc
      obtain ⟨d, hd, hc⟩ := hc
      by_cases hwo : withOk T leaf x d = true
      · rw [if_pos hwo] at hc
        simp only [Option.bind_eq_some_iff, Option.map_eq_some_iff] at hc
        obtain ⟨c', hc', a, ha, b, hb, rfl⟩ := hc
        simp only [exec]
        refine (with_ok hw hs hf hu hsh hd hwo hc').bind fun y hy => ?_
        cases y with
        | true =>
          obtain ⟨W1, h1, h2, h3, h4, h5⟩ := hy rfl
          exact (ih s leaf _ env a W1 st ha h2 h3 h4 h1).imp h5
        | false => exact ih u leaf G env b W st hb hf hu hsh hs
      · rw [if_neg hwo] at hc
        cases hc

/-! ### Programs -/

theorem globals_ok (hw : Wf T) (hF : ∀ t f u, F t f = some u → Simple T u) {W : World} {st : St} {n : Nat} : ∀ (ls : List Nat), (∀ t ∈ ls, Simple T t ∨ (T t).comp = .record) →
    Slots T F W st n (ls.map fun t => ⟨false, t⟩) (ls.map (globalSlot T F))
  | [], _ => trivial
  | t :: ls, h => by
    refine ⟨?_, fun a ha => ?_, globals_ok hw hF ls fun t ht => h t (by simp [ht])⟩
    · simp only [globalSlot]
      rcases h t (by simp) with h1 | h1
      · rw [if_neg (by rw [simple_basic hw h1]; simp)]
        rcases h1 with h1 | ⟨b, h1⟩
        · rw [if_neg (by rw [h1]; simp)]
          exact ⟨rfl, .inl h1, .inl ⟨h1, .inl ⟨0, rfl⟩⟩⟩
        · rw [if_pos h1.1]
          exact ⟨rfl, .inr ⟨b, h1⟩, .inr ⟨b, h1, .inl rfl⟩⟩
      · rw [if_pos h1]
        exact ⟨rfl, h1, rfl, fun t0 f u _ h4 => zero_fits hF st h4⟩
    · simp only [globalSlot] at ha
      split at ha
      · cases ha
      · split at ha <;> cases ha

theorem run_ok (hw : Wf T) {K : Nat} {p : Prog} (hok : Okay T F p) {c : CProg} (hc : compProg T F K p = some c) (k : Nat) :
    ∃ W st0, st0 = (alloc start (p.globs.map (globalSlot T F))).2 ∧
      FrameOk T F W st0 p.mainCtx (mainEnv (alloc start (p.globs.map (globalSlot T F))).1) ∧ Tame (Good T F W st0) (run T F c k) := by
  simp only [compProg, Option.bind_eq_some_iff, Option.map_eq_some_iff] at hc
  obtain ⟨ps, hps, b, hb, rfl⟩ := hc
  have hs0 : StOk T F (fun _ => 0) start := ⟨fun a h => absurd h (Nat.not_lt_zero a), fun o h => absurd h (Nat.not_lt_zero o), fun o h => absurd h (Nat.not_lt_zero o)⟩
  obtain ⟨W, e, hs, g⟩ := alloc_ok hw hs0 (Nat.le_refl _) (globals_ok hw hok.fields p.globs hok.globs)
  have hname : ∀ x d, p.mainCtx x = some d → ∃ i, x = .glob i ∧ (p.globs.map fun t => (⟨false, t⟩ : Decl))[i]? = some d ∧ d.varpar = false := by
    intro x d h
    cases x with
    | glob i => exact ⟨i, rfl, map_decl h⟩
    | par i => cases h
    | loc i => cases h
  have hf : FrameOk T F W (alloc start (p.globs.map (globalSlot T F))).2 p.mainCtx (mainEnv (alloc start (p.globs.map (globalSlot T F))).1) := by
    intro x d h
    obtain ⟨i, rfl, h1, _⟩ := hname x d h
    obtain ⟨r, h2, h3⟩ := g.name i d h1
    simp only [mainEnv, getD_of h2]
    exact h3
  refine ⟨W, _, rfl, hf, ?_⟩
  refine exec_ok hw hok (fun i pr hi => mapM_get _ hps i pr hi) k p.body p.mainLeaf p.mainCtx _ b W _ hb hf ?_ ?_ hs
  · intro x d h hv hl hp
    obtain ⟨i, rfl, h1, _⟩ := hname x d h
    obtain ⟨a, ha⟩ := g.cell i d h1 hv hp
    refine ⟨a, by simp only [mainEnv, getD_of ha], fun y d' hy hyd heq => ?_⟩
    obtain ⟨j, rfl, h2, _⟩ := hname y d' hyd
    obtain ⟨r, h3, _⟩ := g.name j d' h2
    simp only [mainEnv, getD_of h3] at heq
    rw [heq] at h3
    exact g.sep i j d d' a h1 h2 (fun hij => hy (by rw [hij])) hv ha h3
  · intro i hi
    exact ⟨by simp [Prog.mainLeaf, hi], rfl⟩

/-- **C54**, in part: a program that the compiler accepts never follows a pointer that does not point to a record, and never reads or
writes a field that the record at hand does not have; it may stop with a trap (NIL, a guard, HALT).  Missing: local variables that
are records with pointers in them (`C54_local_record` shows that it fails for them), arrays, procedure variables, SYSTEM. -/
theorem C54_safe_partial (hw : Wf T) (K : Nat) (p : Prog) (hok : Okay T F p) (c : CProg) (hc : compProg T F K p = some c) (k : Nat) :
    run T F c k ≠ .wild := by
  obtain ⟨_, _, _, _, h⟩ := run_ok hw hok hc k
  exact h.1

/-- **C54**, in part: at the end every pointer variable is NIL or points to a record whose type is an extension of the declared one,
and so do the pointers in all records.  Missing: as for `C54_safe_partial`. -/
theorem C54_types_partial (hw : Wf T) (K : Nat) (p : Prog) (hok : Okay T F p) (c : CProg) (hc : compProg T F K p = some c) (k : Nat) (st : St)
    (hr : run T F c k = .ok st) :
    (∀ (i t b : Nat), p.globs[i]? = some t → RecPtr T t b → ∃ v, load st (mainEnv (alloc start (p.globs.map (globalSlot T F))).1 (.glob i)) = .ok v ∧
      (v = .nil ∨ ∃ o, v = .ref o ∧ o < st.no ∧ Ext T (st.objs o).typ b)) ∧
    ∀ o, o < st.no → FieldsFit T F st o := by
  obtain ⟨W, st0, _, hf, h⟩ := run_ok hw hok hc k
  obtain ⟨W', e, hs⟩ := h.2 st hr
  refine ⟨fun i t b hi hb => ?_, hs.objs⟩
  have hn := ((hf (.glob i) ⟨false, t⟩ (by simp [Prog.mainCtx, hi])).mono e).ref hs
  obtain ⟨b', h1, _, v, h2, h3⟩ := hn.ptr hw hb.1
  obtain rfl := recPtr_inj hb h1
  exact ⟨v, h2, h3⟩

/-! ### Programs that show the limits -/

/-- Fields for the records 12 and 13 (an extension of 12) of `rT`: `next`, `n`, and `ext` in 13. -/
def xF : Flds := fun t f => match t, f with
  | 12, 0 => some 14
  | 12, 1 => some 24
  | 13, 2 => some 15
  | _, _ => none

theorem xF_simple : ∀ t f u, xF t f = some u → Simple rT u := by
  intro t f u h
  simp only [xF] at h
  split at h <;> cases h
  · exact .inr ⟨12, rfl, rfl, rfl⟩
  · exact .inl rfl
  · exact .inr ⟨13, rfl, rfl, rfl⟩

/-- **C54**, deviation: local variables that are records are not cleared, although local pointers are.
`PROCEDURE P; VAR r: R; BEGIN r.next.n := 1 END P` follows whatever is in memory. -/
theorem C54_local_record : ∃ c, compProg rT xF 9 ⟨[], [⟨[], [12], .assign (.fld (.fld (.var (.loc 0)) 0) 1) (.int 1 24)⟩], .call 0 []⟩ = some c ∧
    run rT xF c 9 = .wild := ⟨_, rfl, rfl⟩

/-- **C54**, deviation (SYSTEM): any pointer variable can be handed to a VAR parameter of type SYSTEM.PTR, and the procedure can
assign any pointer to it.  `PROCEDURE Set (VAR x: SYSTEM.PTR; y: SYSTEM.PTR); BEGIN x := y END Set`, then `NEW(a); Set(b, a); b.ext := b` with
`a: POINTER TO R`, `b: POINTER TO R1` writes a field the record does not have. -/
theorem C54_sysptr : ∃ c, compProg rT xF 9
      ⟨[14, 15], [⟨[⟨true, 5⟩, ⟨false, 5⟩], [], .assign (.var (.par 0)) (.des (.var (.par 1)))⟩],
        .seq (.new (.var (.glob 0))) (.seq (.call 0 [.des (.var (.glob 1)), .des (.var (.glob 0))])
          (.assign (.fld (.var (.glob 1)) 2) (.des (.var (.glob 1)))))⟩ = some c ∧
    run rT xF c 9 = .wild := ⟨_, rfl, rfl⟩

/-- **C54**, deviation: a guard or test for a pointer to an array is accepted if the elements are of the type pointed to:
`p IS PA` with `p: POINTER TO R` and `PA = POINTER TO ARRAY 3 OF R`. -/
theorem C54_array_guard : typTest rT 9 .nvar 14 26 = some (true, true, 25) ∧ (rT 25).comp = .array ∧ (rT 25).base = some 12 := ⟨rfl, rfl, rfl⟩

/-- **C54**, deviation: for `PB = POINTER TO ARRAY 3 OF PB` the compiler does not end the check of `p IS PB`. -/
theorem C54_endless_guard (K : Nat) : typTest rT K .nvar 14 28 = none := by
  have h : ∀ k, walk rT 12 k (some 27) = none ∧ walk rT 12 k (some 28) = none := by
    intro k
    induction k with
    | zero => exact ⟨rfl, rfl⟩
    | succ k ih =>
      constructor
      · show (if (27 : Nat) = 12 ∨ (27 : Nat) = undftyp then _ else walk rT 12 k (some 28)) = none
        rw [if_neg (by decide)]
        exact ih.2
      · show (if (28 : Nat) = 12 ∨ (28 : Nat) = undftyp then _ else walk rT 12 k (some 27)) = none
        rw [if_neg (by decide)]
        exact ih.1
  have : gtt rT K 12 27 = none := by
    simp only [gtt, (h K).1, Option.bind_none]
    cases hw : walk rT 27 K (some 12) with
    | none => rfl
    | some a =>
      have ha : a ≠ some 27 := by
        rcases K with _ | _ | K
        · cases hw
        · cases hw
        · have : walk rT 27 (K + 2) (some 12) = some none := rfl
          rw [hw] at this
          cases this
          simp
      simp only [Option.bind_some, if_neg ha]
  have h2 : typTest rT K .nvar 14 28 = (gtt rT K 12 27).map fun g => (g, true, 27) := rfl
  rw [h2, this]
  rfl

/-- A program with a list of records, of which one is extended; a procedure that makes records, and one with WITH. -/
def xP : Prog :=
  ⟨[14, 15, 14],
   [ -- PROCEDURE Push (VAR l: P; p: P); BEGIN p.next := l; l := p END Push
     ⟨[⟨true, 14⟩, ⟨false, 14⟩], [], .seq (.assign (.fld (.var (.par 1)) 0) (.des (.var (.par 0)))) (.assign (.var (.par 0)) (.des (.var (.par 1))))⟩,
     -- PROCEDURE Mark (p: P); BEGIN WITH p: P1 DO p.ext := p; p.n := 7 ELSE p.n := 3 END END Mark
     ⟨[⟨false, 14⟩], [], .with (.par 0) 15 (.seq (.assign (.fld (.var (.par 0)) 2) (.des (.var (.par 0)))) (.assign (.fld (.var (.par 0)) 1) (.int 7 24)))
       (.assign (.fld (.var (.par 0)) 1) (.int 3 24))⟩],
   -- NEW(a); NEW(b); Push(l, a); Push(l, b); Mark(l); Mark(l.next); l(P1).ext := b; l^ := b^ (of static type R1)
   .seq (.new (.var (.glob 0))) (.seq (.new (.var (.glob 1))) (.seq (.call 0 [.des (.var (.glob 2)), .des (.var (.glob 0))])
     (.seq (.call 0 [.des (.var (.glob 2)), .des (.var (.glob 1))]) (.seq (.call 1 [.des (.var (.glob 2))]) (.seq (.call 1 [.des (.fld (.var (.glob 2)) 0)])
       (.seq (.assign (.fld (.guard (.var (.glob 2)) 15) 2) (.des (.var (.glob 1)))) (.assign (.deref (.guard (.var (.glob 2)) 15)) (.des (.deref (.var (.glob 1)))))))))))⟩

theorem xP_ok : Okay rT xF xP := by
  refine ⟨xF_simple, ?_, ?_, ?_⟩
  · intro t ht
    simp only [xP, List.mem_cons, List.not_mem_nil, or_false] at ht
    rcases ht with rfl | rfl | rfl
    · exact .inl (.inr ⟨12, rfl, rfl, rfl⟩)
    · exact .inl (.inr ⟨13, rfl, rfl, rfl⟩)
    · exact .inl (.inr ⟨12, rfl, rfl, rfl⟩)
  · intro q hq d hd
    simp only [xP, List.mem_cons, List.not_mem_nil, or_false] at hq
    have : d.typ = 14 := by
      rcases hq with rfl | rfl
      · simp only [List.mem_cons, List.not_mem_nil, or_false] at hd
        rcases hd with rfl | rfl <;> rfl
      · simp only [List.mem_cons, List.not_mem_nil, or_false] at hd
        rcases hd with rfl
        rfl
    rw [this]
    exact .inl (.inr ⟨12, rfl, rfl, rfl⟩)
  · intro q hq t ht
    simp only [xP, List.mem_cons, List.not_mem_nil, or_false] at hq
    rcases hq with rfl | rfl <;> simp at ht

/-- The program is accepted, runs to its end, and the numbers are as expected. -/
example : ∃ c st, compProg rT xF 9 xP = some c ∧ run rT xF c 12 = .ok st ∧ st.no = 2 ∧ (st.objs 1).val 12 1 = .int 7 ∧ (st.objs 0).val 12 1 = .int 3 ∧
    (st.objs 1).val 13 2 = .ref 1 := ⟨_, _, rfl, rfl, rfl, rfl, rfl, rfl⟩

/-- A guard that fails is a trap. -/
example : ∃ c, compProg rT xF 9 ⟨[14], [], .seq (.new (.var (.glob 0))) (.assign (.fld (.guard (.var (.glob 0)) 15) 1) (.int 1 24))⟩ = some c ∧
    run rT xF c 9 = .trap := ⟨_, rfl, rfl⟩

/-- WITH on a variable that a procedure uses is refused. -/
example : compProg rT xF 9 ⟨[14], [⟨[], [], .new (.var (.glob 0))⟩], .with (.glob 0) 15 .skip .halt⟩ = none := rfl
example : (compProg rT xF 9 ⟨[14], [⟨[], [], .skip⟩], .with (.glob 0) 15 .skip .halt⟩).isSome = true := rfl

/-- A guarded pointer is no VAR parameter. -/
example : compProg rT xF 9 ⟨[14], [⟨[⟨true, 15⟩], [], .skip⟩], .call 0 [.des (.guard (.var (.glob 0)) 15)]⟩ = none := rfl

end Verif.Safe
