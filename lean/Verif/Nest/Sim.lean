import Verif.Nest.Model
import Verif.Common

/-! # The generated C program does the same: proof -/
namespace Verif.Nest

/-- The stores hold the same variables. -/
structure Rel (s : St) (t : CSt) : Prop where
  mem : t.v = s.mem
  next : t.next = s.next

/-- The records and pointers of the first activations are left as they were, and the global pointers. -/
structure Keep (t t' : CSt) : Prop where
  next : t.next ≤ t'.next
  p : ∀ k, k < t.next → t'.p k = t.p k
  sc : ∀ k, k < t.next → t'.sc k = t.sc k
  lnk : ∀ k, k < t.next → t'.lnk k = t.lnk k
  top : t'.top = t.top

theorem Keep.refl (t : CSt) : Keep t t := ⟨Nat.le_refl _, fun _ _ => rfl, fun _ _ => rfl, fun _ _ => rfl, rfl⟩

theorem Keep.trans {a b c : CSt} (h : Keep a b) (g : Keep b c) : Keep a c :=
  ⟨Nat.le_trans h.next g.next, fun k hk => (g.p k (Nat.lt_of_lt_of_le hk h.next)).trans (h.p k hk),
    fun k hk => (g.sc k (Nat.lt_of_lt_of_le hk h.next)).trans (h.sc k hk),
    fun k hk => (g.lnk k (Nat.lt_of_lt_of_le hk h.next)).trans (h.lnk k hk), g.top.trans h.top⟩

/-- The procedures of an environment are those around. -/
inductive Chain (pr : Prog) : Env → Option Nat → Prop
  | nil : Chain pr [] none
  | cons {p : Nat} {q : Proc} {b : Nat → Addr} {o : Env} : pr[p]? = some q → Chain pr o q.parent → Chain pr ((p, b) :: o) (some p)

/-- The global pointer of a procedure leads to the places of its variables. -/
def Linked (pr : Prog) (t : CSt) (e : Nat × (Nat → Addr)) : Prop :=
  ∃ j, j < t.next ∧ t.top e.1 = some j ∧
    ∀ q x, pr[e.1]? = some q → x < q.params.length + q.vars → varLeaf pr e.1 x = false → t.sc j x = some (e.2 x)

/-- What holds while activation `k` of `cur` runs. -/
structure Ok (pr : Prog) (env : Env) (cur : Option Nat) (k : Nat) (t : CSt) : Prop where
  chain : Chain pr env cur
  own : ∀ p b o, env = (p, b) :: o → k < t.next ∧
    (∀ x, if isVarPar pr p x then t.p k x = some (b x) else b x = .loc k x) ∧
    (scopeLeaf pr p = false → Linked pr t (p, b))
  outer : ∀ e ∈ env.tail, Linked pr t e

theorem Linked.keep {pr : Prog} {t t' : CSt} {e : Nat × (Nat → Addr)} (h : Linked pr t e) (g : Keep t t') : Linked pr t' e := by
  obtain ⟨j, hj, ht, hs⟩ := h
  refine ⟨j, Nat.lt_of_lt_of_le hj g.next, by rw [g.top, ht], fun q x hq hx hl => ?_⟩
  rw [g.sc j hj]
  exact hs q x hq hx hl

theorem Ok.keep {pr : Prog} {env : Env} {cur : Option Nat} {k : Nat} {t t' : CSt} (h : Ok pr env cur k t) (g : Keep t t') :
    Ok pr env cur k t' := by
  refine ⟨h.chain, fun p b o he => ?_, fun e he => (h.outer e he).keep g⟩
  obtain ⟨h1, h2, h3⟩ := h.own p b o he
  refine ⟨Nat.lt_of_lt_of_le h1 g.next, ?_, fun hl => (h3 hl).keep g⟩
  rw [g.p k h1]
  exact h2

/-- Procedures around come before. -/
theorem In.le {pr : Prog} (hp : okProg pr) {c : Option Nat} {r : Nat} (h : In pr c r) : ∀ p, c = some p → r ≤ p := by
  induction h with
  | self => intro p hp; cases hp; exact Nat.le_refl _
  | @up p' r q hq _ ih =>
    intro p he
    cases he
    cases hpar : q.parent with
    | none =>
      rename_i h'
      rw [hpar] at h'
      cases h'
    | some m =>
      have := ih m hpar
      have := (hp p' q hq).1 m hpar
      omega

theorem Chain.mem_in {pr : Prog} {env : Env} {c : Option Nat} (h : Chain pr env c) : ∀ e ∈ env, In pr c e.1 := by
  induction h with
  | nil => intro e he; cases he
  | @cons p q b o hq _ ih =>
    intro e he
    rcases List.mem_cons.mp he with rfl | he
    · exact .self
    · exact .up hq (ih e he)

/-- A procedure around is found. -/
theorem Chain.find {pr : Prog} {r : Nat} {c : Option Nat} (h : In pr c r) :
    ∀ {env : Env}, Chain pr env c → ∃ b, env.find? (·.1 == r) = some (r, b) ∧ Chain pr (env.dropWhile (·.1 != r)) (some r) ∧
      (env.dropWhile (·.1 != r)).head? = some (r, b) := by
  induction h with
  | self =>
    intro env hc
    cases hc with
    | @cons p q b o hq ho =>
      refine ⟨b, by simp, ?_, by simp⟩
      simp only [bne_self_eq_false, Bool.false_eq_true, not_false_eq_true, List.dropWhile_cons_of_neg]
      exact .cons hq ho
  | @up p r q hq hin ih =>
    intro env hc
    cases hc with
    | @cons _ q' b o hq' ho =>
      obtain rfl : q = q' := by rw [hq] at hq'; exact Option.some.inj hq'
      by_cases hpr : p = r
      · subst hpr
        refine ⟨b, by simp, ?_, by simp⟩
        simp only [bne_self_eq_false, Bool.false_eq_true, not_false_eq_true, List.dropWhile_cons_of_neg]
        exact .cons hq ho
      · obtain ⟨b', h1, h2, h3⟩ := ih ho
        refine ⟨b', ?_, ?_, ?_⟩
        · rw [List.find?_cons_of_neg (by simpa using hpr)]
          exact h1
        · rw [List.dropWhile_cons_of_pos (by simpa using hpr)]
          exact h2
        · rw [List.dropWhile_cons_of_pos (by simpa using hpr)]
          exact h3

/-- A variable used in another procedure is not a leaf. -/
theorem varLeaf_false {pr : Prog} {p : Nat} {q : Proc} {r x : Nat} (hq : pr[p]? = some q) (hne : p ≠ r)
    (hv : (⟨some r, x⟩ : Var) ∈ varsS q.body) : varLeaf pr r x = false := by
  simp only [varLeaf, Bool.not_eq_false', List.any_eq_true]
  refine ⟨(q, p), ?_, ?_⟩
  · rw [List.mem_zipIdx_iff_getElem?]
    exact hq
  · simp [hne, hv]

theorem scopeLeaf_false {pr : Prog} {p : Nat} {q : Proc} {r : Nat} (hq : pr[p]? = some q) (hr : q.parent = some r) :
    scopeLeaf pr r = false := by
  simp only [scopeLeaf, Bool.not_eq_false', List.any_eq_true]
  exact ⟨q, List.mem_of_getElem? hq, by simp [hr]⟩

/-- What is used in the current procedure. -/
def Used (pr : Prog) (cur : Option Nat) (v : Var) : Prop := ∀ p q, cur = some p → pr[p]? = some q → v ∈ varsS q.body

/-- A variable has the same place. -/
theorem place_ok {pr : Prog} (hp : okProg pr) {env : Env} {cur : Option Nat} {k : Nat} {t : CSt} (h : Ok pr env cur k t) {v : Var}
    (hv : okV pr cur v) (hu : Used pr cur v) : ∃ a, place env v = some a ∧ (compV pr cur v).addr t k = some a := by
  obtain ⟨o, x⟩ := v
  cases o with
  | none => exact ⟨_, rfl, rfl⟩
  | some r =>
    obtain ⟨hin, qr, hqr, hx⟩ := hv r rfl
    obtain ⟨b, hf, hc, hh⟩ := Chain.find hin h.chain
    refine ⟨b x, by simp [place, hf], ?_⟩
    by_cases hcr : cur = some r
    · subst hcr
      cases hch : h.chain with
      | @cons _ q b' o hq ho =>
        subst_vars
        obtain ⟨_, h2, _⟩ := h.own r b' o rfl
        have hb : b = b' := by
          simp at hf
          exact hf.symm
        subst hb
        have h2x := h2 x
        simp only [compV, if_true]
        by_cases hvp : isVarPar pr r x = true
        · rw [if_pos hvp] at h2x
          rw [if_pos hvp]
          exact h2x
        · rw [if_neg hvp] at h2x
          rw [if_neg hvp, h2x]
          rfl
    · simp only [compV, if_neg hcr, L.addr]
      cases cur with
      | none => cases hin
      | some p =>
        have hne : p ≠ r := fun h => hcr (by rw [h])
        cases hch : h.chain with
        | @cons _ q b' o hq ho =>
          subst_vars
          rw [List.find?_cons_of_neg (by simpa using hne)] at hf
          have hm := List.mem_of_find?_eq_some hf
          obtain ⟨j, _, ht, hs⟩ := h.outer (r, b) hm
          rw [show t.top r = some j from ht]
          exact hs qr x hqr hx (varLeaf_false hq hne (hu p q rfl hq))

/-! ### Entering and leaving -/

theorem cstore_facts (k : Nat) : ∀ (as : List (Int ⊕ Addr)) (x : Nat) (s : St) (t : CSt), Rel s t →
    Rel (store k x as s) (cstore k x as t) ∧ (cstore k x as t).sc = t.sc ∧ (cstore k x as t).lnk = t.lnk ∧
      (cstore k x as t).top = t.top ∧ (∀ j, j ≠ k → (cstore k x as t).p j = t.p j) ∧
      (∀ y, y < x → (cstore k x as t).p k y = t.p k y) ∧
      ∀ i a, as[i]? = some (.inr a) → (cstore k x as t).p k (x + i) = some a
  | [], x, s, t, h => by
    refine ⟨h, rfl, rfl, rfl, fun _ _ => rfl, fun _ _ => rfl, fun i a hi => ?_⟩
    simp at hi
  | .inl n :: as, x, s, t, h => by
    have hr : Rel (s.put (.loc k x) n) (t.put (.loc k x) n) := ⟨by simp only [CSt.put, St.put, h.mem], h.next⟩
    obtain ⟨h1, h2, h3, h4, h5, h6, h7⟩ := cstore_facts k as (x + 1) _ _ hr
    refine ⟨h1, h2, h3, h4, h5, fun y hy => h6 y (by omega), fun i a hi => ?_⟩
    cases i with
    | zero => simp at hi
    | succ i =>
      have := h7 i a (by simpa using hi)
      rw [show x + (i + 1) = x + 1 + i by omega]
      exact this
  | .inr b :: as, x, s, t, h => by
    have hr : Rel s { t with p := upd t.p k (upd (t.p k) x (some b)) } := ⟨h.mem, h.next⟩
    obtain ⟨h1, h2, h3, h4, h5, h6, h7⟩ := cstore_facts k as (x + 1) _ _ hr
    refine ⟨h1, h2, h3, h4, fun j hj => ?_, fun y hy => ?_, fun i a hi => ?_⟩
    · rw [cstore, h5 j hj]
      simp only [upd, if_neg hj]
    · rw [cstore, h6 y (by omega)]
      simp only [upd, if_true]
      rw [if_neg (by omega)]
    · cases i with
      | zero =>
        simp only [List.getElem?_cons_zero, Option.some.injEq, Sum.inr.injEq] at hi
        subst hi
        show (cstore k (x + 1) as _).p k x = _
        rw [h6 x (by omega)]
        simp [upd]
      | succ i =>
        have := h7 i a (by simpa using hi)
        rw [show x + (i + 1) = x + 1 + i by omega]
        exact this

/-- What the field of a variable is set to. -/
def want (pr : Prog) (p k : Nat) (t : CSt) (y : Nat) : Option Addr := if isVarPar pr p y then t.p k y else some (.loc k y)

theorem binds_facts (pr : Prog) (p k : Nat) : ∀ (ys : List Nat) (t : CSt),
    let t' := runs k (ys.map fun y => if isVarPar pr p y then Sc.bindP y else Sc.bindV y) t
    t'.v = t.v ∧ t'.next = t.next ∧ t'.p = t.p ∧ t'.lnk = t.lnk ∧ t'.top = t.top ∧ (∀ j, j ≠ k → t'.sc j = t.sc j) ∧
      ∀ y, y ∈ ys ∨ t.sc k y = want pr p k t y → t'.sc k y = want pr p k t y
  | [], t => ⟨rfl, rfl, rfl, rfl, rfl, fun _ _ => rfl, fun y hy => by
    rcases hy with hy | hy
    · cases hy
    · exact hy⟩
  | z :: ys, t => by
    have hz : ∃ u, (Sc.run k t (if isVarPar pr p z then Sc.bindP z else Sc.bindV z)) = u ∧ u.v = t.v ∧ u.next = t.next ∧ u.p = t.p ∧
        u.lnk = t.lnk ∧ u.top = t.top ∧ u.sc = upd t.sc k (upd (t.sc k) z (want pr p k t z)) := by
      refine ⟨_, rfl, ?_⟩
      by_cases h : isVarPar pr p z = true
      · simp [h, Sc.run, want]
      · simp [h, Sc.run, want]
    obtain ⟨u, hu, u1, u2, u3, u4, u5, u6⟩ := hz
    have ih := binds_facts pr p k ys u
    simp only [List.map_cons, runs, List.foldl_cons] at ih ⊢
    rw [hu]
    obtain ⟨i1, i2, i3, i4, i5, i6, i7⟩ := ih
    have hw : ∀ y, want pr p k u y = want pr p k t y := fun y => by simp only [want, u3]
    refine ⟨i1.trans u1, i2.trans u2, i3.trans u3, i4.trans u4, i5.trans u5, fun j hj => ?_, fun y hy => ?_⟩
    · rw [i6 j hj, u6]
      simp only [upd, if_neg hj]
    · rw [i7 y ?_, hw]
      by_cases hyz : y = z
      · right
        rw [u6, hw]
        simp [upd, hyz]
      · rcases hy with hy | hy
        · rcases List.mem_cons.mp hy with hy | hy
          · exact absurd hy hyz
          · exact .inl hy
        · right
          rw [u6, hw, ← hy]
          simp [upd, hyz]

theorem isVarPar_eq {pr : Prog} {p : Nat} {q : Proc} (hq : pr[p]? = some q) (x : Nat) : isVarPar pr p x = (q.params[x]?).getD false := by
  simp [isVarPar, hq]

/-- Entering: the new activation is as it should be, if the outer ones are. -/
theorem enter_ok {pr : Prog} (hp : okProg pr) {p : Nat} {q : Proc} (hq : pr[p]? = some q) {s : St} {t : CSt} (hr : Rel s t)
    {out : Env} (hc : Chain pr out q.parent) (ho : ∀ e ∈ out, Linked pr t e) {vs : List (Int ⊕ Addr)}
    (hvs : q.params = vs.map Sum.isRight) :
    ∃ u, runs t.next (enter pr p q) (cstore t.next 0 vs { t with next := t.next + 1 }) = u ∧
      Rel (store s.next 0 vs { s with next := s.next + 1 }) u ∧ Ok pr ((p, bindings s.next vs) :: out) (some p) t.next u ∧
      Keep t (runs t.next (exits pr p) u) := by
  refine ⟨_, rfl, ?_⟩
  have hk : s.next = t.next := hr.next.symm
  rw [hk]
  obtain ⟨h1, h2, h3, h4, h5, -, h7⟩ := cstore_facts t.next vs 0 { s with next := t.next + 1 } { t with next := t.next + 1 } ⟨hr.mem, rfl⟩
  generalize cstore t.next 0 vs { t with next := t.next + 1 } = u at h1 h2 h3 h4 h5 h7 ⊢
  have hn : u.next = t.next + 1 := by
    have : ∀ (as : List (Int ⊕ Addr)) (x : Nat) (s : St), (store t.next x as s).next = s.next := by
      intro as
      induction as with
      | nil => intros; rfl
      | cons a as ih => intro x s; cases a <;> simp [store, ih, St.put]
    rw [h1.next, this]
  have hnotin : ∀ e ∈ out, e.1 ≠ p := by
    intro e he hep
    cases hpar : q.parent with
    | none => rw [hpar] at hc; cases hc; cases he
    | some m =>
      rw [hpar] at hc
      have := (hc.mem_in e he).le hp m rfl
      have := (hp p q hq).1 m hpar
      omega
  have hvar : ∀ x, (if isVarPar pr p x then u.p t.next x = some (bindings t.next vs x) else bindings t.next vs x = .loc t.next x) := by
    intro x
    rw [isVarPar_eq hq, hvs]
    simp only [List.getElem?_map, bindings]
    cases hx : vs[x]? with
    | none => simp
    | some w =>
      cases w with
      | inl n => simp
      | inr a =>
        have := h7 x a hx
        rw [Nat.zero_add] at this
        simp [this]
  by_cases hl : scopeLeaf pr p = true
  · simp only [enter, if_pos hl, exits, runs, List.foldl_nil]
    refine ⟨h1, ⟨.cons hq hc, ?_, ?_⟩, ?_⟩
    · intro p' b o he
      obtain ⟨⟨rfl, rfl⟩, rfl⟩ : (p = p' ∧ bindings t.next vs = b) ∧ out = o := by simpa using he
      exact ⟨by omega, hvar, fun h => by rw [hl] at h; cases h⟩
    · intro e he
      obtain ⟨j, g1, g2, g3⟩ := ho e he
      exact ⟨j, by omega, by rw [h4]; exact g2, fun q' x a b c => by rw [h2]; exact g3 q' x a b c⟩
    · exact ⟨by omega, fun k' hk' => h5 k' (by omega), fun k' hk' => by rw [h2], fun k' hk' => by rw [h3], h4⟩
  · have hl' : scopeLeaf pr p = false := by simpa using hl
    let ys := ((List.range q.params.length).filter fun x => !varLeaf pr p x) ++
      ((List.range q.vars).filter fun x => !varLeaf pr p (q.params.length + x)).map (q.params.length + ·)
    have hent : enter pr p q = (ys.map fun y => if isVarPar pr p y then Sc.bindP y else Sc.bindV y) ++ [.save p, .top p] := by
      rw [enter, if_neg hl]
      simp only [ys, List.map_append, List.map_map]
      congr 2
      apply List.map_congr_left
      intro x _
      have : isVarPar pr p (q.params.length + x) = false := by rw [isVarPar_eq hq]; simp
      simp [this]
    have hb := binds_facts pr p t.next ys u
    rw [hent]
    simp only [runs, List.foldl_append] at hb ⊢
    generalize (List.foldl (Sc.run t.next) u (ys.map fun y => if isVarPar pr p y then Sc.bindP y else Sc.bindV y)) = w at hb ⊢
    obtain ⟨b1, b2, b3, b4, b5, b6, b7⟩ := hb
    simp only [exits, hl', Bool.false_eq_true, if_false, List.foldl_cons, List.foldl_nil, Sc.run]
    refine ⟨⟨b1.trans h1.mem, b2.trans h1.next⟩, ⟨.cons hq hc, ?_, ?_⟩, ?_⟩
    · intro p' b o he
      obtain ⟨⟨rfl, rfl⟩, rfl⟩ : (p = p' ∧ bindings t.next vs = b) ∧ out = o := by simpa using he
      refine ⟨by show t.next < w.next; omega, ?_, fun _ => ⟨t.next, by show t.next < w.next; omega, by simp [upd], ?_⟩⟩
      · show ∀ x, if isVarPar pr p x then w.p t.next x = _ else _
        rw [b3]
        exact hvar
      · intro q' x hq' hx hlf
        obtain rfl : q = q' := by rw [hq] at hq'; exact Option.some.inj hq'
        show w.sc t.next x = some (bindings t.next vs x)
        rw [b7 x (.inl ?_)]
        · have := hvar x
          simp only [want]
          by_cases hv : isVarPar pr p x = true
          · rw [if_pos hv] at this ⊢
            exact this
          · rw [if_neg hv] at this ⊢
            rw [this]
        · simp only [ys, List.mem_append, List.mem_filter, List.mem_range, List.mem_map]
          by_cases hxp : x < q.params.length
          · exact .inl ⟨hxp, by simpa using hlf⟩
          · exact .inr ⟨x - q.params.length, ⟨by omega, by rw [show q.params.length + (x - q.params.length) = x by omega]; simpa using hlf⟩,
              by omega⟩
    · intro e he
      obtain ⟨j, g1, g2, g3⟩ := ho e he
      refine ⟨j, by show j < w.next; omega, ?_, fun q' x a b c => ?_⟩
      · show upd w.top p (some t.next) e.1 = some j
        simp only [upd, if_neg (hnotin e he)]
        rw [b5, h4]
        exact g2
      · show w.sc j x = _
        rw [b6 j (by omega), h2]
        exact g3 q' x a b c
    · refine ⟨by show t.next ≤ w.next; omega, fun k' hk' => ?_, fun k' hk' => ?_, fun k' hk' => ?_, ?_⟩
      · show w.p k' = _
        rw [b3]
        exact h5 k' (by omega)
      · show w.sc k' = _
        rw [b6 k' (by omega), h2]
      · show upd w.lnk t.next (w.top p) k' = _
        simp only [upd]
        rw [if_neg (by omega), b4, h3]
      · show upd (upd w.top p (some t.next)) p (upd w.lnk t.next (w.top p) t.next) = _
        funext j
        simp only [upd, if_true]
        by_cases hj : j = p
        · rw [if_pos hj, hj, b5, h4]
        · rw [if_neg hj, if_neg hj, b5, h4]

/-! ### The simulation -/

/-- Both give nothing, or related results. -/
def Sim {α β : Type} (R : α → β → Prop) : Option α → Option β → Prop
  | none, none => True
  | some a, some b => R a b
  | _, _ => False

theorem Sim.cases {α β : Type} {R : α → β → Prop} {a : Option α} {b : Option β} (h : Sim R a b) :
    (a = none ∧ b = none) ∨ ∃ x y, a = some x ∧ b = some y ∧ R x y := by
  cases a <;> cases b <;> simp_all [Sim]

/-- Values. -/
def RE {α : Type} (t : CSt) (x : Option α × St) (y : Option α × CSt) : Prop :=
  x.1 = y.1 ∧ Rel x.2 y.2 ∧ (x.1 ≠ none → Keep t y.2)

/-- Ways a statement ends. -/
def RS (pr : Prog) (cur : Option Nat) (k : Nat) (t : CSt) (x : Out × St) (y : Out × CSt) : Prop :=
  x.1 = y.1 ∧ Rel x.2 y.2 ∧ (x.1 = .norm → Keep t y.2) ∧
    ∀ v p, x.1 = .ret v → cur = some p → Keep (runs k (exits pr p) t) y.2

/-- Leaving after something was done, or before. -/
theorem exits_keep {pr : Prog} {p k : Nat} {t t' : CSt} (h : Keep t t') (hk : k < t.next) :
    Keep (runs k (exits pr p) t) (runs k (exits pr p) t') := by
  by_cases hl : scopeLeaf pr p = true
  · simpa only [exits, if_pos hl, runs, List.foldl_nil] using h
  · simp only [exits, if_neg hl, runs, List.foldl_cons, List.foldl_nil, Sc.run]
    exact ⟨h.next, h.p, h.sc, h.lnk, by show upd t'.top p _ = upd t.top p _; rw [h.top, h.lnk k hk]⟩

theorem exits_rel {pr : Prog} {p k : Nat} {s : St} {t : CSt} (h : Rel s t) : Rel s (runs k (exits pr p) t) := by
  by_cases hl : scopeLeaf pr p = true
  · simpa only [exits, if_pos hl, runs, List.foldl_nil] using h
  · simp only [exits, if_neg hl, runs, List.foldl_cons, List.foldl_nil, Sc.run]
    exact ⟨h.mem, h.next⟩

/-- A statement with a RETURN in it does not come to its end. -/
theorem hasRet_norm (pr : Prog) : ∀ (c : S) (f : Nat) (env : Env) (s s' : St), hasRet c = true → exec pr f env c s ≠ some (.norm, s')
  | .ret none, f, env, s, s', _ => by cases f <;> simp [exec]
  | .ret (some e), f, env, s, s', _ => by
    cases f with
    | zero => simp [exec]
    | succ f =>
      simp only [exec]
      split <;> simp
  | .seq a b, f, env, s, s', h => by
    cases f with
    | zero => simp [exec]
    | succ f =>
      simp only [exec]
      simp only [hasRet, Bool.or_eq_true] at h
      split
      · rename_i s1 h1
        rcases h with h | h
        · exact absurd h1 (hasRet_norm pr a f env s s1 h)
        · exact hasRet_norm pr b f env s1 s' h
      · rename_i hn
        intro hc
        exact hn s' hc
  | .skip, _, _, _, _, h => by simp [hasRet] at h
  | .assign _ _, _, _, _, _, h => by simp [hasRet] at h
  | .ifs _ _ _, _, _, _, _, h => by simp [hasRet] at h
  | .whiles _ _, _, _, _, _, h => by simp [hasRet] at h
  | .call _, _, _, _, _, h => by simp [hasRet] at h

theorem isRef_comp (pr : Prog) (cur : Option Nat) : ∀ as : List Arg, (compAs pr cur as).map CArg.isRef = as.map Arg.isRef
  | [] => rfl
  | .val _ :: as => by simp [compAs, compA, CArg.isRef, Arg.isRef, isRef_comp pr cur as]
  | .ref _ :: as => by simp [compAs, compA, CArg.isRef, Arg.isRef, isRef_comp pr cur as]

theorem args_isRight (pr : Prog) : ∀ (as : List Arg) (f : Nat) (env : Env) (s s' : St) (vs : List (Int ⊕ Addr)),
    args pr f env as s = some (some vs, s') → vs.map Sum.isRight = as.map Arg.isRef
  | [], f, env, s, s', vs, h => by
    cases f with
    | zero => simp [args] at h
    | succ f =>
      simp only [args, Option.some.injEq, Prod.mk.injEq] at h
      rw [← h.1]
      rfl
  | .val e :: as, f, env, s, s', vs, h => by
    cases f with
    | zero => simp [args] at h
    | succ f =>
      simp only [args] at h
      split at h
      · split at h
        · rename_i vs' s2 h2
          simp only [Option.some.injEq, Prod.mk.injEq] at h
          rw [← h.1]
          simp [Arg.isRef, args_isRight pr as f env _ _ _ h2]
        · rename_i hn
          exact absurd h (hn vs s')
      · simp at h
      · simp at h
  | .ref v :: as, f, env, s, s', vs, h => by
    cases f with
    | zero => simp [args] at h
    | succ f =>
      simp only [args] at h
      split at h
      · split at h
        · rename_i vs' s2 h2
          simp only [Option.some.injEq, Prod.mk.injEq] at h
          rw [← h.1]
          simp [Arg.isRef, args_isRight pr as f env _ _ _ h2]
        · rename_i hn
          exact absurd h (hn vs s')
      · simp at h

theorem comp_get {pr : Prog} (p : Nat) : (comp pr)[p]? = (pr[p]?).map (compP pr p) := by simp [comp, List.getElem?_mapIdx]

/-- The statements for a number of steps. -/
structure All (pr : Prog) (f : Nat) : Prop where
  eval : ∀ env cur k e s t, Ok pr env cur k t → Rel s t → okE pr cur e → (∀ v ∈ varsE e, Used pr cur v) →
    Sim (RE t) (eval pr f env e s) (ceval (comp pr) f k (compE pr cur e) t)
  args : ∀ env cur k as s t, Ok pr env cur k t → Rel s t → okAs pr cur as → (∀ v ∈ varsAs as, Used pr cur v) →
    Sim (RE t) (args pr f env as s) (cargs (comp pr) f k (compAs pr cur as) t)
  call : ∀ env cur k p as s t, Ok pr env cur k t → Rel s t →
    (∀ q, pr[p]? = some q → (∀ r, q.parent = some r → In pr cur r) ∧ q.params = as.map Arg.isRef) →
    okAs pr cur as → (∀ v ∈ varsAs as, Used pr cur v) →
    Sim (RE t) (call pr f env p as s) (ccall (comp pr) f k p (compAs pr cur as) t)
  exec : ∀ env cur fn k c s t, Ok pr env cur k t → Rel s t → okS pr cur fn c → (∀ v ∈ varsS c, Used pr cur v) →
    Sim (RS pr cur k t) (exec pr f env c s) (cexec (comp pr) f k (compS pr cur c) t)

variable {pr : Prog}

theorem eval_step (hp : okProg pr) {f : Nat} (ih : All pr f) (env : Env) (cur : Option Nat) (k : Nat) (e : E) (s : St) (t : CSt)
    (ho : Ok pr env cur k t) (hr : Rel s t) (he : okE pr cur e) (hu : ∀ v ∈ varsE e, Used pr cur v) :
    Sim (RE t) (eval pr (f + 1) env e s) (ceval (comp pr) (f + 1) k (compE pr cur e) t) := by
  cases e with
  | int n =>
    simp only [eval, ceval, compE]
    exact ⟨rfl, hr, fun _ => .refl t⟩
  | var v =>
    obtain ⟨a, h1, h2⟩ := place_ok hp ho he (hu v (by simp [varsE]))
    simp only [eval, ceval, compE, h1, h2, Option.map_some, hr.mem]
    exact ⟨rfl, hr, fun _ => .refl t⟩
  | bin g a b =>
    simp only [varsE, List.mem_append] at hu
    simp only [okE] at he
    simp only [eval, ceval, compE]
    rcases (ih.eval env cur k a s t ho hr he.1 fun v hv => hu v (.inl hv)).cases with ⟨h1, h2⟩ | ⟨⟨r, s1⟩, ⟨r', t1⟩, h1, h2, hre, hrel, hk⟩
    · rw [h1, h2]; trivial
    · obtain rfl : r = r' := hre
      rw [h1, h2]
      rcases r with _ | _ | x
      · exact ⟨rfl, hrel, fun h => absurd rfl h⟩
      · trivial
      · have hk := hk (by simp)
        simp only
        rcases (ih.eval env cur k b s1 t1 (ho.keep hk) hrel he.2 fun v hv => hu v (.inr hv)).cases with
          ⟨h3, h4⟩ | ⟨⟨r2, s2⟩, ⟨r2', t2⟩, h3, h4, hre2, hrel2, hk2⟩
        · rw [h3, h4]; trivial
        · obtain rfl : r2 = r2' := hre2
          rw [h3, h4]
          rcases r2 with _ | _ | y
          · exact ⟨rfl, hrel2, fun h => absurd rfl h⟩
          · trivial
          · exact ⟨rfl, hrel2, fun _ => hk.trans (hk2 (by simp))⟩
  | call p as =>
    simp only [okE] at he
    obtain ⟨⟨q, hq, h1, h2⟩, h3⟩ := he
    simp only [eval, ceval, compE]
    refine ih.call env cur k p as s t ho hr (fun q' hq' => ?_) h3 hu
    obtain rfl : q = q' := by rw [hq] at hq'; exact Option.some.inj hq'
    exact ⟨h1, h2⟩
  | callv e as =>
    simp only [varsE, List.mem_append] at hu
    simp only [okE] at he
    simp only [eval, ceval, compE]
    rcases (ih.eval env cur k e s t ho hr he.1 fun v hv => hu v (.inl hv)).cases with ⟨h1, h2⟩ | ⟨⟨r, s1⟩, ⟨r', t1⟩, h1, h2, hre, hrel, hk⟩
    · rw [h1, h2]; trivial
    · obtain rfl : r = r' := hre
      rw [h1, h2]
      rcases r with _ | _ | x
      · exact ⟨rfl, hrel, fun h => absurd rfl h⟩
      · trivial
      · have hk := hk (by simp)
        simp only
        have hc : ((comp pr)[x.toNat]?.any fun q => q.global && q.params == (compAs pr cur as).map CArg.isRef) =
            (pr[x.toNat]?.any fun q => q.parent.isNone && q.params == as.map Arg.isRef) := by
          rw [comp_get, isRef_comp]
          cases pr[x.toNat]? <;> rfl
        rw [hc]
        by_cases hcond : (pr[x.toNat]?.any fun q => q.parent.isNone && q.params == as.map Arg.isRef) = true
        · rw [if_pos hcond, if_pos hcond]
          have := ih.call env cur k x.toNat as s1 t1 (ho.keep hk) hrel (fun q hq => by
            rw [hq] at hcond
            simp only [Option.any_some, Bool.and_eq_true, Option.isNone_iff_eq_none, beq_iff_eq] at hcond
            exact ⟨fun r hr => (by rw [hcond.1] at hr; cases hr), hcond.2⟩) he.2 fun v hv => hu v (.inr hv)
          rcases this.cases with ⟨h3, h4⟩ | ⟨⟨r2, s2⟩, ⟨r2', t2⟩, h3, h4, hre2, hrel2, hk2⟩
          · rw [h3, h4]; trivial
          · rw [h3, h4]
            exact ⟨hre2, hrel2, fun h => hk.trans (hk2 h)⟩
        · rw [if_neg hcond, if_neg hcond]; trivial

theorem args_step (hp : okProg pr) {f : Nat} (ih : All pr f) (env : Env) (cur : Option Nat) (k : Nat) (as : List Arg) (s : St) (t : CSt)
    (ho : Ok pr env cur k t) (hr : Rel s t) (he : okAs pr cur as) (hu : ∀ v ∈ varsAs as, Used pr cur v) :
    Sim (RE t) (args pr (f + 1) env as s) (cargs (comp pr) (f + 1) k (compAs pr cur as) t) := by
  cases as with
  | nil =>
    simp only [args, cargs, compAs]
    exact ⟨rfl, hr, fun _ => .refl t⟩
  | cons a as =>
    simp only [varsAs, List.mem_append] at hu
    simp only [okAs] at he
    cases a with
    | val e =>
      simp only [args, cargs, compAs, compA]
      rcases (ih.eval env cur k e s t ho hr he.1 fun v hv => hu v (.inl hv)).cases with ⟨h1, h2⟩ | ⟨⟨r, s1⟩, ⟨r', t1⟩, h1, h2, hre, hrel, hk⟩
      · rw [h1, h2]; trivial
      · obtain rfl : r = r' := hre
        rw [h1, h2]
        rcases r with _ | _ | x
        · exact ⟨rfl, hrel, fun h => absurd rfl h⟩
        · trivial
        · have hk := hk (by simp)
          simp only
          rcases (ih.args env cur k as s1 t1 (ho.keep hk) hrel he.2 fun v hv => hu v (.inr hv)).cases with
            ⟨h3, h4⟩ | ⟨⟨r2, s2⟩, ⟨r2', t2⟩, h3, h4, hre2, hrel2, hk2⟩
          · rw [h3, h4]; trivial
          · obtain rfl : r2 = r2' := hre2
            rw [h3, h4]
            cases r2 with
            | none => exact ⟨rfl, hrel2, fun h => absurd rfl h⟩
            | some vs => exact ⟨rfl, hrel2, fun _ => hk.trans (hk2 (by simp))⟩
    | ref v =>
      simp only [args, cargs, compAs, compA]
      obtain ⟨a, h1, h2⟩ := place_ok hp ho he.1 (hu v (.inl (by simp [varsA])))
      rw [h1, h2]
      simp only
      rcases (ih.args env cur k as s t ho hr he.2 fun v hv => hu v (.inr hv)).cases with
        ⟨h3, h4⟩ | ⟨⟨r2, s2⟩, ⟨r2', t2⟩, h3, h4, hre2, hrel2, hk2⟩
      · rw [h3, h4]; trivial
      · obtain rfl : r2 = r2' := hre2
        rw [h3, h4]
        cases r2 with
        | none => exact ⟨rfl, hrel2, fun h => absurd rfl h⟩
        | some vs => exact ⟨rfl, hrel2, fun _ => hk2 (by simp)⟩

/-- The environment of a procedure called: its activations are linked. -/
theorem outside_ok (hp : okProg pr) {env : Env} {cur : Option Nat} {k : Nat} {t : CSt} (ho : Ok pr env cur k t) {p : Nat} {q : Proc}
    (hq : pr[p]? = some q) (hin : ∀ r, q.parent = some r → In pr cur r) :
    Chain pr (outside env q.parent) q.parent ∧ ∀ e ∈ outside env q.parent, Linked pr t e := by
  cases hpar : q.parent with
  | none => exact ⟨.nil, fun e he => by cases he⟩
  | some r =>
    obtain ⟨b, h1, h2, h3⟩ := Chain.find (hin r hpar) ho.chain
    refine ⟨h2, ?_⟩
    simp only [outside]
    have hout := ho.outer
    have hown := ho.own
    cases hch : ho.chain with
    | nil => subst_vars; intro e he; cases he
    | @cons p' q' b' o hq' hc =>
      subst_vars
      intro e he
      by_cases hpr : p' = r
      · subst hpr
        simp only [bne_self_eq_false, Bool.false_eq_true, not_false_eq_true, List.dropWhile_cons_of_neg] at he
        rcases List.mem_cons.mp he with rfl | he
        · exact (hown _ _ _ rfl).2.2 (scopeLeaf_false hq hpar)
        · exact hout e he
      · rw [List.dropWhile_cons_of_pos (by simpa using hpr)] at he
        exact hout e ((List.dropWhile_suffix _).subset he)

theorem call_step (hp : okProg pr) {f : Nat} (ih : All pr f) (env : Env) (cur : Option Nat) (k p : Nat) (as : List Arg) (s : St) (t : CSt)
    (ho : Ok pr env cur k t) (hr : Rel s t)
    (hq : ∀ q, pr[p]? = some q → (∀ r, q.parent = some r → In pr cur r) ∧ q.params = as.map Arg.isRef)
    (he : okAs pr cur as) (hu : ∀ v ∈ varsAs as, Used pr cur v) :
    Sim (RE t) (call pr (f + 1) env p as s) (ccall (comp pr) (f + 1) k p (compAs pr cur as) t) := by
  simp only [call, ccall, comp_get]
  cases hpq : pr[p]? with
  | none => trivial
  | some q =>
    obtain ⟨hin, hpar⟩ := hq q hpq
    simp only [Option.map_some]
    rcases (ih.args env cur k as s t ho hr he hu).cases with ⟨h3, h4⟩ | ⟨⟨r2, s1⟩, ⟨r2', t1⟩, h3, h4, hre2, hrel, hk⟩
    · rw [h3, h4]; trivial
    · obtain rfl : r2 = r2' := hre2
      rw [h3, h4]
      cases r2 with
      | none => exact ⟨rfl, hrel, fun h => absurd rfl h⟩
      | some vs =>
        have hk := hk (by simp)
        have hvs : q.params = vs.map Sum.isRight := by rw [hpar, args_isRight pr as f env s s1 vs h3]
        obtain ⟨hc, hl⟩ := outside_ok hp (ho.keep hk) hpq hin
        obtain ⟨u, hu1, hu2, hu3, hu4⟩ := enter_ok hp hpq hrel hc hl hvs
        simp only [compP, hu1]
        have hkn : t1.next < u.next := (hu3.own p _ _ rfl).1
        have hok := (hp p q hpq).2
        rcases (ih.exec _ (some p) q.fn t1.next q.body _ u hu3 hu2 hok (fun v hv p' q' hp' hq' => by
            cases hp'; rw [hpq] at hq'; cases hq'; exact hv)).cases with ⟨h5, h6⟩ | ⟨⟨o, s2⟩, ⟨o', t2⟩, h5, h6, hoe, hrel2, hn, hret⟩
        · rw [h5, h6]; trivial
        · obtain rfl : o = o' := hoe
          rw [h5, h6]
          cases o with
          | norm =>
            have hnr : hasRet q.body = false := by
              cases hh : hasRet q.body with
              | false => rfl
              | true => exact absurd h5 (hasRet_norm pr q.body f _ _ s2 hh)
            simp only [hnr, Bool.false_eq_true, if_false]
            cases hfn : q.fn with
            | true => exact ⟨rfl, hrel2, fun h => absurd rfl h⟩
            | false => exact ⟨rfl, exits_rel hrel2, fun _ => (hk.trans hu4).trans (exits_keep (hn rfl) hkn)⟩
          | ret v => exact ⟨rfl, hrel2, fun _ => (hk.trans hu4).trans (hret v p rfl rfl)⟩
          | trap => exact ⟨rfl, hrel2, fun h => absurd rfl h⟩

/-- The current activation exists. -/
theorem Ok.lt {env : Env} {p k : Nat} {t : CSt} (h : Ok pr env (some p) k t) : k < t.next := by
  cases hch : h.chain with
  | @cons _ q b o hq hc =>
    subst_vars
    exact (h.own _ _ _ rfl).1

/-- First one statement, then another. -/
theorem RS.after {cur : Option Nat} {env : Env} {k : Nat} {t t1 : CSt} (ho : Ok pr env cur k t) (hk : Keep t t1) {x : Out × St}
    {y : Out × CSt} (h : RS pr cur k t1 x y) : RS pr cur k t x y := by
  obtain ⟨h1, h2, h3, h4⟩ := h
  refine ⟨h1, h2, fun hx => hk.trans (h3 hx), fun v p hx hc => ?_⟩
  subst hc
  exact (exits_keep hk ho.lt).trans (h4 v p hx rfl)

theorem Sim.mono {α β : Type} {R Q : α → β → Prop} {a : Option α} {b : Option β} (h : Sim R a b) (g : ∀ x y, R x y → Q x y) : Sim Q a b := by
  cases a <;> cases b <;> simp_all [Sim]

theorem exec_step (hp : okProg pr) {f : Nat} (ih : All pr f) (env : Env) (cur : Option Nat) (fn : Bool) (k : Nat) (c : S) (s : St)
    (t : CSt) (ho : Ok pr env cur k t) (hr : Rel s t) (he : okS pr cur fn c) (hu : ∀ v ∈ varsS c, Used pr cur v) :
    Sim (RS pr cur k t) (exec pr (f + 1) env c s) (cexec (comp pr) (f + 1) k (compS pr cur c) t) := by
  cases c with
  | skip =>
    simp only [exec, cexec, compS]
    exact ⟨rfl, hr, fun _ => .refl t, fun v p h => by cases h⟩
  | assign v e =>
    simp only [varsS, List.mem_cons] at hu
    simp only [okS] at he
    simp only [exec, cexec, compS]
    rcases (ih.eval env cur k e s t ho hr he.2 fun v hv => hu v (.inr hv)).cases with ⟨h1, h2⟩ | ⟨⟨r, s1⟩, ⟨r', t1⟩, h1, h2, hre, hrel, hk⟩
    · rw [h1, h2]; trivial
    · obtain rfl : r = r' := hre
      rw [h1, h2]
      rcases r with _ | _ | x
      · exact ⟨rfl, hrel, fun h => (by cases h), fun _ _ h => by cases h⟩
      · trivial
      · have hk := hk (by simp)
        obtain ⟨a, h3, h4⟩ := place_ok hp (ho.keep hk) he.1 (hu v (.inl rfl))
        simp only [h3, h4, Option.map_some]
        refine ⟨rfl, ⟨by show upd t1.v a x = upd s1.mem a x; rw [show t1.v = s1.mem from hrel.mem], hrel.next⟩, fun _ => hk.trans ?_, fun _ _ h => by cases h⟩
        exact ⟨Nat.le_refl _, fun _ _ => rfl, fun _ _ => rfl, fun _ _ => rfl, rfl⟩
  | seq a b =>
    simp only [varsS, List.mem_append] at hu
    simp only [okS] at he
    simp only [exec, cexec, compS]
    rcases (ih.exec env cur fn k a s t ho hr he.1 fun v hv => hu v (.inl hv)).cases with
      ⟨h1, h2⟩ | ⟨⟨o, s1⟩, ⟨o', t1⟩, h1, h2, hre⟩
    · rw [h1, h2]; trivial
    · obtain rfl : o = o' := hre.1
      rw [h1, h2]
      cases o with
      | norm =>
        have hk := hre.2.2.1 rfl
        exact (ih.exec env cur fn k b s1 t1 (ho.keep hk) hre.2.1 he.2 fun v hv => hu v (.inr hv)).mono fun x y h => RS.after ho hk h
      | ret v => exact hre
      | trap => exact hre
  | ifs e a b =>
    simp only [varsS, List.mem_append] at hu
    simp only [okS] at he
    simp only [exec, cexec, compS]
    rcases (ih.eval env cur k e s t ho hr he.1 fun v hv => hu v (.inl (.inl hv))).cases with
      ⟨h1, h2⟩ | ⟨⟨r, s1⟩, ⟨r', t1⟩, h1, h2, hre, hrel, hk⟩
    · rw [h1, h2]; trivial
    · obtain rfl : r = r' := hre
      rw [h1, h2]
      rcases r with _ | _ | x
      · exact ⟨rfl, hrel, fun h => (by cases h), fun _ _ h => by cases h⟩
      · trivial
      · have hk := hk (by simp)
        simp only
        by_cases hx : x ≠ 0
        · rw [if_pos hx, if_pos hx]
          exact (ih.exec env cur fn k a s1 t1 (ho.keep hk) hrel he.2.1 fun v hv => hu v (.inl (.inr hv))).mono fun x y h => RS.after ho hk h
        · rw [if_neg hx, if_neg hx]
          exact (ih.exec env cur fn k b s1 t1 (ho.keep hk) hrel he.2.2 fun v hv => hu v (.inr hv)).mono fun x y h => RS.after ho hk h
  | whiles e a =>
    have hu0 := hu
    have he0 := he
    simp only [varsS, List.mem_append] at hu
    simp only [okS] at he
    simp only [exec, cexec, compS]
    rcases (ih.eval env cur k e s t ho hr he.1 fun v hv => hu v (.inl hv)).cases with
      ⟨h1, h2⟩ | ⟨⟨r, s1⟩, ⟨r', t1⟩, h1, h2, hre, hrel, hk⟩
    · rw [h1, h2]; trivial
    · obtain rfl : r = r' := hre
      rw [h1, h2]
      rcases r with _ | _ | x
      · exact ⟨rfl, hrel, fun h => (by cases h), fun _ _ h => by cases h⟩
      · trivial
      · have hk := hk (by simp)
        simp only
        by_cases hx : x = 0
        · rw [if_pos hx, if_pos hx]
          exact ⟨rfl, hrel, fun _ => hk, fun _ _ h => by cases h⟩
        · rw [if_neg hx, if_neg hx]
          rcases (ih.exec env cur fn k a s1 t1 (ho.keep hk) hrel he.2 fun v hv => hu v (.inr hv)).cases with
            ⟨h1, h2⟩ | ⟨⟨o, s2⟩, ⟨o', t2⟩, h1, h2, hre⟩
          · rw [h1, h2]; trivial
          · obtain rfl : o = o' := hre.1
            rw [h1, h2]
            cases o with
            | norm =>
              have hk2 := hk.trans (hre.2.2.1 rfl)
              exact (ih.exec env cur fn k (.whiles e a) s2 t2 (ho.keep hk2) hre.2.1 he0 hu0).mono fun x y h => RS.after ho hk2 h
            | ret v => exact RS.after ho hk hre
            | trap => exact RS.after ho hk hre
  | call e =>
    simp only [okS] at he
    simp only [exec, cexec, compS]
    rcases (ih.eval env cur k e s t ho hr he hu).cases with ⟨h1, h2⟩ | ⟨⟨r, s1⟩, ⟨r', t1⟩, h1, h2, hre, hrel, hk⟩
    · rw [h1, h2]; trivial
    · obtain rfl : r = r' := hre
      rw [h1, h2]
      cases r with
      | none => exact ⟨rfl, hrel, fun h => (by cases h), fun _ _ h => by cases h⟩
      | some x => exact ⟨rfl, hrel, fun _ => hk (by simp), fun _ _ h => by cases h⟩
  | ret e =>
    simp only [okS] at he
    obtain ⟨hc, hfn, hx⟩ := he
    cases cur with
    | none => exact absurd rfl hc
    | some p =>
      cases e with
      | none =>
        simp only [exec, cexec, compS, Option.map_some, Option.getD_some]
        exact ⟨rfl, exits_rel hr, fun h => (by cases h), fun v p' _ hp' => by cases hp'; exact .refl _⟩
      | some e =>
        have hev := ih.eval env (some p) k e s t ho hr (hx e rfl) hu
        simp only [compS, Option.any_some, Option.map_some, Option.getD_some]
        cases hl : scopeLeaf pr p with
        | false =>
          simp only [Bool.not_false, if_true, exec, cexec]
          rcases hev.cases with ⟨h1, h2⟩ | ⟨⟨r, s1⟩, ⟨r', t1⟩, h1, h2, hre, hrel, hk⟩
          · rw [h1, h2]; trivial
          · obtain rfl : r = r' := hre
            rw [h1, h2]
            rcases r with _ | _ | x
            · exact ⟨rfl, hrel, fun h => (by cases h), fun _ _ h => by cases h⟩
            · trivial
            · exact ⟨rfl, exits_rel hrel, fun h => (by cases h), fun v p' _ hp' => by
                cases hp'; exact exits_keep (hk (by simp)) ho.lt⟩
        | true =>
          have hnil : exits pr p = [] := by rw [exits, if_pos hl]
          simp only [Bool.not_true, Bool.false_eq_true, if_false, exec, cexec, hnil, runs, List.foldl_nil]
          rcases hev.cases with ⟨h1, h2⟩ | ⟨⟨r, s1⟩, ⟨r', t1⟩, h1, h2, hre, hrel, hk⟩
          · rw [h1, h2]; trivial
          · obtain rfl : r = r' := hre
            rw [h1, h2]
            rcases r with _ | _ | x
            · exact ⟨rfl, hrel, fun h => (by cases h), fun _ _ h => by cases h⟩
            · trivial
            · exact ⟨rfl, hrel, fun h => (by cases h), fun v p' _ hp' => by
                cases hp'; rw [hnil]; exact hk (by simp)⟩

theorem all (hp : okProg pr) : ∀ f, All pr f
  | 0 => ⟨by intros; simp [eval, ceval, Sim], by intros; simp [args, cargs, Sim], by intros; simp [call, ccall, Sim],
      by intros; simp [exec, cexec, Sim]⟩
  | f + 1 =>
    have ih := all hp f
    ⟨eval_step hp ih, args_step hp ih, call_step hp ih, exec_step hp ih⟩

end Verif.Nest
