import Verif.Control.LemmasEmit

/-!
# Statements: lemmas about the parser
-/
namespace Verif.Control

open Spec

variable {σ : Type}

theorem execs_append (F : Nat) : ∀ (a b : Ss σ) (s : σ),
    execs F (a.append b) s = (execs F a s).bind fun r => match r with | .norm s => execs F b s | r => some r
  | .nil, b, s => by simp only [Ss.append, execs, Option.bind_some]
  | .cons x t, b, s => by
    simp only [Ss.append, execs]
    cases exec F x s with
    | none => rfl
    | some r =>
      simp only [Option.bind_some]
      cases r with
      | norm s => exact execs_append F t b s
      | _ => rfl

theorem execs_one (F : Nat) (c : St σ) (s : σ) : execs F (.cons c .nil) s = exec F c s := by
  simp only [execs]
  cases exec F c s with
  | none => rfl
  | some r => cases r <;> rfl

theorem noFors_append : ∀ (a b : Ss σ), NoFors a → NoFors b → NoFors (a.append b)
  | .nil, _, _, h => h
  | .cons x t, b, ha, hb => by
    simp only [NoFors] at ha
    simp only [Ss.append, NoFors]
    exact ⟨ha.1, noFors_append t b ha.2 hb⟩

/-! ## OptIf -/

theorem optRest_ok (F : Nat) : ∀ (c : Ifs σ) (els : Ss σ) (s : σ),
    execIfs F (optRest c els).1 (fun s => execs F (optRest c els).2 s) s = execIfs F c (fun s => execs F els s) s
  | .nil, els, s => rfl
  | .cons c b t, els, s => by
    cases c with
    | const v =>
      cases v with
      | true => simp only [optRest, execIfs, Cond.eval, Option.bind_some, if_true]
      | false =>
        simp only [optRest, execIfs, Cond.eval, Option.bind_some, Bool.false_eq_true, if_false]
        exact optRest_ok F t els s
    | dyn f =>
      simp only [optRest, execIfs, Cond.eval]
      cases f s with
      | none => rfl
      | some p =>
        obtain ⟨v, s⟩ := p
        simp only [Option.bind_some]
        cases v with
        | true => rfl
        | false => simp only [Bool.false_eq_true, if_false]; exact optRest_ok F t els s

theorem optIf_ok (F : Nat) : ∀ (c : Ifs σ) (els : Ss σ) (s : σ), execs F (optIf c els) s = execIfs F c (fun s => execs F els s) s
  | .nil, els, s => rfl
  | .cons c b t, els, s => by
    cases c with
    | const v =>
      cases v with
      | true => simp only [optIf, execIfs, Cond.eval, Option.bind_some, if_true]
      | false =>
        simp only [optIf, execIfs, Cond.eval, Option.bind_some, Bool.false_eq_true, if_false]
        exact optIf_ok F t els s
    | dyn f =>
      simp only [optIf]
      rw [execs_one]
      simp only [exec, execIfs, Cond.eval]
      cases f s with
      | none => rfl
      | some p =>
        obtain ⟨v, s⟩ := p
        simp only [Option.bind_some]
        cases v with
        | true => rfl
        | false => simp only [Bool.false_eq_true, if_false]; exact optRest_ok F t els s

theorem optRest_noFor : ∀ (c : Ifs σ) (els : Ss σ), NoForIfs c → NoFors els → NoForIfs (optRest c els).1 ∧ NoFors (optRest c els).2
  | .nil, els, _, h => ⟨trivial, h⟩
  | .cons c b t, els, hc, h => by
    simp only [NoForIfs] at hc
    have ih := optRest_noFor t els hc.2 h
    cases c with
    | const v =>
      cases v with
      | true => simp only [optRest]; exact ⟨trivial, hc.1⟩
      | false => simp only [optRest]; exact ih
    | dyn f => simp only [optRest, NoForIfs]; exact ⟨⟨hc.1, ih.1⟩, ih.2⟩

theorem optIf_noFor : ∀ (c : Ifs σ) (els : Ss σ), NoForIfs c → NoFors els → NoFors (optIf c els)
  | .nil, els, _, h => h
  | .cons c b t, els, hc, h => by
    simp only [NoForIfs] at hc
    cases c with
    | const v =>
      cases v with
      | true => simp only [optIf]; exact hc.1
      | false => simp only [optIf]; exact optIf_noFor t els hc.2 h
    | dyn f =>
      have ih := optRest_noFor t els hc.2 h
      simp only [optIf, NoFors, NoFor, NoForIfs]
      exact ⟨⟨⟨hc.1, ih.1⟩, ih.2⟩, trivial⟩

/-! ## Labels -/

theorem longint_of {x : Int} (h1 : -2 ^ 31 ≤ x) (h2 : x < 2 ^ 31) : longint x = x := by
  unfold longint; omega

theorem longint_range (x : Int) : -2 ^ 31 ≤ longint x ∧ longint x < 2 ^ 31 := by
  unfold longint; omega

theorem labelList_ok : ∀ (l : List (Int × Int)) (tab : Nat → Int × Int) (n : Nat) ls tab' n',
    (∀ r ∈ l, -2 ^ 31 ≤ r.1 ∧ r.1 < 2 ^ 31 ∧ -2 ^ 31 ≤ r.2 ∧ r.2 < 2 ^ 31) →
    labelList l tab n = (ls, tab', n', []) → ls = l
  | [], _, _, _, _, _, _, h => by
    simp only [labelList, Prod.mk.injEq] at h
    exact h.1.symm
  | (l, h) :: t, tab, n, ls, tab', n', hr, he => by
    have hr0 := hr (l, h) List.mem_cons_self
    simp only at hr0
    rcases h1 : enter tab n (longint l) (if longint h < longint l then (longint l, [63]) else (longint h, ([] : List Nat))).1 with ⟨tab1, n1, e2⟩
    rcases h2 : labelList t tab1 n1 with ⟨ls2, tab2, n2, e3⟩
    simp only [labelList, h1, h2, Prod.mk.injEq, List.append_eq_nil_iff] at he
    obtain ⟨hls, _, _, ⟨he1, _⟩, he3⟩ := he
    rw [he3] at h2
    have ih := labelList_ok t tab1 n1 ls2 tab2 n2 (fun r h => hr r (List.mem_cons_of_mem _ h)) h2
    by_cases hc : longint h < longint l
    · rw [if_pos hc] at he1; simp at he1
    · rw [if_neg hc, longint_of hr0.2.2.1 hr0.2.2.2] at hls
      rw [← hls, ih]

/-! ## The simulation -/

def Agree (k : Nat) (t t' : Nat → Int) : Prop := ∀ i, i < k → t' i = t i

theorem Agree.refl (k : Nat) (t : Nat → Int) : Agree k t t := fun _ _ => rfl

theorem Agree.trans {k : Nat} {t t' t'' : Nat → Int} (h : Agree k t t') (h' : Agree k t' t'') : Agree k t t'' :=
  fun i hi => (h' i hi).trans (h i hi)

theorem Agree.mono {k k' : Nat} {t t' : Nat → Int} (h : Agree k t t') (hk : k' ≤ k) : Agree k' t t' :=
  fun i hi => h i (by omega)

/-- A result of the generated tree and the result of the statement: the variables `@for` below `k` are kept. -/
def Sim (k : Nat) (t : Nat → Int) (r : Option (Res (T σ))) (r0 : Option (Res σ)) : Prop :=
  match r0 with
  | none => r = none
  | some (.norm s) => ∃ t', Agree k t t' ∧ r = some (.norm (s, t'))
  | some (.exit s) => ∃ t', Agree k t t' ∧ r = some (.exit (s, t'))
  | some (.ret s) => ∃ t', Agree k t t' ∧ r = some (.ret (s, t'))
  | some (.halt n s) => ∃ t', Agree k t t' ∧ r = some (.halt n (s, t'))

theorem Sim.mono {k k' : Nat} {t t' : Nat → Int} {r : Option (Res (T σ))} {r0 : Option (Res σ)}
    (h : Sim k t r r0) (hk : k' ≤ k) (ht : Agree k' t' t) : Sim k' t' r r0 := by
  unfold Sim at *
  cases r0 with
  | none => exact h
  | some r0 =>
    cases r0 <;>
    · simp only at h ⊢
      obtain ⟨t1, h1, h2⟩ := h
      exact ⟨t1, ht.trans (h1.mono hk), h2⟩

theorem Sim.bind {k : Nat} {t : Nat → Int} {r : Option (Res (T σ))} {r0 : Option (Res σ)} {f : Res (T σ) → Option (Res (T σ))} {f0 : Res σ → Option (Res σ)}
    (h : Sim k t r r0) (hf : ∀ s t', Agree k t t' → Sim k t (f (.norm (s, t'))) (f0 (.norm s)))
    (h1 : ∀ s, f (.exit s) = some (.exit s)) (h2 : ∀ s, f (.ret s) = some (.ret s)) (h3 : ∀ n s, f (.halt n s) = some (.halt n s))
    (h1' : ∀ s, f0 (.exit s) = some (.exit s)) (h2' : ∀ s, f0 (.ret s) = some (.ret s)) (h3' : ∀ n s, f0 (.halt n s) = some (.halt n s)) :
    Sim k t (r.bind f) (r0.bind f0) := by
  unfold Sim at h
  cases r0 with
  | none => simp only at h; rw [h]; rfl
  | some r0 =>
    cases r0 with
    | norm s => simp only at h; obtain ⟨t1, h1, h2⟩ := h; rw [h2]; exact hf s t1 h1
    | exit s => simp only at h; obtain ⟨t1, h4, h5⟩ := h; rw [h5, Option.bind_some, Option.bind_some, h1, h1']; exact ⟨t1, h4, rfl⟩
    | ret s => simp only at h; obtain ⟨t1, h4, h5⟩ := h; rw [h5, Option.bind_some, Option.bind_some, h2, h2']; exact ⟨t1, h4, rfl⟩
    | halt n s => simp only at h; obtain ⟨t1, h4, h5⟩ := h; rw [h5, Option.bind_some, Option.bind_some, h3, h3']; exact ⟨t1, h4, rfl⟩

theorem act_sim {k : Nat} {t : Nat → Int} {g : T σ → Option (T σ)} {f : σ → Option σ} {x : σ}
    (h : match f x with | none => g (x, t) = none | some y => ∃ t', Agree k t t' ∧ g (x, t) = some (y, t')) (F : Nat) :
    Sim k t (exec F (.act g) (x, t)) ((f x).map .norm) := by
  simp only [exec]
  cases hf : f x with
  | none => rw [hf] at h; simp only at h; rw [h]; rfl
  | some y => rw [hf] at h; simp only at h; obtain ⟨t', h1, h2⟩ := h; rw [h2]; exact ⟨t', h1, rfl⟩

theorem while_sim {k : Nat} {c : σ → Option (Bool × σ)} {b : T σ → Option (Res (T σ))} {b0 : σ → Option (Res σ)}
    (h : ∀ s t, Sim k t (b (s, t)) (b0 s)) : ∀ (f : Nat) (s : σ) (t : Nat → Int), Sim k t (while' (liftE c) b f (s, t)) (while' c b0 f s)
  | 0, _, _ => rfl
  | f + 1, s, t => by
    simp only [while', liftE]
    cases hc : c s with
    | none => rfl
    | some p =>
      obtain ⟨v, s⟩ := p
      simp only [Option.map_some, Option.bind_some]
      cases v with
      | false => exact ⟨t, Agree.refl _ _, rfl⟩
      | true =>
        simp only [if_true]
        exact (h s t).bind (fun s' t' ht => (while_sim h f s' t').mono (Nat.le_refl _) ht) (fun _ => rfl) (fun _ => rfl) (fun _ _ => rfl) (fun _ => rfl) (fun _ => rfl) (fun _ _ => rfl)

theorem repeat_sim {k : Nat} {c : σ → Option (Bool × σ)} {b : T σ → Option (Res (T σ))} {b0 : σ → Option (Res σ)}
    (h : ∀ s t, Sim k t (b (s, t)) (b0 s)) : ∀ (f : Nat) (s : σ) (t : Nat → Int), Sim k t (repeat' b (liftE c) f (s, t)) (repeat' b0 c f s)
  | 0, _, _ => rfl
  | f + 1, s, t => by
    simp only [repeat']
    refine (h s t).bind (fun s' t' ht => ?_) (fun _ => rfl) (fun _ => rfl) (fun _ _ => rfl) (fun _ => rfl) (fun _ => rfl) (fun _ _ => rfl)
    simp only [liftE]
    cases hc : c s' with
    | none => rfl
    | some p =>
      obtain ⟨v, s⟩ := p
      simp only [Option.map_some, Option.bind_some]
      cases v with
      | true => exact ⟨t', ht, rfl⟩
      | false => exact (repeat_sim h f s t').mono (Nat.le_refl _) ht

theorem loop_sim {k : Nat} {b : T σ → Option (Res (T σ))} {b0 : σ → Option (Res σ)}
    (h : ∀ s t, Sim k t (b (s, t)) (b0 s)) : ∀ (f : Nat) (s : σ) (t : Nat → Int), Sim k t (loop' b f (s, t)) (loop' b0 f s)
  | 0, _, _ => rfl
  | f + 1, s, t => by
    simp only [loop']
    have := h s t
    unfold Sim at this
    cases hb : b0 s with
    | none => rw [hb] at this; simp only at this; rw [this]; rfl
    | some r =>
      rw [hb] at this
      cases r with
      | norm s => simp only at this; obtain ⟨t1, h1, h2⟩ := this; rw [h2]; exact (loop_sim h f s t1).mono (Nat.le_refl _) h1
      | _ => simp only at this; obtain ⟨t1, h1, h2⟩ := this; rw [h2]; exact ⟨t1, h1, rfl⟩

theorem for_sim {k : Nat} {v : Var σ} {step E : Int} {e : T σ → Int} {t0 : Nat → Int} {F : Nat} {body : Ss (T σ)} {b0 : σ → Option (Res σ)}
    (hs : step ≠ 0) (he : ∀ s t, Agree k t0 t → e (s, t) = E) (h : ∀ s t, Sim k t (execs F body (s, t)) (b0 s)) :
    ∀ (f : Nat) (s : σ) (t : Nat → Int), Agree k t0 t →
      Sim k t (while' (forCond v step e) (fun s => execs F (body.append (.cons (.act (incV v step)) .nil)) s) f (s, t)) (for' v E step b0 f s)
  | 0, _, _, _ => rfl
  | f + 1, s, t, ht => by
    simp only [while', for', forCond, Option.bind_some]
    have hiff : ((if 0 < step then decide (v.get s ≤ e (s, t)) else decide (e (s, t) ≤ v.get s)) = true) ↔
        ((0 < step ∧ v.get s ≤ E) ∨ (step < 0 ∧ E ≤ v.get s)) := by
      rw [he s t ht]
      by_cases h0 : 0 < step
      · rw [if_pos h0, decide_eq_true_iff]; omega
      · rw [if_neg h0, decide_eq_true_iff]; omega
    by_cases hc : (0 < step ∧ v.get s ≤ E) ∨ (step < 0 ∧ E ≤ v.get s)
    · rw [if_pos hc, if_pos (hiff.2 hc), execs_append, Option.bind_assoc]
      have := h s t
      unfold Sim at this
      cases hb : b0 s with
      | none => rw [hb] at this; simp only at this; rw [this]; rfl
      | some r =>
        rw [hb] at this
        cases r with
        | norm s =>
          simp only at this
          obtain ⟨t1, h1, h2⟩ := this
          rw [h2]
          simp only [Option.bind_some]
          rw [execs_one]
          simp only [exec, incV]
          cases v.arith (v.get s + step) with
          | none => rfl
          | some x => exact (for_sim hs he h f _ t1 (ht.trans h1)).mono (Nat.le_refl _) h1
        | _ => simp only at this; obtain ⟨t1, h1, h2⟩ := this; rw [h2]; exact ⟨t1, h1, rfl⟩
    · rw [if_neg hc, if_neg (fun h => hc (hiff.1 h))]
      exact ⟨t, Agree.refl _ _, rfl⟩

theorem liftC_eval (c : Cond σ) (s : σ) (t : Nat → Int) : (liftC c).eval (s, t) = (c.eval s).map fun x => (x.1, (x.2, t)) := by
  cases c <;> rfl

mutual
theorem parse_ok {d k : Nat} : ∀ (s : St σ), Fits s → ∀ c k', parse d k s = (c, k', []) →
    k ≤ k' ∧ NoFors c ∧ ∀ F x t, Sim k t (execs F c (x, t)) (exec F s x)
  | .act f, _, c, k', h => by
    simp only [parse, Prod.mk.injEq] at h
    obtain ⟨rfl, rfl, _⟩ := h
    refine ⟨Nat.le_refl _, ⟨trivial, trivial⟩, fun F x t => ?_⟩
    rw [execs_one]
    apply act_sim
    simp only [liftA]
    cases f x with
    | none => rfl
    | some y => exact ⟨t, Agree.refl _ _, rfl⟩
  | .ifelse i els, hf, c, k', h => by
    simp only [Fits] at hf
    rcases h1 : parseIfs d k i with ⟨c1, k1, e1⟩
    rcases h2 : parses d k1 els with ⟨c2, k2, e2⟩
    simp only [parse, h1, h2, Prod.mk.injEq, List.append_eq_nil_iff] at h
    obtain ⟨rfl, rfl, rfl, rfl⟩ := h
    obtain ⟨g1, f1, r1⟩ := parseIfs_ok i hf.1 _ _ h1
    obtain ⟨g2, f2, r2⟩ := parses_ok els hf.2 _ _ h2
    refine ⟨g1.trans g2, optIf_noFor _ _ f1 f2, fun F x t => ?_⟩
    rw [optIf_ok]
    simp only [exec]
    exact r1 F _ _ t k (Nat.le_refl _) (fun s t' ht => (r2 F s t').mono g1 ht) x t (Agree.refl _ _)
  | .wth i e els, hf, c, k', h => by
    simp only [Fits] at hf
    rcases h1 : parseIfs d k i with ⟨c1, k1, e1⟩
    rcases h2 : parses d k1 els with ⟨c2, k2, e2⟩
    simp only [parse, h1, h2, Prod.mk.injEq, List.append_eq_nil_iff] at h
    obtain ⟨rfl, rfl, rfl, rfl⟩ := h
    obtain ⟨g1, f1, r1⟩ := parseIfs_ok i hf.1 _ _ h1
    obtain ⟨g2, f2, r2⟩ := parses_ok els hf.2 _ _ h2
    refine ⟨g1.trans g2, ⟨⟨f1, f2⟩, trivial⟩, fun F x t => ?_⟩
    rw [execs_one]
    simp only [exec]
    refine r1 F _ _ t k (Nat.le_refl _) (fun s t' ht => ?_) x t (Agree.refl _ _)
    cases e with
    | true => exact (r2 F s t').mono g1 ht
    | false => exact ⟨t', ht, rfl⟩
  | .case e cs el els, hf, c, k', h => by
    simp only [Fits] at hf
    rcases h1 : parseCases d k (fun _ => (0, 0)) 0 cs with ⟨c1, tab, n, k1, e1⟩
    rcases h2 : parses d k1 els with ⟨c2, k2, e2⟩
    simp only [parse, h1, h2, Prod.mk.injEq, List.append_eq_nil_iff] at h
    obtain ⟨rfl, rfl, ⟨rfl, hr⟩, rfl⟩ := h
    obtain ⟨g1, f1, r1⟩ := parseCases_ok cs hf.1 _ _ _ _ h1
    obtain ⟨g2, f2, r2⟩ := parses_ok els hf.2 _ _ h2
    refine ⟨g1.trans g2, ⟨⟨f1, f2⟩, trivial⟩, fun F x t => ?_⟩
    rw [execs_one]
    simp only [exec, liftE]
    cases hx : e x with
    | none => rfl
    | some p =>
      obtain ⟨v, s⟩ := p
      simp only [Option.map_some, Option.bind_some]
      refine r1 F v _ _ t k (Nat.le_refl _) (fun s t' ht => ?_) s t (Agree.refl _ _)
      cases el with
      | true => exact (r2 F s t').mono g1 ht
      | false => exact ⟨t', ht, rfl⟩
  | .whileDo e b, hf, c, k', h => by
    simp only [Fits] at hf
    rcases h1 : parses d k b with ⟨c1, k1, e1⟩
    simp only [parse, h1, Prod.mk.injEq] at h
    obtain ⟨rfl, rfl, rfl⟩ := h
    obtain ⟨g1, f1, r1⟩ := parses_ok b hf _ _ h1
    refine ⟨g1, ⟨f1, trivial⟩, fun F x t => ?_⟩
    rw [execs_one]
    simp only [exec]
    exact while_sim (r1 F) F x t
  | .repeatUntil b e, hf, c, k', h => by
    simp only [Fits] at hf
    rcases h1 : parses d k b with ⟨c1, k1, e1⟩
    simp only [parse, h1, Prod.mk.injEq] at h
    obtain ⟨rfl, rfl, rfl⟩ := h
    obtain ⟨g1, f1, r1⟩ := parses_ok b hf _ _ h1
    refine ⟨g1, ⟨f1, trivial⟩, fun F x t => ?_⟩
    rw [execs_one]
    simp only [exec]
    exact repeat_sim (r1 F) F x t
  | .loop b, hf, c, k', h => by
    simp only [Fits] at hf
    rcases h1 : parses (d + 1) k b with ⟨c1, k1, e1⟩
    simp only [parse, h1, Prod.mk.injEq] at h
    obtain ⟨rfl, rfl, rfl⟩ := h
    obtain ⟨g1, f1, r1⟩ := parses_ok b hf _ _ h1
    refine ⟨g1, ⟨f1, trivial⟩, fun F x t => ?_⟩
    rw [execs_one]
    simp only [exec]
    exact loop_sim (r1 F) F x t
  | .exit, _, c, k', h => by
    simp only [parse, Prod.mk.injEq] at h
    obtain ⟨rfl, rfl, _⟩ := h
    refine ⟨Nat.le_refl _, ⟨trivial, trivial⟩, fun F x t => ?_⟩
    rw [execs_one]
    exact ⟨t, Agree.refl _ _, rfl⟩
  | .ret f, _, c, k', h => by
    simp only [parse, Prod.mk.injEq] at h
    obtain ⟨rfl, rfl, _⟩ := h
    refine ⟨Nat.le_refl _, ⟨trivial, trivial⟩, fun F x t => ?_⟩
    rw [execs_one]
    simp only [exec, liftA]
    cases f x with
    | none => rfl
    | some y => exact ⟨t, Agree.refl _ _, rfl⟩
  | .halt n, _, c, k', h => by
    simp only [parse, Prod.mk.injEq] at h
    obtain ⟨rfl, rfl, _⟩ := h
    refine ⟨Nat.le_refl _, ⟨trivial, trivial⟩, fun F x t => ?_⟩
    rw [execs_one]
    exact ⟨t, Agree.refl _ _, rfl⟩
  | .forTo v a (.const e) step body, hf, c, k', h => by
    simp only [Fits] at hf
    rcases h1 : parses d k body with ⟨c1, k1, e1⟩
    simp only [parse, h1, Prod.mk.injEq, List.append_eq_nil_iff] at h
    obtain ⟨rfl, rfl, hs, rfl⟩ := h
    have hs : step ≠ 0 := by intro h0; rw [if_pos h0] at hs; simp at hs
    obtain ⟨g1, f1, r1⟩ := parses_ok body hf _ _ h1
    refine ⟨g1, ⟨trivial, noFors_append _ _ f1 ⟨trivial, trivial⟩, trivial⟩, fun F x t => ?_⟩
    simp only [exec, execs, Expr.eval, Option.bind_some, assignV]
    cases a x with
    | none => rfl
    | some p =>
      obtain ⟨y, s⟩ := p
      simp only [Option.map_some, Option.bind_some]
      have := for_sim (v := v) (E := e) (e := fun _ => e) (t0 := t) hs (fun _ _ _ => rfl) (r1 F) F (v.set y s) t (Agree.refl _ _)
      convert this using 1
      generalize while' (forCond v step fun x => e) (fun s => execs F (c1.append (.cons (.act (incV v step)) .nil)) s) F (v.set y s, t) = w
      cases w with
      | none => rfl
      | some r => cases r <;> rfl
  | .forTo v a (.dyn f) step body, hf, c, k', h => by
    simp only [Fits] at hf
    rcases h1 : parses d (k + 1) body with ⟨c1, k1, e1⟩
    simp only [parse, h1, Prod.mk.injEq, List.append_eq_nil_iff] at h
    obtain ⟨rfl, rfl, hs, rfl⟩ := h
    have hs : step ≠ 0 := by intro h0; rw [if_pos h0] at hs; simp at hs
    obtain ⟨g1, f1, r1⟩ := parses_ok body hf _ _ h1
    refine ⟨by omega, ⟨trivial, trivial, noFors_append _ _ f1 ⟨trivial, trivial⟩, trivial⟩, fun F x t => ?_⟩
    simp only [exec, execs, Expr.eval, assignV, assignT]
    cases f x with
    | none => rfl
    | some p =>
      obtain ⟨E, s⟩ := p
      simp only [Option.map_some, Option.bind_some]
      cases a s with
      | none => rfl
      | some p =>
        obtain ⟨y, s⟩ := p
        simp only [Option.map_some, Option.bind_some]
        have := for_sim (v := v) (E := E) (e := fun s => s.2 k) (t0 := upd t k E) hs
          (fun s t' h => by simp only; rw [h k (by omega)]; simp [upd]) (r1 F) F (v.set y s) (upd t k E) (Agree.refl _ _)
        have this := this.mono (k' := k) (t' := t) (by omega) (fun i hi => by unfold upd; rw [if_neg (by omega)])
        convert this using 1
        generalize while' (forCond v step fun s => s.2 k) (fun s => execs F (c1.append (.cons (.act (incV v step)) .nil)) s) F (v.set y s, upd t k E) = w
        cases w with
        | none => rfl
        | some r => cases r <;> rfl
theorem parses_ok {d k : Nat} : ∀ (s : Ss σ), Fitss s → ∀ c k', parses d k s = (c, k', []) →
    k ≤ k' ∧ NoFors c ∧ ∀ F x t, Sim k t (execs F c (x, t)) (execs F s x)
  | .nil, _, c, k', h => by
    simp only [parses, Prod.mk.injEq] at h
    obtain ⟨rfl, rfl, _⟩ := h
    exact ⟨Nat.le_refl _, trivial, fun F x t => ⟨t, Agree.refl _ _, rfl⟩⟩
  | .cons s u, hf, c, k', h => by
    simp only [Fitss] at hf
    rcases h1 : parse d k s with ⟨c1, k1, e1⟩
    rcases h2 : parses d k1 u with ⟨c2, k2, e2⟩
    simp only [parses, h1, h2, Prod.mk.injEq, List.append_eq_nil_iff] at h
    obtain ⟨rfl, rfl, rfl, rfl⟩ := h
    obtain ⟨g1, f1, r1⟩ := parse_ok s hf.1 _ _ h1
    obtain ⟨g2, f2, r2⟩ := parses_ok u hf.2 _ _ h2
    refine ⟨g1.trans g2, noFors_append _ _ f1 f2, fun F x t => ?_⟩
    rw [execs_append]
    simp only [execs]
    exact (r1 F x t).bind (fun s t' ht => (r2 F s t').mono g1 ht) (fun _ => rfl) (fun _ => rfl) (fun _ _ => rfl) (fun _ => rfl) (fun _ => rfl) (fun _ _ => rfl)
theorem parseIfs_ok {d k : Nat} : ∀ (s : Ifs σ), FitsIfs s → ∀ c k', parseIfs d k s = (c, k', []) →
    k ≤ k' ∧ NoForIfs c ∧ ∀ F (q : T σ → Option (Res (T σ))) (q0 : σ → Option (Res σ)) t0 K, K ≤ k → (∀ s t, Agree K t0 t → Sim K t0 (q (s, t)) (q0 s)) →
      ∀ x t, Agree K t0 t → Sim K t0 (execIfs F c q (x, t)) (execIfs F s q0 x)
  | .nil, _, c, k', h => by
    simp only [parseIfs, Prod.mk.injEq] at h
    obtain ⟨rfl, rfl, _⟩ := h
    exact ⟨Nat.le_refl _, trivial, fun F q q0 t0 K hK hq x t ht => hq x t ht⟩
  | .cons e b u, hf, c, k', h => by
    simp only [FitsIfs] at hf
    rcases h1 : parses d k b with ⟨c1, k1, e1⟩
    rcases h2 : parseIfs d k1 u with ⟨c2, k2, e2⟩
    simp only [parseIfs, h1, h2, Prod.mk.injEq, List.append_eq_nil_iff] at h
    obtain ⟨rfl, rfl, rfl, rfl⟩ := h
    obtain ⟨g1, f1, r1⟩ := parses_ok b hf.1 _ _ h1
    obtain ⟨g2, f2, r2⟩ := parseIfs_ok u hf.2 _ _ h2
    refine ⟨g1.trans g2, ⟨f1, f2⟩, fun F q q0 t0 K hK hq x t ht => ?_⟩
    simp only [execIfs, liftC_eval]
    cases e.eval x with
    | none => rfl
    | some p =>
      obtain ⟨v, s⟩ := p
      simp only [Option.map_some, Option.bind_some]
      cases v with
      | true => exact (r1 F s t).mono hK ht
      | false =>
        simp only [Bool.false_eq_true, if_false]
        exact r2 F q q0 t0 K (hK.trans g1) hq s t ht
theorem parseCases_ok {d k : Nat} {tab : Nat → Int × Int} {n : Nat} : ∀ (s : Cases σ), FitsCases s → ∀ c tab' n' k', parseCases d k tab n s = (c, tab', n', k', []) →
    k ≤ k' ∧ NoForCases c ∧ ∀ F v (q : T σ → Option (Res (T σ))) (q0 : σ → Option (Res σ)) t0 K, K ≤ k → (∀ s t, Agree K t0 t → Sim K t0 (q (s, t)) (q0 s)) →
      ∀ x t, Agree K t0 t → Sim K t0 (execCases F v c q (x, t)) (execCases F v s q0 x)
  | .nil, _, c, tab', n', k', h => by
    simp only [parseCases, Prod.mk.injEq] at h
    obtain ⟨rfl, _, _, rfl, _⟩ := h
    exact ⟨Nat.le_refl _, trivial, fun F v q q0 t0 K hK hq x t ht => hq x t ht⟩
  | .cons l b u, hf, c, tab', n', k', h => by
    simp only [FitsCases] at hf
    rcases h0 : labelList l tab n with ⟨l0, tab0, n0, e0⟩
    rcases h1 : parses d k b with ⟨c1, k1, e1⟩
    rcases h2 : parseCases d k1 tab0 n0 u with ⟨c2, tab2, n2, k2, e2⟩
    simp only [parseCases, h0, h1, h2, Prod.mk.injEq, List.append_eq_nil_iff] at h
    obtain ⟨rfl, rfl, rfl, rfl, ⟨rfl, rfl⟩, rfl⟩ := h
    obtain ⟨g1, f1, r1⟩ := parses_ok b hf.2.1 _ _ h1
    obtain ⟨g2, f2, r2⟩ := parseCases_ok u hf.2.2 _ _ _ _ h2
    refine ⟨g1.trans g2, ⟨f1, f2⟩, fun F v q q0 t0 K hK hq x t ht => ?_⟩
    rw [labelList_ok l tab n l0 tab0 n0 hf.1 h0]
    simp only [execCases]
    by_cases hv : ∃ r ∈ l, r.1 ≤ v ∧ v ≤ r.2
    · rw [if_pos hv, if_pos hv]; exact (r1 F x t).mono hK ht
    · rw [if_neg hv, if_neg hv]
      exact r2 F v q q0 t0 K (hK.trans g1) hq x t ht
end

end Verif.Control
