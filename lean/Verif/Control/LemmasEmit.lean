import Verif.Control.Spec
import Verif.Common

/-!
# Statements: lemmas about the code generator
-/
namespace Verif.Control

open Spec

variable {σ : Type}

theorem csems_append (F : Nat) : ∀ (a b : Css σ) (m : Option Nat) (s : σ),
    csems F m (a.append b) s = (csems F m a s).bind fun r => match r with
      | .norm s => csems F none b s
      | .goto n s => csems F (some n) b s
      | r => some r
  | .nil, b, none, s => by simp only [Css.append, csems, Option.bind_some]
  | .nil, b, some n, s => by simp only [Css.append, csems, Option.bind_some]
  | .cons x t, b, none, s => by
    simp only [Css.append, csems]
    cases h : csem F x s with
    | none => rfl
    | some r =>
      simp only [Option.bind_some]
      cases r with
      | norm s => simp only [csems_append F t b none s]
      | goto n s => simp only [csems_append F t b (some n) s]
      | brk s => rfl
      | ret s => rfl
      | halt n s => rfl
  | .cons x t, b, some n, s => by
    simp only [Css.append, csems]
    cases x with
    | label k => simp only [csems_append F t b _ s]
    | _ => simp only [csems_append F t b _ s]

theorem csems_skip (F : Nat) {n : Nat} : ∀ (c : Css σ) (s : σ), n ∉ labelss c → csems F (some n) c s = some (.goto n s)
  | .nil, s, _ => by simp only [csems]
  | .cons x t, s, h => by
    simp only [labelss, List.mem_append, not_or] at h
    simp only [csems]
    cases x with
    | label k =>
      have hk : ¬ k = n := by
        intro hk; apply h.1; rw [hk]; simp [labels]
      simp only [if_neg hk, csems_skip F t s h.2]
    | _ => exact csems_skip F t s h.2

theorem labelss_append : ∀ (a b : Css σ), labelss (a.append b) = labelss a ++ labelss b
  | .nil, b => rfl
  | .cons x t, b => by simp only [Css.append, labelss, labelss_append t b, List.append_assoc]

/-- The labels made between two states of the code generator. -/
structure G (lab : Option Nat) (nof : Nat) (lab' : Option Nat) (nof' : Nat) (ls : List Nat) : Prop where
  le : nof ≤ nof'
  keep : ∀ n, lab = some n → lab' = some n
  fresh : ∀ n, lab' = some n → lab = some n ∨ (nof ≤ n ∧ n < nof')
  ran : ∀ n ∈ ls, nof ≤ n ∧ n < nof'
  ne : ∀ n ∈ ls, lab' ≠ some n
  nd : ls.Nodup

theorem G.refl (lab : Option Nat) (nof : Nat) : G lab nof lab nof [] :=
  ⟨Nat.le_refl _, fun _ h => h, fun _ h => Or.inl h, by simp, by simp, List.nodup_nil⟩

theorem G.trans {l0 l1 l2 : Option Nat} {n0 n1 n2 : Nat} {a b : List Nat} (h : G l0 n0 l1 n1 a) (h' : G l1 n1 l2 n2 b) : G l0 n0 l2 n2 (a ++ b) := by
  refine ⟨h.le.trans h'.le, fun n hn => h'.keep n (h.keep n hn), ?_, ?_, ?_, ?_⟩
  · intro n hn
    rcases h'.fresh n hn with h1 | h1
    · rcases h.fresh n h1 with h2 | h2
      · exact Or.inl h2
      · exact Or.inr ⟨h2.1, by have := h'.le; omega⟩
    · exact Or.inr ⟨by have := h.le; omega, h1.2⟩
  · intro n hn
    rcases List.mem_append.1 hn with hn | hn
    · have := h.ran n hn; have := h'.le; omega
    · have := h'.ran n hn; have := h.le; omega
  · intro n hn hl
    rcases List.mem_append.1 hn with hn | hn
    · rcases h'.fresh n hl with h1 | h1
      · exact h.ne n hn h1
      · have := h.ran n hn; omega
    · exact h'.ne n hn hl
  · rw [List.nodup_append]
    refine ⟨h.nd, h'.nd, ?_⟩
    intro x hx y hy hxy
    have := h.ran x hx; have := h'.ran y hy; omega

/-- The labels in use are numbered below `nof`. -/
def Old (lab : Option Nat) (nof : Nat) : Prop := ∀ n, lab = some n → n < nof

theorem G.old {l0 l1 : Option Nat} {n0 n1 : Nat} {a : List Nat} (h : G l0 n0 l1 n1 a) (ho : Old l0 n0) : Old l1 n1 := by
  intro n hn
  rcases h.fresh n hn with h1 | h1
  · have := ho n h1; have := h.le; omega
  · exact h1.2

/-- The result of a statement, and the result of the C statement for it, in a loop with the label `lab`; `lv`: how many
statements that catch `break` are between. -/
def Rel (lv : Nat) (lab : Option Nat) (r : Option (Res σ)) (c : Option (CRes σ)) : Prop :=
  match r with
  | none => c = none
  | some (.norm s) => c = some (.norm s)
  | some (.ret s) => c = some (.ret s)
  | some (.halt n s) => c = some (.halt n s)
  | some (.exit s) => (lv = 0 ∧ c = some (.brk s)) ∨ ∃ n, lab = some n ∧ c = some (.goto n s)

/-- A label stays. -/
def Ext (l l' : Option Nat) : Prop := ∀ n, l = some n → l' = some n

theorem Rel.ext {lv : Nat} {l l' : Option Nat} {r : Option (Res σ)} {c : Option (CRes σ)} (h : Rel lv l r c) (he : Ext l l') : Rel lv l' r c := by
  unfold Rel at *
  cases r with
  | none => exact h
  | some r =>
    cases r with
    | exit s =>
      rcases h with h | ⟨n, h1, h2⟩
      · exact Or.inl h
      · exact Or.inr ⟨n, he n h1, h2⟩
    | _ => exact h

theorem Rel.lower {lv : Nat} {l : Option Nat} {r : Option (Res σ)} {c : Option (CRes σ)} (h : Rel (lv + 1) l r c) : Rel lv l r c := by
  unfold Rel at *
  cases r with
  | none => exact h
  | some r =>
    cases r with
    | exit s =>
      rcases h with h | h
      · omega
      · exact Or.inr h
    | _ => exact h

/-- One after the other. -/
theorem Rel.seq {lv : Nat} {l : Option Nat} {r : Option (Res σ)} {k : σ → Option (Res σ)} {F : Nat} {a b : Css σ} {x : σ}
    (h1 : Rel lv l r (csems F none a x)) (h2 : ∀ s, Rel lv l (k s) (csems F none b s)) (hn : ∀ n ∈ labelss b, l ≠ some n) :
    Rel lv l (r.bind fun r => match r with | .norm s => k s | r => some r) (csems F none (a.append b) x) := by
  rw [csems_append]
  unfold Rel at h1
  cases r with
  | none => simp only at h1; rw [h1]; rfl
  | some r =>
    cases r with
    | norm s => simp only at h1; rw [h1]; exact h2 s
    | ret s => simp only at h1; rw [h1]; rfl
    | halt n s => simp only at h1; rw [h1]; rfl
    | exit s =>
      simp only at h1
      rcases h1 with ⟨h3, h4⟩ | ⟨n, h3, h4⟩
      · rw [h4]; exact Or.inl ⟨h3, rfl⟩
      · rw [h4]
        simp only [Option.bind_some]
        rw [csems_skip F b s (fun hm => hn n hm h3)]
        exact Or.inr ⟨n, h3, rfl⟩

theorem csems_one (F : Nat) (c : CS σ) (s : σ) : csems F none (.cons c .nil) s = csem F c s := by
  simp only [csems]
  cases csem F c s with
  | none => rfl
  | some r => cases r <;> rfl

theorem while_ok {lv : Nat} {l : Option Nat} {c : σ → Option (Bool × σ)} {b : σ → Option (Res σ)} {b' : σ → Option (CRes σ)}
    (h : ∀ s, Rel (lv + 1) l (b s) (b' s)) : ∀ (f : Nat) (s : σ), Rel lv l (while' c b f s) (cwhile c b' f s)
  | 0, _ => rfl
  | f + 1, s => by
    simp only [while', cwhile]
    cases hc : c s with
    | none => rfl
    | some p =>
      obtain ⟨v, s⟩ := p
      simp only [Option.bind_some]
      cases v with
      | false => rfl
      | true =>
        simp only [if_true]
        have := h s
        unfold Rel at this
        cases hb : b s with
        | none => rw [hb] at this; simp only at this; rw [this]; rfl
        | some r =>
          rw [hb] at this
          cases r with
          | norm s => simp only at this; rw [this]; exact while_ok h f s
          | ret s => simp only at this; rw [this]; rfl
          | halt n s => simp only at this; rw [this]; rfl
          | exit s =>
            simp only at this
            rcases this with ⟨h1, _⟩ | ⟨n, h1, h2⟩
            · omega
            · rw [h2]; exact Or.inr ⟨n, h1, rfl⟩

theorem repeat_ok {lv : Nat} {l : Option Nat} {c : σ → Option (Bool × σ)} {b : σ → Option (Res σ)} {b' : σ → Option (CRes σ)}
    (h : ∀ s, Rel (lv + 1) l (b s) (b' s)) : ∀ (f : Nat) (s : σ), Rel lv l (repeat' b c f s) (cdo b' c f s)
  | 0, _ => rfl
  | f + 1, s => by
    simp only [repeat', cdo]
    have := h s
    unfold Rel at this
    cases hb : b s with
    | none => rw [hb] at this; simp only at this; rw [this]; rfl
    | some r =>
      rw [hb] at this
      cases r with
      | norm s =>
        simp only at this
        rw [this]
        simp only [Option.bind_some]
        cases hc : c s with
        | none => rfl
        | some p =>
          obtain ⟨v, s⟩ := p
          simp only [Option.bind_some]
          cases v with
          | true => rfl
          | false => exact repeat_ok h f s
      | ret s => simp only at this; rw [this]; rfl
      | halt n s => simp only at this; rw [this]; rfl
      | exit s =>
        simp only at this
        rcases this with ⟨h1, _⟩ | ⟨n, h1, h2⟩
        · omega
        · rw [h2]; exact Or.inr ⟨n, h1, rfl⟩

/-- LOOP: EXIT has become `break` or the jump to the label behind the loop. -/
theorem loop_ok {lv : Nat} {l : Option Nat} {lab : Option Nat} {b : σ → Option (Res σ)} {b' : σ → Option (CRes σ)}
    (h : ∀ s, Rel 0 l (b s) (b' s)) (F : Nat) (tail : Css σ) (ht : l = none → tail = .nil) (ht' : ∀ n, l = some n → tail = .cons (.label n) .nil) :
    ∀ (f : Nat) (s : σ), Rel lv lab (loop' b f s) ((cforever b' f s).bind fun r => match r with
        | .norm s => csems F none tail s
        | .goto n s => csems F (some n) tail s
        | r => some r)
  | 0, _ => rfl
  | f + 1, s => by
    have hnorm : ∀ s : σ, csems F none tail s = some (.norm s) := by
      intro s
      cases l with
      | none => rw [ht rfl]; simp only [csems]
      | some n => rw [ht' n rfl]; simp [csems, csem]
    simp only [loop', cforever]
    have := h s
    unfold Rel at this
    cases hb : b s with
    | none => rw [hb] at this; simp only at this; rw [this]; rfl
    | some r =>
      rw [hb] at this
      cases r with
      | norm s => simp only at this; rw [this]; exact loop_ok h F tail ht ht' f s
      | ret s => simp only at this; rw [this]; rfl
      | halt n s => simp only at this; rw [this]; rfl
      | exit s =>
        simp only at this
        rcases this with ⟨_, h2⟩ | ⟨n, h1, h2⟩
        · rw [h2]; simp only [Option.bind_some, hnorm]; rfl
        · rw [h2]
          simp only [Option.bind_some]
          rw [ht' n h1]
          simp [csems, Rel]

/-! The tree has no FOR. -/
mutual
def NoFor : St σ → Prop
  | .ifelse c els => NoForIfs c ∧ NoFors els
  | .wth c _ els => NoForIfs c ∧ NoFors els
  | .case _ cs _ els => NoForCases cs ∧ NoFors els
  | .whileDo _ b => NoFors b
  | .repeatUntil b _ => NoFors b
  | .loop b => NoFors b
  | .forTo _ _ _ _ _ => False
  | _ => True
def NoFors : Ss σ → Prop
  | .nil => True
  | .cons x t => NoFor x ∧ NoFors t
def NoForIfs : Ifs σ → Prop
  | .nil => True
  | .cons _ b t => NoFors b ∧ NoForIfs t
def NoForCases : Cases σ → Prop
  | .nil => True
  | .cons _ b t => NoFors b ∧ NoForCases t
end

theorem mem_expand {v : Int} {r : Int × Int} : v ∈ expand r ↔ r.1 ≤ v ∧ v ≤ r.2 := by
  unfold expand
  simp only [List.mem_map, List.mem_range]
  constructor
  · rintro ⟨i, h1, h2⟩; omega
  · rintro ⟨h1, h2⟩; exact ⟨(v - r.1).toNat, by omega, by omega⟩

theorem mem_labels {v : Int} {l : List (Int × Int)} : v ∈ l.flatMap expand ↔ ∃ r ∈ l, r.1 ≤ v ∧ v ≤ r.2 := by
  simp only [List.mem_flatMap, mem_expand]

theorem csems_brk (F : Nat) (b : Css σ) (s : σ) : (csems F none (b.append (.cons .brk .nil)) s) =
    (csems F none b s).map fun r => match r with | .norm s => .brk s | r => r := by
  rw [csems_append]
  cases csems F none b s with
  | none => rfl
  | some r => cases r <;> rfl

/-- A branch of a switch: it ends with `break`. -/
theorem Rel.branch {lv : Nat} {l : Option Nat} {r : Option (Res σ)} {F : Nat} {b : Css σ} {s : σ} {k : σ → Option (CRes σ)}
    (h : Rel (lv + 1) l r (csems F none b s)) :
    Rel (lv + 1) l r (((csems F none (b.append (.cons .brk .nil)) s).bind fun r => match r with | .norm s => k s | r => some r).map unbreak) := by
  rw [csems_brk]
  unfold Rel at *
  cases r with
  | none => simp only at h ⊢; rw [h]; rfl
  | some r =>
    cases r with
    | exit s =>
      simp only at h ⊢
      rcases h with ⟨h1, _⟩ | ⟨n, h1, h2⟩
      · omega
      · rw [h2]; exact Or.inr ⟨n, h1, rfl⟩
    | _ => simp only at h ⊢; rw [h]; rfl

mutual
theorem emit_ok {lv : Nat} {lab : Option Nat} {nof : Nat} (ho : Old lab nof) :
    ∀ (s : St σ), NoFor s → ∀ c lab' nof', emit lv lab nof s = (c, lab', nof') →
      G lab nof lab' nof' (labelss c) ∧ ∀ F x, Rel lv lab' (exec F s x) (csems F none c x)
  | .act f, _, c, lab', nof', h => by
    simp only [emit, Prod.mk.injEq] at h
    obtain ⟨rfl, rfl, rfl⟩ := h
    refine ⟨G.refl _ _, fun F x => ?_⟩
    rw [csems_one]
    simp only [exec, csem]
    cases f x <;> rfl
  | .ifelse i els, hf, c, lab', nof', h => by
    simp only [NoFor] at hf
    rcases h1 : emitIfs lv lab nof i with ⟨c1, l1, n1⟩
    rcases h2 : emits lv l1 n1 els with ⟨c2, l2, n2⟩
    simp only [emit, h1, h2, Prod.mk.injEq] at h
    obtain ⟨rfl, rfl, rfl⟩ := h
    obtain ⟨g1, r1⟩ := emitIfs_ok ho i hf.1 _ _ _ h1
    obtain ⟨g2, r2⟩ := emits_ok (g1.old ho) els hf.2 _ _ _ h2
    refine ⟨by simpa [labelss, labels] using g1.trans g2, fun F x => ?_⟩
    rw [csems_one]
    simp only [exec, csem]
    exact r1 F l2 g2.keep _ _ (r2 F) x
  | .wth i e els, hf, c, lab', nof', h => by
    simp only [NoFor] at hf
    rcases h1 : emitIfs lv lab nof i with ⟨c1, l1, n1⟩
    obtain ⟨g1, r1⟩ := emitIfs_ok ho i hf.1 _ _ _ h1
    cases e with
    | true =>
      rcases h2 : emits lv l1 n1 els with ⟨c2, l2, n2⟩
      simp only [emit, h1, h2, if_true, Prod.mk.injEq] at h
      obtain ⟨rfl, rfl, rfl⟩ := h
      obtain ⟨g2, r2⟩ := emits_ok (g1.old ho) els hf.2 _ _ _ h2
      refine ⟨by simpa [labelss, labels] using g1.trans g2, fun F x => ?_⟩
      rw [csems_one]
      simp only [exec, csem, if_true]
      exact r1 F l2 g2.keep _ _ (r2 F) x
    | false =>
      simp only [emit, h1, Bool.false_eq_true, if_false, Prod.mk.injEq] at h
      obtain ⟨rfl, rfl, rfl⟩ := h
      refine ⟨by simpa [labelss, labels] using g1, fun F x => ?_⟩
      rw [csems_one]
      simp only [exec, csem, Bool.false_eq_true, if_false]
      exact r1 F _ (fun _ h => h) _ _ (fun s => by rw [csems_one]; rfl) x
  | .case e cs el els, hf, c, lab', nof', h => by
    simp only [NoFor] at hf
    rcases h1 : emitCases (lv + 1) lab nof cs with ⟨c1, l1, n1⟩
    obtain ⟨g1, r1⟩ := emitCases_ok ho cs hf.1 _ _ _ h1
    cases el with
    | true =>
      rcases h2 : emits (lv + 1) l1 n1 els with ⟨c2, l2, n2⟩
      simp only [emit, h1, h2, if_true, Prod.mk.injEq] at h
      obtain ⟨rfl, rfl, rfl⟩ := h
      obtain ⟨g2, r2⟩ := emits_ok (g1.old ho) els hf.2 _ _ _ h2
      refine ⟨by simpa [labelss, labels, labelss_append] using g1.trans g2, fun F x => ?_⟩
      rw [csems_one]
      simp only [exec, csem, if_true]
      cases hx : e x with
      | none => rfl
      | some p =>
        obtain ⟨v, s⟩ := p
        simp only [Option.bind_some]
        apply Rel.lower
        apply r1 F v l2 g2.keep
        intro s
        have := Rel.branch (k := fun s => some (.norm s)) (r2 F s)
        convert this using 2
        cases csems F none (c2.append (.cons .brk .nil)) s with
        | none => rfl
        | some r => cases r <;> rfl
    | false =>
      simp only [emit, h1, Bool.false_eq_true, if_false, Prod.mk.injEq] at h
      obtain ⟨rfl, rfl, rfl⟩ := h
      refine ⟨by simpa [labelss, labels] using g1, fun F x => ?_⟩
      rw [csems_one]
      simp only [exec, csem, Bool.false_eq_true, if_false]
      cases hx : e x with
      | none => rfl
      | some p =>
        obtain ⟨v, s⟩ := p
        simp only [Option.bind_some]
        apply Rel.lower
        apply r1 F v _ (fun _ h => h)
        intro s
        rw [csems_one]; rfl
  | .whileDo e b, hf, c, lab', nof', h => by
    simp only [NoFor] at hf
    rcases h1 : emits (lv + 1) lab nof b with ⟨c1, l1, n1⟩
    simp only [emit, h1, Prod.mk.injEq] at h
    obtain ⟨rfl, rfl, rfl⟩ := h
    obtain ⟨g1, r1⟩ := emits_ok ho b hf _ _ _ h1
    refine ⟨by simpa [labelss, labels] using g1, fun F x => ?_⟩
    rw [csems_one]
    simp only [exec, csem]
    exact while_ok (r1 F) F x
  | .repeatUntil b e, hf, c, lab', nof', h => by
    simp only [NoFor] at hf
    rcases h1 : emits (lv + 1) lab nof b with ⟨c1, l1, n1⟩
    simp only [emit, h1, Prod.mk.injEq] at h
    obtain ⟨rfl, rfl, rfl⟩ := h
    obtain ⟨g1, r1⟩ := emits_ok ho b hf _ _ _ h1
    refine ⟨by simpa [labelss, labels] using g1, fun F x => ?_⟩
    rw [csems_one]
    simp only [exec, csem]
    exact repeat_ok (r1 F) F x
  | .loop b, hf, c, lab', nof', h => by
    simp only [NoFor] at hf
    rcases h1 : emits 0 none nof b with ⟨c1, l1, n1⟩
    simp only [emit, h1, Prod.mk.injEq] at h
    obtain ⟨rfl, rfl, rfl⟩ := h
    obtain ⟨g1, r1⟩ := emits_ok (lab := none) (by intro n hn; simp at hn) b hf _ _ _ h1
    refine ⟨?_, fun F x => ?_⟩
    · refine ⟨g1.le, fun _ h => h, fun _ h => Or.inl h, ?_, ?_, ?_⟩
      · intro n hn
        cases l1 with
        | none => simp only [labelss, labels, List.append_nil] at hn; exact g1.ran n hn
        | some k =>
          simp only [labelss, labels, List.append_nil, List.mem_append, List.mem_singleton] at hn
          rcases hn with hn | hn
          · exact g1.ran n hn
          · rw [hn]
            rcases g1.fresh k rfl with h | h
            · simp at h
            · exact h
      · intro n hn hl
        have hlt := ho n hl
        have : nof ≤ n := by
          cases l1 with
          | none => simp only [labelss, labels, List.append_nil] at hn; exact (g1.ran n hn).1
          | some k =>
            simp only [labelss, labels, List.append_nil, List.mem_append, List.mem_singleton] at hn
            rcases hn with hn | hn
            · exact (g1.ran n hn).1
            · rw [hn]
              rcases g1.fresh k rfl with h | h
              · simp at h
              · exact h.1
        omega
      · cases l1 with
        | none => simp only [labelss, labels, List.append_nil]; exact g1.nd
        | some k =>
          simp only [labelss, labels, List.append_nil]
          rw [List.nodup_append]
          refine ⟨g1.nd, by simp, ?_⟩
          intro a ha b hb hab
          rw [List.mem_singleton.1 hb] at hab
          exact g1.ne a ha (by rw [hab])
    · simp only [exec]
      simp only [csems, csem]
      exact loop_ok (lv := lv) (lab := lab) (r1 F) F _ (fun h => by rw [h]) (fun n h => by rw [h]) F x
  | .exit, _, c, lab', nof', h => by
    simp only [emit] at h
    by_cases h0 : lv = 0
    · rw [if_pos h0] at h
      simp only [Prod.mk.injEq] at h
      obtain ⟨rfl, rfl, rfl⟩ := h
      exact ⟨G.refl _ _, fun F x => Or.inl ⟨h0, by rw [csems_one]; rfl⟩⟩
    · rw [if_neg h0] at h
      cases lab with
      | some n =>
        simp only [Prod.mk.injEq] at h
        obtain ⟨rfl, rfl, rfl⟩ := h
        exact ⟨G.refl _ _, fun F x => Or.inr ⟨n, rfl, by rw [csems_one]; rfl⟩⟩
      | none =>
        simp only [Prod.mk.injEq] at h
        obtain ⟨rfl, rfl, rfl⟩ := h
        refine ⟨⟨by omega, by simp, ?_, by simp [labelss, labels], by simp [labelss, labels], by simp [labelss, labels]⟩,
          fun F x => Or.inr ⟨nof, rfl, by rw [csems_one]; rfl⟩⟩
        intro n hn
        have := Option.some.inj hn
        exact Or.inr (by omega)
  | .ret f, _, c, lab', nof', h => by
    simp only [emit, Prod.mk.injEq] at h
    obtain ⟨rfl, rfl, rfl⟩ := h
    refine ⟨G.refl _ _, fun F x => ?_⟩
    rw [csems_one]
    simp only [exec, csem]
    cases f x <;> rfl
  | .halt n, _, c, lab', nof', h => by
    simp only [emit, Prod.mk.injEq] at h
    obtain ⟨rfl, rfl, rfl⟩ := h
    exact ⟨G.refl _ _, fun F x => by rw [csems_one]; rfl⟩
  | .forTo _ _ _ _ _, hf, _, _, _, _ => by simp only [NoFor] at hf
theorem emits_ok {lv : Nat} {lab : Option Nat} {nof : Nat} (ho : Old lab nof) :
    ∀ (s : Ss σ), NoFors s → ∀ c lab' nof', emits lv lab nof s = (c, lab', nof') →
      G lab nof lab' nof' (labelss c) ∧ ∀ F x, Rel lv lab' (execs F s x) (csems F none c x)
  | .nil, _, c, lab', nof', h => by
    simp only [emits, Prod.mk.injEq] at h
    obtain ⟨rfl, rfl, rfl⟩ := h
    exact ⟨G.refl _ _, fun F x => rfl⟩
  | .cons s t, hf, c, lab', nof', h => by
    simp only [NoFors] at hf
    rcases h1 : emit lv lab nof s with ⟨c1, l1, n1⟩
    rcases h2 : emits lv l1 n1 t with ⟨c2, l2, n2⟩
    simp only [emits, h1, h2, Prod.mk.injEq] at h
    obtain ⟨rfl, rfl, rfl⟩ := h
    obtain ⟨g1, r1⟩ := emit_ok ho s hf.1 _ _ _ h1
    obtain ⟨g2, r2⟩ := emits_ok (g1.old ho) t hf.2 _ _ _ h2
    refine ⟨by rw [labelss_append]; exact g1.trans g2, fun F x => ?_⟩
    simp only [execs]
    exact Rel.seq ((r1 F x).ext g2.keep) (r2 F) g2.ne
theorem emitIfs_ok {lv : Nat} {lab : Option Nat} {nof : Nat} (ho : Old lab nof) :
    ∀ (s : Ifs σ), NoForIfs s → ∀ c lab' nof', emitIfs lv lab nof s = (c, lab', nof') →
      G lab nof lab' nof' (labelsIfs c) ∧ ∀ F l2, Ext lab' l2 → ∀ (k : σ → Option (Res σ)) (k' : σ → Option (CRes σ)),
        (∀ x, Rel lv l2 (k x) (k' x)) → ∀ x, Rel lv l2 (execIfs F s k x) (csemIfs F c k' x)
  | .nil, _, c, lab', nof', h => by
    simp only [emitIfs, Prod.mk.injEq] at h
    obtain ⟨rfl, rfl, rfl⟩ := h
    exact ⟨G.refl _ _, fun F l2 _ k k' hk x => hk x⟩
  | .cons e b t, hf, c, lab', nof', h => by
    simp only [NoForIfs] at hf
    rcases h1 : emits lv lab nof b with ⟨c1, l1, n1⟩
    rcases h2 : emitIfs lv l1 n1 t with ⟨c2, l2, n2⟩
    simp only [emitIfs, h1, h2, Prod.mk.injEq] at h
    obtain ⟨rfl, rfl, rfl⟩ := h
    obtain ⟨g1, r1⟩ := emits_ok ho b hf.1 _ _ _ h1
    obtain ⟨g2, r2⟩ := emitIfs_ok (g1.old ho) t hf.2 _ _ _ h2
    refine ⟨g1.trans g2, fun F l3 hl k k' hk x => ?_⟩
    simp only [execIfs, csemIfs]
    cases e.eval x with
    | none => rfl
    | some p =>
      obtain ⟨v, s⟩ := p
      simp only [Option.bind_some]
      cases v with
      | true => exact (r1 F s).ext (fun n hn => hl n (g2.keep n hn))
      | false => exact r2 F l3 hl k k' hk s
theorem emitCases_ok {lv : Nat} {lab : Option Nat} {nof : Nat} (ho : Old lab nof) :
    ∀ (s : Cases σ), NoForCases s → ∀ c lab' nof', emitCases (lv + 1) lab nof s = (c, lab', nof') →
      G lab nof lab' nof' (labelsGs c) ∧ ∀ F v l2, Ext lab' l2 → ∀ (k : σ → Option (Res σ)) (k' : σ → Option (CRes σ)),
        (∀ x, Rel (lv + 1) l2 (k x) ((k' x).map unbreak)) → ∀ x, Rel (lv + 1) l2 (execCases F v s k x) ((csemGs F v false c k' x).map unbreak)
  | .nil, _, c, lab', nof', h => by
    simp only [emitCases, Prod.mk.injEq] at h
    obtain ⟨rfl, rfl, rfl⟩ := h
    exact ⟨G.refl _ _, fun F v l2 _ k k' hk x => hk x⟩
  | .cons l b t, hf, c, lab', nof', h => by
    simp only [NoForCases] at hf
    rcases h1 : emits (lv + 1) lab nof b with ⟨c1, l1, n1⟩
    rcases h2 : emitCases (lv + 1) l1 n1 t with ⟨c2, l2, n2⟩
    simp only [emitCases, h1, h2, Prod.mk.injEq] at h
    obtain ⟨rfl, rfl, rfl⟩ := h
    obtain ⟨g1, r1⟩ := emits_ok ho b hf.1 _ _ _ h1
    obtain ⟨g2, r2⟩ := emitCases_ok (g1.old ho) t hf.2 _ _ _ h2
    refine ⟨by simpa [labelsGs, labelss_append, labelss, labels] using g1.trans g2, fun F v l3 hl k k' hk x => ?_⟩
    simp only [execCases, csemGs, Bool.false_eq_true, false_or, mem_labels]
    by_cases hv : ∃ r ∈ l, r.1 ≤ v ∧ v ≤ r.2
    · rw [if_pos hv, if_pos hv]
      exact Rel.branch ((r1 F x).ext (fun n hn => hl n (g2.keep n hn)))
    · rw [if_neg hv, if_neg hv]
      exact r2 F v l3 hl k k' hk x
end

end Verif.Control
