import Verif.Heap.LemmasRun
import Verif.Fin.Model

/-!
# Lemmas about finalization
-/
namespace Verif.Fin

open Verif.Heap (Ev)

/-- The nodes `xs` are linked from `a` on. -/
def NChain (nd : Nat → Node) : Nat → List Nat → Prop
  | a, [] => a = 0
  | a, x :: xs => a = x ∧ x ≠ 0 ∧ NChain nd (nd x).next xs

/-- The last of the nodes, 0 if there are none. -/
def last : List Nat → Nat
  | [] => 0
  | [x] => x
  | _ :: y :: xs => last (y :: xs)

/-- The first of the nodes. -/
def first (xs : List Nat) : Nat := xs.headD 0

theorem nchain_first {nd : Nat → Node} {a : Nat} {xs : List Nat} (h : NChain nd a xs) : a = first xs := by
  cases xs with
  | nil => exact h
  | cons x xs => exact h.1

theorem nchain_congr {nd nd' : Nat → Node} : ∀ {xs : List Nat} {a : Nat}, (∀ x ∈ xs, (nd' x).next = (nd x).next) →
    NChain nd a xs → NChain nd' a xs
  | [], _, _, h => h
  | x :: xs, a, he, ⟨h1, h2, h3⟩ =>
    ⟨h1, h2, by
      rw [he x (List.mem_cons_self ..)]
      exact nchain_congr (fun y hy => he y (List.mem_cons_of_mem _ hy)) h3⟩

theorem nchain_pos {nd : Nat → Node} : ∀ {xs : List Nat} {a : Nat}, NChain nd a xs → ∀ x ∈ xs, x ≠ 0
  | [], _, _, _, h => by simp at h
  | y :: ys, _, ⟨_, h2, h3⟩, x, hx => by
    rcases List.mem_cons.1 hx with rfl | hx
    · exact h2
    · exact nchain_pos h3 x hx

theorem last_append (A : List Nat) (x : Nat) : last (A ++ [x]) = x := by
  induction A with
  | nil => rfl
  | cons a A ih =>
    cases A with
    | nil => rfl
    | cons b A => exact ih

theorem last_eq_zero {A : List Nat} (h : ∀ x ∈ A, x ≠ 0) : last A = 0 ↔ A = [] := by
  rcases List.eq_nil_or_concat A with rfl | ⟨B, x, rfl⟩
  · simp [last]
  · rw [List.concat_eq_append, last_append]
    have := h x (by simp)
    simp [this]

theorem last_append_of {A B : List Nat} (h : B ≠ []) : last (A ++ B) = last B := by
  rcases List.eq_nil_or_concat B with rfl | ⟨C, x, rfl⟩
  · exact absurd rfl h
  · rw [List.concat_eq_append, ← List.append_assoc, last_append, last_append]

theorem upd_ne (nd : Nat → Node) {n k : Nat} (x : Node) (h : k ≠ n) : upd nd n x k = nd k := by
  unfold upd; rw [if_neg h]

theorem upd_self (nd : Nat → Node) (n : Nat) (x : Node) : upd nd n x n = x := by
  unfold upd; rw [if_pos rfl]

/-- Taking a node out of the list behind the nodes `A`. -/
theorem nchain_remove {nd : Nat → Node} {n : Nat} {R : List Nat} : ∀ {A : List Nat} {a : Nat}, A ≠ [] →
    (A ++ n :: R).Nodup → NChain nd a (A ++ n :: R) →
    NChain (upd nd (last A) { nd (last A) with next := (nd n).next }) a (A ++ R)
  | [], _, h, _, _ => absurd rfl h
  | [x], a, _, hnd, ⟨h1, h2, _, _, h5⟩ => by
    refine ⟨h1, h2, ?_⟩
    have e : (upd nd (last [x]) { nd (last [x]) with next := (nd n).next } x).next = (nd n).next := by simp [upd, last]
    rw [e]
    refine nchain_congr ?_ h5
    intro y hy
    have : y ≠ x := by
      rintro rfl
      simp only [List.cons_append, List.nil_append, List.nodup_cons, List.mem_cons] at hnd
      exact hnd.1 (Or.inr hy)
    rw [upd_ne _ _ (show y ≠ last [x] from this)]
  | x :: y :: A, a, _, hnd, ⟨h1, h2, h3⟩ => by
    have hnd' := (List.nodup_cons.1 hnd)
    refine ⟨h1, h2, ?_⟩
    have hx : x ≠ last (y :: A) := by
      rintro e
      apply hnd'.1
      rcases List.eq_nil_or_concat (y :: A) with h | ⟨C, z, h⟩
      · simp at h
      · rw [h, List.concat_eq_append, last_append] at e
        have : z ∈ y :: A := by rw [h]; simp
        rw [e]
        exact List.mem_append_left _ this
    have := nchain_remove (A := y :: A) (by simp) hnd'.2 h3
    simp only [last]
    simp only [upd, if_neg hx]
    exact this

/-- The list is in order: the nodes `xs` are linked, and each is older than the next node to be created. -/
structure Good (s : FS) (xs : List Nat) : Prop where
  chain : NChain s.node s.fin xs
  nodup : xs.Nodup
  old : ∀ x ∈ xs, x < s.fresh
  pos : 0 < s.fresh

/-- The finalizer registers finalizers, but does not make the collector run. -/
def NoGC (beh : Beh) : Prop := ∀ k n, ∀ a ∈ beh k n, ∃ o, a = .reg o

/-- `s'` comes from `s` by creation of nodes, the newest first in `news`. -/
structure Grown (s s' : FS) (news : List Nat) : Prop where
  old : ∀ x, x < s.fresh → s'.node x = s.node x
  marked : ∀ x ∈ news, (s'.node x).marked = true
  fresh : s.fresh ≤ s'.fresh
  log : s'.log = s.log
  mem : ∀ x, x ∈ news ↔ s.fresh ≤ x ∧ x < s'.fresh

theorem acts_ok {beh : Beh} : ∀ (as : List Act) {s : FS} {xs : List Nat}, (∀ a ∈ as, ∃ o, a = .reg o) → Good s xs →
    ∃ s' news, Ev (fun f => acts f beh s as) s' ∧ Good s' (news ++ xs) ∧ Grown s s' news
  | [], s, xs, _, g => by
    refine ⟨s, [], ⟨1, fun f hf => ?_⟩, g, ⟨fun _ _ => rfl, by simp, Nat.le_refl _, rfl, ?_⟩⟩
    · obtain ⟨k, rfl⟩ : ∃ k, f = k + 1 := ⟨f - 1, by omega⟩
      rfl
    · intro x; simp
  | a :: as, s, xs, h, g => by
    obtain ⟨o, rfl⟩ := h a (List.mem_cons_self ..)
    have g1 : Good (register s o) (s.fresh :: xs) := by
      refine ⟨⟨rfl, by have := g.pos; omega, ?_⟩, List.nodup_cons.2 ⟨?_, g.nodup⟩, ?_, by simp [register]⟩
      · have e : ((register s o).node s.fresh).next = s.fin := by simp [register, upd]
        rw [e]
        refine nchain_congr ?_ g.chain
        intro x hx
        have := g.old x hx
        simp only [register, upd]
        rw [if_neg (by omega)]
      · intro hx; have := g.old _ hx; omega
      · intro x hx
        rcases List.mem_cons.1 hx with rfl | hx
        · simp [register]
        · have := g.old x hx; simp only [register]; omega
    obtain ⟨s', news, ⟨F, hF⟩, g', gr⟩ := acts_ok as (fun a ha => h a (List.mem_cons_of_mem _ ha)) g1
    have hfr : (register s o).fresh = s.fresh + 1 := rfl
    refine ⟨s', news ++ [s.fresh], ⟨F + 1, fun f hf => ?_⟩, by simpa using g', ⟨?_, ?_, ?_, ?_, ?_⟩⟩
    · obtain ⟨k, rfl⟩ : ∃ k, f = k + 1 := ⟨f - 1, by omega⟩
      exact hF k (by omega)
    · intro x hx
      rw [gr.old x (by omega)]
      simp only [register, upd]; rw [if_neg (by omega)]
    · intro x hx
      rcases List.mem_append.1 hx with hx | hx
      · exact gr.marked x hx
      · rw [List.mem_singleton.1 hx, gr.old _ (by omega)]
        simp [register, upd]
    · have := gr.fresh; omega
    · rw [gr.log]; rfl
    · intro x
      rw [List.mem_append, gr.mem x, List.mem_singleton]
      have := gr.fresh
      omega

/-- What `Finalize` does with the nodes `R`. -/
structure Finalized (s s' : FS) (A R news : List Nat) : Prop where
  good : Good s' (news ++ A ++ R.filter (fun x => (s.node x).marked))
  log : s'.log = (R.filter (fun x => !(s.node x).marked)).reverse ++ s.log
  same : ∀ x, x < s.fresh → (s'.node x).marked = (s.node x).marked ∧ (s'.node x).obj = (s.node x).obj
  fresh : s.fresh ≤ s'.fresh
  mem : ∀ x, x ∈ news ↔ s.fresh ≤ x ∧ x < s'.fresh

theorem filter_congr' {xs : List Nat} {p q : Nat → Bool} (h : ∀ x ∈ xs, p x = q x) : xs.filter p = xs.filter q :=
  List.filter_congr h

theorem finalize_ok {beh : Beh} (hb : NoGC beh) : ∀ (u k : Nat) (A R : List Nat) (s : FS),
    (R.filter (fun x => !(s.node x).marked)).length = u → R.length = k → Good s (A ++ R) →
    ∃ s' news, Ev (fun f => finalizeLoop f beh s (first R) (last A)) s' ∧ Finalized s s' A R news := by
  intro u
  induction u using Nat.strong_induction_on with
  | _ u ihu =>
  intro k
  induction k with
  | zero =>
    intro A R s _ hk g
    have hR : R = [] := List.length_eq_zero_iff.1 hk
    subst hR
    refine ⟨s, [], ⟨1, fun f hf => ?_⟩, ⟨by simpa using g, rfl, fun _ _ => ⟨rfl, rfl⟩, Nat.le_refl _, ?_⟩⟩
    · obtain ⟨j, rfl⟩ : ∃ j, f = j + 1 := ⟨f - 1, by omega⟩
      simp [finalizeLoop, first]
    · intro x; simp
  | succ k ihk =>
    intro A R s hu hk g
    match R, hk with
    | n :: R, hk =>
    have hk' : R.length = k := by simpa using hk
    have hnpos : n ≠ 0 := nchain_pos g.chain n (by simp)
    have hnold : n < s.fresh := g.old n (by simp)
    by_cases hm : (s.node n).marked = true
    · -- the node stays
      have g' : Good s ((A ++ [n]) ++ R) := by simpa using g
      obtain ⟨s', news, ⟨F, hF⟩, fz⟩ := ihk (A ++ [n]) R s (by simpa [List.filter_cons, hm] using hu) hk' g'
      refine ⟨s', news, ⟨F + 1, fun f hf => ?_⟩, ⟨?_, ?_, fz.same, fz.fresh, fz.mem⟩⟩
      · obtain ⟨j, rfl⟩ : ∃ j, f = j + 1 := ⟨f - 1, by omega⟩
        have h1 := hF j (by omega)
        have hnext : (s.node n).next = first R := by
          have : ∀ (A : List Nat) (a : Nat), NChain s.node a (A ++ n :: R) → (s.node n).next = first R := by
            intro A
            induction A with
            | nil => intro a h; exact nchain_first h.2.2
            | cons x A ih => intro a h; exact ih _ h.2.2
          exact this A _ g.chain
        simp only [finalizeLoop, first, List.headD_cons, if_neg hnpos, hm, Bool.true_eq_false, if_false]
        rw [hnext]
        rw [last_append] at h1
        exact h1
      · have := fz.good
        simpa [List.filter_cons, hm] using this
      · rw [fz.log]; simp [List.filter_cons, hm]
    · -- the node is taken out
      have hm' : (s.node n).marked = false := by simpa using hm
      have hnA : n ∉ A ∧ n ∉ R := by
        have := g.nodup
        rw [List.nodup_append] at this
        obtain ⟨_, h2, h3⟩ := this
        exact ⟨fun h => h3 n h n (by simp) rfl, (List.nodup_cons.1 h2).1⟩
      have hpos := nchain_pos g.chain
      have hnext : (s.node n).next = first R := by
        have : ∀ (A : List Nat) (a : Nat), NChain s.node a (A ++ n :: R) → (s.node n).next = first R := by
          intro A
          induction A with
          | nil => intro a h; exact nchain_first h.2.2
          | cons x A ih => intro a h; exact ih _ h.2.2
        exact this A _ g.chain
      have hnd1 : (A ++ R).Nodup := by
        have := g.nodup
        rw [List.nodup_append] at this ⊢
        exact ⟨this.1, (List.nodup_cons.1 this.2.1).2, fun a ha b hb => this.2.2 a ha b (List.mem_cons_of_mem _ hb)⟩
      -- the state after unlinking
      obtain ⟨s1, hs1, hlink, hsame1, hv⟩ : ∃ s1 : FS,
          unlink s n (last A) = some s1 ∧
          NChain s1.node s1.fin (A ++ R) ∧
          (∀ x, (s1.node x).marked = (s.node x).marked ∧ (s1.node x).obj = (s.node x).obj ∧
            (x ∉ A → (s1.node x).next = (s.node x).next)) ∧ s1.fresh = s.fresh ∧ s1.log = s.log := by
        rcases List.eq_nil_or_concat A with hA | ⟨B, x, hA⟩
        · subst hA
          have hfin : s.fin = n := nchain_first g.chain
          refine ⟨{ s with fin := (s.node s.fin).next }, by rw [unlink, if_pos hfin.symm], ?_, fun x => ⟨rfl, rfl, fun _ => rfl⟩, rfl, rfl⟩
          have := g.chain
          simp only [List.nil_append] at this ⊢
          rw [hfin]
          exact this.2.2
        · have hA0 : A ≠ [] := by rw [hA]; simp
          have hl : last A ≠ 0 := fun h => hA0 ((last_eq_zero (fun x hx => hpos x (List.mem_append_left _ hx))).1 h)
          have hlA : last A ∈ A := by rw [hA, List.concat_eq_append, last_append]; simp
          have hfin : n ≠ s.fin := by
            intro e
            have h1 := nchain_first g.chain
            apply hnA.1
            rw [e, h1]
            cases A with
            | nil => exact absurd rfl hA0
            | cons a A => simp [first]
          refine ⟨{ s with node := upd s.node (last A) { s.node (last A) with next := (s.node n).next } },
            by rw [unlink, if_neg hfin, if_neg hl], nchain_remove hA0 g.nodup g.chain, ?_, rfl, rfl⟩
          intro y
          simp only [upd]
          split
          · next h => subst h; exact ⟨rfl, rfl, fun h => absurd hlA h⟩
          · exact ⟨rfl, rfl, fun _ => rfl⟩
      have g1 : Good { s1 with log := n :: s1.log } (A ++ R) :=
        ⟨hlink, hnd1, fun x hx => by
          show x < s1.fresh
          rw [hv.1]; apply g.old
          rcases List.mem_append.1 hx with h | h
          · exact List.mem_append_left _ h
          · exact List.mem_append_right _ (List.mem_cons_of_mem _ h), by show 0 < s1.fresh; rw [hv.1]; exact g.pos⟩
      obtain ⟨s2, new1, ⟨F1, hF1⟩, g2, gr⟩ := acts_ok (beh := beh) (beh s1.log.length n) (hb _ _) g1
      have hgf : s.fresh ≤ s2.fresh := by have h1 := gr.fresh; have h2 := hv.1; simp only at h1; omega
      have hold2 : ∀ x, x < s.fresh → s2.node x = s1.node x := fun x hx => gr.old x (by show x < s1.fresh; rw [hv.1]; exact hx)
      have hRold : ∀ x ∈ R, x < s.fresh := fun x hx => g.old x (by simp [hx])
      have hsame2 : ∀ x, x < s.fresh → (s2.node x).marked = (s.node x).marked ∧ (s2.node x).obj = (s.node x).obj := by
        intro x hx
        rw [hold2 x hx]
        exact ⟨(hsame1 x).1, (hsame1 x).2.1⟩
      have hnew : ∀ x, x ∈ new1 ↔ s.fresh ≤ x ∧ x < s2.fresh := by
        intro x
        have := gr.mem x
        simp only [hv.1] at this
        exact this
      have hfm : R.filter (fun x => (s2.node x).marked) = R.filter (fun x => (s.node x).marked) :=
        filter_congr' (fun x hx => (hsame2 x (hRold x hx)).1)
      have hfu : R.filter (fun x => !(s2.node x).marked) = R.filter (fun x => !(s.node x).marked) :=
        filter_congr' (fun x hx => by rw [(hsame2 x (hRold x hx)).1])
      have hnm : new1.filter (fun x => (s2.node x).marked) = new1 :=
        List.filter_eq_self.2 (fun x hx => gr.marked x hx)
      have hnu : new1.filter (fun x => !(s2.node x).marked) = [] :=
        List.filter_eq_nil_iff.2 (fun x hx => by simp [gr.marked x hx])
      have hlog2 : s2.log = n :: s.log := by rw [gr.log]; show n :: s1.log = _; rw [hv.2]
      have hulen : (R.filter (fun x => !(s.node x).marked)).length < u := by
        rw [← hu]; simp [List.filter_cons, hm']
      have step : ∀ (j : Nat), F1 ≤ j → finalizeLoop (j + 1) beh s (first (n :: R)) (last A) =
          finalizeLoop j beh s2 (if last A = 0 then s2.fin else first R) (last A) := by
        intro j hj
        have h1 : acts j beh { s1 with log := n :: s1.log } (beh s1.log.length n) = some s2 := hF1 j hj
        simp only [finalizeLoop, first, List.headD_cons, if_neg hnpos, hm', if_true]
        simp only [hs1, Option.bind_some, h1]
        have hn2 : (s2.node n).next = first R := by
          rw [hold2 n hnold, (hsame1 n).2.2 hnA.1, hnext]
        rw [hn2]
        rfl
      by_cases hA : A = []
      · subst hA
        have hl0 : last ([] : List Nat) = 0 := rfl
        have g2' : Good s2 ([] ++ (new1 ++ R)) := by simpa using g2
        obtain ⟨s', new2, ⟨F2, hF2⟩, fz⟩ := ihu _ hulen _ [] (new1 ++ R) s2
          (by rw [List.filter_append, hnu, hfu]; rfl) rfl g2'
        have hfin2 : s2.fin = first (new1 ++ R) := nchain_first g2'.chain
        refine ⟨s', new2 ++ new1, ⟨max F1 F2 + 1, fun f hf => ?_⟩, ⟨?_, ?_, ?_, ?_, ?_⟩⟩
        · obtain ⟨j, rfl⟩ : ∃ j, f = j + 1 := ⟨f - 1, by omega⟩
          show finalizeLoop (j + 1) beh s (first (n :: R)) (last []) = _
          rw [step j (by omega), hl0, if_pos rfl, hfin2]
          exact hF2 j (by omega)
        · have := fz.good
          rw [List.filter_append, hnm, hfm] at this
          rw [List.filter_cons, if_neg (by simp [hm'])]
          simpa using this
        · rw [fz.log, List.filter_append, hnu, hfu, hlog2, List.filter_cons, if_pos (by simp [hm'])]
          simp
        · intro x hx
          have h1 := fz.same x (by omega)
          have h2 := hsame2 x hx
          exact ⟨h1.1.trans h2.1, h1.2.trans h2.2⟩
        · have := fz.fresh; omega
        · intro x
          rw [List.mem_append, fz.mem, hnew]
          have := fz.fresh
          omega
      · have hl : last A ≠ 0 := fun h => hA ((last_eq_zero (fun x hx => hpos x (List.mem_append_left _ hx))).1 h)
        have g2' : Good s2 ((new1 ++ A) ++ R) := by simpa using g2
        obtain ⟨s', new2, ⟨F2, hF2⟩, fz⟩ := ihu _ hulen _ (new1 ++ A) R s2 (by rw [hfu]) rfl g2'
        refine ⟨s', new2 ++ new1, ⟨max F1 F2 + 1, fun f hf => ?_⟩, ⟨?_, ?_, ?_, ?_, ?_⟩⟩
        · obtain ⟨j, rfl⟩ : ∃ j, f = j + 1 := ⟨f - 1, by omega⟩
          show finalizeLoop (j + 1) beh s (first (n :: R)) (last A) = _
          rw [step j (by omega), if_neg hl, ← last_append_of (A := new1) hA]
          exact hF2 j (by omega)
        · have := fz.good
          rw [hfm] at this
          rw [List.filter_cons, if_neg (by simp [hm'])]
          simpa using this
        · rw [fz.log, hfu, hlog2, List.filter_cons, if_pos (by simp [hm'])]
          simp
        · intro x hx
          have h1 := fz.same x (by omega)
          have h2 := hsame2 x hx
          exact ⟨h1.1.trans h2.1, h1.2.trans h2.2⟩
        · have := fz.fresh; omega
        · intro x
          rw [List.mem_append, fz.mem, hnew]
          have := fz.fresh
          omega

end Verif.Fin
