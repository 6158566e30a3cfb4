import Verif.Control.LemmasStatic

/-!
# C33 CASE labels, C34 FOR, C35 constant IF branches, C48 generated control flow
-/
namespace Verif.Control

open Spec

variable {σ : Type}

/-! ## C48 -/

/-- **C48.** For every accepted statement sequence whose CASE labels are 32-bit numbers: the generated C statements end, with the
same kind of end, in the same state and with the same trap, exactly if the statements do; no `break` or `goto` leaves them.
`t`: whatever the variables `@for` hold at the start. -/
theorem C48_translation (s : Ss σ) (hf : Fitss s) (he : (compile s).2 = []) (F : Nat) (x : σ) (t : Nat → Int) :
    (csems F none (compile s).1 (x, t)).map result = (execs F s x).map some := by
  rcases h1 : parses 0 0 s with ⟨c, k, e⟩
  rcases h2 : emits 0 none 0 c with ⟨cc, l, n⟩
  have hne := execs_ne (k := 0) s (by simpa [compile, h1] using he) F x
  simp only [compile, h1] at he
  subst he
  obtain ⟨_, hn, hsim⟩ := parses_ok s hf c k h1
  obtain ⟨_, hrel⟩ := emits_ok (lv := 0) (lab := none) (nof := 0) (by intro n hn; simp at hn) c hn cc l n h2
  have hs := hsim F x t
  have hr := hrel F (x, t)
  simp only [compile, h1, h2]
  unfold Sim at hs
  cases hx : execs F s x with
  | none =>
    rw [hx] at hs; simp only at hs
    rw [hs] at hr
    unfold Rel at hr
    simp only at hr
    rw [hr]; rfl
  | some r =>
    rw [hx] at hs
    cases r with
    | exit y => exact absurd hx (hne y)
    | _ =>
      simp only at hs
      obtain ⟨t', _, hs⟩ := hs
      rw [hs] at hr
      unfold Rel at hr
      simp only at hr
      rw [hr]; rfl

/-- **C48, the C text.** Labels in a C function are different, every `goto` has its label in the function, and every `break` is in
a loop or a switch. -/
theorem C48_labels (s : Ss σ) (hf : Fitss s) (he : (compile s).2 = []) :
    (labelss (compile s).1).Nodup ∧ (∀ n ∈ gotoss (compile s).1, n ∈ labelss (compile s).1) ∧ ¬ freeBreaks (compile s).1 := by
  rcases h1 : parses 0 0 s with ⟨c, k, e⟩
  rcases h2 : emits 0 none 0 c with ⟨cc, l, n⟩
  have hfree := parses_free (k := 0) s (by simpa [compile, h1] using he)
  simp only [compile, h1] at he
  subst he
  obtain ⟨_, hn, _⟩ := parses_ok s hf c k h1
  obtain ⟨g, _⟩ := emits_ok (lv := 0) (lab := none) (nof := 0) (by intro n hn; simp at hn) c hn cc l n h2
  rw [h1] at hfree
  obtain ⟨_, s2, s3, _⟩ := emits_static c cc l n h2
  obtain ⟨hl, hb⟩ := s3 hfree
  simp only [compile, h1, h2]
  refine ⟨g.nd, fun n hn => ?_, hb⟩
  rcases s2 n hn with h | h
  · exact h
  · rw [hl] at h; simp at h

/-- **C48.** The number of iterations allowed does not matter: what ends, ends in the same way with more. -/
theorem C48_fuel (s : Ss σ) (x : σ) (F F' : Nat) (hF : F ≤ F') (r : Res σ) (h : execs F s x = some r) : execs F' s x = some r :=
  execs_le hF s x r h

/-- An EXIT outside LOOP is an error. -/
theorem C48_exit (k : Nat) : (parse 0 k (St.exit : St σ)).2.2 = [46] := rfl

section Example
/-! `LOOP i := i + 1; CASE i OF 1..3: | 4: LOOP EXIT END; i := 10 ELSE WHILE TRUE DO EXIT END END END; IF FALSE THEN HALT(1) END` -/
def prog : Ss Int :=
  .cons (.loop (.cons (.act fun i => some (i + 1))
    (.cons (.case (fun i => some (i, i))
      (.cons [(1, 3)] .nil (.cons [(4, 4)] (.cons (.loop (.cons .exit .nil)) (.cons (.act fun _ => some 10) .nil)) .nil))
      true (.cons (.whileDo (fun i => some (true, i)) (.cons .exit .nil)) .nil)) .nil)))
  (.cons (.ifelse (.cons (.const false) (.cons (.halt 1) .nil) .nil) .nil) .nil)

example : Fitss prog ∧ (compile prog).2 = [] ∧ execs 20 prog 0 = some (.norm 11) ∧ labelss (compile prog).1 = [0] := by
  refine ⟨?_, rfl, rfl, rfl⟩
  simp [prog, Fitss, Fits, FitsCases, FitsIfs]
end Example

/-! ## C33 -/

/-- **C33.** A CASE statement whose labels are 32-bit numbers, less than 2^31 apart, and whose branches have no errors is accepted
exactly if its label ranges are legal: limits in order, no two ranges with a common number, in whatever order they are written, at
most 128 ranges, and at most 512 from the smallest to the largest label.  Missing: `C33_large_labels`, `C33_span`. -/
theorem C33_accepted_partial (d k : Nat) (x : σ → Option (Int × σ)) (cs : Cases σ) (e : Bool) (els : Ss σ)
    (h32 : In32 (ranges cs)) (hb : BranchesOk d cs) (he : ∀ k, (parses d k els).2.2 = [])
    (hs : ∀ a ∈ ranges cs, ∀ b ∈ ranges cs, a.2 - b.1 < 2 ^ 31) :
    (parse d k (.case x cs e els)).2.2 = [] ↔ Legal (ranges cs) := by
  have hiff := parseCases_iff cs k (fun _ => (0, 0)) 0 [] (holds_nil _) (by omega) h32 hb
  have hh := parseCases_holds cs k (fun _ => (0, 0)) 0 [] (holds_nil _) (by omega) (d := d) h32
  simp only [parse, List.append_eq_nil_iff, he, and_true]
  rcases hp : parseCases d k (fun _ => (0, 0)) 0 cs with ⟨c1, tab, n, k1, e1⟩
  rw [hp] at hiff hh
  simp only [List.not_mem_nil, false_imp_iff, implies_true, true_and, List.length_nil, Nat.zero_add, List.nil_append] at hiff hh ⊢
  constructor
  · rintro ⟨h1, h2⟩
    obtain ⟨a1, a2, a3⟩ := hiff.1 h1
    obtain ⟨b1, _⟩ := hh h1
    refine ⟨a1, a2, a3, ?_⟩
    intro a ha b hb
    have hn : 0 < n := by rw [← b1.len]; exact List.length_pos_of_mem ha
    obtain ⟨⟨r1, hr1, q1⟩, g1, ⟨r2, hr2, q2⟩, g2⟩ := holds_ends b1 hn
    have h3 := hs r2 hr2 r1 hr1
    have h4 := g1 b hb
    have h5 := g2 a ha
    have h6 := h32 r1 hr1
    have h7 := h32 r2 hr2
    have h8 := a1 r2 hr2
    have h9 := g1 r2 hr2
    simp only [caseRange, if_pos hn] at h2
    rw [longint_of (by omega) (by omega)] at h2
    by_cases hc : 512 < (tab (n - 1)).2 - (tab 0).1
    · rw [if_pos hc] at h2; simp at h2
    · omega
  · intro hl
    have h1 := hiff.2 ⟨hl.ordered, hl.disjoint, hl.count⟩
    refine ⟨h1, ?_⟩
    obtain ⟨b1, _⟩ := hh h1
    unfold caseRange
    by_cases hn : 0 < n
    · rw [if_pos hn]
      obtain ⟨⟨r1, hr1, q1⟩, g1, ⟨r2, hr2, q2⟩, g2⟩ := holds_ends b1 hn
      have h3 := hl.span r2 hr2 r1 hr1
      have h8 := hl.ordered r2 hr2
      have h9 := g1 r2 hr2
      rw [longint_of (by omega) (by omega), if_neg (by omega)]
    · rw [if_neg hn]

example : Legal (ranges (.cons [(5, 9), (1, 1)] .nil (.cons [(2, 4)] .nil .nil) : Cases Int)) := by
  refine ⟨by simp [ranges], ?_, by simp [ranges], by simp [ranges]⟩
  simp only [ranges, List.cons_append, List.nil_append, List.pairwise_cons, List.mem_cons, List.not_mem_nil, or_false, forall_eq_or_imp,
    forall_eq, Share, not_exists]
  refine ⟨⟨fun v => by omega, fun v => by omega⟩, fun v => by omega, by simp⟩

/-- **C33.** After any legal ranges the next range is reported as a duplicate exactly if it shares a number with one of them; and
nothing else is reported. -/
theorem C33_duplicate (rs : List (Int × Int)) (r : Int × Int) (tab : Nat → Int × Int) (h32 : In32 (rs ++ [r]))
    (hord : ∀ q ∈ rs ++ [r], q.1 ≤ q.2) (hdis : rs.Pairwise fun a b => ¬ Share a b) (hlen : rs.length < 128) :
    ((labelList (rs ++ [r]) tab 0).2.2.2 = [62] ↔ ∃ q ∈ rs, Share q r) ∧
    ((labelList (rs ++ [r]) tab 0).2.2.2 = [] ↔ ¬ ∃ q ∈ rs, Share q r) := by
  have happ : ∀ (a b : List (Int × Int)) (tab : Nat → Int × Int) (n : Nat), (labelList (a ++ b) tab n).2.2.2 =
      (labelList a tab n).2.2.2 ++ (labelList b (labelList a tab n).2.1 (labelList a tab n).2.2.1).2.2.2 := by
    intro a
    induction a with
    | nil => intros; rfl
    | cons p t ih =>
      intro b tab n
      obtain ⟨l, h⟩ := p
      simp only [List.cons_append, labelList, ih, List.append_assoc]
  have h0 : (labelList rs tab 0).2.2.2 = [] ∧ Holds (labelList rs tab 0).2.1 (labelList rs tab 0).2.2.1 rs := by
    obtain ⟨i1, i2⟩ := labelList_iff rs tab 0 [] (holds_nil _) (by omega) (fun q hq => h32 q (List.mem_append_left _ hq))
    have := i1.2 ⟨fun q hq => hord q (List.mem_append_left _ hq), by simp, hdis, by simp; omega⟩
    exact ⟨this, by simpa using i2 this⟩
  obtain ⟨x, y⟩ := r
  have hr := h32 (x, y) (List.mem_append_right _ (List.mem_singleton.2 rfl))
  have ho := hord (x, y) (List.mem_append_right _ (List.mem_singleton.2 rfl))
  simp only at hr ho
  obtain ⟨e1, e2, _⟩ := enter_ok h0.2 ho (by rw [← h0.2.len]; exact hlen)
  rw [happ, h0.1]
  simp only [List.nil_append, labelList, longint_of hr.1 hr.2.1, longint_of hr.2.2.1 hr.2.2.2, if_neg (show ¬ y < x by omega), List.append_nil]
  exact ⟨e1, e2⟩

/-- **C33.** In an accepted CASE statement the smallest and the largest label are computed exactly. -/
theorem C33_limits (d k : Nat) (cs : Cases σ) (h32 : In32 (ranges cs)) (tab0 : Nat → Int × Int)
    (c : Cases (T σ)) (tab : Nat → Int × Int) (n k' : Nat) (h : parseCases d k tab0 0 cs = (c, tab, n, k', [])) :
    n = (ranges cs).length ∧ (0 < n → (∃ r ∈ ranges cs, r.1 = (tab 0).1) ∧ (∀ r ∈ ranges cs, (tab 0).1 ≤ r.1) ∧
      (∃ r ∈ ranges cs, r.2 = (tab (n - 1)).2) ∧ (∀ r ∈ ranges cs, r.2 ≤ (tab (n - 1)).2)) := by
  have hh := parseCases_holds cs k tab0 0 [] (holds_nil _) (by omega) (d := d) h32 (by rw [h])
  rw [h] at hh
  simp only [List.nil_append] at hh
  exact ⟨hh.1.len.symm, fun hn => holds_ends hh.1 hn⟩

theorem nodup_expand (r : Int × Int) : (expand r).Nodup := by
  unfold expand
  rw [List.nodup_map_iff_inj_on List.nodup_range]
  intro a _ b _ h
  omega

theorem nodup_flat : ∀ (l : List (Int × Int)), l.Pairwise (fun a b => ¬ Share a b) → (l.flatMap expand).Nodup
  | [], _ => List.nodup_nil
  | r :: t, h => by
    rw [List.pairwise_cons] at h
    rw [List.flatMap_cons, List.nodup_append]
    refine ⟨nodup_expand r, nodup_flat t h.2, ?_⟩
    intro a ha b hb hab
    subst hab
    obtain ⟨q, hq, hq2⟩ := mem_labels.1 hb
    exact h.1 q hq ⟨a, mem_expand.1 ha, hq2⟩

theorem switchLabels_eq (lv : Nat) : ∀ (c : Cases σ) (lab : Option Nat) (nof : Nat), switchLabels (emitCases lv lab nof c).1 = (ranges c).flatMap expand
  | .nil, _, _ => rfl
  | .cons l b t, lab, nof => by simp only [emitCases, switchLabels, ranges, switchLabels_eq lv t, List.flatMap_append]

theorem ranges_eq {d : Nat} : ∀ (cs : Cases σ) (k : Nat) (tab : Nat → Int × Int) (n : Nat), In32 (ranges cs) → (parseCases d k tab n cs).2.2.2.2 = [] →
    ranges (parseCases d k tab n cs).1 = ranges cs
  | .nil, _, _, _, _, _ => rfl
  | .cons l b t, k, tab, n, h32, he => by
    simp only [ranges] at h32
    simp only [parseCases, List.append_eq_nil_iff] at he
    rcases hl : labelList l tab n with ⟨l0, tab0, n0, e0⟩
    rw [hl] at he
    simp only at he
    rw [he.1.1] at hl
    have := labelList_ok l tab n l0 tab0 n0 (fun r hr => h32 r (List.mem_append_left _ hr)) hl
    simp only [parseCases, ranges, hl, this]
    rw [ranges_eq t _ _ _ (fun r hr => h32 r (List.mem_append_right _ hr)) he.2]

/-- **C33.** The labels of the C switch of an accepted CASE statement are different, and they are exactly the numbers in the
ranges. -/
theorem C33_switch (d k lv nof : Nat) (lab : Option Nat) (cs : Cases σ) (h32 : In32 (ranges cs))
    (he : (parseCases d k (fun _ => (0, 0)) 0 cs).2.2.2.2 = []) :
    (switchLabels (emitCases lv lab nof (parseCases d k (fun _ => (0, 0)) 0 cs).1).1).Nodup ∧
    ∀ v, v ∈ switchLabels (emitCases lv lab nof (parseCases d k (fun _ => (0, 0)) 0 cs).1).1 ↔ ∃ r ∈ ranges cs, r.1 ≤ v ∧ v ≤ r.2 := by
  have hh := parseCases_holds cs k (fun _ => (0, 0)) 0 [] (holds_nil _) (by omega) (d := d) h32 he
  rw [switchLabels_eq, ranges_eq cs k _ 0 h32 he]
  exact ⟨nodup_flat _ hh.2.1, fun v => mem_labels⟩

/-- After a first duplicate a second one can go unnoticed: 8..9 is in 1..10, and only 3..4 is reported. -/
theorem C33_second_duplicate : (labelList [(1, 10), (3, 4), (8, 9)] (fun _ => (0, 0)) 0).2.2.2 = [62] := by decide

/-- Labels outside 32 bits are cut off: 0 and 2^32 are reported as duplicates; `2^32: …` alone is accepted, and gets no C label;
the branch is never executed. -/
theorem C33_large_labels : (labelList [(0, 0), (4294967296, 4294967296)] (fun _ => (0, 0)) 0).2.2.2 = [62] ∧
    (∀ b : Ss Int, (∀ k, (parses 0 k b).2.2 = []) → (parse 0 0 (.case (fun s => some (s, s)) (.cons [(4294967296, 4294967296)] b .nil) true .nil)).2.2 = []) ∧
    (emitCases 1 none 0 (parseCases 0 0 (fun _ => (0, 0)) 0 (.cons [(4294967296, 4294967296)] .nil .nil : Cases Int)).1).1 =
      .cons [] (.cons .brk .nil) .nil := by
  refine ⟨by decide, ?_, rfl⟩
  intro b hb
  have h0 : (labelList [((4294967296 : Int), (4294967296 : Int))] (fun _ => (0, 0)) 0).2.2.2 = [] := by decide
  have h1 : caseRange (labelList [((4294967296 : Int), (4294967296 : Int))] (fun _ => (0, 0)) 0).2.1
    (labelList [((4294967296 : Int), (4294967296 : Int))] (fun _ => (0, 0)) 0).2.2.1 = [] := by decide
  simp only [parse, parseCases, parses, hb, h0, h1, List.append_nil]

/-- A range with a limit outside 32 bits becomes another range: `0 .. 4294967301` becomes `0 .. 5`, without an error. -/
theorem C33_large_limit : (labelList [(0, 4294967301)] (fun _ => (0, 0)) 0).1 = [(0, 5)] ∧
    (labelList [(0, 4294967301)] (fun _ => (0, 0)) 0).2.2.2 = [] := by decide

/-- The span is computed with 32 bits: labels more than 2^31 apart are not reported. -/
theorem C33_span : (parse 0 0 (.case (fun s => some (s, s)) (.cons [(-2147483648, -2147483648), (2147483647, 2147483647)] .nil .nil) true .nil : St Int)).2.2 = [] := by
  decide

/-! ## C34 -/

/-- **C34.** How often: the body is executed for the i-th time (counting from 0) exactly if a + i * step does not pass b. -/
theorem C34_count (a b step : Int) (hs : step ≠ 0) (i : Nat) :
    i < forCount a b step ↔ (0 < step ∧ a + i * step ≤ b) ∨ (step < 0 ∧ b ≤ a + i * step) := forCount_iff hs i

theorem for_run {v : Var σ} {lo hi A B step : Int} (hs : step ≠ 0)
    (hget : ∀ x s, lo ≤ x → x ≤ hi → v.get (v.set x s) = x) (har : ∀ x, lo ≤ x → x ≤ hi → v.arith x = some x)
    (hA : lo ≤ A ∧ A ≤ hi) (hB : lo ≤ B + step ∧ B + step ≤ hi) {g : σ → σ} {body : σ → Option (Res σ)} {s : σ}
    (hbody : ∀ i, i < forCount A B step → body (forEnd v A step g i s) = some (.norm (g (forEnd v A step g i s))) ∧
      v.get (g (forEnd v A step g i s)) = v.get (forEnd v A step g i s)) :
    ∀ (m f i : Nat), i + m = forCount A B step → m < f →
      for' v B step body f (forEnd v A step g i s) = some (.norm (forEnd v A step g (forCount A B step) s)) ∧
      v.get (forEnd v A step g i s) = A + i * step := by
  have hin : ∀ i : Nat, i ≤ forCount A B step → lo ≤ A + i * step ∧ A + i * step ≤ hi := by
    intro i hi'
    cases i with
    | zero => simpa using hA
    | succ i =>
      have := (forCount_iff hs (a := A) (b := B) i).1 (by omega)
      have hexp : A + ((i + 1 : Nat) : Int) * step = A + i * step + step := by push_cast; ring
      rw [hexp]
      rcases this with ⟨h1, h2⟩ | ⟨h1, h2⟩
      · have h3 : 0 ≤ (i : Int) * step := Int.mul_nonneg (by omega) (by omega)
        omega
      · have h3 : (i : Int) * step ≤ 0 := Int.mul_nonpos_of_nonneg_of_nonpos (by omega) (by omega)
        omega
  have hval : ∀ i : Nat, i ≤ forCount A B step → v.get (forEnd v A step g i s) = A + i * step := by
    intro i hi'
    cases i with
    | zero => simp only [forEnd, List.range_zero, List.foldl_nil]; rw [hget _ _ hA.1 hA.2]; simp
    | succ i =>
      have h1 := hin (i + 1) hi'
      rw [forEnd_succ, hget _ _ (by push_cast at h1; exact h1.1) (by push_cast at h1; exact h1.2)]
      push_cast; rfl
  intro m
  induction m with
  | zero =>
    intro f i hi' hf
    obtain ⟨f, rfl⟩ : ∃ f', f = f' + 1 := ⟨f - 1, by omega⟩
    refine ⟨?_, hval i (by omega)⟩
    have hi0 : i = forCount A B step := by omega
    have hno : ¬ i < forCount A B step := by omega
    rw [forCount_iff hs] at hno
    simp only [for', hval i (by omega)]
    rw [if_neg hno, ← hi0]
  | succ m ih =>
    intro f i hi' hf
    obtain ⟨f, rfl⟩ : ∃ f', f = f' + 1 := ⟨f - 1, by omega⟩
    refine ⟨?_, hval i (by omega)⟩
    have hlt : i < forCount A B step := by omega
    obtain ⟨b1, b2⟩ := hbody i hlt
    have h1 := hin (i + 1) (by omega)
    have hexp : A + ((i + 1 : Nat) : Int) * step = A + i * step + step := by push_cast; ring
    simp only [for', hval i (by omega)]
    rw [if_pos ((forCount_iff hs i).1 hlt), b1]
    simp only [Option.bind_some]
    rw [b2, hval i (by omega), ← hexp, har _ h1.1 h1.2]
    simp only [Option.bind_some]
    have := (ih f (i + 1) (by omega) (by omega)).1
    rw [forEnd_succ] at this
    push_cast at this ⊢
    exact this

/-- **C34.** The C statements for `FOR v := a TO b BY step DO body END`: b is evaluated once, then a; the body, which does `g` and
does not change v, is executed for v = A, A + step, … as long as B is not passed (`C34_count`), and v ends with the first value that
passes B.  Provided that A and B + step are representable in the type of v (`lo` to `hi`). -/
theorem C34_for (v : Var σ) (lo hi : Int) (hget : ∀ x s, lo ≤ x → x ≤ hi → v.get (v.set x s) = x)
    (har : ∀ x, lo ≤ x → x ≤ hi → v.arith x = some x) (a : σ → Option (Int × σ)) (b : Expr σ) (step : Int) (hs : step ≠ 0)
    (body : Ss σ) (hf : Fitss body) (he : (compile (.cons (.forTo v a b step body) .nil)).2 = [])
    (s0 s1 s2 : σ) (A B : Int) (hb : b.eval s0 = some (B, s1)) (ha : a s1 = some (A, s2))
    (hA : lo ≤ A ∧ A ≤ hi) (hB : lo ≤ B + step ∧ B + step ≤ hi) (g : σ → σ) (F : Nat) (hF : forCount A B step < F)
    (hbody : ∀ i, i < forCount A B step → execs F body (forEnd v A step g i s2) = some (.norm (g (forEnd v A step g i s2))) ∧
      v.get (g (forEnd v A step g i s2)) = v.get (forEnd v A step g i s2)) (t : Nat → Int) :
    (csems F none (compile (.cons (.forTo v a b step body) .nil)).1 (s0, t)).map result =
      some (some (.norm (forEnd v A step g (forCount A B step) s2))) ∧
    ∀ i, i ≤ forCount A B step → v.get (forEnd v A step g i s2) = A + i * step := by
  have hrun := for_run hs hget har hA hB (body := fun s => execs F body s) (s := s2) (g := g) hbody
  constructor
  · rw [C48_translation _ (by simp only [Fitss, Fits]; exact ⟨hf, trivial⟩) he]
    simp only [execs, exec, hb, ha, Option.bind_some]
    have := (hrun (forCount A B step) F 0 (by omega) hF).1
    simp only [forEnd, List.range_zero, List.foldl_nil] at this
    rw [this]
    rfl
  · intro i hi'
    exact (hrun (forCount A B step - i) (forCount A B step - i + 1) i (by omega) (by omega)).2

/-- The state of an example: the loop variable of type INT8, whose arithmetic wraps, and a list of what the body saw. -/
def v8 : Var (Int × List Int) where
  get s := s.1
  set x s := (x, s.2)
  arith x := some ((x + 128) % 256 - 128)

def see (s : Int × List Int) : Int × List Int := (s.1, s.1 :: s.2)

/-- `FOR v := 10 TO f() BY -3 DO see END`, with f() = -2 -/
def for8 : Ss (Int × List Int) :=
  .cons (.forTo v8 (fun s => some (10, s)) (.dyn fun s => some (-2, s)) (-3) (.cons (.act fun s => some (see s)) .nil)) .nil

example (t : Nat → Int) : (csems 6 none (compile for8).1 ((0, []), t)).map result =
    some (some (.norm (-5, [-2, 1, 4, 7, 10]))) := by
  have := (C34_for v8 (-128) 127 (fun _ _ _ _ => rfl) (fun x h1 h2 => by simp only [v8]; congr 1; omega) (fun s => some (10, s))
    (.dyn fun s => some (-2, s)) (-3) (by decide) (.cons (.act fun s => some (see s)) .nil) ⟨trivial, trivial⟩ rfl (0, []) (0, []) (0, []) 10 (-2)
    rfl rfl (by decide) (by decide) see 6 (by decide) (fun i _ => ⟨rfl, rfl⟩) t).1
  exact this

/-- Without the proviso: `FOR v := 0 TO MAX(INT8)` never ends. -/
theorem C34_never_ends (F : Nat) (t : Nat → Int) :
    csems F none (compile (.cons (.forTo v8 (fun s => some (0, s)) (.const 127) 1 .nil) .nil)).1 ((0, []), t) = none := by
  have h1 : ∀ (f : Nat) (s : Int × List Int), -128 ≤ s.1 ∧ s.1 ≤ 127 → for' v8 127 1 (fun s => execs F .nil s) f s = none := by
    intro f
    induction f with
    | zero => intros; rfl
    | succ f ih =>
      intro s hs
      have hc : (0 < (1 : Int) ∧ v8.get s ≤ 127) ∨ ((1 : Int) < 0 ∧ 127 ≤ v8.get s) := Or.inl ⟨by omega, hs.2⟩
      rw [for', if_pos hc]
      simp only [execs, Option.bind_some]
      have := ih (v8.set ((v8.get s + 1 + 128) % 256 - 128) s) (by simp only [v8]; omega)
      simp only [execs] at this
      exact this
  have h2 := C48_translation (.cons (.forTo v8 (fun s => some (0, s)) (.const 127) 1 .nil) .nil) ⟨trivial, trivial⟩ rfl F (0, []) t
  simp only [execs, exec, Expr.eval, Option.bind_some] at h2
  have h3 := h1 F (v8.set 0 (0, [])) (by simp [v8])
  simp only [execs] at h3
  rw [h3] at h2
  simpa using h2

/-! ## C35 -/

/-- **C35.** Dropping branches with constant conditions leaves the effect of every IF statement unchanged: what is executed, and all
effects of the conditions evaluated before. -/
theorem C35_effect (F : Nat) (c : Ifs σ) (els : Ss σ) (s : σ) : execs F (optIf c els) s = exec F (.ifelse c els) s := by
  rw [optIf_ok]; simp only [exec]

theorem optRest_dyn : ∀ (c : Ifs σ) (els : Ss σ), AllDyn (optRest c els).1
  | .nil, _ => trivial
  | .cons c b t, els => by
    cases c with
    | const v =>
      cases v with
      | true => trivial
      | false => simp only [optRest]; exact optRest_dyn t els
    | dyn f => simp only [optRest]; exact ⟨⟨f, rfl⟩, optRest_dyn t els⟩

/-- **C35.** And all of them are dropped: what is left is the ELSE part, a branch, or an IF without constant conditions. -/
theorem C35_all : ∀ (c : Ifs σ) (els : Ss σ), optIf c els = els ∨ optIf c els ∈ branches c ∨
    ∃ c' els', optIf c els = .cons (.ifelse c' els') .nil ∧ AllDyn c'
  | .nil, els => Or.inl rfl
  | .cons c b t, els => by
    cases c with
    | const v =>
      cases v with
      | true => exact Or.inr (Or.inl List.mem_cons_self)
      | false =>
        simp only [optIf]
        rcases C35_all t els with h | h | h
        · exact Or.inl h
        · exact Or.inr (Or.inl (List.mem_cons_of_mem _ h))
        · exact Or.inr (Or.inr h)
    | dyn f =>
      simp only [optIf]
      exact Or.inr (Or.inr ⟨_, _, rfl, ⟨f, rfl⟩, optRest_dyn t els⟩)

/-- IF FALSE THEN HALT(1) ELSIF x < 5 THEN HALT(2) ELSIF TRUE THEN HALT(3) ELSE HALT(4) END -/
example : optIf (.cons (.const false) (.cons (.halt 1) .nil) (.cons (.dyn fun x => some (decide (x < 5), x)) (.cons (.halt 2) .nil)
    (.cons (.const true) (.cons (.halt 3) .nil) .nil))) (.cons (.halt 4) .nil : Ss Int) =
    .cons (.ifelse (.cons (.dyn fun x => some (decide (x < 5), x)) (.cons (.halt 2) .nil) .nil) (.cons (.halt 3) .nil)) .nil := rfl

end Verif.Control
