import Verif.Registry.Props

/-!
# The initialization of modules (C46)
-/
namespace Verif.Registry

/-- How often module `j` is imported by the modules in `l`. -/
def uses (prog : Prog) (j : Nat) (l : List Nat) : Nat := (l.map fun x => (prog x).imports.count j).sum

/-- What holds throughout the initialization. -/
structure Good (prog : Prog) (s : IS) (h : List Op) : Prop where
  run : Run h s.reg
  st : ∀ j, s.st j ≠ 0 ↔ j ∈ s.log
  le : ∀ j, s.st j ≤ regs h
  inj : ∀ i j, s.st i ≠ 0 → s.st i = s.st j → i = j
  ids : ∀ m, 1 ≤ m → m ≤ regs h → ∃ j ∈ s.log, s.st j = m
  nodup : s.log.Nodup
  order : ∀ l1 j l2, s.log = l1 ++ j :: l2 → ∀ i ∈ (prog j).imports, i ∈ l2
  entry : ∀ j ∈ s.log, ∃ e ∈ spec h, e.id = s.st j ∧ e.name = (prog j).name
  cmds : ∀ j ∈ s.log, commands (s.st j) h = (prog j).cmds.reverse
  only : (∀ n, Op.reg n ∈ h → ∃ j ∈ s.log, n = (prog j).name) ∧
    ∀ m n c, Op.cmd m n c ∈ h → ∃ j ∈ s.log, (n, c) ∈ (prog j).cmds

/-- The state after some steps: `new` modules have been initialized, `hn` has happened to the registry, and the modules in
`ex` have been imported by a module not yet initialized. -/
structure Ext (prog : Prog) (s : IS) (h : List Op) (s' : IS) (h' : List Op) (new : List Nat) (hn : List Op) (ex : List Nat) :
    Prop where
  good : Good prog s' h'
  log : s'.log = new ++ s.log
  hist : h' = hn ++ h
  keep : ∀ j ∈ s.log, s'.st j = s.st j
  exIn : ∀ i ∈ ex, i ∈ s'.log
  cnt : ∀ j ∈ s'.log, imports (s'.st j) hn = uses prog j new + ex.count j

theorem imports_append (m : Nat) (a b : List Op) : imports m (a ++ b) = imports m a + imports m b := by
  simp [imports]

theorem uses_append (prog : Prog) (j : Nat) (a b : List Nat) : uses prog j (a ++ b) = uses prog j a + uses prog j b := by
  simp [uses]

theorem Good.imports_in {prog : Prog} {s : IS} {h : List Op} (g : Good prog s h) {x i : Nat} (hx : x ∈ s.log)
    (hi : i ∈ (prog x).imports) : i ∈ s.log := by
  obtain ⟨l1, l2, e⟩ := List.append_of_mem hx
  rw [e]
  have := g.order l1 x l2 e i hi
  simp [this]

theorem Good.uses_zero {prog : Prog} {s : IS} {h : List Op} (g : Good prog s h) {j : Nat} (hj : j ∉ s.log) {l : List Nat}
    (hl : ∀ x ∈ l, x ∈ s.log) : uses prog j l = 0 := by
  induction l with
  | nil => rfl
  | cons x l ih =>
    have h1 : (prog x).imports.count j = 0 := List.count_eq_zero.2 fun h => hj (g.imports_in (hl x (by simp)) h)
    have h2 := ih fun y hy => hl y (by simp [hy])
    simp only [uses, List.map_cons, List.sum_cons] at h2 ⊢
    omega

theorem Ext.new_id {prog : Prog} {s s' : IS} {h h' hn : List Op} {new ex : List Nat} (g : Good prog s h)
    (e : Ext prog s h s' h' new hn ex) {j : Nat} (hj : j ∈ s'.log) (hj' : j ∉ s.log) : regs h < s'.st j := by
  by_contra hc
  have h0 := (e.good.st j).2 hj
  obtain ⟨i, hi, hi'⟩ := g.ids (s'.st j) (by omega) (by omega)
  rw [← e.keep i hi] at hi'
  have h1 : s'.st i ≠ 0 := by omega
  have := e.good.inj i j h1 hi'
  subst this
  exact hj' hi

theorem Ext.refl {prog : Prog} {s : IS} {h : List Op} (g : Good prog s h) : Ext prog s h s h [] [] [] :=
  ⟨g, rfl, rfl, fun _ _ => rfl, by simp, fun j _ => by simp [imports, uses]⟩

theorem Ext.trans {prog : Prog} {s s1 s2 : IS} {h h1 h2 hn1 hn2 : List Op} {new1 new2 ex1 ex2 : List Nat}
    (e1 : Ext prog s h s1 h1 new1 hn1 ex1) (e2 : Ext prog s1 h1 s2 h2 new2 hn2 ex2) :
    Ext prog s h s2 h2 (new2 ++ new1) (hn2 ++ hn1) (ex1 ++ ex2) := by
  refine ⟨e2.good, by rw [e2.log, e1.log]; simp, by rw [e2.hist, e1.hist]; simp, ?_, ?_, ?_⟩
  · intro j hj
    rw [e2.keep j (by rw [e1.log]; simp [hj]), e1.keep j hj]
  · intro i hi
    rcases List.mem_append.1 hi with hi | hi
    · rw [e2.log]; simp [e1.exIn i hi]
    · exact e2.exIn i hi
  · intro j hj
    rw [imports_append, uses_append, List.count_append, e2.cnt j hj]
    by_cases hj1 : j ∈ s1.log
    · rw [e2.keep j hj1, e1.cnt j hj1]; omega
    · have a1 : uses prog j new1 = 0 := e1.good.uses_zero hj1 fun x hx => by rw [e1.log]; simp [hx]
      have a2 : ex1.count j = 0 := List.count_eq_zero.2 fun h => hj1 (e1.exIn j h)
      have a3 := e2.new_id e1.good hj hj1
      have a4 := (none_old e1.good.run a3).1
      have a5 : imports (s2.st j) hn1 = 0 := by
        rw [e1.hist, imports_append] at a4; omega
      omega

theorem spec_imp_mem {h : List Op} {m : Nat} {e : Entry} (he : e ∈ spec h) :
    ∃ e' ∈ spec (.imp m :: h), e'.id = e.id ∧ e'.name = e.name := by
  refine ⟨_, List.mem_map.2 ⟨e, he, rfl⟩, ?_⟩
  constructor <;> split <;> rfl

theorem ext_imp {prog : Prog} {s : IS} {h : List Op} (g : Good prog s h) {i : Nat} (hi : i ∈ s.log) :
    Ext prog s h ⟨incRef s.reg (s.st i), s.st, s.log⟩ (.imp (s.st i) :: h) [] [.imp (s.st i)] [i] := by
  have h0 := (g.st i).2 hi
  have hle := g.le i
  refine ⟨⟨Run.imp g.run (by omega) hle, g.st, g.le, g.inj, g.ids, g.nodup, g.order, ?_, g.cmds, ?_⟩, rfl, rfl, fun _ _ => rfl,
    by simpa using hi, ?_⟩
  · intro j hj
    obtain ⟨e, he, h1, h2⟩ := g.entry j hj
    obtain ⟨e', he', h3, h4⟩ := spec_imp_mem (m := s.st i) he
    exact ⟨e', he', h3.trans h1, h4.trans h2⟩
  · exact ⟨fun n hn => g.only.1 n (by simpa using hn), fun m n c hn => g.only.2 m n c (by simpa using hn)⟩
  · intro j hj
    simp only [imports, uses, List.map_nil, List.sum_nil, Nat.zero_add]
    by_cases hij : i = j
    · subst hij; simp
    · have : s.st i ≠ s.st j := fun h => hij (g.inj i j h0 h)
      rw [List.count_cons_of_ne (by simpa using this), List.count_cons_of_ne (by simpa using hij)]
      rfl

/-- The operations of the calls of `__REGCMD`. -/
theorem run_regCmds {m : Nat} : ∀ (cs : List (Name × Nat)) {s : RS} {h : List Op}, Run h s → 1 ≤ m → m ≤ regs h →
    ∃ hn, Run (hn ++ h) (regCmds s m cs) ∧ regs (hn ++ h) = regs h ∧ (∀ k, imports k hn = 0) ∧
      (∀ k, commands k (hn ++ h) = (if k = m then cs.reverse else []) ++ commands k h) ∧
      (∀ e ∈ spec h, ∃ e' ∈ spec (hn ++ h), e'.id = e.id ∧ e'.name = e.name) ∧
      (∀ n, Op.reg n ∉ hn) ∧ ∀ k n c, Op.cmd k n c ∈ hn → (n, c) ∈ cs
  | [], s, h, hr, _, _ => ⟨[], hr, rfl, fun _ => rfl, fun k => by simp, fun e he => ⟨e, he, rfl, rfl⟩, by simp, by simp⟩
  | (n, c) :: cs, s, h, hr, h1, h2 => by
    obtain ⟨hn, i1, i2, i3, i4, i5, i6, i7⟩ := run_regCmds cs (Run.cmd n c hr h1 h2) h1 h2
    refine ⟨hn ++ [.cmd m n c], by simpa [regCmds] using i1, by simpa [regs] using i2, ?_, ?_, ?_, ?_, ?_⟩
    · intro k
      rw [imports_append, i3 k]
      simp [imports]
    · intro k
      have := i4 k
      simp only [List.append_assoc, List.cons_append, List.nil_append]
      rw [this]
      simp only [commands]
      by_cases hk : k = m
      · rw [if_pos hk, if_pos hk.symm, if_pos hk]; simp
      · rw [if_neg hk, if_neg (fun h => hk h.symm), if_neg hk]
    · intro e he
      have he' : (if e.id = m then { e with cmds := (n, c) :: e.cmds } else e) ∈ spec (.cmd m n c :: h) :=
        List.mem_map.2 ⟨e, he, rfl⟩
      obtain ⟨e', hm, q1, q2⟩ := i5 _ he'
      refine ⟨e', by simpa using hm, q1.trans ?_, q2.trans ?_⟩ <;> split <;> rfl
    · intro k hk
      rcases List.mem_append.1 hk with hk | hk
      · exact i6 k hk
      · simp at hk
    · intro k n' c' hk
      rcases List.mem_append.1 hk with hk | hk
      · exact List.mem_cons_of_mem _ (i7 k n' c' hk)
      · simp only [List.mem_singleton, Op.cmd.injEq] at hk
        simp [hk.2]

theorem ext_reg {prog : Prog} {s : IS} {h : List Op} (g : Good prog s h) {k : Nat} (hk : k ∉ s.log)
    (hi : ∀ i ∈ (prog k).imports, i ∈ s.log) : ∃ hn,
    Good prog ⟨regCmds (regMod s.reg (prog k).name).1 (regMod s.reg (prog k).name).2 (prog k).cmds,
      fun j => if j = k then (regMod s.reg (prog k).name).2 else s.st j, k :: s.log⟩ (hn ++ h) ∧
      (∀ m, imports m hn = 0) ∧ (regMod s.reg (prog k).name).2 = regs h + 1 := by
  have hfm : ∀ {h : List Op} {s : RS}, Run h s → s.fm = regs h + 1 := by
    intro h s hr
    induction hr with
    | init => rfl
    | reg n _ ih => simp only [regMod, regs]; omega
    | cmd n c _ _ _ ih => exact ih
    | imp _ _ _ ih => exact ih
    | @free h s s' n r _ hev ih =>
      obtain ⟨F, hF⟩ := hev
      have := hF F (Nat.le_refl _)
      simp only [freeModule, Option.bind_eq_some_iff] at this
      obtain ⟨⟨m, p⟩, _, h2⟩ := this
      simp only at h2
      simp only [regs]
      rw [← ih]
      split at h2
      · split at h2
        · simp only [Option.some.injEq, Prod.mk.injEq] at h2; rw [← h2.1]
        · simp only [Option.some.injEq, Prod.mk.injEq] at h2; rw [← h2.1]
      · split at h2
        · simp only [Option.some.injEq, Prod.mk.injEq] at h2; rw [← h2.1]
        · simp only [Option.some.injEq, Prod.mk.injEq] at h2; rw [← h2.1]
  have hid : (regMod s.reg (prog k).name).2 = regs h + 1 := by simp only [regMod]; exact hfm g.run
  have hr := Run.reg (prog k).name g.run
  obtain ⟨hn, i1, i2, i3, i4, i5, i6, i7⟩ := run_regCmds (m := regs h + 1) (prog k).cmds hr (by omega) (by simp [regs])
  have hk0 : s.st k = 0 := by
    by_contra hc
    exact hk ((g.st k).1 hc)
  refine ⟨hn ++ [.reg (prog k).name], ?_, ?_, hid⟩
  · rw [hid]
    simp only [List.append_assoc, List.cons_append, List.nil_append]
    have hregs : regs (hn ++ .reg (prog k).name :: h) = regs h + 1 := by rw [i2]; rfl
    refine ⟨i1, ?_, ?_, ?_, ?_, ?_, ?_, ?_, ?_, ?_⟩
    · intro j
      simp only [List.mem_cons]
      by_cases hj : j = k
      · simp [hj]
      · simp only [if_neg hj, hj, false_or]; exact g.st j
    · intro j
      rw [hregs]
      by_cases hj : j = k
      · simp [hj]
      · simp only [if_neg hj]; have := g.le j; omega
    · intro i j h1 h2
      by_cases hi' : i = k <;> by_cases hj : j = k
      · omega
      · exfalso
        simp only [if_pos hi', if_neg hj] at h2
        have := g.le j; omega
      · exfalso
        simp only [if_neg hi', if_pos hj] at h2
        have := g.le i; omega
      · simp only [if_neg hi', if_neg hj] at h1 h2
        exact g.inj i j h1 h2
    · intro m h1 h2
      rw [hregs] at h2
      by_cases hm : m = regs h + 1
      · exact ⟨k, by simp, by simp [hm]⟩
      · obtain ⟨j, hj, hj'⟩ := g.ids m h1 (by omega)
        refine ⟨j, by simp [hj], ?_⟩
        have : j ≠ k := fun h => hk (h ▸ hj)
        simp only [if_neg this]; exact hj'
    · exact List.nodup_cons.2 ⟨hk, g.nodup⟩
    · intro l1 j l2 he i hi'
      cases l1 with
      | nil =>
        simp only [List.nil_append, List.cons.injEq] at he
        rw [← he.1] at hi'
        rw [← he.2]
        exact hi i hi'
      | cons x l1 =>
        simp only [List.cons_append, List.cons.injEq] at he
        exact g.order l1 j l2 he.2 i hi'
    · intro j hj
      by_cases hjk : j = k
      · obtain ⟨e', he', q1, q2⟩ := i5 ⟨regs h + 1, (prog k).name, 0, []⟩ (by simp [spec])
        exact ⟨e', he', by simp only [if_pos hjk]; exact q1, by rw [hjk]; exact q2⟩
      · have hj' : j ∈ s.log := by simpa [hjk] using hj
        obtain ⟨e, he, h1, h2⟩ := g.entry j hj'
        obtain ⟨e', he', q1, q2⟩ := i5 e (by simp [spec, he])
        exact ⟨e', he', by simp only [if_neg hjk]; exact q1.trans h1, q2.trans h2⟩
    · intro j hj
      by_cases hjk : j = k
      · subst hjk
        simp only [if_true]
        rw [i4, if_pos rfl]
        have := (none_old hr (m := regs h + 2) (by simp [regs]))
        have h3 : commands (regs h + 1) (.reg (prog j).name :: h) = [] := by
          simp only [commands]
          exact (none_old g.run (by omega)).2
        rw [h3]; simp
      · have hj' : j ∈ s.log := by simpa [hjk] using hj
        simp only [if_neg hjk]
        have hle := g.le j
        rw [i4, if_neg (by omega)]
        simp only [commands, List.nil_append]
        exact g.cmds j hj'
    · constructor
      · intro n hn'
        rcases List.mem_append.1 hn' with hn' | hn'
        · exact absurd hn' (i6 n)
        · rcases List.mem_cons.1 hn' with hn' | hn'
          · exact ⟨k, by simp, by simpa using hn'⟩
          · obtain ⟨j, hj, hj'⟩ := g.only.1 n hn'
            exact ⟨j, by simp [hj], hj'⟩
      · intro m n c hn'
        rcases List.mem_append.1 hn' with hn' | hn'
        · exact ⟨k, by simp, i7 m n c hn'⟩
        · have hn'' : Op.cmd m n c ∈ h := by simpa using hn'
          obtain ⟨j, hj, hj'⟩ := g.only.2 m n c hn''
          exact ⟨j, by simp [hj], hj'⟩
  · intro m
    rw [imports_append, i3]
    simp [imports]

theorem Needs.rank {prog : Prog} {rank : Nat → Nat} (hr : ∀ k, ∀ i ∈ (prog k).imports, rank i < rank k) {k j : Nat}
    (h : Needs prog k j) : rank j ≤ rank k := by
  induction h with
  | refl k => exact Nat.le_refl _
  | step hi _ ih => have := hr _ _ hi; omega

theorem Needs.closed {prog : Prog} {s : IS} {h : List Op} (g : Good prog s h) {k j : Nat} (hn : Needs prog k j)
    (hk : k ∈ s.log) : j ∈ s.log := by
  induction hn with
  | refl k => exact hk
  | step hi _ ih => exact ih (g.imports_in hk hi)

/-- The modules imported. -/
theorem initImports_ok {prog : Prog} : ∀ (is : List Nat),
    (∀ i ∈ is, ∀ (s : IS) (h : List Op), Good prog s h → ∃ s' h' new hn, (∃ F, ∀ f, F ≤ f → initMod f prog s i = some (s', s'.st i)) ∧
      Ext prog s h s' h' new hn [] ∧ i ∈ s'.log ∧ ∀ j ∈ new, Needs prog i j) →
    ∀ (s : IS) (h : List Op), Good prog s h →
    ∃ s' h' new hn, (∃ F, ∀ f, F ≤ f → initImports f prog s is = some s') ∧ Ext prog s h s' h' new hn is ∧
      ∀ j ∈ new, ∃ i ∈ is, Needs prog i j
  | [], _, s, h, g => by
    refine ⟨s, h, [], [], ⟨1, fun f hf => ?_⟩, Ext.refl g, by simp⟩
    obtain ⟨n, rfl⟩ : ∃ n, f = n + 1 := ⟨f - 1, by omega⟩
    rfl
  | i :: is, hall, s, h, g => by
    obtain ⟨s1, h1, new1, hn1, ⟨F1, hF1⟩, e1, hi, hnd⟩ := hall i (by simp) s h g
    have e2 := ext_imp e1.good hi
    obtain ⟨s3, h3, new3, hn3, ⟨F3, hF3⟩, e3, hnd3⟩ := initImports_ok is (fun j hj => hall j (by simp [hj])) _ _ e2.good
    refine ⟨s3, h3, _, _, ⟨max F1 F3 + 1, fun f hf => ?_⟩, (e1.trans e2).trans e3, ?_⟩
    · obtain ⟨n, rfl⟩ : ∃ n, f = n + 1 := ⟨f - 1, by omega⟩
      simp only [initImports, hF1 n (by omega), Option.bind_some, hF3 n (by omega)]
    · intro j hj
      simp only [List.nil_append, List.mem_append] at hj
      rcases hj with hj | hj
      · obtain ⟨x, hx, hx'⟩ := hnd3 j hj
        exact ⟨x, by simp [hx], hx'⟩
      · exact ⟨i, by simp, hnd j hj⟩

/-- Registration of a module after its imports. -/
theorem ext_register {prog : Prog} {rank : Nat → Nat} (hrk : ∀ k, ∀ i ∈ (prog k).imports, rank i < rank k) {s s1 : IS}
    {h h1 hn1 : List Op} {new1 : List Nat} {k : Nat} (e1 : Ext prog s h s1 h1 new1 hn1 (prog k).imports) (hk : k ∉ s1.log) :
    ∃ h2 hn2, Ext prog s h ⟨regCmds (regMod s1.reg (prog k).name).1 (regMod s1.reg (prog k).name).2 (prog k).cmds,
      fun j => if j = k then (regMod s1.reg (prog k).name).2 else s1.st j, k :: s1.log⟩ h2 (k :: new1) hn2 [] := by
  obtain ⟨hn, g2, hz, hid⟩ := ext_reg e1.good hk e1.exIn
  have hself : (prog k).imports.count k = 0 := by
    rw [List.count_eq_zero]
    intro h
    have := hrk k k h; omega
  refine ⟨hn ++ h1, hn ++ hn1, g2, by rw [e1.log]; rfl, by rw [e1.hist]; simp, ?_, by simp, ?_⟩
  · intro j hj
    have hj1 : j ∈ s1.log := by rw [e1.log]; simp [hj]
    have : j ≠ k := fun h => hk (h ▸ hj1)
    simp only [if_neg this]
    exact e1.keep j hj
  · intro j hj
    rw [imports_append, hz]
    simp only [uses, List.map_cons, List.sum_cons, List.count_nil]
    by_cases hjk : j = k
    · subst hjk
      simp only [if_true]
      have h3 := (none_old e1.good.run (m := regs h1 + 1) (by omega)).1
      rw [e1.hist, imports_append] at h3
      rw [hself, hid, ← e1.hist] at *
      have h4 : uses prog j new1 = 0 := e1.good.uses_zero hk fun x hx => by rw [e1.log]; simp [hx]
      simp only [uses] at h4
      omega
    · simp only [if_neg hjk]
      have hj1 : j ∈ s1.log := by simpa [hjk] using hj
      rw [e1.cnt j hj1]
      simp only [uses]
      omega

theorem initMod_ok {prog : Prog} {rank : Nat → Nat} (hrk : ∀ k, ∀ i ∈ (prog k).imports, rank i < rank k) : ∀ (r k : Nat), rank k = r →
    ∀ (s : IS) (h : List Op), Good prog s h →
    ∃ s' h' new hn, (∃ F, ∀ f, F ≤ f → initMod f prog s k = some (s', s'.st k)) ∧ Ext prog s h s' h' new hn [] ∧ k ∈ s'.log ∧
      ∀ j ∈ new, Needs prog k j := by
  intro r
  induction r using Nat.strong_induction_on with
  | _ r ih =>
  intro k hk s h g
  by_cases h0 : s.st k ≠ 0
  · refine ⟨s, h, [], [], ⟨1, fun f hf => ?_⟩, Ext.refl g, (g.st k).1 h0, by simp⟩
    obtain ⟨n, rfl⟩ : ∃ n, f = n + 1 := ⟨f - 1, by omega⟩
    simp only [initMod]; rw [if_pos h0]
  · have hks : k ∉ s.log := fun h => h0 ((g.st k).2 h)
    obtain ⟨s1, h1, new1, hn1, ⟨F, hF⟩, e1, hnd⟩ := initImports_ok (prog := prog) (prog k).imports
      (fun i hi s h g => ih (rank i) (by rw [← hk]; exact hrk k i hi) i rfl s h g) s h g
    have hk1 : k ∉ s1.log := by
      rw [e1.log, List.mem_append, not_or]
      refine ⟨fun hc => ?_, hks⟩
      obtain ⟨i, hi, hi'⟩ := hnd k hc
      have a1 := hrk k i hi
      have a2 := hi'.rank hrk
      omega
    have hst1 : s1.st k = 0 := by
      by_contra hc
      exact hk1 ((e1.good.st k).1 hc)
    obtain ⟨h2, hn2, e2⟩ := ext_register hrk e1 hk1
    refine ⟨_, h2, _, hn2, ⟨F + 1, fun f hf => ?_⟩, e2, by simp, ?_⟩
    · obtain ⟨n, rfl⟩ : ∃ n, f = n + 1 := ⟨f - 1, by omega⟩
      simp only [initMod, hF n (by omega), Option.bind_some]
      rw [if_neg h0]
      simp [hst1]
    · intro j hj
      rcases List.mem_cons.1 hj with rfl | hj
      · exact Needs.refl _
      · obtain ⟨i, hi, hi'⟩ := hnd j hj
        exact Needs.step hi hi'

theorem good_init (prog : Prog) : Good prog ⟨init, fun _ => 0, []⟩ [] :=
  ⟨Run.init, by simp, by simp [regs], by simp, fun m h1 h2 => by simp [regs] at h2; omega, by simp,
    by simp, by simp, by simp, by simp, by simp⟩

theorem main_ok {prog : Prog} {rank : Nat → Nat} (hrk : ∀ k, ∀ i ∈ (prog k).imports, rank i < rank k) (hp md k : Nat)
    (h1 : ¬ Needs prog hp k) (h2 : ¬ Needs prog md k) :
    ∃ s h hn, (∃ F, ∀ f, F ≤ f → main f prog hp md k = some s) ∧ Ext prog ⟨init, fun _ => 0, []⟩ [] s h s.log hn [] ∧
      ∀ j, j ∈ s.log ↔ Needs prog hp j ∨ Needs prog md j ∨ Needs prog k j := by
  obtain ⟨s1, g1, new1, hn1, ⟨F1, hF1⟩, e1, m1, n1⟩ := initMod_ok hrk _ hp rfl _ _ (good_init prog)
  obtain ⟨s2, g2, new2, hn2, ⟨F2, hF2⟩, e2, m2, n2⟩ := initMod_ok hrk _ md rfl _ _ e1.good
  obtain ⟨s3, g3, new3, hn3, ⟨F3, hF3⟩, e3, n3⟩ := initImports_ok (prog := prog) (prog k).imports
    (fun i hi s h g => initMod_ok hrk _ i rfl s h g) _ _ e2.good
  have e13 := (e1.trans e2).trans e3
  simp only [List.nil_append] at e13
  have hk3 : k ∉ s3.log := by
    rw [e3.log, e2.log, e1.log]
    simp only [List.mem_append, not_or, List.not_mem_nil, not_false_eq_true, and_true]
    refine ⟨fun hc => ?_, fun hc => h2 (n2 k hc), fun hc => h1 (n1 k hc)⟩
    obtain ⟨i, hi, hi'⟩ := n3 k hc
    have a1 := hrk k i hi
    have a2 := hi'.rank hrk
    omega
  obtain ⟨h4, hn4, e4⟩ := ext_register hrk e13 hk3
  refine ⟨⟨regCmds (regMod s3.reg (prog k).name).1 (regMod s3.reg (prog k).name).2 (prog k).cmds,
      fun j => if j = k then (regMod s3.reg (prog k).name).2 else s3.st j, k :: s3.log⟩, h4, hn4,
      ⟨max F1 (max F2 F3), fun f hf => ?_⟩, ?_, ?_⟩
  · have q1 := hF1 f (by omega)
    have q2 := hF2 f (by omega)
    have q3 := hF3 f (by omega)
    simp only [main, q1, q2, q3, Option.bind_some]
  · have hl : k :: s3.log = k :: (new3 ++ (new2 ++ new1)) := by rw [e13.log]; simp
    simp only [hl] at e4 ⊢
    exact e4
  · intro j
    simp only [List.mem_cons]
    constructor
    · rintro (rfl | hj)
      · exact Or.inr (Or.inr (Needs.refl _))
      · rw [e3.log, e2.log, e1.log] at hj
        simp only [List.mem_append, List.not_mem_nil, or_false] at hj
        rcases hj with hj | hj | hj
        · obtain ⟨i, hi, hi'⟩ := n3 j hj
          exact Or.inr (Or.inr (Needs.step hi hi'))
        · exact Or.inr (Or.inl (n2 j hj))
        · exact Or.inl (n1 j hj)
    · rintro (hj | hj | hj)
      · right
        exact hj.closed e3.good (by rw [e3.log, e2.log]; simp [m1])
      · right
        exact hj.closed e3.good (by rw [e3.log]; simp [m2])
      · cases hj with
        | refl => exact Or.inl rfl
        | step hi hj => exact Or.inr (hj.closed e3.good (e3.exIn _ hi))

/-- C46: for a program whose imports are acyclic, starting it terminates; exactly the modules needed by the storage manager,
the loader and the main module are initialized, each exactly once, and each after all the modules it imports.  `log` is
the order of the initializations, the last one first. -/
theorem C46_order (prog : Prog) (rank : Nat → Nat) (hrk : ∀ k, ∀ i ∈ (prog k).imports, rank i < rank k) (hp md k : Nat)
    (h1 : ¬ Needs prog hp k) (h2 : ¬ Needs prog md k) :
    ∃ s, (∃ F, ∀ f, F ≤ f → main f prog hp md k = some s) ∧ s.log.Nodup ∧
      (∀ j, j ∈ s.log ↔ Needs prog hp j ∨ Needs prog md j ∨ Needs prog k j) ∧
      (∀ l1 j l2, s.log = l1 ++ j :: l2 → ∀ i ∈ (prog j).imports, i ∈ l2) ∧ s.log.head? = some k := by
  obtain ⟨s, h, hn, hev, e, hmem⟩ := main_ok hrk hp md k h1 h2
  refine ⟨s, hev, e.good.nodup, hmem, e.good.order, ?_⟩
  obtain ⟨F, hF⟩ := hev
  have := hF F (Nat.le_refl _)
  simp only [main, Option.bind_eq_some_iff] at this
  obtain ⟨_, _, _, _, _, _, h3⟩ := this
  simp only [Option.some.injEq] at h3
  rw [← h3]; rfl

/-- C46 and C25: in the program started, if the names of the modules needed are short and distinct, every module can be found
by its name, every command registered (with distinct names) by its module and name, and a module can be unloaded
exactly if no module of the program imports it. -/
theorem C46_registered (prog : Prog) (rank : Nat → Nat) (hrk : ∀ k, ∀ i ∈ (prog k).imports, rank i < rank k) (hp md k : Nat)
    (h1 : ¬ Needs prog hp k) (h2 : ¬ Needs prog md k) (s : IS)
    (hev : ∃ F, ∀ f, F ≤ f → main f prog hp md k = some s)
    (hshort : ∀ j, (prog j).name.length ≤ 19 ∧ ∀ x ∈ (prog j).cmds, x.1.length ≤ 23)
    (hdist : ∀ i ∈ s.log, ∀ j ∈ s.log, (prog i).name = (prog j).name → i = j)
    (j : Nat) (hj : j ∈ s.log) :
    ∃ m, (∃ F, ∀ f, F ≤ f → thisMod f s.reg (prog j).name = some (m, 0)) ∧
      (((prog j).cmds.map (·.1)).Nodup → ∀ x ∈ (prog j).cmds, ∃ F, ∀ f, F ≤ f → thisCommand f s.reg m x.1 = some (x.2, 0)) ∧
      (∀ n, (∀ x ∈ (prog j).cmds, x.1 ≠ n) → ∃ F, ∀ f, F ≤ f → thisCommand f s.reg m n = some (0, 2)) ∧
      ∃ r s', (∃ F, ∀ f, F ≤ f → free f s.reg (prog j).name false = some (s', r)) ∧
        (r = 0 ↔ ∀ i ∈ s.log, j ∉ (prog i).imports) := by
  obtain ⟨s1, h, hn, ⟨F1, hF1⟩, e, _⟩ := main_ok hrk hp md k h1 h2
  obtain ⟨F2, hF2⟩ := hev
  have hss : s1 = s := by
    have a := hF1 (max F1 F2) (by omega)
    rw [hF2 (max F1 F2) (by omega)] at a
    exact (Option.some.inj a).symm
  subst hss
  have g := e.good
  have hs : Short h := by
    constructor
    · intro n hn
      obtain ⟨i, _, rfl⟩ := g.only.1 n hn
      exact (hshort i).1
    · intro m n c hn
      obtain ⟨i, _, hi⟩ := g.only.2 m n c hn
      exact (hshort i).2 _ hi
  have hhist : h = hn := by rw [e.hist]; simp
  obtain ⟨en, hen, hid, hname⟩ := g.entry j hj
  have hfind : (spec h).find? (fun e => e.name == (prog j).name) = some en := by
    cases hfi : (spec h).find? (fun e => e.name == (prog j).name) with
    | none =>
      rw [List.find?_eq_none] at hfi
      exact absurd (by simp [hname]) (hfi en hen)
    | some e' =>
      have h3 := List.mem_of_find?_eq_some hfi
      have h4 : e'.name = (prog j).name := by simpa using List.find?_some hfi
      have h5 := spec_old e' h3
      obtain ⟨i, hi, hi'⟩ := g.ids e'.id h5.1 h5.2
      obtain ⟨e2, he2, q1, q2⟩ := g.entry i hi
      have hnd := (run_abs g.run hs).1.nodup
      have uniq : ∀ a ∈ spec h, ∀ b ∈ spec h, a.id = b.id → a = b := fun a ha b hb hab =>
        List.inj_on_of_nodup_map hnd ha hb hab
      have h6 : e2 = e' := uniq _ he2 _ h3 (by rw [q1, hi'])
      have h7 : i = j := hdist i hi j hj (by rw [← q2, h6, h4])
      subst h7
      have h8 : en = e' := uniq _ hen _ h3 (by rw [hid, hi'])
      rw [h8]
  have hcmds : commands en.id h = (prog j).cmds.reverse := by rw [hid]; exact g.cmds j hj
  refine ⟨en.id, ?_, ?_, ?_, ?_⟩
  · obtain ⟨F, hF⟩ := C25_thisMod_partial h _ g.run hs (prog j).name
    rw [hfind] at hF
    exact ⟨F, hF⟩
  · intro hnd x hx
    obtain ⟨F, hF⟩ := C25_thisCommand_partial h _ g.run hs en hen x.1
    have : (commands en.id h).find? (fun y => y.1 == x.1) = some x := by
      rw [hcmds]
      cases hfi : ((prog j).cmds.reverse).find? (fun y => y.1 == x.1) with
      | none =>
        rw [List.find?_eq_none] at hfi
        exact absurd (by simp) (hfi x (by simpa using hx))
      | some y =>
        have h3 := List.mem_of_find?_eq_some hfi
        have h4 : y.1 = x.1 := by simpa using List.find?_some hfi
        have := List.inj_on_of_nodup_map hnd (by simpa using h3) hx h4
        rw [this]
    rw [this] at hF
    exact ⟨F, hF⟩
  · intro n hne
    obtain ⟨F, hF⟩ := C25_thisCommand_partial h _ g.run hs en hen n
    have : (commands en.id h).find? (fun y => y.1 == n) = none := by
      rw [hcmds, List.find?_eq_none]
      intro x hx
      simpa using hne x (by simpa using hx)
    rw [this] at hF
    exact ⟨F, hF⟩
  · obtain ⟨s', r, hF, _, hiff, _⟩ := C25_free_partial h _ g.run hs (prog j).name
    refine ⟨r, s', hF, ?_⟩
    rw [hiff]
    have hc := e.cnt j hj
    rw [← hhist] at hc
    simp only [List.count_nil, Nat.add_zero] at hc
    have hz : uses prog j s1.log = 0 ↔ ∀ i ∈ s1.log, j ∉ (prog i).imports := by
      simp only [uses, List.sum_eq_zero_iff, List.mem_map]
      constructor
      · intro h i hi hc
        have := h _ ⟨i, hi, rfl⟩
        rw [List.count_eq_zero] at this
        exact this hc
      · rintro h x ⟨i, hi, rfl⟩
        exact List.count_eq_zero.2 (h i hi)
    rw [← hz, ← hc, ← hid]
    constructor
    · rintro ⟨e', he', h0⟩
      rw [hfind] at he'
      rw [Option.some.inj he']; exact h0
    · intro h0
      exact ⟨en, hfind, h0⟩

/-- A program with a shared import: Heap, Platform, Modules, Out, and the main module 5 importing Out (3) and a module 4 that
also imports Out. -/
def exProg : Prog := fun k =>
  match k with
  | 0 => ⟨w! "Heap", [], [(w! "FINALL", 10), (w! "Lock", 11)]⟩
  | 1 => ⟨w! "Platform", [], []⟩
  | 2 => ⟨w! "Modules", [0, 1], []⟩
  | 3 => ⟨w! "Out", [0, 1], [(w! "Ln", 12), (w! "Flush", 13)]⟩
  | 4 => ⟨w! "A", [3], [(w! "Do", 14)]⟩
  | 5 => ⟨w! "Main", [4, 3], []⟩
  | _ => ⟨[], [], []⟩

example : ∀ k, ∀ i ∈ (exProg k).imports, i < k := by
  intro k i hi
  match k with
  | 0 | 1 => simp [exProg] at hi
  | 2 | 3 | 4 | 5 => simp [exProg] at hi; omega
  | n + 6 => simp [exProg] at hi

example : (main 20 exProg 0 2 5).map (fun s => (s.log, (List.range 7).map fun m => (s.reg.mods m).refcnt)) =
    some ([5, 4, 3, 2, 1, 0], [0, 2, 2, 0, 2, 1, 0]) := by decide +kernel

end Verif.Registry
