import Verif.Registry.Lemmas
import Verif.Chars

/-!
# The registry of modules (C25)

Module numbers: the n-th module registered has number n.  `spec h` is what the registry contains after the history `h`.
-/
namespace Verif.Registry

theorem spec_old {h : List Op} : ∀ e ∈ spec h, 1 ≤ e.id ∧ e.id ≤ regs h := by
  induction h with
  | nil => simp [spec]
  | cons o h ih =>
    intro e he
    cases o with
    | reg n =>
      simp only [spec, List.mem_cons] at he
      simp only [regs]
      rcases he with rfl | he
      · simp
      · have := ih e he; omega
    | cmd m n c =>
      simp only [spec, List.mem_map] at he
      obtain ⟨e', he', rfl⟩ := he
      have := ih e' he'
      simp only [regs]
      split <;> exact this
    | imp m =>
      simp only [spec, List.mem_map] at he
      obtain ⟨e', he', rfl⟩ := he
      have := ih e' he'
      simp only [regs]
      split <;> exact this
    | free n =>
      simp only [regs]
      simp only [spec] at he
      apply ih
      split at he
      · split at he
        · exact (List.mem_filter.1 he).1
        · exact he
      · exact he

theorem free_spec (h : List Op) (n : Name) : (freeSpec (spec h) n).1 = spec (.free n :: h) := by
  simp only [freeSpec, spec]
  cases (spec h).find? (fun e => e.name == n) with
  | none => rfl
  | some e => simp only; split <;> rfl

theorem Short.tail {o : Op} {h : List Op} (hs : Short (o :: h)) : Short h :=
  ⟨fun n hn => hs.1 n (List.mem_cons_of_mem _ hn), fun m n c hn => hs.2 m n c (List.mem_cons_of_mem _ hn)⟩

theorem run_abs {h : List Op} {s : RS} (hr : Run h s) (hs : Short h) : Abs s (spec h) ∧ s.fm = regs h + 1 := by
  induction hr with
  | init => exact ⟨⟨rfl, by simp [spec], by simp [init], by simp [init]⟩, rfl⟩
  | @reg h s n _ ih =>
    obtain ⟨h1, h2⟩ := ih hs.tail
    have h3 := abs_regMod h1 n
    rw [List.take_of_length_le (hs.1 n (by simp)), h2] at h3
    exact ⟨h3, by simp only [regMod, regs]; omega⟩
  | @cmd h s m n c _ _ _ ih =>
    obtain ⟨h1, h2⟩ := ih hs.tail
    have h3 := abs_regCmd h1 m n c
    rw [List.take_of_length_le (hs.2 m n c (by simp))] at h3
    exact ⟨h3, h2⟩
  | @imp h s m _ _ _ ih =>
    obtain ⟨h1, h2⟩ := ih hs.tail
    exact ⟨abs_incRef h1 m, h2⟩
  | @free h s s' n r _ hev ih =>
    obtain ⟨h1, h2⟩ := ih hs.tail
    obtain ⟨s2, ⟨F, hF⟩, h3, h4⟩ := abs_free h1 n
    obtain ⟨G, hG⟩ := hev
    have h5 := hF (max F G) (by omega)
    rw [hG (max F G) (by omega)] at h5
    simp only [Option.some.injEq, Prod.mk.injEq] at h5
    rw [free_spec] at h3
    exact ⟨by rw [h5.1]; exact h3, by rw [h5.1, h4]; exact h2⟩

/-- The number of imports of module `m` in a history. -/
def imports (m : Nat) (h : List Op) : Nat := h.count (.imp m)

/-- The commands registered by module `m`, the last one first. -/
def commands (m : Nat) : List Op → List (Name × Nat)
  | [] => []
  | .cmd k n c :: h => if k = m then (n, c) :: commands m h else commands m h
  | _ :: h => commands m h

theorem none_old {h : List Op} {s : RS} (hr : Run h s) {m : Nat} (hm : regs h < m) : imports m h = 0 ∧ commands m h = [] := by
  induction hr with
  | init => exact ⟨rfl, rfl⟩
  | @reg h s n _ ih =>
    simp only [regs] at hm
    obtain ⟨h1, h2⟩ := ih (by omega)
    simp only [imports] at h1 ⊢
    rw [List.count_cons_of_ne (by simp), h1]
    exact ⟨rfl, h2⟩
  | @cmd h s k n c _ _ h2 ih =>
    simp only [regs] at hm
    obtain ⟨h1, h3⟩ := ih (by omega)
    simp only [imports] at h1 ⊢
    rw [List.count_cons_of_ne (by simp), h1]
    refine ⟨rfl, ?_⟩
    simp only [commands]
    rw [if_neg (by omega)]
    exact h3
  | @imp h s k _ _ h2 ih =>
    simp only [regs] at hm
    obtain ⟨h1, h3⟩ := ih (by omega)
    simp only [imports] at h1 ⊢
    rw [List.count_cons_of_ne (by simp; omega), h1]
    exact ⟨rfl, h3⟩
  | @free h s s' n r _ _ ih =>
    simp only [regs] at hm
    obtain ⟨h1, h2⟩ := ih hm
    simp only [imports] at h1 ⊢
    rw [List.count_cons_of_ne (by simp), h1]
    exact ⟨rfl, h2⟩

/-- A check of the specification: the entry of a module counts its imports and has the commands it registered. -/
theorem spec_counts {h : List Op} {s : RS} (hr : Run h s) : ∀ e ∈ spec h, e.refs = imports e.id h ∧ e.cmds = commands e.id h := by
  induction hr with
  | init => simp [spec]
  | @reg h s n hr ih =>
    intro e he
    have hi : ∀ m, imports m (.reg n :: h) = imports m h := fun m => by
      simp only [imports]; rw [List.count_cons_of_ne (by simp)]
    simp only [spec, List.mem_cons] at he
    rcases he with rfl | he
    · obtain ⟨h1, h2⟩ := none_old hr (m := regs h + 1) (by omega)
      exact ⟨by rw [hi]; exact h1.symm, h2.symm⟩
    · rw [hi]; exact ih e he
  | @cmd h s m n c hr _ _ ih =>
    intro e he
    simp only [spec, List.mem_map] at he
    obtain ⟨e', he', rfl⟩ := he
    obtain ⟨h1, h2⟩ := ih e' he'
    by_cases hm : e'.id = m
    · rw [if_pos hm]
      refine ⟨?_, ?_⟩
      · simp only [imports]; rw [List.count_cons_of_ne (by simp)]; exact h1
      · simp only [commands]; rw [if_pos hm.symm, h2]
    · rw [if_neg hm]
      refine ⟨?_, ?_⟩
      · simp only [imports]; rw [List.count_cons_of_ne (by simp)]; exact h1
      · simp only [commands]; rw [if_neg (fun h => hm h.symm), h2]
  | @imp h s m hr _ _ ih =>
    intro e he
    simp only [spec, List.mem_map] at he
    obtain ⟨e', he', rfl⟩ := he
    obtain ⟨h1, h2⟩ := ih e' he'
    by_cases hm : e'.id = m
    · rw [if_pos hm]
      refine ⟨?_, h2⟩
      simp only [imports]; rw [hm, List.count_cons_self, h1, hm]; rfl
    · rw [if_neg hm]
      refine ⟨?_, h2⟩
      simp only [imports]; rw [List.count_cons_of_ne (by simp; omega)]; exact h1
  | @free h s s' n r hr _ ih =>
    intro e he
    have hi : ∀ m, imports m (.free n :: h) = imports m h := fun m => by
      simp only [imports]; rw [List.count_cons_of_ne (by simp)]
    rw [hi]
    apply ih
    simp only [spec] at he
    split at he
    · split at he
      · exact (List.mem_filter.1 he).1
      · exact he
    · exact he

theorem thisMod_ok {s : RS} {es : List Entry} (h : Abs s es) (n : Name) : ∃ F, ∀ f, F ≤ f → thisMod f s n =
    some (match es.find? (fun e => e.name == n) with | some e => (e.id, 0) | none => (0, 1)) := by
  obtain ⟨r, ⟨F, hF⟩, hr⟩ := search_ok (n := n) (p := 0) h.chain
  refine ⟨F, fun f hf => ?_⟩
  simp only [thisMod, hF f hf, Option.bind_some]
  rcases hr with ⟨r0, hall⟩ | ⟨l1, e, l2, hes, q1, q2, q3, q4, q5, q6⟩
  · have : es.find? (fun e => e.name == n) = none := by
      rw [List.find?_eq_none]; intro x hx; simp [hall x hx]
    rw [this]; simp [r0]
  · have hfi := find_split hes q1 q2
    have he0 := (mchain_mem h.chain e (by rw [hes]; simp)).1
    rw [hfi, q3, if_pos he0]

theorem mchain_entry {s : RS} : ∀ {es : List Entry} {a : Nat}, MChain s a es → ∀ e ∈ es, CChain s.cs (s.mods e.id).cmds e.cmds
  | [], _, _, _, he => absurd he (by simp)
  | e' :: l, a, ⟨_, h2, _, _, _, h6, _, h8⟩, e, he => by
    rcases List.mem_cons.1 he with rfl | he
    · rw [← h2]; exact h6
    · exact mchain_entry h8 e he

theorem thisCommand_ok {s : RS} {es : List Entry} (h : Abs s es) {e : Entry} (he : e ∈ es) (n : Name) :
    ∃ F, ∀ f, F ≤ f → thisCommand f s e.id n =
      some (match e.cmds.find? (fun x => x.1 == n) with | some x => (x.2, 0) | none => (0, 2)) := by
  obtain ⟨r, ⟨F, hF⟩, hr⟩ := searchCmd_ok (n := n) (mchain_entry h.chain e he)
  refine ⟨F, fun f hf => ?_⟩
  simp only [thisCommand, hF f hf, Option.bind_some]
  cases hfi : e.cmds.find? (fun x => x.1 == n) with
  | none => rw [hfi] at hr; simp only at hr ⊢; simp [hr]
  | some x => rw [hfi] at hr; simp only at hr ⊢; rw [if_pos hr.1, hr.2]

/-- C25, modules: after any history with short names, ThisMod delivers the module last registered under the name and not
unloaded, with res = 0, or NIL with res = 1 if there is none.  What is missing: names that do not fit, see
`C25_long_names`. -/
theorem C25_thisMod_partial (h : List Op) (s : RS) (hr : Run h s) (hs : Short h) (n : Name) :
    ∃ F, ∀ f, F ≤ f → thisMod f s n =
      some (match (spec h).find? (fun e => e.name == n) with | some e => (e.id, 0) | none => (0, 1)) :=
  thisMod_ok (run_abs hr hs).1 n

/-- C25, commands: for a module in the registry ThisCommand delivers the command the module registered last under the
name, with res = 0, or NIL with res = 2 if there is none. -/
theorem C25_thisCommand_partial (h : List Op) (s : RS) (hr : Run h s) (hs : Short h) (e : Entry) (he : e ∈ spec h) (n : Name) :
    ∃ F, ∀ f, F ≤ f → thisCommand f s e.id n =
      some (match (commands e.id h).find? (fun x => x.1 == n) with | some x => (x.2, 0) | none => (0, 2)) := by
  rw [← (spec_counts hr e he).2]
  exact thisCommand_ok (run_abs hr hs).1 he n

/-- C25, unloading: Free terminates after any history.  It succeeds (res = 0) exactly if a module with this name is in the
registry and the last one registered has never been imported; then this module is no longer in the registry.  All
modules but this one stay as they were. -/
theorem C25_free_partial (h : List Op) (s : RS) (hr : Run h s) (hs : Short h) (n : Name) :
    ∃ (s' : RS) (res : Nat), (∃ F, ∀ f, F ≤ f → free f s n false = some (s', res)) ∧ Run (.free n :: h) s' ∧
      (res = 0 ↔ ∃ e, (spec h).find? (fun e => e.name == n) = some e ∧ imports e.id h = 0) ∧
      (res = 0 → ∀ e, (spec h).find? (fun e => e.name == n) = some e →
        ∀ e', e' ∈ spec (.free n :: h) ↔ e' ∈ spec h ∧ e'.id ≠ e.id) ∧
      (res ≠ 0 → res = 1 ∧ spec (.free n :: h) = spec h ∧ s' = s) := by
  obtain ⟨ab, hfm⟩ := run_abs hr hs
  obtain ⟨s2, ⟨F, hF⟩, h3, h4⟩ := abs_free ab n
  have hrun := Run.free (n := n) hr ⟨F, hF⟩
  have hcount : ∀ e, (spec h).find? (fun e => e.name == n) = some e → e.refs = imports e.id h := fun e he =>
    (spec_counts hr e (List.mem_of_find?_eq_some he)).1
  cases hfi : (spec h).find? (fun e => e.name == n) with
  | none =>
    have hfs : freeSpec (spec h) n = (spec h, -1) := by simp only [freeSpec, hfi]
    rw [hfs] at hF
    have hss : s2 = s := by
      obtain ⟨r, ⟨G, hG⟩, hr'⟩ := search_ok (n := n) (p := 0) ab.chain
      have h6 := hF (max F G) (by omega)
      simp only [freeModule, hG (max F G) (by omega), Option.bind_some] at h6
      rcases hr' with ⟨r0, _⟩ | ⟨l1, e, l2, hes, q1, q2, _⟩
      · rw [if_neg (by simp [r0]), if_pos r0] at h6
        simp only [Option.some.injEq, Prod.mk.injEq] at h6
        exact h6.1.symm
      · rw [find_split hes q1 q2] at hfi; simp at hfi
    refine ⟨s2, 1, ⟨F, fun f hf => ?_⟩, hrun, by simp, by simp, fun _ => ⟨rfl, ?_, hss⟩⟩
    · simp [free, hF f hf]
    · simp only [spec, hfi]
  | some e =>
    by_cases hz : e.refs = 0
    · have hfs : freeSpec (spec h) n = ((spec h).filter (fun e' => e'.id ≠ e.id), 0) := by simp only [freeSpec, hfi, if_pos hz]
      rw [hfs] at hF
      refine ⟨s2, 0, ⟨F, fun f hf => ?_⟩, hrun, ?_, ?_, by simp⟩
      · simp [free, hF f hf]
      · simp only [true_iff]
        exact ⟨e, rfl, by rw [← hcount e hfi]; exact hz⟩
      · intro _ e1 he1 e'
        have he1' : e = e1 := by simpa using he1
        subst he1'
        simp only [spec, hfi, if_pos hz, List.mem_filter]
        simp
    · have hfs : freeSpec (spec h) n = (spec h, (e.refs : Int)) := by simp only [freeSpec, hfi, if_neg hz]
      rw [hfs] at hF
      have hss : s2 = s := by
        obtain ⟨r, ⟨G, hG⟩, hr'⟩ := search_ok (n := n) (p := 0) ab.chain
        have h6 := hF (max F G) (by omega)
        simp only [freeModule, hG (max F G) (by omega), Option.bind_some] at h6
        rcases hr' with ⟨_, hall⟩ | ⟨l1, e1, l2, hes, q1, q2, q3, q4, _⟩
        · have := hall e (List.mem_of_find?_eq_some hfi)
          have h7 := List.find?_some hfi
          simp at h7
          exact absurd h7 this
        · rw [find_split hes q1 q2] at hfi
          have : e1 = e := by simpa using hfi
          subst this
          have he0 := (mchain_mem ab.chain e1 (by rw [hes]; simp)).1
          rw [q3, if_neg (by rintro ⟨_, h⟩; omega), if_neg he0] at h6
          simp only [Option.some.injEq, Prod.mk.injEq] at h6
          exact h6.1.symm
      refine ⟨s2, 1, ⟨F, fun f hf => ?_⟩, hrun, ?_, by simp, fun _ => ⟨rfl, ?_, hss⟩⟩
      · simp only [free, Bool.false_eq_true, if_false, hF f hf, Option.bind_some]
        rw [if_neg (by omega)]
      · simp only [Nat.one_ne_zero, false_iff]
        rintro ⟨e1, he1, h0⟩
        have he1' : e = e1 := by simpa using he1
        subst he1'
        rw [← hcount e hfi] at h0
        exact hz h0
      · simp only [spec, hfi, if_neg hz]

/-- Free with all = TRUE does nothing but report a failure. -/
theorem C25_freeAll (f : Nat) (s : RS) (n : Name) : free f s n true = some (s, 1) := rfl

/-- Unloading one module leaves the modules with other names, and their commands, as findable as before. -/
theorem C25_others_partial (h : List Op) (s s' : RS) (hr : Run h s) (hs : Short h) (n n' : Name) (hn : n' ≠ n) (r : Int)
    (hev : ∃ F, ∀ f, F ≤ f → freeModule f s n = some (s', r)) :
    ∃ (m res : Nat), (∃ F, ∀ f, F ≤ f → thisMod f s n' = some (m, res) ∧ thisMod f s' n' = some (m, res)) ∧
      (res = 0 → ∀ c, ∃ x, ∃ F, ∀ f, F ≤ f → thisCommand f s m c = some x ∧ thisCommand f s' m c = some x) := by
  have hr' := Run.free hr hev
  have hs' : Short (.free n :: h) := ⟨fun k hk => hs.1 k (by simpa using hk), fun m k c hk => hs.2 m k c (by simpa using hk)⟩
  have hfind : (spec (.free n :: h)).find? (fun e => e.name == n') = (spec h).find? (fun e => e.name == n') := by
    simp only [spec]
    cases hfi : (spec h).find? (fun e => e.name == n) with
    | none => rfl
    | some e =>
      simp only
      split
      · have hen : e.name = n := by simpa using List.find?_some hfi
        have hem := List.mem_of_find?_eq_some hfi
        have hnd := (run_abs hr hs).1.nodup
        obtain ⟨l1, l2, hl⟩ := List.append_of_mem hem
        rw [hl] at hnd ⊢
        rw [filter_split hnd, List.find?_append, List.find?_append, List.find?_cons]
        have : (e.name == n') = false := by rw [hen]; simpa using fun h => hn h.symm
        rw [this]
      · rfl
  obtain ⟨F1, hF1⟩ := C25_thisMod_partial h s hr hs n'
  obtain ⟨F2, hF2⟩ := C25_thisMod_partial _ s' hr' hs' n'
  rw [hfind] at hF2
  cases hfi : (spec h).find? (fun e => e.name == n') with
  | none =>
    rw [hfi] at hF1 hF2
    exact ⟨0, 1, ⟨max F1 F2, fun f hf => ⟨hF1 f (by omega), hF2 f (by omega)⟩⟩, by simp⟩
  | some e =>
    rw [hfi] at hF1 hF2 hfind
    refine ⟨e.id, 0, ⟨max F1 F2, fun f hf => ⟨hF1 f (by omega), hF2 f (by omega)⟩⟩, fun _ c => ?_⟩
    obtain ⟨F3, hF3⟩ := C25_thisCommand_partial h s hr hs e (List.mem_of_find?_eq_some hfi) c
    obtain ⟨F4, hF4⟩ := C25_thisCommand_partial _ s' hr' hs' e (List.mem_of_find?_eq_some hfind) c
    exact ⟨_, max F3 F4, fun f hf => ⟨hF3 f (by omega), hF4 f (by omega)⟩⟩

/-! ## Deviations -/

/-- A module whose name has twenty characters or more is not found under its name: the name is cut in the registry. -/
theorem C25_long_names (n : Name) (hn : 20 ≤ n.length) : ∃ s, Run [.reg n] s ∧ ∃ F, ∀ f, F ≤ f → thisMod f s n = some (0, 1) := by
  refine ⟨_, Run.reg n Run.init, ?_⟩
  have ab : Abs (regMod init n).1 [⟨1, n.take 19, 0, []⟩] :=
    abs_regMod (s := init) (es := []) ⟨rfl, by simp, by simp [init], by simp [init]⟩ n
  obtain ⟨F, hF⟩ := thisMod_ok ab n
  refine ⟨F, fun f hf => ?_⟩
  rw [hF f hf]
  have : (n.take 19 == n) = false := by
    rw [beq_eq_false_iff_ne]
    intro h
    have := congrArg List.length h
    simp at this
    omega
  simp [List.find?_cons, this]

/-- Two modules whose names agree in the first 19 characters: asking for the first 19 characters delivers the later one. -/
example : ((thisMod 5 (regMod (regMod init (w! "AbcdefghijklmnopqrstAAAA")).1 (w! "AbcdefghijklmnopqrstBBBB")).1 (w! "Abcdefghijklmnopqrs"))) =
    some (2, 0) := by decide

/-- Counts of imports are never taken back: module 1 stays after its only client, module 2, has been unloaded. -/
theorem C25_never_released : ∃ s, Run [.free (w! "A"), .free (w! "B"), .reg (w! "B"), .imp 1, .reg (w! "A")] s ∧
    spec [.free (w! "A"), .free (w! "B"), .reg (w! "B"), .imp 1, .reg (w! "A")] = [⟨1, w! "A", 1, []⟩] ∧
    ∃ F, ∀ f, F ≤ f → thisMod f s (w! "A") = some (1, 0) := by
  have h3 : Run [.reg (w! "B"), .imp 1, .reg (w! "A")] _ := Run.reg _ (Run.imp (Run.reg _ Run.init) (by decide) (by decide))
  have s3 : Short [.reg (w! "B"), .imp 1, .reg (w! "A")] := by
    constructor
    · intro n hn; simp at hn; rcases hn with rfl | rfl <;> decide
    · intro m n c hn; simp at hn
  obtain ⟨s4, _, _, h4, _⟩ := C25_free_partial _ _ h3 s3 (w! "B")
  have s4' : Short [.free (w! "B"), .reg (w! "B"), .imp 1, .reg (w! "A")] :=
    ⟨fun k hk => s3.1 k (by simpa using hk), fun m k c hk => s3.2 m k c (by simpa using hk)⟩
  obtain ⟨s5, _, _, h5, _⟩ := C25_free_partial _ _ h4 s4' (w! "A")
  have s5' : Short [.free (w! "A"), .free (w! "B"), .reg (w! "B"), .imp 1, .reg (w! "A")] :=
    ⟨fun k hk => s3.1 k (by simpa using hk), fun m k c hk => s3.2 m k c (by simpa using hk)⟩
  refine ⟨s5, h5, by decide, ?_⟩
  exact C25_thisMod_partial _ _ h5 s5' (w! "A")

/-- A history that meets the hypotheses: three modules, the second of which imports the first, commands, unloading of the
third. -/
example : ∃ s, Run [.free (w! "C"), .cmd 2 (w! "Do") 77, .reg (w! "C"), .reg (w! "B"), .imp 1, .reg (w! "A")] s ∧
    Short [.free (w! "C"), .cmd 2 (w! "Do") 77, .reg (w! "C"), .reg (w! "B"), .imp 1, .reg (w! "A")] ∧
    spec [.free (w! "C"), .cmd 2 (w! "Do") 77, .reg (w! "C"), .reg (w! "B"), .imp 1, .reg (w! "A")] =
      [⟨2, w! "B", 0, [(w! "Do", 77)]⟩, ⟨1, w! "A", 1, []⟩] := by
  have h5 : Run [.cmd 2 (w! "Do") 77, .reg (w! "C"), .reg (w! "B"), .imp 1, .reg (w! "A")] _ :=
    Run.cmd _ _ (Run.reg _ (Run.reg _ (Run.imp (Run.reg _ Run.init) (by decide) (by decide)))) (by decide) (by decide)
  have s5 : Short [.cmd 2 (w! "Do") 77, .reg (w! "C"), .reg (w! "B"), .imp 1, .reg (w! "A")] := by
    constructor
    · intro n hn; simp at hn; rcases hn with rfl | rfl | rfl <;> decide
    · intro m n c hn; simp at hn; obtain ⟨_, rfl, _⟩ := hn; decide
  obtain ⟨s6, _, _, h6, _⟩ := C25_free_partial _ _ h5 s5 (w! "C")
  exact ⟨s6, h6, ⟨fun k hk => s5.1 k (by simpa using hk), fun m k c hk => s5.2 m k c (by simpa using hk)⟩, by decide⟩

end Verif.Registry
