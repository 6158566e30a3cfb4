import Verif.Common
import Verif.Imports.Lemmas
import Verif.Registry.Model

/-!
# C74: imported interfaces are consistent

`C74_capacity`: when the imports of a module can be read at all.  `C74_imports_partial`: no error is reported exactly if no file belongs
to or names the module compiled and all versions of each type have the same public part.  `C74_export`: exporting a type of another
module of which there are versions with different private parts is an error.  Deviations: `C74_private`, `C74_cycle`, `C74_cycle_runs`,
`C74_too_many`.
-/
namespace Verif.Imports

/-- What is known after all files have been read. -/
theorem final {me : Name} {fs : List SymFile} {ms : List Mention} (hm : allMentions fs = some ms) {st : St}
    (h : imports (St.init me) fs = some st) : Inv me (allNames fs) ms st := by
  rcases imports_spec fs [] [] _ ms (Inv.init me) hm with ⟨a, _⟩ | ⟨st1, a, b⟩
  · rw [a] at h; cases h
  · rw [a] at h
    have := Option.some.inj h
    rw [← this]
    exact b

/-- **C74, reading the imports ends** normally exactly if at most 64 modules are involved: the module compiled, those imported and those
whose types they mention.  (With more of them, an index is out of range.) -/
theorem C74_capacity (me : Name) (fs : List SymFile) (ms : List Mention) (hm : allMentions fs = some ms) :
    (∃ st, imports (St.init me) fs = some st) ↔ AtMost 64 (me :: allNames fs) := by
  constructor
  · rintro ⟨st, h⟩ d hd hs
    have hi := final hm h
    have h1 : d ⊆ st.glb := fun n hn => hi.sup n (hs n hn)
    exact (List.Subperm.length_le (List.subperm_of_subset hd h1)).trans hi.le
  · intro ha
    rcases imports_spec fs [] [] _ ms (Inv.init me) hm with ⟨_, d, h1, h2, h3⟩ | ⟨st1, a, _⟩
    · exact absurd (ha d h1 h2) (by show ¬ d.length ≤ maxImps; omega)
    · exact ⟨st1, a⟩

/-- **C74, errors.**  Importing reports no error exactly if none of the files belongs to the module compiled or mentions it, and all
versions of each named type, in all the files, have the same public fingerprint.  Error 154 is reported exactly if a file belongs to or
mentions the module compiled, error 249 only if there are versions of a type with different public fingerprints. -/
theorem C74_imports_partial (me : Name) (fs : List SymFile) (ms : List Mention) (hm : allMentions fs = some ms) (st : St)
    (h : imports (St.init me) fs = some st) :
    (st.errs = [] ↔ me ∉ allNames fs ∧ PublicAgree ms) ∧ (154 ∈ st.errs ↔ me ∈ allNames fs) ∧
    (249 ∈ st.errs → ¬ PublicAgree ms) ∧ ∀ e ∈ st.errs, e = 154 ∨ e = 249 := by
  have hi := final hm h
  exact ⟨hi.errs, hi.e154, hi.e249, hi.eall⟩

/-- Exporting types. -/
theorem outTypes_errs (l : List (Nat × Name)) : ∀ st : St,
    ((outTypes st l).errs = [] ↔ st.errs = [] ∧ ∀ t ∈ l, ∀ o, st.tab t.1 t.2 = some o → o.inc = false) := by
  induction l with
  | nil => intro st; exact ⟨fun h => ⟨h, fun t ht => (by cases ht)⟩, fun h => h.1⟩
  | cons t r ih =>
    intro st
    obtain ⟨i, n⟩ := t
    cases ho : st.tab i n with
    | none =>
      have hr : outTypes st ((i, n) :: r) = outTypes st r := by rw [outTypes, ho]
      rw [hr, ih st]
      constructor
      · rintro ⟨a, b⟩
        refine ⟨a, fun t ht o hto => ?_⟩
        rcases List.mem_cons.1 ht with rfl | hx
        · rw [show st.tab i n = some o from hto] at ho; cases ho
        · exact b t hx o hto
      · rintro ⟨a, b⟩
        exact ⟨a, fun t ht => b t (List.mem_cons_of_mem _ ht)⟩
    | some q =>
      by_cases hc : q.inc = true ∧ st.errs = []
      · have hr : outTypes st ((i, n) :: r) = outTypes { st with errs := st.errs ++ [249] } r := by rw [outTypes, ho]; dsimp only; rw [if_pos hc]
        rw [hr, ih]
        constructor
        · rintro ⟨a, _⟩; exact absurd a (by simp)
        · rintro ⟨_, b⟩
          have := b (i, n) List.mem_cons_self q ho
          rw [hc.1] at this; cases this
      · have hr : outTypes st ((i, n) :: r) = outTypes st r := by rw [outTypes, ho]; dsimp only; rw [if_neg hc]
        rw [hr, ih st]
        constructor
        · rintro ⟨a, b⟩
          refine ⟨a, fun t ht o hto => ?_⟩
          rcases List.mem_cons.1 ht with rfl | hx
          · rw [show st.tab i n = some o from hto] at ho
            have hq := Option.some.inj ho
            subst hq
            cases hx : o.inc with
            | false => rfl
            | true => exact absurd ⟨hx, a⟩ hc
          · exact b t hx o hto
        · rintro ⟨a, b⟩
          exact ⟨a, fun t ht => b t (List.mem_cons_of_mem _ ht)⟩

/-- **C74, private parts.**  Exporting named types of other modules reports no error exactly if there was none, and there are no versions of
one of them with different private parts among the files imported. -/
theorem C74_export (me : Name) (fs : List SymFile) (ms : List Mention) (hm : allMentions fs = some ms) (st : St)
    (h : imports (St.init me) fs = some st) (l : List (Nat × Name)) (hl : ∀ t ∈ l, t.1 < st.glb.length ∧ t.2 ≠ []) :
    (outTypes st l).errs = [] ↔
      (me ∉ allNames fs ∧ PublicAgree ms) ∧ ∀ t ∈ l, ∀ m, st.glb[t.1]? = some m → PrivateAgree ms m t.2 := by
  have hi := final hm h
  rw [outTypes_errs, hi.errs]
  refine and_congr_right fun _ => ⟨fun hh t ht m hg => ?_, fun hh t ht o ho => ?_⟩
  · obtain ⟨_, hn⟩ := hl t ht
    intro a ha b hb a1 b1 a2 b2
    cases ho : st.tab t.1 t.2 with
    | none => exact absurd ⟨a1, a2⟩ ((hi.none_iff t.1 m t.2 hg hn).1 ho a ha)
    | some o =>
      have hf := hh t ht o ho
      rw [hi.con t.1 m t.2 o hg hn ho hf a ha a1 a2, hi.con t.1 m t.2 o hg hn ho hf b hb b1 b2]
  · obtain ⟨hlt, hn⟩ := hl t ht
    have hg : st.glb[t.1]? = some st.glb[t.1] := List.getElem?_eq_getElem hlt
    cases hx : o.inc with
    | false => rfl
    | true => exact absurd (hh t ht _ hg) (hi.inc t.1 _ t.2 o hg hn ho hx)

/-! ## Concrete cases -/

/-- Module 1 with its type 7, which has the fingerprints given. -/
def one (fp pv : Int) : SymFile := ⟨[1], [], [⟨.self, [7], fp, pv⟩]⟩

/-- Module 2 mentions the type 7 of module 1, and an unnamed type, and one of its own. -/
def two (fp pv : Int) : SymFile := ⟨[2], [[1]], [⟨.new [1], [7], fp, pv⟩, ⟨.old 1, [], 5, 5⟩, ⟨.self, [7], 8, 8⟩]⟩

example : allMentions [one 10 20, two 10 20] =
    some [⟨[1], [7], 10, 20⟩, ⟨[1], [7], 10, 20⟩, ⟨[1], [], 5, 5⟩, ⟨[2], [7], 8, 8⟩] := by decide

example : (imports (St.init [9]) [one 10 20, two 10 20]).map (fun st => (st.glb, st.errs)) = some ([[9], [1], [2]], []) := by decide

/-- Another version. -/
example : (imports (St.init [9]) [one 10 20, two 11 20]).map (fun st => st.errs) = some [249] := by decide

/-- A module that mentions the one compiled. -/
example : (imports (St.init [1]) [two 10 20]).map (fun st => st.errs) = some [154] := by decide

/-- Exporting the type. -/
example : (imports (St.init [9]) [one 10 20, two 10 21]).map (fun st => (outTypes st [(1, [7])]).errs) = some [249] := by decide
example : (imports (St.init [9]) [one 10 20, two 10 20]).map (fun st => (outTypes st [(1, [7])]).errs) = some [] := by decide

/-! ## Deviations -/

/-- **C74 deviation.**  Versions of a type whose private parts differ, in size for instance, are not noticed as long as the type is not
exported again: a module that only uses the type is compiled without an error. -/
theorem C74_private : ∃ (fs : List SymFile) (ms : List Mention) (st : St), allMentions fs = some ms ∧ imports (St.init [9]) fs = some st ∧
    st.errs = [] ∧ ¬ PrivateAgree ms [1] [7] := by
  have hm : allMentions [one 10 20, two 10 21] =
    some [⟨[1], [7], 10, 20⟩, ⟨[1], [7], 10, 21⟩, ⟨[1], [], 5, 5⟩, ⟨[2], [7], 8, 8⟩] := by decide
  have he : (imports (St.init [9]) [one 10 20, two 10 21]).map (fun st => st.errs) = some [] := by decide
  cases hs : imports (St.init [9]) [one 10 20, two 10 21] with
  | none => rw [hs] at he; cases he
  | some st =>
    rw [hs] at he
    refine ⟨_, _, st, hm, hs, Option.some.inj he, fun hp => ?_⟩
    have := hp ⟨[1], [7], 10, 20⟩ (by decide) ⟨[1], [7], 10, 21⟩ (by decide) rfl rfl rfl rfl
    exact absurd this (by decide)

/-- **C74 deviation.**  Circular imports are not noticed: a module may import one that needs it (it is among the modules to be linked) as
long as the interface does not mention its types. -/
theorem C74_cycle (me f : Name) (hf : f ≠ me) : ∃ st, imports (St.init me) [⟨f, [me], []⟩] = some st ∧ st.errs = [] := by
  have hm : allMentions [⟨f, [me], []⟩] = some [] := rfl
  have hn : allNames [⟨f, [me], []⟩] = [f] := rfl
  have hc := (C74_capacity me [⟨f, [me], []⟩] [] hm).2 (by
    intro d hd hs
    rw [hn] at hs
    have := List.Subperm.length_le (List.subperm_of_subset hd (fun n h => hs n h))
    exact this.trans (by show 2 ≤ 64; omega))
  obtain ⟨st, h⟩ := hc
  refine ⟨st, h, ((C74_imports_partial me _ [] hm st h).1).2 ⟨?_, ?_⟩⟩
  · rw [hn, List.mem_singleton]; exact fun e => hf e.symm
  · intro a ha; cases ha

open Verif.Registry in
/-- Initialization in a program with circular imports. -/
theorem cycle_aux (prog : Prog) (C : Nat → Prop) (hC : ∀ k, C k → ∃ j ∈ (prog k).imports, C j) (f : Nat) :
    (∀ (s : IS) (k : Nat), (∀ j, C j → s.st j = 0) →
      (C k → initMod f prog s k = none) ∧ ∀ r, initMod f prog s k = some r → ∀ j, C j → r.1.st j = 0) ∧
    (∀ (s : IS) (l : List Nat), (∀ j, C j → s.st j = 0) →
      ((∃ j ∈ l, C j) → initImports f prog s l = none) ∧ ∀ r, initImports f prog s l = some r → ∀ j, C j → r.st j = 0) := by
  induction f with
  | zero => exact ⟨fun s k _ => ⟨fun _ => rfl, fun r h => by cases h⟩, fun s l _ => ⟨fun _ => rfl, fun r h => by cases h⟩⟩
  | succ f ih =>
    obtain ⟨ih1, ih2⟩ := ih
    constructor
    · intro s k hs
      by_cases hz : s.st k ≠ 0
      · have he : initMod (f + 1) prog s k = some (s, s.st k) := by rw [initMod, if_pos hz]
        refine ⟨fun hk => absurd (hs k hk) hz, fun r hr j hj => ?_⟩
        rw [he] at hr
        rw [← Option.some.inj hr]
        exact hs j hj
      · have he : initMod (f + 1) prog s k = (initImports f prog s (prog k).imports).bind fun s =>
            let r := if s.st k ≠ 0 then (s.reg, s.st k) else regMod s.reg (prog k).name
            some (⟨regCmds r.1 r.2 (prog k).cmds, fun j => if j = k then r.2 else s.st j, k :: s.log⟩, r.2) := by
          rw [initMod, if_neg hz]
        obtain ⟨a, b⟩ := ih2 s (prog k).imports hs
        have hk : C k → initMod (f + 1) prog s k = none := by
          intro hk; rw [he, a (hC k hk)]; rfl
        refine ⟨hk, fun r hr j hj => ?_⟩
        rw [he] at hr
        cases h1 : initImports f prog s (prog k).imports with
        | none => rw [h1] at hr; cases hr
        | some s1 =>
          rw [h1] at hr
          have hr' := Option.some.inj hr
          rw [← hr']
          by_cases hjk : j = k
          · have hn := hk (hjk ▸ hj)
            rw [he, h1] at hn; cases hn
          · show (if j = k then _ else s1.st j) = 0
            rw [if_neg hjk]
            exact b s1 h1 j hj
    · intro s l hs
      cases l with
      | nil =>
        refine ⟨fun ⟨j, hj, _⟩ => (by cases hj), fun r hr => ?_⟩
        rw [initImports] at hr
        rw [← Option.some.inj hr]; exact hs
      | cons i is =>
        have he : initImports (f + 1) prog s (i :: is) = (initMod f prog s i).bind fun (s, m) => initImports f prog ⟨incRef s.reg m, s.st, s.log⟩ is := by
          rw [initImports]
        obtain ⟨a, b⟩ := ih1 s i hs
        rw [he]
        cases h1 : initMod f prog s i with
        | none => exact ⟨fun _ => rfl, fun r hr => by cases hr⟩
        | some p =>
          obtain ⟨c, d⟩ := ih2 ⟨incRef p.1.reg p.2, p.1.st, p.1.log⟩ is (b p h1)
          refine ⟨fun ⟨j, hj, hc⟩ => ?_, fun r hr => d r hr⟩
          rcases List.mem_cons.1 hj with rfl | hx
          · have hn := a hc
            rw [h1] at hn; cases hn
          · exact c ⟨j, hx, hc⟩

open Verif.Registry in
/-- **C74 deviation.**  A program with circular imports never begins to run: with modules each of which imports another one of them, the
calls of their initialization functions recurse without end. -/
theorem C74_cycle_runs (prog : Prog) (C : Nat → Prop) (hC : ∀ k, C k → ∃ j ∈ (prog k).imports, C j) (heap modules k : Nat) (hk : C k) (f : Nat) :
    Registry.main f prog heap modules k = none := by
  unfold Registry.main
  obtain ⟨h1, h2⟩ := cycle_aux prog C hC f
  cases e1 : initMod f prog ⟨Registry.init, fun _ => 0, []⟩ heap with
  | none => rfl
  | some p =>
    have z1 := (h1 _ heap (fun _ _ => rfl)).2 p e1
    show (initMod f prog p.1 modules).bind _ = none
    cases e2 : initMod f prog p.1 modules with
    | none => rfl
    | some q =>
      have z2 := (h1 _ modules z1).2 q e2
      show (initImports f prog q.1 (prog k).imports).bind _ = none
      rw [(h2 q.1 (prog k).imports z2).1 (hC k hk)]
      rfl

/-- Two modules that import each other. -/
example : ∀ k, k < 2 → ∃ j ∈ ((fun k => ⟨[], [1 - k], []⟩ : Registry.Prog) k).imports, j < 2 := by
  intro k hk
  exact ⟨1 - k, List.mem_singleton.2 rfl, by omega⟩

/-- **C74 deviation.**  With the 64th module imported the compiler ends with an index out of range: error 227 is reported, but the number
of the module is used nevertheless. -/
theorem C74_too_many : (imports (St.init [0]) ((List.range 64).map fun i => ⟨[i + 1], [], []⟩)).isNone = true := by
  decide +kernel

example : (imports (St.init [0]) ((List.range 63).map fun i => ⟨[i + 1], [], []⟩)).isSome = true := by
  decide +kernel

end Verif.Imports
