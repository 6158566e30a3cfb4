import Verif.Common
import Verif.SymFile.Spec

/-!
# Facts about the exporter alone: numbering of types is consistent and complete, and the recursion bound
is never the reason for a failure.
-/
namespace Verif.SymFile
open Verif.FileNum

/-- Numbers are used once; the arrays of the compiler are large enough. -/
def Good (s : ES) : Prop :=
  s.refs.Nodup ∧ s.mods.Nodup ∧ (∀ m ∈ s.mods, m < 64) ∧ firstRef + s.refs.length < 255

/-- `s'` is a later state of the exporter than `s`, and all the types entered in between are complete:
everything they mention has been entered too. -/
structure Ext (env : Env) (s s' : ES) : Prop where
  pre : s.refs <+: s'.refs
  mods : s.mods <+: s'.mods
  good : Good s → Good s'
  closed : ∀ id ∈ s'.refs, id ∉ s.refs → ∀ j ∈ idsBody (env.typ id).body, j ∈ s'.refs

theorem Ext.refl (env : Env) (s : ES) : Ext env s s :=
  ⟨List.prefix_refl _, List.prefix_refl _, id, fun _ h h' => absurd h h'⟩

theorem Ext.trans {env : Env} {s s1 s2 : ES} (a : Ext env s s1) (b : Ext env s1 s2) : Ext env s s2 := by
  refine ⟨a.pre.trans b.pre, a.mods.trans b.mods, fun h => b.good (a.good h), fun id h h' j hj => ?_⟩
  by_cases h1 : id ∈ s1.refs
  · exact b.pre.subset (a.closed id h1 h' j hj)
  · exact b.closed id h h1 j hj

/-- What a correct `OutStr` guarantees. -/
def OutGood (env : Env) (out : TRef → ES → Option (List Nat × ES)) : Prop :=
  ∀ t s bs s', out t s = some (bs, s') →
    Ext env s s' ∧ (∀ j ∈ idsT t, j ∈ s'.refs) ∧ 0 < bs.length

theorem writeNum_pos (x : Int) : 0 < (writeNum x).length := by
  rw [writeNum]; split <;> simp

theorem outMod_ext {env : Env} {m : Nat} {s s' : ES} {bs : List Nat}
    (h : outMod env m s = some (bs, s')) :
    s'.refs = s.refs ∧ s.mods <+: s'.mods ∧ (Good s → Good s') ∧ m ∈ s'.mods := by
  unfold outMod at h
  split at h
  · rename_i hm
    split at h
    · rename_i hi
      simp only [Option.some.injEq, Prod.mk.injEq] at h
      obtain ⟨-, rfl⟩ := h
      exact ⟨rfl, List.prefix_refl _, id, hi⟩
    · rename_i hi
      simp only [Option.some.injEq, Prod.mk.injEq] at h
      obtain ⟨-, rfl⟩ := h
      refine ⟨rfl, List.prefix_append _ _, ?_, by simp⟩
      rintro ⟨h1, h2, h3, h4⟩
      refine ⟨h1, ?_, ?_, h4⟩
      · show (s.mods ++ [m]).Nodup
        rw [List.nodup_append]
        refine ⟨h2, by simp, ?_⟩
        intro a ha b hb
        rw [List.mem_singleton] at hb
        subst hb
        rintro rfl; exact hi ha
      · intro x hx
        rcases List.mem_append.1 hx with hx | hx
        · exact h3 x hx
        · rw [List.mem_singleton] at hx; omega
  · simp at h

section
variable {env : Env} {out : TRef → ES → Option (List Nat × ES)} (ho : OutGood env out)
include ho

theorem outPars_good (ps : List Par) : ∀ (s : ES) (bs : List Nat) (s' : ES),
    outPars out ps s = some (bs, s') → Ext env s s' ∧ ∀ j ∈ idsPars ps, j ∈ s'.refs := by
  induction ps with
  | nil =>
    intro s bs s' h
    simp only [outPars, Option.some.injEq, Prod.mk.injEq] at h
    obtain ⟨-, rfl⟩ := h
    exact ⟨Ext.refl _ _, by simp [idsPars]⟩
  | cons p ps ih =>
    intro s bs s' h
    simp only [outPars, Option.bind_eq_bind, Option.bind_eq_some_iff, Prod.exists, Option.some.injEq,
      Prod.mk.injEq] at h
    obtain ⟨b1, s1, h1, b2, s2, h2, -, rfl⟩ := h
    obtain ⟨e1, i1, -⟩ := ho _ _ _ _ h1
    obtain ⟨e2, i2⟩ := ih _ _ _ h2
    refine ⟨e1.trans e2, ?_⟩
    intro j hj
    simp only [idsPars, List.flatMap_cons, List.mem_append] at hj
    rcases hj with hj | hj
    · exact e2.pre.subset (i1 j hj)
    · exact i2 j hj

theorem outSign_good {res : TRef} {ps : List Par} {s s' : ES} {bs : List Nat}
    (h : outSign out res ps s = some (bs, s')) :
    Ext env s s' ∧ (∀ j ∈ idsT res ++ idsPars ps, j ∈ s'.refs) := by
  simp only [outSign, Option.bind_eq_bind, Option.bind_eq_some_iff, Prod.exists, Option.some.injEq,
      Prod.mk.injEq] at h
  obtain ⟨b1, s1, h1, b2, s2, h2, -, rfl⟩ := h
  obtain ⟨e1, i1, -⟩ := ho _ _ _ _ h1
  obtain ⟨e2, i2⟩ := outPars_good ho _ _ _ _ h2
  refine ⟨e1.trans e2, ?_⟩
  intro j hj
  rcases List.mem_append.1 hj with hj | hj
  · exact e2.pre.subset (i1 j hj)
  · exact i2 j hj

theorem outFlds_good (fs : List Fld) : ∀ (s : ES) (bs : List Nat) (s' : ES),
    outFlds out fs s = some (bs, s') → Ext env s s' ∧ ∀ j ∈ fs.flatMap idsFld, j ∈ s'.refs := by
  induction fs with
  | nil =>
    intro s bs s' h
    simp only [outFlds, Option.some.injEq, Prod.mk.injEq] at h
    obtain ⟨-, rfl⟩ := h
    exact ⟨Ext.refl _ _, by simp⟩
  | cons f fs ih =>
    intro s bs s' h
    cases f with
    | visible ro t name adr =>
      simp only [outFlds, Option.bind_eq_bind, Option.bind_eq_some_iff, Prod.exists, Option.some.injEq,
        Prod.mk.injEq] at h
      obtain ⟨b1, s1, h1, b2, s2, h2, -, rfl⟩ := h
      obtain ⟨e1, i1, -⟩ := ho _ _ _ _ h1
      obtain ⟨e2, i2⟩ := ih _ _ _ h2
      refine ⟨e1.trans e2, ?_⟩
      intro j hj
      simp only [List.flatMap_cons, List.mem_append, idsFld] at hj
      rcases hj with hj | hj
      · exact e2.pre.subset (i1 j hj)
      · exact i2 j hj
    | hdptr adr =>
      simp only [outFlds, Option.bind_eq_bind, Option.bind_eq_some_iff, Prod.exists, Option.some.injEq,
        Prod.mk.injEq] at h
      obtain ⟨b2, s2, h2, -, rfl⟩ := h
      obtain ⟨e2, i2⟩ := ih _ _ _ h2
      exact ⟨e2, by simpa [idsFld] using i2⟩

theorem outTProcs_good (ps : List TProc) : ∀ (s : ES) (bs : List Nat) (s' : ES),
    outTProcs out ps s = some (bs, s') →
    Ext env s s' ∧ ∀ j ∈ ps.flatMap fun p => idsT p.res ++ idsPars p.pars, j ∈ s'.refs := by
  induction ps with
  | nil =>
    intro s bs s' h
    simp only [outTProcs, Option.some.injEq, Prod.mk.injEq] at h
    obtain ⟨-, rfl⟩ := h
    exact ⟨Ext.refl _ _, by simp⟩
  | cons p ps ih =>
    intro s bs s' h
    simp only [outTProcs, Option.bind_eq_bind, Option.bind_eq_some_iff, Prod.exists, Option.some.injEq,
      Prod.mk.injEq] at h
    obtain ⟨b1, s1, h1, b2, s2, h2, -, rfl⟩ := h
    obtain ⟨e1, i1⟩ := outSign_good ho h1
    obtain ⟨e2, i2⟩ := ih _ _ _ h2
    refine ⟨e1.trans e2, ?_⟩
    intro j hj
    rw [List.flatMap_cons, List.mem_append] at hj
    rcases hj with hj | hj
    · exact e2.pre.subset (i1 j hj)
    · exact i2 j hj

theorem outBody_good {b : Body} {s s' : ES} {bs : List Nat} (h : outBody out b s = some (bs, s')) :
    Ext env s s' ∧ ∀ j ∈ idsBody b, j ∈ s'.refs := by
  cases b with
  | ptr base =>
    simp only [outBody, Option.bind_eq_bind, Option.bind_eq_some_iff, Prod.exists, Option.some.injEq,
      Prod.mk.injEq] at h
    obtain ⟨b1, s1, h1, -, rfl⟩ := h
    obtain ⟨e1, i1, -⟩ := ho _ _ _ _ h1
    exact ⟨e1, i1⟩
  | arr base n =>
    simp only [outBody, Option.bind_eq_bind, Option.bind_eq_some_iff, Prod.exists, Option.some.injEq,
      Prod.mk.injEq] at h
    obtain ⟨b1, s1, h1, -, rfl⟩ := h
    obtain ⟨e1, i1, -⟩ := ho _ _ _ _ h1
    exact ⟨e1, i1⟩
  | darr base =>
    simp only [outBody, Option.bind_eq_bind, Option.bind_eq_some_iff, Prod.exists, Option.some.injEq,
      Prod.mk.injEq] at h
    obtain ⟨b1, s1, h1, -, rfl⟩ := h
    obtain ⟨e1, i1, -⟩ := ho _ _ _ _ h1
    exact ⟨e1, i1⟩
  | proc res ps =>
    simp only [outBody, Option.bind_eq_bind, Option.bind_eq_some_iff, Prod.exists, Option.some.injEq,
      Prod.mk.injEq] at h
    obtain ⟨b1, s1, h1, -, rfl⟩ := h
    exact outSign_good ho h1
  | record base size align n flds procs =>
    simp only [outBody, Option.bind_eq_bind, Option.bind_eq_some_iff, Prod.exists, Option.some.injEq,
      Prod.mk.injEq] at h
    obtain ⟨b1, s1, h1, b2, s2, h2, b3, s3, h3, -, rfl⟩ := h
    obtain ⟨e1, i1, -⟩ := ho _ _ _ _ h1
    obtain ⟨e2, i2⟩ := outFlds_good ho _ _ _ _ h2
    obtain ⟨e3, i3⟩ := outTProcs_good ho _ _ _ _ h3
    refine ⟨(e1.trans e2).trans e3, ?_⟩
    intro j hj
    simp only [idsBody, List.append_assoc, List.mem_append] at hj
    rcases hj with hj | hj | hj
    · apply e3.pre.subset; apply e2.pre.subset; apply i1
      cases base with
      | none => simp at hj
      | some t => exact hj
    · exact e3.pre.subset (i2 j hj)
    · exact i3 j hj

end

theorem outStr_good (env : Env) : ∀ depth, OutGood env (outStr env depth) := by
  intro depth
  induction depth with
  | zero =>
    intro t s bs s' h
    cases t with
    | basic f =>
      simp only [outStr, Option.some.injEq, Prod.mk.injEq] at h
      obtain ⟨rfl, rfl⟩ := h
      exact ⟨Ext.refl _ _, by simp [idsT], writeNum_pos _⟩
    | int n =>
      simp only [outStr, Option.some.injEq, Prod.mk.injEq] at h
      obtain ⟨rfl, rfl⟩ := h
      exact ⟨Ext.refl _ _, by simp [idsT], by rw [List.length_append]; have := writeNum_pos (-4); omega⟩
    | set n =>
      simp only [outStr, Option.some.injEq, Prod.mk.injEq] at h
      obtain ⟨rfl, rfl⟩ := h
      exact ⟨Ext.refl _ _, by simp [idsT], by rw [List.length_append]; have := writeNum_pos (-7); omega⟩
    | str id => simp [outStr] at h
  | succ depth ih =>
    intro t s bs s' h
    cases t with
    | basic f =>
      simp only [outStr, Option.some.injEq, Prod.mk.injEq] at h
      obtain ⟨rfl, rfl⟩ := h
      exact ⟨Ext.refl _ _, by simp [idsT], writeNum_pos _⟩
    | int n =>
      simp only [outStr, Option.some.injEq, Prod.mk.injEq] at h
      obtain ⟨rfl, rfl⟩ := h
      exact ⟨Ext.refl _ _, by simp [idsT], by rw [List.length_append]; have := writeNum_pos (-4); omega⟩
    | set n =>
      simp only [outStr, Option.some.injEq, Prod.mk.injEq] at h
      obtain ⟨rfl, rfl⟩ := h
      exact ⟨Ext.refl _ _, by simp [idsT], by rw [List.length_append]; have := writeNum_pos (-7); omega⟩
    | str id =>
      rw [outStr] at h
      split at h
      · rename_i hi
        simp only [Option.some.injEq, Prod.mk.injEq] at h
        obtain ⟨rfl, rfl⟩ := h
        exact ⟨Ext.refl _ _, by simpa [idsT] using hi, writeNum_pos _⟩
      · rename_i hi
        dsimp only at h
        split at h
        · simp at h
        · rename_i hlt
          simp only [Option.bind_eq_bind, Option.bind_eq_some_iff, Prod.exists, Option.some.injEq,
            Prod.mk.injEq] at h
          obtain ⟨bm, s2, hm, bb, s3, hb, rfl, rfl⟩ := h
          obtain ⟨m1, m2, m3, m4⟩ := outMod_ext hm
          obtain ⟨e, ie⟩ := outBody_good ih hb
          have hpre : s.refs ++ [id] <+: s3.refs := by
            have := e.pre; rw [m1] at this; exact this
          have hmem : id ∈ s3.refs := hpre.subset (by simp)
          refine ⟨⟨(List.prefix_append _ _).trans hpre, m2.trans e.mods, ?_, ?_⟩, ?_, ?_⟩
          · rintro ⟨g1, g2, g3, g4⟩
            apply e.good; apply m3
            refine ⟨?_, g2, g3, Nat.lt_of_not_le hlt⟩
            show (s.refs ++ [id]).Nodup
            rw [List.nodup_append]
            refine ⟨g1, by simp, ?_⟩
            intro a ha b hb'
            rw [List.mem_singleton] at hb'
            subst hb'
            rintro rfl; exact hi ha
          · intro j hj hjs
            by_cases hid : j = id
            · subst hid; exact ie
            · apply e.closed j hj
              rw [m1]
              show j ∉ s.refs ++ [id]
              simp [hjs, hid]
          · simpa [idsT] using hmem
          · have := writeNum_pos 34
            simp only [List.length_append]; omega

/-! ### The recursion bound -/

/-- Two recursive calls that agree on all later states. -/
def Agree (n : Nat) (o1 o2 : TRef → ES → Option (List Nat × ES)) : Prop :=
  ∀ t s, n ≤ s.refs.length → o1 t s = o2 t s

section
variable {env : Env} {n : Nat} {o1 o2 : TRef → ES → Option (List Nat × ES)} (ha : Agree n o1 o2)
  (ho : OutGood env o2)
include ha ho

theorem outPars_agree (ps : List Par) : ∀ s : ES, n ≤ s.refs.length →
    outPars o1 ps s = outPars o2 ps s := by
  induction ps with
  | nil => intro s _; rfl
  | cons p ps ih =>
    intro s hs
    rw [outPars, outPars, ha _ _ hs]
    cases h : o2 p.typ s with
    | none => rfl
    | some x =>
      obtain ⟨b1, s1⟩ := x
      have := (ho _ _ _ _ h).1.pre.length_le
      simp only [Option.bind_eq_bind, Option.bind_some]
      rw [ih s1 (by omega)]

theorem outSign_agree (res : TRef) (ps : List Par) (s : ES) (hs : n ≤ s.refs.length) :
    outSign o1 res ps s = outSign o2 res ps s := by
  rw [outSign, outSign, ha _ _ hs]
  cases h : o2 res s with
  | none => rfl
  | some x =>
    obtain ⟨b1, s1⟩ := x
    have := (ho _ _ _ _ h).1.pre.length_le
    simp only [Option.bind_eq_bind, Option.bind_some]
    rw [outPars_agree ha ho ps s1 (by omega)]

theorem outFlds_agree (fs : List Fld) : ∀ s : ES, n ≤ s.refs.length →
    outFlds o1 fs s = outFlds o2 fs s := by
  induction fs with
  | nil => intro s _; rfl
  | cons f fs ih =>
    intro s hs
    cases f with
    | visible ro t name adr =>
      rw [outFlds, outFlds, ha _ _ hs]
      cases h : o2 t s with
      | none => rfl
      | some x =>
        obtain ⟨b1, s1⟩ := x
        have := (ho _ _ _ _ h).1.pre.length_le
        simp only [Option.bind_eq_bind, Option.bind_some]
        rw [ih s1 (by omega)]
    | hdptr adr => rw [outFlds, outFlds, ih s hs]

theorem outTProcs_agree (ps : List TProc) : ∀ s : ES, n ≤ s.refs.length →
    outTProcs o1 ps s = outTProcs o2 ps s := by
  induction ps with
  | nil => intro s _; rfl
  | cons p ps ih =>
    intro s hs
    rw [outTProcs, outTProcs, outSign_agree ha ho _ _ _ hs]
    cases h : outSign o2 p.res p.pars s with
    | none => rfl
    | some x =>
      obtain ⟨b1, s1⟩ := x
      have := (outSign_good ho h).1.pre.length_le
      simp only [Option.bind_eq_bind, Option.bind_some]
      rw [ih s1 (by omega)]

theorem outBody_agree (b : Body) (s : ES) (hs : n ≤ s.refs.length) :
    outBody o1 b s = outBody o2 b s := by
  cases b with
  | ptr base => simp only [outBody, ha _ _ hs]
  | arr base n => simp only [outBody, ha _ _ hs]
  | darr base => simp only [outBody, ha _ _ hs]
  | proc res ps => simp only [outBody, outSign_agree ha ho _ _ _ hs]
  | record base size align k flds procs =>
    simp only [outBody]
    rw [ha _ _ hs]
    cases h : o2 (match base with | none => .basic 10 | some t => t) s with
    | none => rfl
    | some x =>
      obtain ⟨b1, s1⟩ := x
      have l1 := (ho _ _ _ _ h).1.pre.length_le
      simp only [Option.bind_eq_bind, Option.bind_some]
      rw [outFlds_agree ha ho _ _ (by omega)]
      cases h2 : outFlds o2 flds s1 with
      | none => rfl
      | some y =>
        obtain ⟨b2, s2⟩ := y
        have l2 := (outFlds_good ho _ _ _ _ h2).1.pre.length_le
        simp only [Option.bind_some]
        rw [outTProcs_agree ha ho _ _ (by omega)]

end

/-- Recursion deeper than the number of types that can still be entered never happens: the bound of
`outStr` is not a restriction.  (`maxDepth` satisfies it in every state.) -/
theorem outStr_depth (env : Env) : ∀ (d e : Nat) (t : TRef) (s : ES), 255 ≤ s.refs.length + (d + 1) →
    255 ≤ s.refs.length + (e + 1) → outStr env (d + 1) t s = outStr env (e + 1) t s := by
  intro d
  induction d with
  | zero =>
    intro e t s h1 h2
    cases t with
    | str id =>
      rw [outStr, outStr]
      split
      · rfl
      · dsimp only
        rw [if_pos (by simp only [firstRef, List.length_append]; omega),
          if_pos (by simp only [firstRef, List.length_append]; omega)]
    | _ => simp only [outStr]
  | succ d ih =>
    intro e t s h1 h2
    cases t with
    | str id =>
      rw [outStr, outStr]
      split
      · rfl
      · dsimp only
        split
        · rfl
        · rename_i hlt
          simp only [firstRef, List.length_append, List.length_singleton] at hlt
          cases hm : outMod env (env.typ id).mod { s with refs := s.refs ++ [id] } with
          | none => rfl
          | some x =>
            obtain ⟨bm, s2⟩ := x
            obtain ⟨m1, -⟩ := outMod_ext hm
            simp only [Option.bind_eq_bind, Option.bind_some]
            cases e with
            | zero => omega
            | succ e =>
              rw [outBody_agree (n := s.refs.length + 1) (o1 := outStr env (d + 1))
                (o2 := outStr env (e + 1)) (env := env) ?_ (outStr_good env _)]
              · rw [m1]; simp
              · intro t' s' hs'
                exact ih e t' s' (by omega) (by omega)
    | _ => simp only [outStr]

end Verif.SymFile
