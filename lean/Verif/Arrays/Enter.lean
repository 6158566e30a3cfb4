import Verif.Arrays.Lens

/-! # The call and the first statements of the procedure -/
namespace Verif.Arrays

def Name.x : Name → Nat
  | .ptr x => x
  | .len x _ => x
  | .tag x => x
  | .cpy x => x

/-- The C program holds the lengths of what the actual parameter starts with. -/
def Act.Rooted (s : St) (E : Lens) : Act → Prop
  | .desig _ _ d => Arrays.Rooted s E d
  | _ => True

theorem evalAll_append {s : St} {ts us : List Text} {vs ws : List Nat} (h : evalAll s ts = some vs) (h' : evalAll s us = some ws) :
    evalAll s (ts ++ us) = some (vs ++ ws) := by
  induction ts generalizing vs with
  | nil => simp only [evalAll, Option.some.injEq] at h; subst h; simpa using h'
  | cons t ts ih =>
    simp only [evalAll, Option.bind_eq_bind, Option.bind_eq_some_iff, Option.pure_def, Option.some.injEq] at h
    obtain ⟨v, h1, vs', h2, rfl⟩ := h
    simp [evalAll, h1, ih h2]

theorem bind_append {ns ms : List Name} {vs ws : List Nat} {w w' : Name → Option Nat} (h : bind ns vs = some w) (h' : bind ms ws = some w') :
    bind (ns ++ ms) (vs ++ ws) = some fun n => (w n).or (w' n) := by
  induction ns generalizing vs w with
  | nil =>
    cases vs with
    | nil => simp only [bind, Option.some.injEq] at h; subst h; simpa using h'
    | cons => simp [bind] at h
  | cons n ns ih =>
    cases vs with
    | nil => simp [bind] at h
    | cons v vs =>
      simp only [bind, Option.bind_eq_bind, Option.bind_eq_some_iff, Option.pure_def, Option.some.injEq] at h
      obtain ⟨w1, h1, rfl⟩ := h
      simp only [List.cons_append, bind, ih h1, Option.bind_eq_bind, Option.bind_some, Option.pure_def, Option.some.injEq]
      funext k
      simp only [set]
      by_cases hk : k = n <;> simp [hk]

theorem bind_mem {ns : List Name} {vs : List Nat} {w : Name → Option Nat} (h : bind ns vs = some w) {n : Name} (hn : w n ≠ none) : n ∈ ns := by
  induction ns generalizing vs w with
  | nil =>
    cases vs with
    | nil => simp only [bind, Option.some.injEq] at h; subst h; exact (hn rfl).elim
    | cons => simp [bind] at h
  | cons m ns ih =>
    cases vs with
    | nil => simp [bind] at h
    | cons v vs =>
      simp only [bind, Option.bind_eq_bind, Option.bind_eq_some_iff, Option.pure_def, Option.some.injEq] at h
      obtain ⟨w1, h1, rfl⟩ := h
      by_cases hk : n = m
      · exact List.mem_cons.mpr (Or.inl hk)
      · simp only [set, hk, if_false] at hn
        exact List.mem_cons.mpr (Or.inr (ih h1 hn))

theorem mem_lenNames {x : Nat} {t : Ty} {dim : Nat} {n : Name} : n ∈ lenNames x t dim ↔ ∃ i, i < t.opens ∧ n = .len x (dim + i) := by
  induction t generalizing dim with
  | dyn t ih =>
    simp only [lenNames, List.mem_cons, ih, Ty.opens]
    constructor
    · rintro (rfl | ⟨i, hi, rfl⟩)
      · exact ⟨0, by omega, rfl⟩
      · exact ⟨i + 1, by omega, by congr 1; omega⟩
    · rintro ⟨i, hi, rfl⟩
      cases i with
      | zero => exact Or.inl rfl
      | succ i => exact Or.inr ⟨i, by omega, by congr 1; omega⟩
  | _ => simp [lenNames, Ty.opens]

theorem bind_lens (x : Nat) (t : Ty) : ∀ (dim : Nat) (vs : List Nat), vs.length = t.opens →
    ∃ w, bind (lenNames x t dim) vs = some w ∧ ∀ i, i < t.opens → w (.len x (dim + i)) = vs[i]? := by
  induction t with
  | dyn t ih =>
    intro dim vs hl
    cases vs with
    | nil => simp [Ty.opens] at hl
    | cons v vs =>
      obtain ⟨w, h1, h2⟩ := ih (dim + 1) vs (by simpa [Ty.opens] using hl)
      refine ⟨set w (.len x dim) (some v), by simp [lenNames, bind, h1], ?_⟩
      intro i hi
      cases i with
      | zero => simp [set]
      | succ i =>
        have := h2 i (by simp only [Ty.opens] at hi; omega)
        rw [show dim + 1 + i = dim + (i + 1) by omega] at this
        simp [set, this]
  | _ =>
    intro dim vs hl
    cases vs with
    | nil => exact ⟨_, rfl, by simp [Ty.opens]⟩
    | cons => simp [Ty.opens] at hl

theorem paramNames_dyn (f : Formal) (t : Ty) (h : f.ty = .dyn t) : paramNames f = .ptr f.x :: lenNames f.x (.dyn t) 0 := by
  rw [paramNames, h]; rfl

theorem mem_paramNames {f : Formal} {n : Name} (h : n ∈ paramNames f) : n.x = f.x := by
  cases ht : f.ty with
  | dyn t =>
    rw [paramNames_dyn f t ht] at h
    rcases List.mem_cons.mp h with rfl | h
    · rfl
    · obtain ⟨i, _, rfl⟩ := mem_lenNames.mp h; rfl
  | record i z =>
    simp only [paramNames, ht] at h
    split at h
    · rcases List.mem_cons.mp h with rfl | h
      · rfl
      · rw [List.mem_singleton.mp h]; rfl
    · rw [List.mem_singleton.mp h]; rfl
  | _ =>
    simp only [paramNames, ht] at h
    rw [List.mem_singleton.mp h]; rfl

theorem cpy_paramNames {f : Formal} {x : Nat} : .cpy x ∉ paramNames f := by
  intro h
  cases ht : f.ty with
  | dyn t =>
    rw [paramNames_dyn f t ht] at h
    rcases List.mem_cons.mp h with h | h
    · cases h
    · obtain ⟨i, _, h⟩ := mem_lenNames.mp h; cases h
  | record i z =>
    simp only [paramNames, ht] at h
    split at h <;> simp at h
  | _ => simp [paramNames, ht] at h

/-- The parameters of the C function have the right values for `f`. -/
structure Bound (E : Lens) (f : Formal) (a : Act) (w : Name → Option Nat) : Prop where
  ptr : w (.ptr f.x) = some a.word
  lens : ∀ i, i < f.ty.opens → w (.len f.x i) = (f.lens E a)[i]?
  full : f.ty.opens ≤ (f.lens E a).length
  tag : ∀ adr tag d i z, a = .desig adr tag d → f.ty = .record i z → f.var = true → w (.tag f.x) = some tag

theorem Bound.congr {E : Lens} {f : Formal} {a : Act} {w w' : Name → Option Nat} (h : Bound E f a w) (hw : ∀ n, n.x = f.x → w' n = w n) :
    Bound E f a w' :=
  ⟨(hw _ rfl).trans h.ptr, fun i hi => (hw _ rfl).trans (h.lens i hi), h.full, fun adr tag d i z h1 h2 h3 => (hw _ rfl).trans (h.tag adr tag d i z h1 h2 h3)⟩

theorem opens_zero {t : Ty} (h : ∀ u, t ≠ .dyn u) : t.opens = 0 := by
  cases t with
  | dyn t => exact (h t rfl).elim
  | _ => rfl

theorem bind_one (n : Name) (v : Nat) : bind [n] [v] = some (set (fun _ => none) n (some v)) := rfl

theorem actual_bound {s : St} {E : Lens} {f : Formal} {a : Act} (hp : Passes E f a) (hr : a.Rooted s E) :
    ∃ ts vs w, actualPar f a = some ts ∧ evalAll s ts = some vs ∧ bind (paramNames f) vs = some w ∧ Bound E f a w := by
  have hplain : (∀ u, f.ty ≠ .dyn u) → (∀ i z, f.ty = .record i z → f.var = false) →
      actualPar f a = some [.word a.word] ∧ paramNames f = [.ptr f.x] := by
    intro h1 h2
    cases ht : f.ty with
    | dyn t => exact (h1 t ht).elim
    | record i z =>
      have := h2 i z ht
      cases a <;> simp [actualPar, paramNames, ht, this, Act.word]
    | _ => cases a <;> simp [actualPar, paramNames, ht, Act.word]
  by_cases hd : ∃ u, f.ty = .dyn u
  · obtain ⟨u, hu⟩ := hd
    cases a with
    | value w => obtain ⟨_, h2⟩ := hp; rw [hu] at h2; cases h2
    | str adr n =>
      obtain ⟨h1, h2⟩ := hp
      have hc : f.ty = .dyn char := by
        rcases h2 with h2 | h2
        · exact h2
        · rw [hu] at h2; cases h2
      refine ⟨[.word adr, .word n], [adr, n], set (set (fun _ => none) (.len f.x 0) (some n)) (.ptr f.x) (some adr),
        by simp [actualPar, hc], rfl, ?_, ?_⟩
      · rw [paramNames_dyn f _ hc]; rfl
      · refine ⟨by simp [set, Act.word], ?_, by simp [hc, Ty.opens, Formal.lens, char], ?_⟩
        · intro i hi
          have : i = 0 := by rw [hc] at hi; simp [Ty.opens, char] at hi; exact hi
          subst this; simp [set, Formal.lens]
        · intro _ _ _ _ _ h; cases h
    | desig adr tag d =>
      obtain ⟨h1, h2, h3⟩ := hp
      obtain ⟨g1, g2⟩ := desig_ok h1
      obtain ⟨ts, k1, k2, k3⟩ := lenPars_eval h1 hr h3 0 (d.lens E) h2 g1 g2 rfl
      obtain ⟨w, b1, b2⟩ := bind_lens f.x f.ty 0 _ k3
      refine ⟨.word adr :: ts, adr :: (parLens f.ty d.typ (d.lens E)).take f.ty.opens, set w (.ptr f.x) (some adr), ?_, ?_, ?_, ?_⟩
      · rw [hu] at k1; simp only [actualPar, hu, k1]; rfl
      · simp [evalAll, Text.eval, k2]
      · rw [paramNames_dyn f u hu, ← hu]
        simp only [bind, b1]; rfl
      · refine ⟨by simp [set, Act.word], ?_, ?_, ?_⟩
        · intro i hi
          have := b2 i hi
          rw [Nat.zero_add, List.getElem?_take_of_lt hi] at this
          simp [set, this, Formal.lens]
        · have := List.length_take_le f.ty.opens (parLens f.ty d.typ (d.lens E))
          simp only [Formal.lens]
          rw [List.length_take] at k3; omega
        · intro _ _ _ i z _ h; rw [hu] at h; cases h
  · have hd' : ∀ u, f.ty ≠ .dyn u := fun u h => hd ⟨u, h⟩
    have hz := opens_zero hd'
    by_cases hrec : ∃ i z, f.ty = .record i z ∧ f.var = true
    · obtain ⟨i, z, ht, hv⟩ := hrec
      cases a with
      | value w => rw [hp.1] at hv; cases hv
      | str adr n => rw [hp.1] at hv; cases hv
      | desig adr tag d =>
        refine ⟨[.word adr, .word tag], [adr, tag], set (set (fun _ => none) (.tag f.x) (some tag)) (.ptr f.x) (some adr), by simp [actualPar, ht, hv], rfl, by simp only [paramNames, ht, hv, if_true]; rfl, ?_⟩
        refine ⟨by simp [set, Act.word], fun i hi => by rw [hz] at hi; omega, by omega, ?_⟩
        intro _ _ _ _ _ h _ _
        injection h with e1 e2 e3
        subst e2
        simp [set]
    · have hrec' : ∀ i z, f.ty = .record i z → f.var = false := fun i z h => by
        cases hv : f.var with
        | false => rfl
        | true => exact (hrec ⟨i, z, h, hv⟩).elim
      obtain ⟨h1, h2⟩ := hplain hd' hrec'
      refine ⟨_, [a.word], _, h1, rfl, by rw [h2]; exact bind_one _ _, ?_⟩
      refine ⟨by simp [set], fun i hi => by rw [hz] at hi; omega, by omega, ?_⟩
      intro _ _ _ i z _ h3 h4
      rw [hrec' i z h3] at h4; cases h4

theorem call_bound {s : St} {E : Lens} {fs : List Formal} {as : List Act} (hx : (fs.map Formal.x).Nodup) (hp : List.Forall₂ (Passes E) fs as)
    (hr : ∀ a ∈ as, a.Rooted s E) :
    ∃ ts vs w, actualPars fs as = some ts ∧ evalAll s ts = some vs ∧ bind (fs.flatMap paramNames) vs = some w ∧
      ∀ p ∈ fs.zip as, Bound E p.1 p.2 w := by
  induction hp with
  | nil => exact ⟨[], [], _, rfl, rfl, rfl, by simp⟩
  | @cons f a fs as h hs ih =>
    have hx' : f.x ∉ fs.map Formal.x ∧ (fs.map Formal.x).Nodup := List.nodup_cons.mp hx
    obtain ⟨ts, vs, w, h1, h2, h3, h4⟩ := ih hx'.2 (fun a ha => hr a (List.mem_cons_of_mem _ ha))
    obtain ⟨ts', vs', w', g1, g2, g3, g4⟩ := actual_bound h (hr a List.mem_cons_self)
    refine ⟨ts' ++ ts, vs' ++ vs, fun n => (w' n).or (w n), by simp [actualPars, h1, g1], evalAll_append g2 h2, ?_, ?_⟩
    · rw [List.flatMap_cons]; exact bind_append g3 h3
    · intro p hmem
      rcases List.mem_cons.mp (by simpa using hmem) with rfl | hmem
      · refine g4.congr (fun n hn => ?_)
        cases hw : w' n with
        | some v => rfl
        | none =>
          cases hw2 : w n with
          | none => rfl
          | some v =>
            have := bind_mem h3 (n := n) (by rw [hw2]; simp)
            obtain ⟨g, hg, hgn⟩ := List.mem_flatMap.mp this
            exact (hx'.1 (List.mem_map.mpr ⟨g, hg, (mem_paramNames hgn).symm.trans hn⟩)).elim
      · refine (h4 p hmem).congr (fun n hn => ?_)
        cases hw : w' n with
        | none => rfl
        | some v =>
          have := mem_paramNames (bind_mem g3 (n := n) (by rw [hw]; simp))
          exact (hx'.1 (List.mem_map.mpr ⟨p.1, (List.of_mem_zip hmem).1, hn.symm.trans this⟩)).elim
end Verif.Arrays
