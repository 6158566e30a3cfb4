import Verif.Common
import Verif.Dispatch.Spec

/-! Facts about type extension, name lookup and origins of methods. -/
namespace Verif.Dispatch

theorem Extends.trans {p : Prog} {i j k : Nat} (h : Extends p i j) (g : Extends p j k) : Extends p i k := by
  induction h with
  | refl => exact g
  | step hb _ ih => exact .step hb (ih g)

theorem Extends.le {p : Prog} (w : WF p) {i j : Nat} (h : Extends p i j) : j ≤ i := by
  induction h with
  | refl => exact Nat.le_refl _
  | step hb _ ih => have := w.base_lt _ _ hb; omega

theorem Extends.cases' {p : Prog} {i j : Nat} (h : Extends p i j) :
    j = i ∨ ∃ b, (p i).base = some b ∧ Extends p b j := by
  cases h with
  | refl => exact .inl rfl
  | step hb h => exact .inr ⟨_, hb, h⟩

/-! ### Lookup -/

theorem seen_iff {p : Prog} {m i name : Nat} {k : Nat} :
    (∃ x, (p i).meths[k]? = some x ∧ seen p m i name x = true) ↔ Visible p m i k ∧ Named p i k name := by
  constructor
  · rintro ⟨x, hx, h⟩
    simp only [seen, Bool.and_eq_true, Bool.or_eq_true, beq_iff_eq] at h
    exact ⟨⟨x, hx, h.2⟩, ⟨x, hx, h.1⟩⟩
  · rintro ⟨⟨x, hx, h⟩, ⟨y, hy, h'⟩⟩
    rw [hx] at hy; cases hy
    refine ⟨x, hx, ?_⟩
    simp only [seen, Bool.and_eq_true, Bool.or_eq_true, beq_iff_eq]
    exact ⟨h', h⟩

theorem named_unique {p : Prog} (w : WF p) {i k l name : Nat} (h : Named p i k name) (g : Named p i l name) :
    k = l := by
  obtain ⟨x, hx, hxn⟩ := h
  obtain ⟨y, hy, hyn⟩ := g
  have hn := w.names i
  have hk : ((p i).meths.map (·.name))[k]? = some name := by rw [List.getElem?_map, hx]; simp [hxn]
  have hl : ((p i).meths.map (·.name))[l]? = some name := by rw [List.getElem?_map, hy]; simp [hyn]
  obtain ⟨hk1, hk2⟩ := List.getElem?_eq_some_iff.mp hk
  obtain ⟨hl1, hl2⟩ := List.getElem?_eq_some_iff.mp hl
  exact (List.Nodup.getElem_inj_iff hn).mp (hk2.trans hl2.symm)

theorem findIdx_some {p : Prog} (w : WF p) {m i name k : Nat} :
    (p i).meths.findIdx? (seen p m i name) = some k ↔ Visible p m i k ∧ Named p i k name := by
  rw [← seen_iff, List.findIdx?_eq_some_iff_getElem]
  constructor
  · rintro ⟨h, h1, _⟩
    exact ⟨_, List.getElem?_eq_getElem h, h1⟩
  · rintro ⟨x, hx, hs⟩
    obtain ⟨h1, h2⟩ := List.getElem?_eq_some_iff.mp hx
    refine ⟨h1, by rw [h2]; exact hs, ?_⟩
    intro j hj hc
    have hjl : j < (p i).meths.length := by omega
    have a := (seen_iff (p := p) (m := m) (i := i) (name := name) (k := j)).mp
      ⟨_, List.getElem?_eq_getElem hjl, hc⟩
    have b := (seen_iff (p := p) (m := m) (i := i) (name := name) (k := k)).mp ⟨x, hx, hs⟩
    have := named_unique w a.2 b.2
    omega

theorem findIdx_none {p : Prog} (w : WF p) {m i name : Nat} :
    (p i).meths.findIdx? (seen p m i name) = none ↔ ∀ l, Visible p m i l → ¬ Named p i l name := by
  constructor
  · intro h l hv hn
    have := (findIdx_some w).mpr ⟨hv, hn⟩
    rw [h] at this; exact absurd this (by simp)
  · intro h
    cases hf : (p i).meths.findIdx? (seen p m i name) with
    | none => rfl
    | some k =>
      have := (findIdx_some w).mp hf
      exact absurd this.2 (h k this.1)

theorem findField_iff {p : Prog} (w : WF p) (m name : Nat) : ∀ (f i b l : Nat), i < f →
    (findField p m name f (some i) = some (b, l) ↔ Means p m name i b l) := by
  intro f
  induction f with
  | zero => intro i b l h; omega
  | succ f ih =>
    intro i b l h
    simp only [findField]
    cases hf : (p i).meths.findIdx? (seen p m i name) with
    | some k =>
      have hk := (findIdx_some w).mp hf
      constructor
      · intro e; cases e; exact .here hk.1 hk.2
      · intro e
        cases e with
        | here hv hn => rw [named_unique w hk.2 hn]
        | up hno _ _ => exact absurd hk.2 (hno k hk.1)
    | none =>
      have hno := (findIdx_none w).mp hf
      cases hb : (p i).base with
      | none =>
        constructor
        · intro e; cases f <;> simp [findField] at e
        · intro e
          cases e with
          | here hv hn => exact absurd hn (hno _ hv)
          | up _ hb' _ => rw [hb] at hb'; cases hb'
      | some c =>
        have hc := w.base_lt _ _ hb
        simp only []
        rw [ih c b l (by omega)]
        constructor
        · intro e; exact .up hno hb e
        · intro e
          cases e with
          | here hv hn => exact absurd hn (hno _ hv)
          | up _ hb' e => rw [hb] at hb'; cases hb'; exact e

theorem findField_base {p : Prog} (w : WF p) (m name i : Nat) (b l : Nat) :
    findField p m name (i + 1) (p i).base = some (b, l) ↔ ∃ c, (p i).base = some c ∧ Means p m name c b l := by
  cases hb : (p i).base with
  | none => simp [findField]
  | some c =>
    have hc := w.base_lt _ _ hb
    rw [findField_iff w m name (i + 1) c b l (by omega)]
    simp

theorem Means.unique {p : Prog} (w : WF p) {m name i b l b' l' : Nat} (h : Means p m name i b l)
    (g : Means p m name i b' l') : b = b' ∧ l = l' := by
  have h1 := (findField_iff w m name (i + 1) i b l (by omega)).mpr h
  have h2 := (findField_iff w m name (i + 1) i b' l' (by omega)).mpr g
  rw [h1] at h2
  simpa using h2

theorem Means.ext {p : Prog} {m name i b l : Nat} (h : Means p m name i b l) :
    Extends p i b ∧ Visible p m b l ∧ Named p b l name := by
  induction h with
  | here hv hn => exact ⟨.refl _, hv, hn⟩
  | up _ hb _ ih => exact ⟨.step hb ih.1, ih.2⟩

theorem Named.decl {p : Prog} {i k name : Nat} (h : Named p i k name) : Decl p i k := by
  obtain ⟨x, hx, _⟩ := h
  exact (List.getElem?_eq_some_iff.mp hx).1

theorem Decl.named {p : Prog} {i k : Nat} (h : Decl p i k) : ∃ name, Named p i k name :=
  ⟨_, _, List.getElem?_eq_getElem h, rfl⟩

theorem Named.inj {p : Prog} {i k a b : Nat} (h : Named p i k a) (g : Named p i k b) : a = b := by
  obtain ⟨x, hx, h1⟩ := h
  obtain ⟨y, hy, h2⟩ := g
  rw [hx] at hy; cases hy; omega

/-! ### Redefinition and origins -/

theorem Redefines.unique {p : Prog} (w : WF p) {i k b l b' l' : Nat} (h : Redefines p i k b l)
    (g : Redefines p i k b' l') : b = b' ∧ l = l' := by
  obtain ⟨x, c, hx, hc, hm⟩ := h
  obtain ⟨x', c', hx', hc', hm'⟩ := g
  rw [hx] at hx'; cases hx'
  rw [hc] at hc'; cases hc'
  exact hm.unique w hm'

theorem Redefines.facts {p : Prog} {i k b l : Nat} (h : Redefines p i k b l) :
    (∃ c, (p i).base = some c ∧ Extends p c b) ∧ Decl p i k ∧ Decl p b l ∧
      ∃ name, Named p i k name ∧ Named p b l name := by
  obtain ⟨x, c, hx, hc, hm⟩ := h
  have he := hm.ext
  exact ⟨⟨c, hc, he.1⟩, (List.getElem?_eq_some_iff.mp hx).1, he.2.2.decl, x.name, ⟨x, hx, rfl⟩, he.2.2⟩

theorem Redefines.lt {p : Prog} (w : WF p) {i k b l : Nat} (h : Redefines p i k b l) : b < i := by
  obtain ⟨⟨c, hc, he⟩, _⟩ := h.facts
  have := w.base_lt _ _ hc
  have := he.le w
  omega

/-- The lookup `GetTProcNum` makes decides redefinition. -/
theorem redef_iff {p : Prog} (w : WF p) {i k : Nat} {x : Meth} (hx : (p i).meths[k]? = some x) (b l : Nat) :
    findField p (p i).mod x.name (i + 1) (p i).base = some (b, l) ↔ Redefines p i k b l := by
  rw [findField_base w]
  constructor
  · rintro ⟨c, hc, hm⟩; exact ⟨x, c, hx, hc, hm⟩
  · rintro ⟨y, c, hy, hc, hm⟩
    rw [hx] at hy; cases hy
    exact ⟨c, hc, hm⟩

theorem redef_or {p : Prog} (w : WF p) {i k : Nat} (hk : Decl p i k) :
    (∃ b l, Redefines p i k b l) ∨ ∀ b l, ¬ Redefines p i k b l := by
  obtain ⟨x, hx⟩ : ∃ x, (p i).meths[k]? = some x := ⟨_, List.getElem?_eq_getElem hk⟩
  cases hf : findField p (p i).mod x.name (i + 1) (p i).base with
  | none =>
    right
    intro b l h
    have := (redef_iff w hx b l).mpr h
    rw [hf] at this; cases this
  | some bl =>
    left
    exact ⟨bl.1, bl.2, (redef_iff w hx _ _).mp hf⟩

theorem origin_total {p : Prog} (w : WF p) : ∀ (i k : Nat), Decl p i k → ∃ j o, Origin p i k j o := by
  intro i
  induction i using Nat.strong_induction_on with
  | _ i ih =>
    intro k hk
    rcases redef_or w hk with ⟨b, l, h⟩ | h
    · obtain ⟨j, o, ho⟩ := ih b (h.lt w) l h.facts.2.2.1
      exact ⟨j, o, .redef h ho⟩
    · exact ⟨i, k, .new hk h⟩

theorem Origin.unique {p : Prog} (w : WF p) {i k j o j' o' : Nat} (h : Origin p i k j o) (g : Origin p i k j' o') :
    j = j' ∧ o = o' := by
  induction h with
  | new _ hn =>
    cases g with
    | new => exact ⟨rfl, rfl⟩
    | redef hr _ => exact absurd hr (hn _ _)
  | redef hr _ ih =>
    cases g with
    | new _ hn => exact absurd hr (hn _ _)
    | redef hr' ho' =>
      obtain ⟨e1, e2⟩ := hr.unique w hr'
      subst e1 e2
      exact ih ho'

theorem Origin.facts {p : Prog} {i k j o : Nat} (h : Origin p i k j o) :
    Extends p i j ∧ Decl p i k ∧ Decl p j o ∧ ∀ name, Named p i k name ↔ Named p j o name := by
  induction h with
  | new hd _ => exact ⟨.refl _, hd, hd, fun _ => Iff.rfl⟩
  | redef hr _ ih =>
    obtain ⟨⟨c, hc, he⟩, hd, _, name, hn, hn'⟩ := hr.facts
    refine ⟨.step hc (he.trans ih.1), hd, ih.2.2.1, ?_⟩
    intro name'
    rw [← ih.2.2.2 name']
    constructor
    · intro h; rw [hn.inj h] at hn'; exact hn'
    · intro h; rw [hn'.inj h] at hn; exact hn

/-- Two methods of one type do not have the same origin. -/
theorem origin_inj {p : Prog} (w : WF p) {i k l j o : Nat} (h : Origin p i k j o) (g : Origin p i l j o) : k = l := by
  obtain ⟨name, hn⟩ := h.facts.2.2.1.named
  exact named_unique w ((h.facts.2.2.2 name).mpr hn) ((g.facts.2.2.2 name).mpr hn)

theorem Impl.unique {p : Prog} (w : WF p) {j o i c l c' l' : Nat} (h : Impl p j o i c l) (g : Impl p j o i c' l') :
    c = c' ∧ l = l' := by
  induction h with
  | here ho =>
    cases g with
    | here ho' => exact ⟨rfl, origin_inj w ho ho'⟩
    | up hn _ _ => exact absurd ho (hn _)
  | up hn hb _ ih =>
    cases g with
    | here ho' => exact absurd ho' (hn _)
    | up _ hb' h' => rw [hb] at hb'; cases hb'; exact ih h'

/-- An ancestor's method has an implementation for every extension. -/
theorem impl_total {p : Prog} {i a k j o : Nat} (he : Extends p i a) (ho : Origin p a k j o) :
    ∃ c l, Impl p j o i c l := by
  induction he with
  | refl => exact ⟨_, _, .here ho⟩
  | @step i b a hb _ ih =>
    by_cases h : ∃ k, Origin p i k j o
    · obtain ⟨k, hk⟩ := h; exact ⟨_, _, .here hk⟩
    · obtain ⟨c, l, hi⟩ := ih ho
      exact ⟨c, l, .up (fun k hk => h ⟨k, hk⟩) hb hi⟩

theorem Impl.facts {p : Prog} {j o i c l : Nat} (h : Impl p j o i c l) : Extends p i c ∧ Origin p c l j o := by
  induction h with
  | here ho => exact ⟨.refl _, ho⟩
  | up _ hb _ ih => exact ⟨.step hb ih.1, ih.2⟩

/-! ### Extension levels -/

def lev (p : Prog) (i : Nat) : Nat := extlev p (i + 1) i

theorem extlev_fuel {p : Prog} (w : WF p) : ∀ (f g i : Nat), i < f → i < g → extlev p f i = extlev p g i := by
  intro f
  induction f with
  | zero => intro g i h; omega
  | succ f ih =>
    intro g i hf hg
    cases g with
    | zero => omega
    | succ g =>
      simp only [extlev]
      cases hb : (p i).base with
      | none => rfl
      | some b =>
        have := w.base_lt _ _ hb
        simp only []
        rw [ih g b (by omega) (by omega)]

theorem lev_base {p : Prog} (w : WF p) {i b : Nat} (hb : (p i).base = some b) : lev p i = lev p b + 1 := by
  have := w.base_lt _ _ hb
  have h1 : lev p i = extlev p i b + 1 := by
    unfold lev
    rw [extlev, hb]
  rw [h1, extlev_fuel w i (b + 1) b (by omega) (by omega)]
  rfl

theorem lev_root {p : Prog} {i : Nat} (hb : (p i).base = none) : lev p i = 0 := by
  simp only [lev, extlev, hb]

theorem Extends.lev_le {p : Prog} (w : WF p) {i j : Nat} (h : Extends p i j) : lev p j ≤ lev p i := by
  induction h with
  | refl => exact Nat.le_refl _
  | step hb _ ih => rw [lev_base w hb]; omega

theorem anc_at {p : Prog} (w : WF p) : ∀ (i k : Nat), k ≤ lev p i → ∃ a, Extends p i a ∧ lev p a = k := by
  intro i
  induction i using Nat.strong_induction_on with
  | _ i ih =>
    intro k hk
    by_cases e : k = lev p i
    · exact ⟨i, .refl _, e.symm⟩
    · cases hb : (p i).base with
      | none => rw [lev_root hb] at *; omega
      | some b =>
        have h1 := lev_base w hb
        obtain ⟨a, ha, hl⟩ := ih b (w.base_lt _ _ hb) k (by omega)
        exact ⟨a, .step hb ha, hl⟩

end Verif.Dispatch
