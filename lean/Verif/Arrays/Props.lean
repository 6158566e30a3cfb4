import Verif.Arrays.Copy

/-!
# C68: arrays as parameters

Value parameters are copies, VAR parameters are the variables themselves, lengths are right; and where this fails.
-/
namespace Verif.Arrays

theorem prod_lens {s : St} {x : Nat} (t : Ty) : ∀ (dim : Nat) (L : List Nat), t.Ok → Describes t L →
    (∀ i, i < t.opens → s.word (.len x (dim + i)) = L[i]?) →
    ∃ l, prodOf s (lenNames x t dim) = some l ∧ l * (dupLens x t dim).2.size = bytes t L := by
  induction t with
  | dyn t ih =>
    intro dim L hk hd hw
    cases L with
    | nil => exact hd.elim
    | cons l L =>
      obtain ⟨m, h1, h2⟩ := ih (dim + 1) L hk hd (fun i hi => by
        have := hw (i + 1) (by simp only [Ty.opens]; omega)
        rw [show dim + (i + 1) = dim + 1 + i by omega] at this
        simpa using this)
      have h0 := hw 0 (by simp [Ty.opens])
      refine ⟨l * m, by simp [lenNames, prodOf, h1, show s.word (.len x dim) = some l from h0], ?_⟩
      simp only [dupLens, Nat.mul_assoc, h2, bytes, List.prod_cons, Ty.elem]
  | _ =>
    intro dim L hk hd _
    exact ⟨1, rfl, by rw [← size_bytes hk hd]; simp [dupLens]⟩

theorem scopePars_spec (fs : List Formal) : ∀ (s : St), (fs.map Formal.x).Nodup →
    (scopePars fs s).word = s.word ∧ (scopePars fs s).mem = s.mem ∧ (scopePars fs s).objs = s.objs ∧ (scopePars fs s).top = s.top ∧
    (scopePars fs s).outer = s.outer ∧ (scopePars fs s).hdr = s.hdr ∧ (∀ n, n.x ∉ fs.map Formal.x → (scopePars fs s).scope n = s.scope n) ∧
    ∀ f ∈ fs, Scoped f s { scopePars fs s with scope := fun n => if n.x = f.x then (scopePars fs s).scope n else s.scope n } := by
  induction fs with
  | nil => intro s _; exact ⟨rfl, rfl, rfl, rfl, rfl, rfl, fun _ _ => rfl, fun f h => (by cases h)⟩
  | cons f fs ih =>
    intro s hx
    obtain ⟨hx1, hx2⟩ : f.x ∉ fs.map Formal.x ∧ (fs.map Formal.x).Nodup := List.nodup_cons.mp hx
    have hs := scopePar_spec f s
    obtain ⟨h1, h2, h3, h4, h5, h6, h7, h8⟩ := ih (scopePar f s) hx2
    simp only [scopePars]
    refine ⟨h1.trans hs.word, h2.trans hs.mem, h3.trans hs.objs, h4.trans hs.top, h5.trans hs.outer, h6.trans hs.hdr, ?_, ?_⟩
    · intro n hn
      simp only [List.map_cons, List.mem_cons, not_or] at hn
      rw [h7 n hn.2, hs.others n hn.1]
    · intro g hg
      rcases List.mem_cons.mp hg with rfl | hg'
      · refine ⟨h1.trans hs.word, h2.trans hs.mem, h3.trans hs.objs, h4.trans hs.top, h5.trans hs.outer, h6.trans hs.hdr, ?_, ?_, ?_, ?_, ?_⟩
        · intro n hn; simp [hn]
        · intro a b; simp only [Name.x, if_true]; rw [h7 (.ptr g.x) hx1]; exact hs.ptr a b
        · intro a b; simp only [Name.x, if_true]; rw [h7 (.len g.x 0) hx1]; exact hs.len a b
        · intro i z a b c; simp only [Name.x, if_true]; rw [h7 (.tag g.x) hx1]; exact hs.tag i z a b c
        · intro d hd; simp only [Name.x, if_true]; rw [h7 (.len g.x d) hx1]; exact hs.rest d hd
      · have hne : g.x ≠ f.x := fun he => hx1 (List.mem_map.mpr ⟨g, hg', he⟩)
        have k := h8 g hg'
        refine ⟨h1.trans hs.word, h2.trans hs.mem, h3.trans hs.objs, h4.trans hs.top, h5.trans hs.outer, h6.trans hs.hdr, ?_, ?_, ?_, ?_, ?_⟩
        · intro n hn; simp [hn]
        · intro a b; have := k.ptr a b; rw [hs.word] at this; simp only [Name.x, if_true] at this ⊢; exact this
        · intro a b; have := k.len a b; rw [hs.word] at this; simp only [Name.x, if_true] at this ⊢; exact this
        · intro i z a b c; have := k.tag i z a b c; rw [hs.word] at this; simp only [Name.x, if_true] at this ⊢; exact this
        · intro d hd
          have := k.rest d hd
          rw [hs.others (.len g.x d) hne] at this
          simp only [Name.x, if_true] at this ⊢
          exact this

/-- When the first statement of a procedure is reached (in `s'`; the call is in `s`), parameter `f` is what it should be for the actual
parameter `a`. -/
structure Entered (E : Lens) (s s' : St) (f : Formal) (a : Act) : Prop where
  /-- The lengths. -/
  lens : ∀ i, i < f.ty.opens → ∃ l, (f.lens E a)[i]? = some l ∧ s'.word (.len f.x i) = some l
  /-- A VAR parameter is the actual parameter; a value that is not an array is passed. -/
  direct : f.var = true ∨ f.ty.isArray = false → s'.word (.ptr f.x) = some a.word
  /-- An array that is a value parameter is in an object apart from all objects there were; it has the value of the actual parameter. -/
  copy : f.var = false → f.ty.isArray = true → ∃ q, s'.word (.ptr f.x) = some q ∧ Inside s'.objs q (a.bytes E) ∧
    (∀ p n, Inside s.objs p n → Apart q (a.bytes E) p n) ∧ ∀ j, j < a.bytes E → s'.mem (q + j) = s.mem (a.word + j)
  /-- The type tag of a record. -/
  tag : ∀ adr tag d i z, a = .desig adr tag d → f.ty = .record i z → f.var = true → s'.word (.tag f.x) = some tag

/-- What procedures nested in it see of parameter `f`: the same array, the first length, the same tag. -/
structure Seen (s' : St) (f : Formal) : Prop where
  ptr : f.var = true ∨ f.ty.isArray = true → s'.scope (.ptr f.x) = s'.word (.ptr f.x)
  len : f.ty.opens ≠ 0 → s'.scope (.len f.x 0) = s'.word (.len f.x 0)
  tag : ∀ i z, f.var = true → f.ty = .record i z → s'.scope (.tag f.x) = s'.word (.tag f.x)

/-- A correct call: the names of the parameters differ, the actual parameters may be passed, the caller's variables hold the lengths of its
own arrays; arrays to copy are in memory; and all memory in use is below `top`. -/
structure Call (E : Lens) (s : St) (fs : List Formal) (as : List Act) : Prop where
  names : (fs.map Formal.x).Nodup
  passes : List.Forall₂ (Passes E) fs as
  rooted : ∀ a ∈ as, a.Rooted s E
  held : ∀ p ∈ fs.zip as, p.1.ty.isArray = true → Inside s.objs p.2.word (p.2.bytes E)
  top : ∀ o ∈ s.objs, o.1 + o.2 ≤ s.top

theorem fixed_size {E : Lens} {f : Formal} {a : Act} (hp : Passes E f a) (hf : f.fixed) : f.ty.size = a.bytes E := by
  obtain ⟨hv, n, t, ht⟩ := hf
  cases a with
  | value w => rw [Passes, ht] at hp; cases hp.2
  | str adr m =>
    rcases hp.2 with h | h
    · rw [ht] at h; cases h
    · rw [h]; simp [Ty.size, char, Act.bytes]
  | desig adr tag d =>
    obtain ⟨h1, h2, h3⟩ := hp
    rw [ht] at h3 h2
    have hd := desig_ok h1
    have he : d.typ = .arr n t := by
      generalize d.typ = u at h3
      cases h3; rfl
    simp only [Act.bytes]
    rw [ht, he]
    rw [he] at hd
    exact size_bytes h2 hd.2

theorem open_size {E : Lens} {f : Formal} {a : Act} (hp : Passes E f a) (hv : f.var = false) {t : Ty} (ht : f.ty = .dyn t) :
    f.ty.Ok ∧ Describes f.ty (f.lens E a) ∧ bytes f.ty (f.lens E a) = a.bytes E := by
  cases a with
  | value w => rw [Passes, ht] at hp; cases hp.2
  | str adr m =>
    rcases hp.2 with h | h
    · rw [h]; exact ⟨trivial, trivial, by simp [bytes, Formal.lens, Act.bytes, Ty.elem, char, Ty.unit]⟩
    · rw [ht] at h; cases h
  | desig adr tag d =>
    obtain ⟨h1, h2, h3⟩ := hp
    rw [hv] at h3
    have := parLens_value h3 (d.lens E) (desig_ok h1).2
    exact ⟨h2, this.1, this.2⟩

theorem mem_zip_of_mem {fs : List Formal} {as : List Act} {P : Formal → Act → Prop} (h : List.Forall₂ P fs as) {f : Formal} (hf : f ∈ fs) :
    ∃ a, (f, a) ∈ fs.zip as := by
  induction h with
  | nil => cases hf
  | @cons g a fs as _ _ ih =>
    rcases List.mem_cons.mp hf with rfl | hf
    · exact ⟨a, by simp⟩
    · obtain ⟨b, hb⟩ := ih hf
      exact ⟨b, by simp [hb]⟩

theorem passes_zip {E : Lens} {fs : List Formal} {as : List Act} (h : List.Forall₂ (Passes E) fs as) {p : Formal × Act} (hp : p ∈ fs.zip as) :
    Passes E p.1 p.2 := by
  induction h with
  | nil => cases hp
  | @cons g a fs as h1 _ ih =>
    rcases List.mem_cons.mp (by simpa using hp) with rfl | hp
    · exact h1
    · exact ih hp

/-- The actual parameter of the formal parameter `x`. -/
def actOf (x : Nat) : List Formal → List Act → Act
  | f :: fs, a :: as => if f.x = x then a else actOf x fs as
  | _, _ => .value 0

theorem actOf_zip {fs : List Formal} {as : List Act} (hx : (fs.map Formal.x).Nodup) {f : Formal} {a : Act} (h : (f, a) ∈ fs.zip as) :
    actOf f.x fs as = a := by
  induction fs generalizing as with
  | nil => cases h
  | cons g fs ih =>
    obtain ⟨hx1, hx2⟩ : g.x ∉ fs.map Formal.x ∧ (fs.map Formal.x).Nodup := List.nodup_cons.mp hx
    cases as with
    | nil => cases h
    | cons b as =>
      rw [List.zip_cons_cons] at h
      rcases List.mem_cons.mp h with h | h
      · injection h with h1 h2
        subst h1; subst h2
        simp [actOf]
      · have : g.x ≠ f.x := fun he => hx1 (List.mem_map.mpr ⟨f, (List.of_mem_zip h).1, he.symm⟩)
        simp only [actOf, this, if_false]
        exact ih hx2 h

theorem isArray_cases {f : Formal} (hv : f.var = false) (h : f.ty.isArray = true) : f.fixed ∨ f.opened := by
  cases ht : f.ty with
  | arr n t => exact Or.inl ⟨hv, n, t, ht⟩
  | dyn t => exact Or.inr ⟨hv, t, ht⟩
  | _ => rw [ht] at h; cases h

theorem array_of {f : Formal} (h : f.fixed ∨ f.opened) : f.var = false ∧ f.ty.isArray = true := by
  rcases h with ⟨hv, n, t, ht⟩ | ⟨hv, t, ht⟩ <;> exact ⟨hv, by rw [ht]; rfl⟩

theorem enter_spec {E : Lens} {s : St} {fs : List Formal} {as : List Act} (h : Call E s fs as) (leaf : Bool) :
    ∃ s', enter fs leaf as s = some s' ∧ (∀ p ∈ fs.zip as, Entered E s s' p.1 p.2) ∧
      (∀ f ∈ fs, ∀ g ∈ fs, f.x ≠ g.x → f.fixed ∨ f.opened → g.fixed ∨ g.opened → ∀ q r, s'.word (.ptr f.x) = some q → s'.word (.ptr g.x) = some r →
        Apart q ((actOf f.x fs as).bytes E) r ((actOf g.x fs as).bytes E)) ∧
      (∀ a, a < s.top → s'.mem a = s.mem a) ∧ s'.outer = s.outer ∧
      (leaf = false → ∀ f ∈ fs, f.leaf = false → Seen s' f) ∧ (∀ x d, d ≠ 0 → s'.scope (.len x d) = none) := by
  obtain ⟨ts, vs, w, e1, e2, e3, hb⟩ := call_bound h.names h.passes h.rooted
  obtain ⟨c, hd⟩ := declCopies_spec fs { s with word := w, scope := fun _ => none } h.names
  have hword : ∀ m, (∀ x, m ≠ .cpy x) → (declCopies fs { s with word := w, scope := fun _ => none }).word m = w m :=
    fun m hm => hd.word m (fun f _ => hm f.x)
  generalize hs1 : declCopies fs { s with word := w, scope := fun _ => none } = s1 at hd hword
  have hbelow : ∀ p n, Inside s.objs p n → p + n ≤ s.top := by
    rintro p n ⟨o, h1, h2, h3⟩
    have := h.top o h1; omega
  have hready : ∀ f ∈ fs, Ready s.top (fun x => (actOf x fs as).bytes E) (fun x => (actOf x fs as).word) c s1 f := by
    intro f hf
    obtain ⟨a, ha⟩ := mem_zip_of_mem h.passes hf
    have hact := actOf_zip h.names ha
    have hpass := passes_zip h.passes ha
    have hbd := hb _ ha
    refine ⟨fun hh => ?_, fun hh => ?_, fun t hv ht => ?_⟩
    · have hheld := h.held _ ha (array_of hh).2
      simp only [hact]
      refine ⟨(hword _ (by simp)).trans hbd.ptr, hheld.mono hd.objs, hbelow _ _ hheld⟩
    · have hsz := fixed_size hpass hh
      simp only [hact]
      obtain ⟨k1, k2, k3, k4⟩ := hd.copies f hf hh
      rw [hsz] at k3 k4
      exact ⟨hsz, k1, k2, k3, k4⟩
    · simp only [hact]
      obtain ⟨k1, k2, k3⟩ := open_size hpass hv ht
      have hl : ∀ i, i < f.ty.opens → s1.word (.len f.x (0 + i)) = (f.lens E a)[i]? := by
        intro i hi
        rw [Nat.zero_add, hword _ (by simp)]
        exact hbd.lens i hi
      obtain ⟨l, m1, m2⟩ := prod_lens (s := s1) (x := f.x) f.ty 0 (f.lens E a) k1 k2 hl
      rw [k3] at m2
      rw [ht] at m1 m2
      refine ⟨l, ?_, by simpa [dupLens] using m2⟩
      rw [dupLens_names]; exact m1
  have hap : ∀ f ∈ fs, ∀ g ∈ fs, f.fixed → g.fixed → f.x ≠ g.x →
      Apart (c f.x) ((actOf f.x fs as).bytes E) (c g.x) ((actOf g.x fs as).bytes E) := by
    intro f hf g hg hff hgf hne
    obtain ⟨a, ha⟩ := mem_zip_of_mem h.passes hf
    obtain ⟨b, hb'⟩ := mem_zip_of_mem h.passes hg
    rw [actOf_zip h.names ha, actOf_zip h.names hb', ← fixed_size (passes_zip h.passes ha) hff, ← fixed_size (passes_zip h.passes hb') hgf]
    exact hd.apart f hf g hg hff hgf hne
  obtain ⟨s2, q, e4, hc⟩ := dups_spec fs s1 hd.top h.names hready hap
  have hq : ∀ f ∈ fs, f.fixed ∨ f.opened → s.top ≤ q f.x := by
    intro f hf hh
    rcases hh with hh | hh
    · rw [hc.fixed f hf hh]; exact (hd.copies f hf hh).2.1
    · exact Nat.le_trans hd.top (hc.opened f hf hh)
  have hmem : ∀ a, a < s.top → s2.mem a = s.mem a := by
    intro a ha
    rw [hc.mem a ?_ (Nat.lt_of_lt_of_le ha hd.top), hd.mem]
    intro f hf hff
    exact Or.inl (Nat.lt_of_lt_of_le ha (hd.copies f hf hff).2.1)
  obtain ⟨p1, p2, p3, p4, p5, p6, p7, p8⟩ := scopePars_spec fs s2 h.names
  have hfin : ∀ s', (s'.word = s2.word ∧ s'.mem = s2.mem ∧ s'.objs = s2.objs ∧ s'.top = s2.top ∧ s'.outer = s2.outer) →
      (leaf = false → s' = scopePars fs s2) → (leaf = true → s' = s2) →
      (∀ p ∈ fs.zip as, Entered E s s' p.1 p.2) ∧
      (∀ f ∈ fs, ∀ g ∈ fs, f.x ≠ g.x → f.fixed ∨ f.opened → g.fixed ∨ g.opened → ∀ q r, s'.word (.ptr f.x) = some q → s'.word (.ptr g.x) = some r →
        Apart q ((actOf f.x fs as).bytes E) r ((actOf g.x fs as).bytes E)) ∧
      (∀ a, a < s.top → s'.mem a = s.mem a) ∧ s'.outer = s.outer ∧
      (leaf = false → ∀ f ∈ fs, f.leaf = false → Seen s' f) ∧ (∀ x d, d ≠ 0 → s'.scope (.len x d) = none) := by
    rintro s' ⟨w1, w2, w3, w4, w5⟩ hl1 hl2
    refine ⟨?_, ?_, ?_, ?_, ?_, ?_⟩
    · rintro ⟨f, a⟩ ha
      have hf := (List.of_mem_zip ha).1
      have hbd := hb _ ha
      have hact := actOf_zip h.names ha
      refine ⟨?_, ?_, ?_, ?_⟩
      · intro i hi
        have hlt : i < (f.lens E a).length := Nat.lt_of_lt_of_le hi hbd.full
        refine ⟨(f.lens E a)[i], List.getElem?_eq_getElem hlt, ?_⟩
        rw [w1, hc.word _ (by simp), hword _ (by simp)]
        exact (hbd.lens i hi).trans (List.getElem?_eq_getElem hlt)
      · intro hh
        rw [w1, hc.word _ ?_, hword _ (by simp)]
        · exact hbd.ptr
        · intro g hg hgh he
          injection he with he
          have hgf : g = f := by
            have := h.names
            exact List.inj_on_of_nodup_map this hg hf he.symm
          subst hgf
          obtain ⟨hv, ha'⟩ := array_of hgh
          rcases hh with hh | hh
          · rw [hv] at hh; cases hh
          · rw [ha'] at hh; cases hh
      · intro hv harr
        have hh := isArray_cases hv harr
        obtain ⟨k1, k2, k3, k4⟩ := hc.copy f hf hh
        simp only [hact] at k2 k3 k4
        refine ⟨q f.x, by rw [w1]; exact k1, by rw [w3]; exact k3, ?_, ?_⟩
        · intro p n hi
          have := hbelow p n hi
          have := hq f hf hh
          exact Or.inr (by omega)
        · intro j hj
          rw [w2, k4 j hj, hd.mem]
      · intro adr tag d i z h1 h2 h3
        rw [w1, hc.word _ (by simp), hword _ (by simp)]
        exact hbd.tag adr tag d i z h1 h2 h3
    · intro f hf g hg hne hfh hgh r t h1 h2
      rw [w1] at h1 h2
      rw [(hc.copy f hf hfh).1] at h1
      rw [(hc.copy g hg hgh).1] at h2
      injection h1 with h1
      injection h2 with h2
      rw [← h1, ← h2]
      exact hc.apart f hf g hg hfh hgh hne
    · intro a ha; rw [w2]; exact hmem a ha
    · rw [w5, hc.outer, hd.outer]
    · intro hl f hf hfl
      have hs := p8 f hf
      have e := hl1 hl
      refine ⟨fun hh => ?_, fun hh => ?_, fun i z h1 h2 => ?_⟩
      · have := hs.ptr hfl hh
        simp only [Name.x, if_true] at this
        rw [w1, e]; exact this
      · have := hs.len hfl hh
        simp only [Name.x, if_true] at this
        rw [w1, e]; exact this
      · have := hs.tag i z hfl h1 h2
        simp only [Name.x, if_true] at this
        rw [w1, e]; exact this
    · intro x d hdd
      have hnone : s2.scope (.len x d) = none := by rw [hc.scope, hd.scope]
      cases hl : leaf with
      | true => rw [hl2 hl]; exact hnone
      | false =>
        rw [hl1 hl]
        by_cases hx : x ∈ fs.map Formal.x
        · obtain ⟨f, hf, rfl⟩ := List.mem_map.mp hx
          have := (p8 f hf).rest d hdd
          simp only [Name.x, if_true] at this
          rw [this]; exact hnone
        · rw [p7 (.len x d) hx]; exact hnone
  cases hl : leaf with
  | true =>
    refine ⟨s2, ?_, ?_⟩
    · simp only [enter, e1, e2, e3, Option.bind_eq_bind, Option.bind_some, Option.pure_def, hs1, e4, if_true]
    · have := hfin s2 ⟨rfl, rfl, rfl, rfl, rfl⟩ (fun h => by rw [hl] at h; cases h) (fun _ => rfl)
      rw [hl] at this; exact this
  | false =>
    refine ⟨scopePars fs s2, ?_, ?_⟩
    · simp only [enter, e1, e2, e3, Option.bind_eq_bind, Option.bind_some, Option.pure_def, hs1, e4]; rfl
    · have := hfin (scopePars fs s2) ⟨p1, p2, p3, p4, p5⟩ (fun _ => rfl) (fun h => by rw [hl] at h; cases h)
      rw [hl] at this; exact this

/-- **C68**: `LEN(v, dim)`, and every length the compiler writes for an array `v`, is the length of `v`. -/
theorem C68_len (s : St) (E : Lens) (d : Desig) (h : d.Ok E) (hr : Rooted s E d) (dim : Nat) (hd : dim < (d.lens E).length) :
    ∃ e, lenText d dim = some e ∧ e.eval s = some (d.lens E)[dim] := by
  obtain ⟨e, h1, h2⟩ := lenText_eval h hr hd
  exact ⟨e, h1, by rw [h2, List.getElem?_eq_getElem hd]⟩

/-- **C68**: when a procedure is called, value parameters that are arrays become copies with the value of the actual parameter, VAR parameters
are the actual parameters, and open arrays have the right lengths; memory that was in use is not changed, and no two copies share memory.
Procedures nested in it find the same arrays, with the length of the first dimension.
Missing: the lengths of further dimensions in nested procedures (`C68_nested_lengths`), actual parameters shorter than the formal one
(`C68_shorter`). -/
theorem C68_enter_partial (E : Lens) (s : St) (fs : List Formal) (as : List Act) (h : Call E s fs as) (leaf : Bool) :
    ∃ s', enter fs leaf as s = some s' ∧ (∀ p ∈ fs.zip as, Entered E s s' p.1 p.2) ∧
      (∀ p ∈ fs.zip as, ∀ p' ∈ fs.zip as, p.1.x ≠ p'.1.x → p.1.var = false → p'.1.var = false → p.1.ty.isArray = true → p'.1.ty.isArray = true →
        ∀ q r, s'.word (.ptr p.1.x) = some q → s'.word (.ptr p'.1.x) = some r → Apart q (p.2.bytes E) r (p'.2.bytes E)) ∧
      (∀ a, a < s.top → s'.mem a = s.mem a) ∧
      (leaf = false → ∀ f ∈ fs, f.leaf = false → Seen s' f) := by
  obtain ⟨s', h1, h2, h3, h4, -, h6, -⟩ := enter_spec h leaf
  refine ⟨s', h1, h2, ?_, h4, h6⟩
  rintro ⟨f, a⟩ hp ⟨g, b⟩ hp' hne hv hv' ha ha' q r hq hr
  have := h3 f (List.of_mem_zip hp).1 g (List.of_mem_zip hp').1 hne (isArray_cases hv ha) (isArray_cases hv' ha') q r hq hr
  rw [actOf_zip h.names hp, actOf_zip h.names hp'] at this
  exact this

/-- **C68**: in the procedure that is called, and for arrays with one open dimension also in procedures nested in it, `C68_len` applies to its
parameters: lengths are held. -/
theorem C68_rooted_partial (E E' : Lens) (s s' : St) (fs : List Formal) (as : List Act) (h : Call E s fs as) (leaf : Bool)
    (he : enter fs leaf as s = some s') (p : Formal × Act) (hp : p ∈ fs.zip as)
    (h1 : E'.own p.1.x = p.1.lens E p.2) (h2 : E'.outer p.1.x = p.1.lens E p.2) :
    Rooted s' E' (.own p.1.x p.1.ty) ∧
    (leaf = false → p.1.leaf = false → p.1.ty.opens ≤ 1 → Rooted (nested fs s') E' (.outer p.1.x p.1.ty)) := by
  obtain ⟨t, e1, e2, -, -, -, e6, -⟩ := enter_spec h leaf
  rw [he] at e1
  injection e1 with e1
  subst e1
  have hent := e2 p hp
  have hown : Rooted s' E' (.own p.1.x p.1.ty) := by
    intro i hi
    obtain ⟨l, k1, k2⟩ := hent.lens i hi
    rw [h1, k1, k2]
  refine ⟨hown, ?_⟩
  intro hl hpl ho i hi
  have hi0 : i = 0 := by omega
  subst hi0
  have hseen := e6 hl p.1 (List.of_mem_zip hp).1 hpl
  have hmem : Name.len p.1.x 0 ∈ fs.flatMap paramNames := by
    refine List.mem_flatMap.mpr ⟨p.1, (List.of_mem_zip hp).1, ?_⟩
    cases ht : p.1.ty with
    | dyn t => rw [paramNames_dyn _ t ht]; exact List.mem_cons_of_mem _ (mem_lenNames.mpr ⟨0, by simp [Ty.opens], rfl⟩)
    | _ => rw [ht] at hi; simp [Ty.opens] at hi
  simp only [nested, hmem, if_true]
  rw [hseen.len (by omega), hown 0 hi, h1, h2]

/-- **C68**, a deviation: procedures nested in the one that is called do not find the lengths of the second and further dimensions of its open
array parameters: the fields of the scope record for them are never set (the statement for the first length is repeated). -/
theorem C68_nested_lengths (E : Lens) (s s' : St) (fs : List Formal) (as : List Act) (h : Call E s fs as) (leaf : Bool)
    (he : enter fs leaf as s = some s') (f : Formal) (hf : f ∈ fs) (d : Nat) (h0 : d ≠ 0) (hd : d < f.ty.opens) :
    ∃ e, lenText (.outer f.x f.ty) d = some e ∧ e.eval (nested fs s') = none := by
  obtain ⟨t, e1, -, -, -, -, -, e7⟩ := enter_spec h leaf
  rw [he] at e1
  injection e1 with e1
  subst e1
  have hb : ∀ (t : Ty) (d : Nat), d < t.opens → ∃ u, bases d t = .dyn u := by
    intro t
    induction t with
    | dyn t ih =>
      intro d hd
      cases d with
      | zero => exact ⟨t, rfl⟩
      | succ d => exact ih d (by simp only [Ty.opens] at hd; omega)
    | _ => intro d hd; simp [Ty.opens] at hd
  obtain ⟨u, hu⟩ := hb f.ty d hd
  refine ⟨.outer f.x d, by simp [lenText, opcLen, hu], ?_⟩
  have hmem : Name.len f.x d ∈ fs.flatMap paramNames := by
    refine List.mem_flatMap.mpr ⟨f, hf, ?_⟩
    cases ht : f.ty with
    | dyn t => rw [paramNames_dyn _ t ht]; exact List.mem_cons_of_mem _ (mem_lenNames.mpr ⟨d, by rw [← ht]; exact hd, by rw [Nat.zero_add]⟩)
    | _ => rw [ht] at hd; simp [Ty.opens] at hd
  simp only [LenE.eval, nested, hmem, if_true]
  exact e7 f.x d h0

/-- OPB.Mod:891-916 CheckAssign, for a value parameter that is an array of `n` elements of type `t` (OPB.Mod:1431). -/
def fixedAccepts (n : Nat) (t : Ty) : Act → Bool
  | .desig _ _ d =>
    match d.typ with
    | .arr m u => d.typ == .arr n t || (u == t && m ≤ n)
    | _ => false
  | .str _ m => t == char && m ≤ n
  | .value _ => false

/-- **C68**, a deviation: the compiler accepts a string constant or an array that is shorter than a value parameter of fixed length, but copies
as many bytes as the parameter has: it reads memory beyond the actual parameter, and if that is not in the same object this is undefined. -/
theorem C68_shorter (s : St) (x n m adr : Nat) (leaf : Bool) (hm : m < n) (htop : adr < s.top) (hend : ¬ Inside s.objs adr n) :
    fixedAccepts n char (.str adr m) = true ∧ enter [⟨x, false, .arr n char, true⟩] leaf [.str adr m] s = none ∧
    fixedAccepts n char (.desig adr 0 (.other (.arr m char))) = true ∧
    enter [⟨x, false, .arr n char, true⟩] leaf [.desig adr 0 (.other (.arr m char))] s = none := by
  have hin : ¬ Inside ((s.top, n * 1) :: s.objs) adr (n * 1) := by
    rintro ⟨o, h1, h2, h3⟩
    rcases List.mem_cons.mp h1 with rfl | h1
    · simp only at h2; omega
    · exact hend ⟨o, h1, h2, by omega⟩
  have hm' : ∀ st : St, st.objs = (s.top, n * 1) :: s.objs → ∀ c, memcpy st c adr (n * 1) = none := by
    intro st hst c
    rw [memcpy, if_neg]
    rintro ⟨_, h2, _⟩
    rw [hst] at h2
    exact hin h2
  have hdup : ∀ st : St, st.objs = (s.top, n * 1) :: s.objs → st.word (.ptr x) = some adr → ∀ c, st.word (.cpy x) = some c →
      dup ⟨x, false, .arr n char, true⟩ st = none := by
    intro st h1 h2 c h3
    have := hm' st h1 c
    simp only [dup, h2, h3, Option.bind_eq_bind, Option.bind_some, char, Ty.size, this, Option.bind_none]
  have hent : ∀ a : Act, actualPar ⟨x, false, .arr n char, true⟩ a = some [.word adr] → enter [⟨x, false, .arr n char, true⟩] leaf [a] s = none := by
    intro a ha
    simp only [enter, actualPars, ha, evalAll, Text.eval, List.flatMap_cons, List.flatMap_nil, paramNames, bind, declCopies, dups,
      Option.bind_eq_bind, Option.bind_some, Option.pure_def, List.append_nil]
    rw [hdup _ rfl (by simp [set]) s.top (by simp [set])]
    rfl
  refine ⟨by simp [fixedAccepts]; omega, hent _ rfl, by simp [fixedAccepts, Desig.typ]; omega, hent _ rfl⟩

/-! ### A call

`PROCEDURE P(a: ARRAY OF ARRAY OF INTEGER; VAR b: ARRAY OF CHAR; c: T; VAR r: R; VAR z: ARRAY OF BYTE)`, `T = ARRAY 3 OF CHAR`, called with
an array of 2 rows of 3 integers (of 2 bytes), a row of the caller's own open array parameter, a string of two characters, a record, and the
first again. -/

def int16 : Ty := .simple 1 2
def exFs : List Formal :=
  [⟨1, false, .dyn (.dyn int16), false⟩, ⟨2, true, .dyn char, false⟩, ⟨3, false, .arr 3 char, false⟩, ⟨4, true, .record 7 8, false⟩,
   ⟨5, true, .dyn .byte, true⟩]
def exAs : List Act :=
  [.desig 100 0 (.other (.arr 2 (.arr 3 int16))), .desig 205 0 (.index (.own 9 (.dyn (.dyn char)))), .str 300 3, .desig 400 77 (.other (.record 7 8)),
   .desig 100 0 (.other (.arr 2 (.arr 3 int16)))]
def exE : Lens := ⟨fun _ => [4, 5], fun _ => [], fun _ => []⟩
def exS : St :=
  { mem := fun a => a, objs := [(100, 12), (200, 20), (300, 3), (400, 8)], top := 500,
    word := fun n => match n with | .len 9 0 => some 4 | .len 9 1 => some 5 | .ptr 9 => some 200 | _ => none,
    scope := fun _ => none, outer := fun _ => none, hdr := fun _ _ => none }

theorem exCall : Call exE exS exFs exAs where
  names := by decide
  passes := by
    refine .cons ?_ (.cons ?_ (.cons ?_ (.cons ?_ (.cons ?_ .nil))))
    · exact ⟨trivial, trivial, .fixed 2 (.fixed 3 (.same _))⟩
    · exact ⟨⟨⟨trivial, trivial⟩, by simp [Desig.lens, exE]⟩, trivial, .same _⟩
    · exact ⟨rfl, Or.inr rfl⟩
    · exact ⟨trivial, trivial, .same _⟩
    · exact ⟨trivial, trivial, .anything _ rfl⟩
  rooted := by
    intro a ha
    simp only [exAs, List.mem_cons, List.not_mem_nil, or_false] at ha
    rcases ha with rfl | rfl | rfl | rfl | rfl
    · trivial
    · intro i hi
      simp only [Ty.opens, char] at hi
      match i, hi with
      | 0, _ => rfl
      | 1, _ => rfl
    · trivial
    · trivial
    · trivial
  held := by decide
  top := by decide

/-- What the callee finds: the lengths 2 and 3, the length 5 of a row, 12 bytes; a copy of the six integers, the row itself, a copy of the
string. -/
example : ∃ s', enter exFs false exAs exS = some s' ∧
    s'.word (.len 1 0) = some 2 ∧ s'.word (.len 1 1) = some 3 ∧ s'.word (.len 2 0) = some 5 ∧ s'.word (.len 5 0) = some 12 ∧
    s'.word (.ptr 1) = some 503 ∧ s'.word (.ptr 2) = some 205 ∧ s'.word (.ptr 3) = some 500 ∧ s'.word (.tag 4) = some 77 ∧
    s'.mem 503 = 100 ∧ s'.mem 514 = 111 ∧ s'.mem 502 = 302 ∧ s'.scope (.len 1 1) = none := by
  refine ⟨(enter exFs false exAs exS).get (by decide +kernel), by simp, ?_⟩
  decide +kernel

/-- The hypotheses of `C68_shorter`: a string constant of three characters alone in an object. -/
example : (3 : Nat) < 10 ∧ 300 < exS.top ∧ ¬ Inside exS.objs 300 10 := by decide
end Verif.Arrays
