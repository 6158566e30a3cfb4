import Verif.Arrays.Enter

/-! # Copies of value parameters -/
namespace Verif.Arrays

def Formal.fixed (f : Formal) : Prop := f.var = false ∧ ∃ n t, f.ty = .arr n t
def Formal.opened (f : Formal) : Prop := f.var = false ∧ ∃ t, f.ty = .dyn t

def Apart (p n q m : Nat) : Prop := p + n ≤ q ∨ q + m ≤ p

theorem Inside.mono {o o' : List (Nat × Nat)} {p n : Nat} (h : Inside o p n) (hs : ∀ x ∈ o, x ∈ o') : Inside o' p n := by
  obtain ⟨x, h1, h2⟩ := h
  exact ⟨x, hs x h1, h2⟩

structure Declared (fs : List Formal) (s s' : St) (c : Nat → Nat) : Prop where
  mem : s'.mem = s.mem
  scope : s'.scope = s.scope
  outer : s'.outer = s.outer
  hdr : s'.hdr = s.hdr
  top : s.top ≤ s'.top
  objs : ∀ o ∈ s.objs, o ∈ s'.objs
  word : ∀ n, (∀ f ∈ fs, n ≠ .cpy f.x) → s'.word n = s.word n
  copies : ∀ f ∈ fs, f.fixed → s'.word (.cpy f.x) = some (c f.x) ∧ s.top ≤ c f.x ∧ c f.x + f.ty.size ≤ s'.top ∧
    Inside s'.objs (c f.x) f.ty.size
  apart : ∀ f ∈ fs, ∀ g ∈ fs, f.fixed → g.fixed → f.x ≠ g.x → Apart (c f.x) f.ty.size (c g.x) g.ty.size

theorem declCopies_spec (fs : List Formal) : ∀ (s : St), (fs.map Formal.x).Nodup → ∃ c, Declared fs s (declCopies fs s) c := by
  induction fs with
  | nil =>
    intro s _
    exact ⟨fun _ => 0, rfl, rfl, rfl, rfl, Nat.le_refl _, fun o h => h, fun _ _ => rfl, fun f h => (by cases h), fun f h => (by cases h)⟩
  | cons f fs ih =>
    intro s hx
    obtain ⟨hx1, hx2⟩ : f.x ∉ fs.map Formal.x ∧ (fs.map Formal.x).Nodup := List.nodup_cons.mp hx
    have hne : ∀ g ∈ fs, g.x ≠ f.x := fun g hg he => hx1 (List.mem_map.mpr ⟨g, hg, he⟩)
    by_cases hf : f.fixed
    · obtain ⟨hv, n, t, ht⟩ := hf
      have hsz : f.ty.size = n * t.size := by rw [ht]; rfl
      have he : declCopies (f :: fs) s = declCopies fs { alloc s (n * t.size) with word := set s.word (.cpy f.x) (some s.top) } := by
        rw [declCopies, ht, hv]
      rw [he]
      obtain ⟨c, h⟩ := ih { alloc s (n * t.size) with word := set s.word (.cpy f.x) (some s.top) } hx2
      have htop : s.top + n * t.size ≤ (declCopies fs { alloc s (n * t.size) with word := set s.word (.cpy f.x) (some s.top) }).top := h.top
      generalize declCopies fs { alloc s (n * t.size) with word := set s.word (.cpy f.x) (some s.top) } = s' at h htop
      refine ⟨fun x => if x = f.x then s.top else c x, h.mem, h.scope, h.outer, h.hdr, by omega, ?_, ?_, ?_, ?_⟩
      · intro o ho; exact h.objs o (List.mem_cons_of_mem _ ho)
      · intro m hm
        rw [h.word m (fun g hg => hm g (List.mem_cons_of_mem _ hg))]
        simp [set, hm f List.mem_cons_self]
      · intro g hg hgf
        rcases List.mem_cons.mp hg with rfl | hg
        · simp only [if_true]
          refine ⟨?_, Nat.le_refl _, by rw [hsz]; exact htop, ?_⟩
          · rw [h.word _ (fun k hk he => hne k hk (by injection he with he; exact he.symm))]
            simp [set]
          · exact ⟨(s.top, n * t.size), h.objs _ List.mem_cons_self, Nat.le_refl _, by rw [hsz]⟩
        · obtain ⟨k1, k2, k3, k4⟩ := h.copies g hg hgf
          simp only [hne g hg, if_false]
          exact ⟨k1, Nat.le_trans (Nat.le_add_right _ _) k2, k3, k4⟩
      · intro g hg k hk hgf hkf hgk
        rcases List.mem_cons.mp hg with rfl | hg'
        · rcases List.mem_cons.mp hk with rfl | hk'
          · exact (hgk rfl).elim
          · simp only [if_true, hne k hk', if_false]
            have : s.top + n * t.size ≤ c k.x := (h.copies k hk' hkf).2.1
            exact Or.inl (by rw [hsz]; exact this)
        · rcases List.mem_cons.mp hk with rfl | hk'
          · simp only [if_true, hne g hg', if_false]
            have : s.top + n * t.size ≤ c g.x := (h.copies g hg' hgf).2.1
            exact Or.inr (by rw [hsz]; exact this)
          · simp only [hne g hg', hne k hk', if_false]
            exact h.apart g hg' k hk' hgf hkf hgk
    · have he : declCopies (f :: fs) s = declCopies fs s := by
        rw [declCopies]
        split
        · rename_i n t h1 h2; exact (hf ⟨h2, n, t, h1⟩).elim
        · rfl
      rw [he]
      obtain ⟨c, h⟩ := ih s hx2
      refine ⟨c, h.mem, h.scope, h.outer, h.hdr, h.top, h.objs, ?_, ?_, ?_⟩
      · intro m hm; exact h.word m (fun g hg => hm g (List.mem_cons_of_mem _ hg))
      · intro g hg hgf
        rcases List.mem_cons.mp hg with rfl | hg
        · exact (hf hgf).elim
        · exact h.copies g hg hgf
      · intro g hg k hk hgf hkf hgk
        rcases List.mem_cons.mp hg with rfl | hg'
        · exact (hf hgf).elim
        · rcases List.mem_cons.mp hk with rfl | hk'
          · exact (hf hkf).elim
          · exact h.apart g hg' k hk' hgf hkf hgk

/-- What must hold of a value parameter before it is copied: `B` is above all that the caller knows, `n` is the number of bytes, `p` and `c`
are the addresses of the actual parameter and (for an array of fixed length) of the copy. -/
structure Ready (B : Nat) (n p c : Nat → Nat) (s : St) (f : Formal) : Prop where
  src : f.fixed ∨ f.opened → s.word (.ptr f.x) = some (p f.x) ∧ Inside s.objs (p f.x) (n f.x) ∧ p f.x + n f.x ≤ B
  fixed : f.fixed → f.ty.size = n f.x ∧ s.word (.cpy f.x) = some (c f.x) ∧ B ≤ c f.x ∧ c f.x + n f.x ≤ s.top ∧
    Inside s.objs (c f.x) (n f.x)
  opened : ∀ t, f.var = false → f.ty = .dyn t → ∃ l, prodOf s (.len f.x 0 :: (dupLens f.x t 1).1) = some l ∧
    l * (dupLens f.x t 1).2.size = n f.x

/-- What holds after `dup`. -/
structure Dupped (B : Nat) (n p c : Nat → Nat) (f : Formal) (s s' : St) (q : Nat) : Prop where
  top : s.top ≤ s'.top
  objs : ∀ o ∈ s.objs, o ∈ s'.objs
  word : ∀ m, m ≠ .ptr f.x → s'.word m = s.word m
  scope : s'.scope = s.scope
  outer : s'.outer = s.outer
  hdr : s'.hdr = s.hdr
  mem : ∀ a, (f.fixed → a < c f.x ∨ c f.x + n f.x ≤ a) → a < s.top → s'.mem a = s.mem a
  same : ¬ f.fixed → ¬ f.opened → s' = s
  copy : f.fixed ∨ f.opened → s'.word (.ptr f.x) = some q ∧ q + n f.x ≤ s'.top ∧ Inside s'.objs q (n f.x) ∧
    ∀ j, j < n f.x → s'.mem (q + j) = s.mem (p f.x + j)
  fixed : f.fixed → q = c f.x
  opened : f.opened → s.top ≤ q

theorem memcpy_some {s : St} {d p n : Nat} (h1 : Inside s.objs d n) (h2 : Inside s.objs p n) (h3 : p + n ≤ d) :
    memcpy s d p n = some { s with mem := fun a => if d ≤ a ∧ a < d + n then s.mem (p + (a - d)) else s.mem a } := by
  rw [memcpy, if_pos ⟨h1, h2, Or.inr h3⟩]

theorem dup_spec {B : Nat} {n p c : Nat → Nat} {s : St} {f : Formal} (hB : B ≤ s.top) (h : Ready B n p c s f) :
    ∃ s' q, dup f s = some s' ∧ Dupped B n p c f s s' q := by
  by_cases hf : f.fixed
  · obtain ⟨k1, k2, k3⟩ := h.src (Or.inl hf)
    obtain ⟨g1, g2, g3, g4, g5⟩ := h.fixed hf
    have hf' := hf
    obtain ⟨hv, m, t, ht⟩ := hf
    have hsz : m * t.size = n f.x := by rw [← g1, ht]; rfl
    refine ⟨{ s with mem := fun a => if c f.x ≤ a ∧ a < c f.x + n f.x then s.mem (p f.x + (a - c f.x)) else s.mem a,
                     word := set s.word (.ptr f.x) (some (c f.x)) }, c f.x, ?_, ?_⟩
    · rw [dup, ht, hv]
      simp only [g2, k1, hsz, memcpy_some g5 k2 (by omega), Option.bind_eq_bind, Option.bind_some, Option.pure_def]
    · refine ⟨Nat.le_refl _, fun o ho => ho, fun m hm => by simp [set, hm], rfl, rfl, rfl, ?_, fun h => (h hf').elim, ?_, fun _ => rfl, ?_⟩
      · intro a ha _
        have := ha hf'
        simp only
        rw [if_neg (by omega)]
      · intro _
        refine ⟨by simp [set], g4, g5, ?_⟩
        intro j hj
        simp only
        rw [if_pos (by omega)]
        congr 1; omega
      · intro ho; obtain ⟨_, t', ht'⟩ := ho; rw [ht] at ht'; cases ht'
  · by_cases ho : f.opened
    · obtain ⟨k1, k2, k3⟩ := h.src (Or.inr ho)
      have ho' := ho
      obtain ⟨hv, t, ht⟩ := ho
      obtain ⟨l, g1, g2⟩ := h.opened t hv ht
      have i1 : Inside (alloc s (n f.x)).objs s.top (n f.x) := ⟨(s.top, n f.x), List.mem_cons_self, Nat.le_refl _, Nat.le_refl _⟩
      have i2 : Inside (alloc s (n f.x)).objs (p f.x) (n f.x) := k2.mono fun x hx => List.mem_cons_of_mem _ hx
      refine ⟨{ alloc s (n f.x) with
                 mem := fun a => if s.top ≤ a ∧ a < s.top + n f.x then s.mem (p f.x + (a - s.top)) else s.mem a,
                 word := set s.word (.ptr f.x) (some s.top) }, s.top, ?_, ?_⟩
      · rw [dup, ht, hv]
        simp only [g1, g2, k1, Option.bind_eq_bind, Option.bind_some, Option.pure_def]
        rw [memcpy_some i1 i2 (by omega)]
        rfl
      · refine ⟨by simp [alloc], fun o ho => List.mem_cons_of_mem _ ho, fun m hm => by simp [set, hm], rfl, rfl, rfl, ?_, fun _ h => (h ho').elim,
          ?_, fun h => (hf h).elim, fun _ => Nat.le_refl _⟩
        · intro a _ ha
          simp only
          rw [if_neg (by omega)]
        · intro _
          refine ⟨by simp [set], by simp [alloc], i1, ?_⟩
          intro j hj
          simp only
          rw [if_pos (by omega)]
          congr 1; omega
    · refine ⟨s, 0, ?_, Nat.le_refl _, fun o h => h, fun _ _ => rfl, rfl, rfl, rfl, fun _ _ _ => rfl, fun _ _ => rfl, ?_, fun h => (hf h).elim,
        fun h => (ho h).elim⟩
      · rw [dup]
        split
        · rename_i n t h1 h2; exact (hf ⟨h2, n, t, h1⟩).elim
        · rename_i t h1 h2; exact (ho ⟨h2, t, h1⟩).elim
        · rfl
      · rintro (h | h)
        · exact (hf h).elim
        · exact (ho h).elim

theorem dupLens_names (x : Nat) (t : Ty) : ∀ dim, (dupLens x t dim).1 = lenNames x t dim := by
  induction t with
  | dyn t ih => intro dim; simp only [dupLens, lenNames, ih]
  | _ => intro dim; rfl

theorem prodOf_congr {s s' : St} (ns : List Name) (h : ∀ n ∈ ns, s'.word n = s.word n) : prodOf s' ns = prodOf s ns := by
  induction ns with
  | nil => rfl
  | cons n ns ih =>
    simp only [prodOf, h n List.mem_cons_self, ih (fun m hm => h m (List.mem_cons_of_mem _ hm))]

theorem Ready.next {B : Nat} {n p c : Nat → Nat} {s s' : St} {f g : Formal} {q : Nat} (h : Ready B n p c s g) (hd : Dupped B n p c f s s' q)
    (hne : g.x ≠ f.x) : Ready B n p c s' g := by
  have hptr : s'.word (.ptr g.x) = s.word (.ptr g.x) := hd.word _ (by simp [hne])
  refine ⟨fun hh => ?_, fun hh => ?_, fun t h1 h2 => ?_⟩
  · obtain ⟨k1, k2, k3⟩ := h.src hh
    exact ⟨hptr.trans k1, k2.mono hd.objs, k3⟩
  · obtain ⟨k1, k2, k3, k4, k5⟩ := h.fixed hh
    exact ⟨k1, (hd.word _ (by simp)).trans k2, k3, Nat.le_trans k4 hd.top, k5.mono hd.objs⟩
  · obtain ⟨l, k1, k2⟩ := h.opened t h1 h2
    refine ⟨l, ?_, k2⟩
    rw [← k1]
    apply prodOf_congr
    intro m hm
    apply hd.word
    rcases List.mem_cons.mp hm with rfl | hm
    · simp
    · rw [dupLens_names] at hm
      obtain ⟨i, _, rfl⟩ := mem_lenNames.mp hm
      simp

/-- What holds after all copies are made. -/
structure Copied (B : Nat) (n p c : Nat → Nat) (fs : List Formal) (s s' : St) (q : Nat → Nat) : Prop where
  top : s.top ≤ s'.top
  objs : ∀ o ∈ s.objs, o ∈ s'.objs
  word : ∀ m, (∀ f ∈ fs, f.fixed ∨ f.opened → m ≠ .ptr f.x) → s'.word m = s.word m
  scope : s'.scope = s.scope
  outer : s'.outer = s.outer
  hdr : s'.hdr = s.hdr
  mem : ∀ a, (∀ f ∈ fs, f.fixed → a < c f.x ∨ c f.x + n f.x ≤ a) → a < s.top → s'.mem a = s.mem a
  copy : ∀ f ∈ fs, f.fixed ∨ f.opened → s'.word (.ptr f.x) = some (q f.x) ∧ q f.x + n f.x ≤ s'.top ∧ Inside s'.objs (q f.x) (n f.x) ∧
    ∀ j, j < n f.x → s'.mem (q f.x + j) = s.mem (p f.x + j)
  fixed : ∀ f ∈ fs, f.fixed → q f.x = c f.x
  opened : ∀ f ∈ fs, f.opened → s.top ≤ q f.x
  apart : ∀ f ∈ fs, ∀ g ∈ fs, f.fixed ∨ f.opened → g.fixed ∨ g.opened → f.x ≠ g.x → Apart (q f.x) (n f.x) (q g.x) (n g.x)

theorem dups_spec {B : Nat} {n p c : Nat → Nat} (fs : List Formal) : ∀ (s : St), B ≤ s.top → (fs.map Formal.x).Nodup →
    (∀ f ∈ fs, Ready B n p c s f) →
    (∀ f ∈ fs, ∀ g ∈ fs, f.fixed → g.fixed → f.x ≠ g.x → Apart (c f.x) (n f.x) (c g.x) (n g.x)) →
    ∃ s' q, dups fs s = some s' ∧ Copied B n p c fs s s' q := by
  induction fs with
  | nil =>
    intro s _ _ _ _
    exact ⟨s, fun _ => 0, rfl, Nat.le_refl _, fun o h => h, fun _ _ => rfl, rfl, rfl, rfl, fun _ _ _ => rfl, fun f h => (by cases h), fun f h => (by cases h), fun f h => (by cases h),
      fun f h => (by cases h)⟩
  | cons f fs ih =>
    intro s hB hx hready hap
    obtain ⟨hx1, hx2⟩ : f.x ∉ fs.map Formal.x ∧ (fs.map Formal.x).Nodup := List.nodup_cons.mp hx
    have hne : ∀ g ∈ fs, g.x ≠ f.x := fun g hg he => hx1 (List.mem_map.mpr ⟨g, hg, he⟩)
    obtain ⟨s1, q1, e1, d⟩ := dup_spec hB (hready f List.mem_cons_self)
    obtain ⟨s2, q2, e2, d2⟩ := ih s1 (Nat.le_trans hB d.top) hx2
      (fun g hg => (hready g (List.mem_cons_of_mem _ hg)).next d (hne g hg))
      (fun g hg k hk => hap g (List.mem_cons_of_mem _ hg) k (List.mem_cons_of_mem _ hk))
    have hsrc := fun hh => (hready f List.mem_cons_self).src hh
    -- the copy of `f` is apart from the copies of fixed arrays to come, and below `s1.top`
    have hcf : ∀ g ∈ fs, f.fixed ∨ f.opened → g.fixed → Apart q1 (n f.x) (c g.x) (n g.x) := by
      intro g hg hh hgf
      rcases hh with hh | hh
      · rw [d.fixed hh]
        exact hap f List.mem_cons_self g (List.mem_cons_of_mem _ hg) hh hgf (hne g hg).symm
      · have h1 := d.opened hh
        have h2 := ((hready g (List.mem_cons_of_mem _ hg)).fixed hgf).2.2.2.1
        exact Or.inr (by omega)
    have hother : ∀ g ∈ fs, f.fixed ∨ f.opened → g.fixed ∨ g.opened → Apart q1 (n f.x) (q2 g.x) (n g.x) := by
      intro g hg hh hgh
      rcases hgh with hgh | hgh
      · rw [d2.fixed g hg hgh]; exact hcf g hg hh hgh
      · have h1 := d2.opened g hg hgh
        have h2 := (d.copy hh).2.1
        exact Or.inl (by omega)
    refine ⟨s2, fun x => if x = f.x then q1 else q2 x, by simp [dups, e1, e2], Nat.le_trans d.top d2.top, fun o ho => d2.objs o (d.objs o ho), ?_,
      d2.scope.trans d.scope, d2.outer.trans d.outer, d2.hdr.trans d.hdr, ?_, ?_, ?_, ?_, ?_⟩
    · intro m hm
      rw [d2.word m (fun g hg => hm g (List.mem_cons_of_mem _ hg))]
      by_cases hf : f.fixed
      · exact d.word m (hm f List.mem_cons_self (Or.inl hf))
      · by_cases ho : f.opened
        · exact d.word m (hm f List.mem_cons_self (Or.inr ho))
        · rw [d.same hf ho]
    · intro a ha hlt
      rw [d2.mem a (fun g hg => ha g (List.mem_cons_of_mem _ hg)) (Nat.lt_of_lt_of_le hlt d.top), d.mem a (ha f List.mem_cons_self) hlt]
    · intro g hg hh
      rcases List.mem_cons.mp hg with rfl | hg
      · obtain ⟨k1, k2, k3, k4⟩ := d.copy hh
        simp only [if_true]
        refine ⟨?_, Nat.le_trans k2 d2.top, k3.mono d2.objs, ?_⟩
        · rw [d2.word _ (fun k hk _ he => hne k hk (by injection he with he; exact he.symm))]; exact k1
        · intro j hj
          rw [d2.mem _ ?_ (by omega), k4 j hj]
          intro k hk hkf
          rcases hcf k hk hh hkf with h | h
          · exact Or.inl (by omega)
          · exact Or.inr (by omega)
      · obtain ⟨k1, k2, k3, k4⟩ := d2.copy g hg hh
        simp only [hne g hg, if_false]
        refine ⟨k1, k2, k3, ?_⟩
        intro j hj
        rw [k4 j hj]
        have hs := (hready g (List.mem_cons_of_mem _ hg)).src hh
        refine d.mem _ ?_ (by have := hs.2.2; omega)
        intro hf
        have := ((hready f List.mem_cons_self).fixed hf).2.2.1
        have := hs.2.2
        exact Or.inl (by omega)
    · intro g hg hgf
      rcases List.mem_cons.mp hg with rfl | hg
      · simp only [if_true]; exact d.fixed hgf
      · simp only [hne g hg, if_false]; exact d2.fixed g hg hgf
    · intro g hg hgf
      rcases List.mem_cons.mp hg with rfl | hg
      · simp only [if_true]; exact d.opened hgf
      · simp only [hne g hg, if_false]; exact Nat.le_trans d.top (d2.opened g hg hgf)
    · intro g hg k hk hgh hkh hgk
      rcases List.mem_cons.mp hg with rfl | hg'
      · rcases List.mem_cons.mp hk with rfl | hk'
        · exact (hgk rfl).elim
        · simp only [if_true, hne k hk', if_false]
          exact hother k hk' hgh hkh
      · rcases List.mem_cons.mp hk with rfl | hk'
        · simp only [if_true, hne g hg', if_false]
          exact (hother g hg' hkh hgh).symm
        · simp only [hne g hg', hne k hk', if_false]
          exact d2.apart g hg' k hk' hgh hkh hgk

/-! ### The scope record -/

theorem scopeLens_spec (x dim : Nat) (t : Ty) (s : St) :
    (scopeLens x dim t s).word = s.word ∧ (scopeLens x dim t s).mem = s.mem ∧ (scopeLens x dim t s).objs = s.objs ∧
    (scopeLens x dim t s).top = s.top ∧ (scopeLens x dim t s).outer = s.outer ∧ (scopeLens x dim t s).hdr = s.hdr ∧
    (∀ n, n ≠ .len x dim → (scopeLens x dim t s).scope n = s.scope n) ∧
    (s.scope (.len x dim) = s.word (.len x dim) → (scopeLens x dim t s).scope (.len x dim) = s.word (.len x dim)) := by
  induction t generalizing s with
  | dyn t ih =>
    obtain ⟨h1, h2, h3, h4, h5, h6, h7, h8⟩ := ih { s with scope := set s.scope (.len x dim) (s.word (.len x dim)) }
    simp only [scopeLens]
    refine ⟨h1, h2, h3, h4, h5, h6, ?_, ?_⟩
    · intro n hn; rw [h7 n hn]; simp [set, hn]
    · intro _; exact h8 (by simp [set])
  | _ => exact ⟨rfl, rfl, rfl, rfl, rfl, rfl, fun _ _ => rfl, fun h => h⟩

/-- What a statement for the scope record leaves alone, and what it does. -/
structure Scoped (f : Formal) (s s' : St) : Prop where
  word : s'.word = s.word
  mem : s'.mem = s.mem
  objs : s'.objs = s.objs
  top : s'.top = s.top
  outer : s'.outer = s.outer
  hdr : s'.hdr = s.hdr
  others : ∀ n, n.x ≠ f.x → s'.scope n = s.scope n
  ptr : f.leaf = false → f.var = true ∨ f.ty.isArray = true → s'.scope (.ptr f.x) = s.word (.ptr f.x)
  len : f.leaf = false → f.ty.opens ≠ 0 → s'.scope (.len f.x 0) = s.word (.len f.x 0)
  tag : ∀ i z, f.leaf = false → f.var = true → f.ty = .record i z → s'.scope (.tag f.x) = s.word (.tag f.x)
  rest : ∀ d, d ≠ 0 → s'.scope (.len f.x d) = s.scope (.len f.x d)

theorem scopePar_spec (f : Formal) (s : St) : Scoped f s (scopePar f s) := by
  unfold scopePar
  split
  · rename_i hl
    exact ⟨rfl, rfl, rfl, rfl, rfl, rfl, fun _ _ => rfl, fun h => (by rw [hl] at h; cases h), fun h => (by rw [hl] at h; cases h),
      fun _ _ h => (by rw [hl] at h; cases h), fun _ _ => rfl⟩
  · dsimp only
    split
    · rename_i hv t ht
      obtain ⟨h1, h2, h3, h4, h5, h6, h7, h8⟩ := scopeLens_spec f.x 0 t { s with scope := set (set s.scope (.ptr f.x) (s.word (.ptr f.x))) (.len f.x 0) (s.word (.len f.x 0)) }
      refine ⟨h1, h2, h3, h4, h5, h6, ?_, ?_, ?_, ?_, ?_⟩
      · intro n hn
        rw [h7 n (fun h => hn (by rw [h]; rfl))]
        have a1 : n ≠ .len f.x 0 := fun h => hn (by rw [h]; rfl)
        have a2 : n ≠ .ptr f.x := fun h => hn (by rw [h]; rfl)
        simp [set, a1, a2]
      · intro _ _; rw [h7 _ (by simp)]; simp [set]
      · intro _ _; exact h8 (by simp [set])
      · intro i z _ _ h; rw [ht] at h; cases h
      · intro d hd
        rw [h7 _ (by simp [hd])]; simp [set, hd]
    · rename_i i z ht hv
      refine ⟨rfl, rfl, rfl, rfl, rfl, rfl, ?_, ?_, ?_, ?_, ?_⟩
      · intro n hn
        have a1 : n ≠ .tag f.x := fun h => hn (by rw [h]; rfl)
        have a2 : n ≠ .ptr f.x := fun h => hn (by rw [h]; rfl)
        simp [set, a1, a2]
      · intro _ _; simp [set]
      · intro _ h; rw [ht] at h; exact (h rfl).elim
      · intro _ _ _ _ _; simp [set]
      · intro d _; simp [set]
    · rename_i n t hv ht
      refine ⟨rfl, rfl, rfl, rfl, rfl, rfl, ?_, ?_, ?_, ?_, ?_⟩
      · intro n hn
        have a2 : n ≠ .ptr f.x := fun h => hn (by rw [h]; rfl)
        simp [set, a2]
      · intro _ _; simp [set]
      · intro _ h; rw [ht] at h; exact (h rfl).elim
      · intro i z _ _ h; rw [ht] at h; cases h
      · intro d _; simp [set]
    · rename_i hv h1 h2 h3
      refine ⟨rfl, rfl, rfl, rfl, rfl, rfl, ?_, ?_, ?_, ?_, ?_⟩
      · intro n hn
        have a2 : n ≠ .ptr f.x := fun h => hn (by rw [h]; rfl)
        simp [set, a2]
      · intro _ _; simp [set]
      · intro _ h
        refine (h (opens_zero fun u hu => ?_)).elim
        exact h1 u hu
      · intro i z _ hv' h
        exact (h2 i z h).elim
      · intro d _; simp [set]
    · rename_i h1 h2 h4 h3
      have hv : f.var = false := by
        cases hv : f.var with
        | false => rfl
        | true => exact (h4 hv).elim
      refine ⟨rfl, rfl, rfl, rfl, rfl, rfl, fun _ _ => rfl, ?_, ?_, ?_, fun _ _ => rfl⟩
      · intro _ h
        rcases h with h | h
        · rw [hv] at h; cases h
        · cases ht : f.ty with
          | arr n t => exact (h2 n t ht).elim
          | dyn t => exact (h1 t ht).elim
          | _ => rw [ht] at h; cases h
      · intro _ h
        exact (h (opens_zero fun u hu => h1 u hu)).elim
      · intro i z _ h; rw [hv] at h; cases h
end Verif.Arrays
