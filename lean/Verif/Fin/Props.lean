import Verif.Common
import Verif.Fin.Lemmas
import Verif.Heap.PropsAlloc

/-!
# Finalization (C24)
-/
namespace Verif.Fin

open Verif.Heap (Ev Blk Chunk HS Env Inv EnvOK Found Reach noEx blocks)

theorem setMarked_ok : ∀ (xs : List Nat) (flags : List Bool) (s : FS) (a : Nat), NChain s.node a xs → xs.Nodup →
    flags.length = xs.length →
    ∃ s', Ev (fun f => setMarked f s a flags) s' ∧ s'.fin = s.fin ∧ s'.fresh = s.fresh ∧ s'.log = s.log ∧
      (∀ x, (s'.node x).next = (s.node x).next ∧ (s'.node x).obj = (s.node x).obj) ∧
      (∀ x, x ∉ xs → s'.node x = s.node x) ∧
      ∀ (i : Nat) (x : Nat), xs[i]? = some x → flags[i]? = some (s'.node x).marked
  | [], flags, s, a, h, _, _ => by
    refine ⟨s, ⟨1, fun f hf => ?_⟩, rfl, rfl, rfl, fun _ => ⟨rfl, rfl⟩, fun _ _ => rfl, by simp⟩
    obtain ⟨j, rfl⟩ : ∃ j, f = j + 1 := ⟨f - 1, by omega⟩
    simp only [setMarked]; rw [if_pos (show a = 0 from h)]
  | x :: xs, [], s, a, h, _, hl => by simp at hl
  | x :: xs, b :: flags, s, a, ⟨h1, h2, h3⟩, hnd, hl => by
    obtain ⟨hx, hnd'⟩ := List.nodup_cons.1 hnd
    obtain ⟨s1, hs1⟩ : ∃ s1 : FS, s1 = { s with node := upd s.node x { s.node x with marked := b } } := ⟨_, rfl⟩
    have hne : ∀ y, y ≠ x → s1.node y = s.node y := fun y hy => by rw [hs1]; exact upd_ne _ _ hy
    have hxx : s1.node x = { s.node x with marked := b } := by rw [hs1]; exact upd_self _ _ _
    have hno : ∀ y, (s1.node y).next = (s.node y).next ∧ (s1.node y).obj = (s.node y).obj := by
      intro y
      by_cases hy : y = x
      · rw [hy, hxx]; exact ⟨rfl, rfl⟩
      · rw [hne y hy]; exact ⟨rfl, rfl⟩
    obtain ⟨s', ⟨F, hF⟩, e1, e2, e3, e4, e5, e6⟩ := setMarked_ok xs flags s1 (s.node x).next
      (nchain_congr (fun y _ => (hno y).1) h3) hnd' (by simpa using hl)
    refine ⟨s', ⟨F + 1, fun f hf => ?_⟩, by rw [e1, hs1], by rw [e2, hs1], by rw [e3, hs1], ?_, ?_, ?_⟩
    · obtain ⟨j, rfl⟩ : ∃ j, f = j + 1 := ⟨f - 1, by omega⟩
      simp only [setMarked]
      rw [if_neg (by omega), h1, ← hs1]
      exact hF j (by omega)
    · intro y
      exact ⟨(e4 y).1.trans (hno y).1, (e4 y).2.trans (hno y).2⟩
    · intro y hy
      simp only [List.mem_cons, not_or] at hy
      rw [e5 y hy.2, hne y hy.1]
    · intro i y hi
      match i, hi with
      | 0, hi =>
        simp only [List.getElem?_cons_zero, Option.some.injEq] at hi ⊢
        rw [← hi, e5 x hx, hxx]
      | i + 1, hi =>
        simp only [List.getElem?_cons_succ] at hi ⊢
        exact e6 i y hi

theorem objs_ok : ∀ (xs : List Nat) (s : FS) (a : Nat), NChain s.node a xs →
    Ev (fun f => objs f s a) (xs.map fun x => (s.node x).obj)
  | [], s, a, h => ⟨1, fun f hf => by
    obtain ⟨j, rfl⟩ : ∃ j, f = j + 1 := ⟨f - 1, by omega⟩
    simp only [objs]; rw [if_pos (show a = 0 from h)]; rfl⟩
  | x :: xs, s, a, ⟨h1, h2, h3⟩ => by
    obtain ⟨F, hF⟩ := objs_ok xs s _ h3
    refine ⟨F + 1, fun f hf => ?_⟩
    obtain ⟨j, rfl⟩ : ∃ j, f = j + 1 := ⟨f - 1, by omega⟩
    have : objs j s (s.node x).next = some (xs.map fun x => (s.node x).obj) := hF j (by omega)
    simp only [objs]
    rw [if_neg (by omega), h1, this]; rfl

/-- A history: finalizers are registered, and the collector runs (`flags` is what it finds out about the objects, in the order
of the list).  Finalizers run in the collector behave as `beh` says. -/
inductive Run (beh : Beh) : FS → Prop where
  | init : Run beh init
  | reg {s : FS} (obj : Nat) : Run beh s → Run beh (register s obj)
  | gc {s s' : FS} (flags : List Bool) : Run beh s →
      (∃ F, ∀ f, F ≤ f → ((setMarked f s s.fin flags).bind fun s => finalize f beh s) = some s') → Run beh s'

/-- The nodes waiting in the list are `xs`: from `fin` on, in this order. -/
abbrev Pending (s : FS) (xs : List Nat) : Prop := NChain s.node s.fin xs

theorem nchain_unique {nd : Nat → Node} : ∀ {xs ys : List Nat} {a : Nat}, NChain nd a xs → NChain nd a ys → xs = ys
  | [], [], _, _, _ => rfl
  | [], y :: ys, a, h, ⟨h1, h2, _⟩ => absurd (h1 ▸ h : y = 0) h2
  | x :: xs, [], a, ⟨h1, h2, _⟩, h => absurd (h1 ▸ h : x = 0) h2
  | x :: xs, y :: ys, a, ⟨h1, _, h3⟩, ⟨h1', _, h3'⟩ => by
    have : x = y := by rw [← h1, h1']
    subst this
    rw [nchain_unique h3 h3']

theorem setMarked_long : ∀ (xs : List Nat) (flags : List Bool) (s : FS) (a : Nat), NChain s.node a xs → xs.Nodup →
    flags.length < xs.length → ∀ f, setMarked f s a flags = none
  | [], _, _, _, _, _, h, _ => by simp at h
  | x :: xs, [], s, a, ⟨h1, h2, _⟩, _, _, f => by
    cases f with
    | zero => rfl
    | succ f => simp only [setMarked]; rw [if_neg (by omega)]
  | x :: xs, b :: flags, s, a, ⟨h1, h2, h3⟩, hnd, h, f => by
    cases f with
    | zero => rfl
    | succ f =>
      obtain ⟨hx, hnd'⟩ := List.nodup_cons.1 hnd
      simp only [setMarked]
      rw [if_neg (by omega), h1]
      refine setMarked_long xs flags _ _ (nchain_congr ?_ h3) hnd' (by simpa using h) f
      intro y hy
      have : y ≠ x := by rintro rfl; exact hx hy
      show (upd s.node x _ y).next = _
      rw [upd_ne _ _ this]

theorem setMarked_take : ∀ (xs : List Nat) (flags : List Bool) (s : FS) (a : Nat), NChain s.node a xs → xs.Nodup →
    ∀ f, setMarked f s a flags = setMarked f s a (flags.take xs.length)
  | [], flags, s, a, h, _, f => by
    cases f with
    | zero => rfl
    | succ f =>
      have h' : a = 0 := h
      simp only [setMarked]; rw [if_pos h', if_pos h']
  | x :: xs, [], s, a, _, _, f => rfl
  | x :: xs, b :: flags, s, a, ⟨h1, h2, h3⟩, hnd, f => by
    obtain ⟨hx, hnd'⟩ := List.nodup_cons.1 hnd
    cases f with
    | zero => rfl
    | succ f =>
      simp only [List.length_cons, List.take_succ_cons, setMarked]
      rw [if_neg (by omega), if_neg (by omega)]
      subst h1
      refine setMarked_take xs flags _ _ (nchain_congr ?_ h3) hnd' f
      intro y hy
      have : y ≠ a := by rintro rfl; exact hx hy
      show (upd s.node a _ y).next = _
      rw [upd_ne _ _ this]

/-- A collection, as far as finalization is concerned. -/
theorem gcStep_ok {beh : Beh} (hb : NoGC beh) {s : FS} {xs : List Nat} (g : Good s xs) {flags : List Bool}
    (hl : flags.length = xs.length) :
    ∃ s1 s' news, Ev (fun f => setMarked f s s.fin flags) s1 ∧ Ev (fun f => finalize f beh s1) s' ∧
      Good s' (news ++ xs.filter (fun x => (s1.node x).marked)) ∧
      s'.log = (xs.filter (fun x => !(s1.node x).marked)).reverse ++ s.log ∧ s.fresh ≤ s'.fresh ∧
      (∀ x, x ∈ news ↔ s.fresh ≤ x ∧ x < s'.fresh) ∧
      (∀ (i : Nat) (x : Nat), xs[i]? = some x → flags[i]? = some (s1.node x).marked) := by
  obtain ⟨s1, ⟨F1, hF1⟩, e1, e2, e3, e4, e5, e6⟩ := setMarked_ok xs flags s s.fin g.chain g.nodup hl
  have g1 : Good s1 xs := ⟨by rw [e1]; exact nchain_congr (fun y _ => (e4 y).1) g.chain, g.nodup,
    by rw [e2]; exact g.old, by rw [e2]; exact g.pos⟩
  obtain ⟨s', news, ⟨F2, hF2⟩, fz⟩ := finalize_ok hb _ _ [] xs s1 rfl rfl (by simpa using g1)
  refine ⟨s1, s', news, ⟨F1, hF1⟩, ⟨F2, fun f hf => ?_⟩, by simpa using fz.good, by rw [fz.log, e3],
    by rw [← e2]; exact fz.fresh, by rw [← e2]; exact fz.mem, e6⟩
  have h2 := hF2 f hf
  rw [← nchain_first g1.chain] at h2
  exact h2

/-- What holds throughout. -/
structure Ok (s : FS) (xs : List Nat) : Prop where
  good : Good s xs
  once : s.log.Nodup
  apart : ∀ x ∈ s.log, x ∉ xs
  all : ∀ x, x ∈ xs ∨ x ∈ s.log ↔ 0 < x ∧ x < s.fresh

theorem ok_reg {s : FS} {xs : List Nat} (h : Ok s xs) (o : Nat) : Ok (register s o) (s.fresh :: xs) := by
  obtain ⟨s', news, ⟨F, hF⟩, g', gr⟩ := acts_ok (beh := fun _ _ => []) [.reg o] (by simp) h.good
  have hs' : s' = register s o := by
    have h1 := hF (F + 2) (by omega)
    simp only [acts, Option.some.injEq] at h1
    exact h1.symm
  subst hs'
  have hfr : (register s o).fresh = s.fresh + 1 := rfl
  have hlog : (register s o).log = s.log := rfl
  have hfin : (register s o).fin = s.fresh := rfl
  have hch : NChain (register s o).node (register s o).fin (s.fresh :: xs) := by
    refine ⟨rfl, by have := h.good.pos; omega, ?_⟩
    have e : ((register s o).node s.fresh).next = s.fin := by simp [register, upd]
    rw [e]
    refine nchain_congr ?_ h.good.chain
    intro x hx
    have := h.good.old x hx
    rw [gr.old x this]
  have hnl : ∀ x ∈ s.log, x < s.fresh := fun x hx => ((h.all x).1 (Or.inr hx)).2
  refine ⟨⟨hch, List.nodup_cons.2 ⟨fun hx => ?_, h.good.nodup⟩, ?_, by omega⟩, h.once, ?_, ?_⟩
  · have := h.good.old _ hx; omega
  · intro x hx
    rcases List.mem_cons.1 hx with rfl | hx
    · omega
    · have := h.good.old x hx; omega
  · intro x hx hx'
    rw [hlog] at hx
    rcases List.mem_cons.1 hx' with rfl | hx'
    · have := hnl _ hx; omega
    · exact h.apart x hx hx'
  · intro x
    rw [hlog, hfr, List.mem_cons]
    have h1 := h.all x
    have h2 := h.good.pos
    constructor
    · rintro ((rfl | h3) | h3)
      · omega
      · have := h1.1 (Or.inl h3); omega
      · have := h1.1 (Or.inr h3); omega
    · intro h3
      by_cases hx : x = s.fresh
      · exact Or.inl (Or.inl hx)
      · rcases h1.2 ⟨h3.1, by omega⟩ with h4 | h4
        · exact Or.inl (Or.inr h4)
        · exact Or.inr h4

theorem ok_gc {s s' s1 : FS} {xs news : List Nat} (h : Ok s xs)
    (g' : Good s' (news ++ xs.filter (fun x => (s1.node x).marked)))
    (hlog : s'.log = (xs.filter (fun x => !(s1.node x).marked)).reverse ++ s.log) (hfr : s.fresh ≤ s'.fresh)
    (hnew : ∀ x, x ∈ news ↔ s.fresh ≤ x ∧ x < s'.fresh) :
    Ok s' (news ++ xs.filter (fun x => (s1.node x).marked)) := by
  have hpos := h.good.pos
  refine ⟨g', ?_, ?_, ?_⟩
  · rw [hlog, List.nodup_append, List.nodup_reverse]
    refine ⟨h.good.nodup.filter _, h.once, ?_⟩
    intro a ha b hb e
    subst e
    exact h.apart a hb (List.mem_filter.1 (List.mem_reverse.1 ha)).1
  · intro x hx hx'
    rw [hlog, List.mem_append, List.mem_reverse, List.mem_filter] at hx
    rw [List.mem_append, List.mem_filter, hnew] at hx'
    rcases hx with ⟨h1, h2⟩ | h1
    · rcases hx' with h3 | ⟨h3, h4⟩
      · have := h.good.old x h1; omega
      · simp [h4] at h2
    · rcases hx' with h3 | ⟨h3, h4⟩
      · have := (h.all x).1 (Or.inr h1); omega
      · exact h.apart x h1 h3
  · intro x
    rw [hlog]
    simp only [List.mem_append, List.mem_reverse, List.mem_filter, hnew]
    have h1 := h.all x
    constructor
    · rintro ((h2 | ⟨h2, _⟩) | ⟨h2, _⟩ | h2)
      · omega
      · have := h1.1 (Or.inl h2); omega
      · have := h1.1 (Or.inl h2); omega
      · have := h1.1 (Or.inr h2); omega
    · intro h2
      by_cases hx : s.fresh ≤ x
      · exact Or.inl (Or.inl ⟨hx, h2.2⟩)
      · rcases h1.2 ⟨h2.1, by omega⟩ with h3 | h3
        · cases hm : (s1.node x).marked with
          | true => exact Or.inl (Or.inr ⟨h3, rfl⟩)
          | false => exact Or.inr (Or.inl ⟨h3, rfl⟩)
        · exact Or.inr (Or.inr h3)

theorem run_ok {beh : Beh} (hb : NoGC beh) {s : FS} (h : Run beh s) : ∃ xs, Ok s xs := by
  induction h with
  | init =>
    refine ⟨[], ⟨rfl, List.nodup_nil, by simp, by decide⟩, List.nodup_nil, by simp [init], ?_⟩
    intro x
    simp only [init, List.not_mem_nil, or_self, false_iff]
    omega
  | reg o _ ih =>
    obtain ⟨xs, h⟩ := ih
    exact ⟨_, ok_reg h o⟩
  | @gc s s' flags _ hev ih =>
    obtain ⟨xs, h⟩ := ih
    obtain ⟨F, hF⟩ := hev
    have hle : xs.length ≤ flags.length := by
      rcases Nat.lt_or_ge flags.length xs.length with hlt | hge
      · have h1 := hF F (Nat.le_refl _)
        rw [setMarked_long xs flags s s.fin h.good.chain h.good.nodup hlt] at h1
        simp at h1
      · exact hge
    obtain ⟨s1, s2, news, ⟨F1, hF1⟩, ⟨F2, hF2⟩, g', e1, e2, e3, _⟩ := gcStep_ok hb h.good (flags := flags.take xs.length)
      (by simp [hle])
    have hs2 : s2 = s' := by
      have h1 := hF (max F (max F1 F2)) (by omega)
      have h2 : setMarked (max F (max F1 F2)) s s.fin (flags.take xs.length) = some s1 := hF1 _ (by omega)
      have h3 : finalize (max F (max F1 F2)) beh s1 = some s2 := hF2 _ (by omega)
      rw [setMarked_take xs flags s s.fin h.good.chain h.good.nodup, h2, Option.bind_some, h3] at h1
      simpa using h1
    subst hs2
    exact ⟨_, ok_gc h g' e1 e2 e3⟩

/-- C24, at most once: in every history in which no finalizer makes the collector run, no finalizer is called twice, and none
is lost: each registration, numbered from 1, is either among the calls or waiting in the list, not both.  What is
missing: finalizers that make the collector run, see `C24_twice`. -/
theorem C24_once_partial (beh : Beh) (hb : ∀ k n, ∀ a ∈ beh k n, ∃ o, a = Act.reg o) (s : FS) (h : Run beh s) :
    s.log.Nodup ∧ ∃ xs, Pending s xs ∧ xs.Nodup ∧ (∀ n, ¬ (n ∈ s.log ∧ n ∈ xs)) ∧
      ∀ n, (n ∈ s.log ∨ n ∈ xs) ↔ 1 ≤ n ∧ n < s.fresh := by
  obtain ⟨xs, ok⟩ := run_ok hb h
  refine ⟨ok.once, xs, ok.good.chain, ok.good.nodup, fun n hn => ok.apart n hn.1 hn.2, fun n => ?_⟩
  rw [or_comm]; exact ok.all n

/-- The phases of a collection up to and including the sweep, and what `CheckFin` finds out: the object of a node counts as
reachable if it can be reached from the global variables or the stack, or from the object of an earlier node. -/
theorem flags_ok {St Sl : Nat → Prop} {s : HS} {cks : List Chunk} (inv : Inv St Sl noEx s cks) {e : Env}
    (he : EnvOK (blocks cks) e) :
    ∃ m1 m2 m3 l s', Ev (fun f => Heap.markRoots f s.mem e.roots) m1 ∧ Ev (fun f => Heap.markStack 10000 f s m1 e.stack) m2 ∧
      Ev (fun f => Heap.checkFin f m2 e.finObjs) (m3, l) ∧ Ev (fun f => Heap.scan f { s with mem := m3 }) s' ∧
      Ev (fun f => Heap.gc f s e) s' ∧ l.length = e.finObjs.length ∧
      ∀ (i : Nat) (b : Blk), b ∈ blocks cks → e.finObjs[i]? = some b.ptr →
        (l[i]? = some true ↔ Found (blocks cks) s.mem ⟨e.roots, e.stack, []⟩ b ∨
          ∃ (j : Nat) (c : Blk), j < i ∧ c ∈ blocks cks ∧ e.finObjs[j]? = some c.ptr ∧ Reach (blocks cks) s.mem c b) := by
  have ok := inv.ok
  have sep := Heap.sep_of_chunks ok
  have hun : ∀ b ∈ blocks cks, ¬ Heap.Marked s.mem b := by
    intro b hb
    have h1 := inv.tags b hb (fun h => h)
    have h2 := (ok.blk b hb).tag8
    unfold Heap.Marked; rw [h1]; simp [Heap.odd]; omega
  have tr : Heap.Traceable (blocks cks) s.mem := by
    refine ⟨fun b hb => inv.tables b hb (fun h => h), fun b hb => Or.inl (inv.tags b hb (fun h => h)), ?_⟩
    intro b hb a ha
    rcases inv.fields b hb (fun h => h) a ha with h | ⟨c, hc, _, h⟩
    · exact Or.inl h
    · exact Or.inr ⟨c, hc, h⟩
  have cl : Heap.Closed (blocks cks) s.mem := fun b hb hm => absurd hm (hun b hb)
  obtain ⟨m1, ⟨F1, hF1⟩, hm1⟩ := Heap.markRoots_ok sep e.roots tr cl (by
    intro r hr
    rcases he.roots r hr with h | ⟨b, hb, _, h⟩
    · exact Or.inl h
    · exact Or.inr ⟨b, hb, h⟩)
  obtain ⟨m2, ⟨F2, hF2⟩, hm2⟩ := Heap.stackLoop_ok ok 10000 (by omega) inv.hmin inv.hmax e.stack m1 0 (fun _ => 0)
    (Heap.chunksIn_frame ok hm1.frame inv.inMem) hm1.traceable hm1.closed
  obtain ⟨m3, l, ⟨F3, hF3⟩, hm3, hlen, hfl⟩ := Heap.checkFin_ok sep e.finObjs hm2.traceable hm2.closed (by
    intro r hr
    obtain ⟨b, hb, _, h⟩ := he.fins r hr
    exact ⟨b, hb, h⟩)
  obtain ⟨s', cks', ⟨F4, hF4⟩, _⟩ := Heap.gc_ok inv he
  have h12 := Heap.markedFrom_trans sep hm1 hm2
  refine ⟨m1, m2, m3, l, s', ⟨F1, hF1⟩, ⟨F2, hF2⟩, ⟨F3, hF3⟩, ⟨max (max F1 F2) (max F3 F4), fun f hf => ?_⟩, ⟨F4, hF4⟩, hlen, ?_⟩
  · have h1 : Heap.markRoots f s.mem e.roots = some m1 := hF1 f (by omega)
    have h2 : Heap.markStack 10000 f s m1 e.stack = some m2 := hF2 f (by omega)
    have h3 : Heap.checkFin f m2 e.finObjs = some (m3, l) := hF3 f (by omega)
    have h4 : Heap.gc f s e = some s' := hF4 f (by omega)
    simp only [Heap.gc, h1, h2, h3, Option.bind_eq_bind, Option.bind_some] at h4
    exact h4
  · intro i b hb hi
    rw [hfl i b hb hi, h12.marks b hb]
    apply or_congr
    · unfold Found Heap.Root
      constructor
      · rintro (h | ⟨r, hr, h, hre⟩)
        · exact absurd h (hun b hb)
        · refine ⟨r, hr, ?_, hre⟩
          rcases h with h | ⟨w, hw, h⟩
          · exact Or.inl h
          · right; left
            refine ⟨w, ?_, h⟩
            rcases hw with hw | hw
            · simp [Heap.elems] at hw
            · exact hw
      · rintro ⟨r, hr, h, hre⟩
        refine Or.inr ⟨r, hr, ?_, hre⟩
        rcases h with h | ⟨w, hw, h⟩ | h
        · exact Or.inl h
        · exact Or.inr ⟨w, Or.inr hw, h⟩
        · simp at h
    · constructor
      · rintro ⟨j, c, h1, h2, h3, h4⟩
        exact ⟨j, c, h1, h2, h3, (Heap.reach_frame sep h12.frame h2).1 h4⟩
      · rintro ⟨j, c, h1, h2, h3, h4⟩
        exact ⟨j, c, h1, h2, h3, (Heap.reach_frame sep h12.frame h2).2 h4⟩

/-- C24, when: a collection in any history in which no finalizer makes the collector run.  `xs` are the waiting nodes, whose
objects are in the heap.  The collection terminates.  It calls the finalizer of a waiting node exactly if the object cannot be
reached from the global variables and the stack, nor from the object of a node earlier in the list; the calls are in
the order of the list.  An object that can be reached from the program is never finalized.  All the waiting objects, those
finalized included, are still in the heap with the same contents.  What is missing: finalizers that make the collector run,
see `C24_twice`. -/
theorem C24_collect_partial (beh : Beh) (hb : ∀ k n, ∀ a ∈ beh k n, ∃ o, a = Act.reg o) (fs : FS) (h : Run beh fs)
    (xs : List Nat) (hp : Pending fs xs) (St Sl : Nat → Prop) (s : HS) (cks : List Chunk) (inv : Inv St Sl noEx s cks)
    (roots stack : List Nat) (hr : ∀ r ∈ roots, r = 0 ∨ ∃ b ∈ blocks cks, b.free = false ∧ r = b.ptr)
    (ho : ∀ n ∈ xs, ∃ b ∈ blocks cks, b.free = false ∧ (fs.node n).obj = b.ptr) :
    ∃ (s' : HS) (fs' : FS) (called : List Nat) (cks' : List Chunk), (∃ F, ∀ f, F ≤ f → collect f beh s roots stack fs = some (s', fs')) ∧ Run beh fs' ∧
      fs'.log = called.reverse ++ fs.log ∧ called.Sublist xs ∧
      (∀ (i n : Nat) (b : Blk), xs[i]? = some n → b ∈ blocks cks → (fs.node n).obj = b.ptr →
        (n ∈ called ↔ ¬ Found (blocks cks) s.mem ⟨roots, stack, []⟩ b ∧
          ¬ ∃ (j k : Nat) (c : Blk), j < i ∧ xs[j]? = some k ∧ c ∈ blocks cks ∧ (fs.node k).obj = c.ptr ∧
            Reach (blocks cks) s.mem c b)) ∧
      Inv St Sl noEx s' cks' ∧
      ∀ n ∈ xs, ∀ b ∈ blocks cks, b.free = false → (fs.node n).obj = b.ptr →
        b ∈ blocks cks' ∧ ∀ a, b.adr ≤ a → a < b.adr + b.size → s'.mem a = s.mem a := by
  obtain ⟨xs', ok⟩ := run_ok hb h
  have := nchain_unique hp ok.good.chain
  subst this
  obtain ⟨os, hos⟩ : ∃ os, os = xs.map fun x => (fs.node x).obj := ⟨_, rfl⟩
  have he : EnvOK (blocks cks) ⟨roots, stack, os⟩ := by
    refine ⟨hr, ?_⟩
    intro r hr
    simp only [hos, List.mem_map] at hr
    obtain ⟨n, hn, rfl⟩ := hr
    exact ho n hn
  obtain ⟨m1, m2, m3, l, s', ⟨F1, hF1⟩, ⟨F2, hF2⟩, ⟨F3, hF3⟩, ⟨F4, hF4⟩, hgc, hlen, hfl⟩ := flags_ok inv he
  obtain ⟨s'', cks', hgc', inv', _, _, live', cont', _⟩ := Heap.gc_ok inv he
  have e := Heap.Ev.unique hgc hgc'
  subst e
  have hlx : l.length = xs.length := by rw [hlen]; show os.length = _; rw [hos, List.length_map]
  obtain ⟨fs1, fs', news, ⟨F5, hF5⟩, ⟨F6, hF6⟩, g', e1, e2, e3, e4⟩ := gcStep_ok hb ok.good hlx
  obtain ⟨F7, hF7⟩ := objs_ok xs fs fs.fin ok.good.chain
  refine ⟨s', fs', xs.filter (fun x => !(fs1.node x).marked), cks',
    ⟨max (max (max F1 F2) (max F3 F4)) (max (max F5 F6) F7), fun f hf => ?_⟩, ?_, e1, List.filter_sublist, ?_, inv', ?_⟩
  · have h1 : Heap.markRoots f s.mem roots = some m1 := hF1 f (by omega)
    have h2 : Heap.markStack 10000 f s m1 stack = some m2 := hF2 f (by omega)
    have h3 : Heap.checkFin f m2 os = some (m3, l) := hF3 f (by omega)
    have h4 : Heap.scan f { s with mem := m3 } = some s' := hF4 f (by omega)
    have h5 : setMarked f fs fs.fin l = some fs1 := hF5 f (by omega)
    have h6 : finalize f beh fs1 = some fs' := hF6 f (by omega)
    have h7 : objs f fs fs.fin = some os := by rw [hos]; exact hF7 f (by omega)
    simp only [collect, h1, h2, h7, h3, h4, h5, h6, Option.bind_eq_bind, Option.bind_some]
  · refine Run.gc l h ⟨max F5 F6, fun f hf => ?_⟩
    have h5 : setMarked f fs fs.fin l = some fs1 := hF5 f (by omega)
    have h6 : finalize f beh fs1 = some fs' := hF6 f (by omega)
    rw [h5, Option.bind_some, h6]
  · intro i n b hi hb' hob
    have hmem : n ∈ xs := List.mem_of_getElem? hi
    have hoi : os[i]? = some b.ptr := by rw [hos, List.getElem?_map, hi]; simp [hob]
    have h1 := hfl i b hb' hoi
    rw [e4 i n hi] at h1
    rw [List.mem_filter]
    have hoj : ∀ (j : Nat) (c : Blk), os[j]? = some c.ptr ↔ ∃ k, xs[j]? = some k ∧ (fs.node k).obj = c.ptr := by
      intro j c
      rw [hos, List.getElem?_map]
      cases xs[j]? with
      | none => simp
      | some k => simp
    constructor
    · rintro ⟨_, hm⟩
      have hm' : (fs1.node n).marked = false := by simpa using hm
      rw [hm'] at h1
      have h2 : ¬ _ := fun x => absurd (h1.2 x) (by simp)
      rw [not_or] at h2
      refine ⟨h2.1, ?_⟩
      rintro ⟨j, k, c, hj, hk, hc, hoc, hre⟩
      exact h2.2 ⟨j, c, hj, hc, (hoj j c).2 ⟨k, hk, hoc⟩, hre⟩
    · rintro ⟨hn1, hn2⟩
      refine ⟨hmem, ?_⟩
      cases hm : (fs1.node n).marked with
      | false => rfl
      | true =>
        rw [hm] at h1
        rcases h1.1 rfl with h2 | ⟨j, c, hj, hc, hoc, hre⟩
        · exact absurd h2 hn1
        · obtain ⟨k, hk, hoc'⟩ := (hoj j c).1 hoc
          exact absurd ⟨j, k, c, hj, hk, hc, hoc', hre⟩ hn2
  · intro n hn b hb' hbf hob
    have hfd : Found (blocks cks) s.mem ⟨roots, stack, os⟩ b := by
      refine ⟨b, hb', Or.inr (Or.inr ?_), Reach.refl b⟩
      show b.ptr ∈ os
      rw [hos, List.mem_map]
      exact ⟨n, hn, hob⟩
    refine ⟨((live' b).2 ⟨b, hb', hfd, ?_⟩).1, cont' b hb' hfd⟩
    cases b; simp only at hbf; subst hbf; rfl

/-- The hypotheses are met: the program has allocated two records, of which the first points to the second, and registered
finalizers, first for the second record, then for the first; then it loses both.  The collection calls the finalizer of
the first record only. -/
example : ∃ (s : HS) (fs : FS) (s' : HS) (fs' : FS), Run (fun _ _ => []) fs ∧ Pending fs [2, 1] ∧
    (∃ F, ∀ f, F ≤ f → collect f (fun _ _ => []) s [] [] fs = some (s', fs')) ∧ fs'.log = [2] := by
  obtain ⟨s, b, c, hrun, hedge, hbc, _⟩ := Heap.exTwo
  obtain ⟨cks, inv, hl, _⟩ := Heap.run_held Heap.exOSOK hrun
  obtain ⟨fs, hfs⟩ : ∃ fs, fs = register (register init c.ptr) b.ptr := ⟨_, rfl⟩
  have hr : Run (fun _ _ => []) fs := by rw [hfs]; exact Run.reg _ (Run.reg _ Run.init)
  have hp : Pending fs [2, 1] := by rw [hfs]; refine ⟨rfl, by decide, rfl, by decide, rfl⟩
  have h1 : (fs.node 1).obj = c.ptr := by rw [hfs]; rfl
  have h2 : (fs.node 2).obj = b.ptr := by rw [hfs]; rfl
  obtain ⟨s', fs', called, cks', hev, _, hlog, hsub, hall, _⟩ := C24_collect_partial (fun _ _ => []) (by simp) fs hr [2, 1] hp
    _ _ s cks inv [] [] (by simp) (by
      intro n hn
      simp only [List.mem_cons, List.not_mem_nil, or_false] at hn
      rcases hn with rfl | rfl
      · exact ⟨b, (hl b (by simp)).1, (hl b (by simp)).2, h2⟩
      · exact ⟨c, (hl c (by simp)).1, (hl c (by simp)).2, h1⟩)
  refine ⟨s, fs, s', fs', hr, hp, hev, ?_⟩
  have hnf : ∀ x, ¬ Found (blocks cks) s.mem ⟨[], [], []⟩ x := by
    rintro x ⟨y, _, hy, _⟩
    simp [Heap.Root] at hy
  have m2 : 2 ∈ called := (hall 0 2 b rfl (hl b (by simp)).1 h2).2 ⟨hnf b, by omega⟩
  have m1 : 1 ∉ called := by
    intro h
    exact ((hall 1 1 c rfl (hl c (by simp)).1 h1).1 h).2 ⟨0, 2, b, by omega, rfl, (hl b (by simp)).1, h2,
      Heap.Reach.step hedge (hl c (by simp)).1 (Heap.Reach.refl c)⟩
  have hc : called = [2] := by
    cases hsub with
    | cons _ h =>
      have := h.subset m2
      simp at this
    | cons_cons _ h =>
      cases h with
      | cons _ h => rw [List.sublist_nil.1 h]
      | cons_cons _ h => exact absurd (by simp) m1
  rw [hlog, hc, hfs]
  rfl

theorem finall_ok {beh : Beh} (hb : NoGC beh) {K : Nat} (hK : ∀ k n, K ≤ k → beh k n = []) : ∀ (u k : Nat) (xs : List Nat)
    (s : FS), K - s.log.length = u → xs.length = k → Ok s xs →
    ∃ s', Ev (fun f => finall f beh s) s' ∧ Ok s' [] ∧ ∃ l, s'.log = l ++ s.log := by
  intro u
  induction u using Nat.strong_induction_on with
  | _ u ihu =>
  intro k
  induction k with
  | zero =>
    intro xs s _ hk ok
    have hx : xs = [] := List.length_eq_zero_iff.1 hk
    subst hx
    refine ⟨s, ⟨1, fun f hf => ?_⟩, ok, [], rfl⟩
    obtain ⟨j, rfl⟩ : ∃ j, f = j + 1 := ⟨f - 1, by omega⟩
    simp only [finall]; rw [if_pos (show s.fin = 0 from ok.good.chain)]
  | succ k ihk =>
    intro xs s hu hk ok
    match xs, hk with
    | n :: R, hk =>
    obtain ⟨h1, h2, h3⟩ := ok.good.chain
    obtain ⟨hn, hnd⟩ := List.nodup_cons.1 ok.good.nodup
    obtain ⟨s1, hs1⟩ : ∃ s1 : FS, s1 = { s with fin := (s.node n).next, log := n :: s.log } := ⟨_, rfl⟩
    have hf1 : s1.fresh = s.fresh := by rw [hs1]
    have ok1 : Ok s1 R := by
      refine ⟨⟨by rw [hs1]; exact h3, hnd, ?_, ?_⟩, ?_, ?_, ?_⟩
      · intro x hx; rw [hf1]; exact ok.good.old x (List.mem_cons_of_mem _ hx)
      · rw [hf1]; exact ok.good.pos
      · rw [hs1]
        exact List.nodup_cons.2 ⟨fun hx => ok.apart n hx (List.mem_cons_self ..), ok.once⟩
      · intro x hx
        rw [hs1] at hx
        rcases List.mem_cons.1 hx with rfl | hx
        · exact hn
        · exact fun hx' => ok.apart x hx (List.mem_cons_of_mem _ hx')
      · intro x
        rw [hf1, ← ok.all x, hs1]
        simp only [List.mem_cons]
        tauto
    obtain ⟨s2, news, ⟨F1, hF1⟩, g2, gr⟩ := acts_ok (beh := beh) (beh s.log.length n) (hb _ _) ok1.good
    have hlog2 : s2.log = n :: s.log := by rw [gr.log, hs1]
    have ok2 : Ok s2 (news ++ R) := by
      refine ⟨g2, by rw [gr.log]; exact ok1.once, ?_, ?_⟩
      · intro x hx hx'
        rw [gr.log] at hx
        rcases List.mem_append.1 hx' with h | h
        · have h4 := (gr.mem x).1 h
          have h5 := (ok1.all x).1 (Or.inr hx)
          omega
        · exact ok1.apart x hx h
      · intro x
        have h4 := ok1.all x
        have h5 := gr.mem x
        have h6 := gr.fresh
        have h7 := ok1.good.pos
        rw [List.mem_append, gr.log, h5]
        constructor
        · rintro ((h | h) | h)
          · omega
          · have := h4.1 (Or.inl h); omega
          · have := h4.1 (Or.inr h); omega
        · intro h
          by_cases hx : s1.fresh ≤ x
          · exact Or.inl (Or.inl ⟨hx, h.2⟩)
          · rcases h4.2 ⟨h.1, by omega⟩ with h | h
            · exact Or.inl (Or.inr h)
            · exact Or.inr h
    have next : ∃ s', Ev (fun f => finall f beh s2) s' ∧ Ok s' [] ∧ ∃ l, s'.log = l ++ s2.log := by
      by_cases hq : K ≤ s.log.length
      · have hnil : news = [] := by
          have h4 : beh s.log.length n = [] := hK _ _ hq
          have h5 : s2 = s1 := by
            have h6 := hF1 (F1 + 1) (by omega)
            simp only [h4, acts, Option.some.injEq] at h6
            exact h6.symm
          rw [List.eq_nil_iff_forall_not_mem]
          intro x hx
          have := (gr.mem x).1 hx
          rw [h5] at this
          omega
        subst hnil
        exact ihk R s2 (by rw [hlog2]; simp only [List.length_cons]; omega) (by simpa using hk) (by simpa using ok2)
      · exact ihu (K - s2.log.length) (by rw [hlog2]; simp only [List.length_cons]; omega) _ (news ++ R) s2 rfl rfl ok2
    obtain ⟨s', ⟨F2, hF2⟩, ok', l, hl⟩ := next
    refine ⟨s', ⟨max F1 F2 + 1, fun f hf => ?_⟩, ok', l ++ [n], by rw [hl, hlog2]; simp⟩
    obtain ⟨j, rfl⟩ : ∃ j, f = j + 1 := ⟨f - 1, by omega⟩
    have h4 : acts j beh s1 (beh s.log.length n) = some s2 := hF1 j (by omega)
    have h5 : finall j beh s2 = some s' := hF2 j (by omega)
    simp only [finall]
    rw [if_neg (by omega), h1]
    rw [hs1] at h4
    simp only [h4, Option.bind_some, h5]

/-- C24, at the end: if from some call on finalizers register no further finalizers, FINALL terminates after any history, and
then the finalizer of every registration has been called exactly once.  What is missing: finalizers that make the
collector run. -/
theorem C24_finall_partial (beh : Beh) (hb : ∀ k n, ∀ a ∈ beh k n, ∃ o, a = Act.reg o) (K : Nat)
    (hK : ∀ k n, K ≤ k → beh k n = []) (s : FS) (h : Run beh s) :
    ∃ s', (∃ F, ∀ f, F ≤ f → finall f beh s = some s') ∧ s'.fin = 0 ∧ s'.log.Nodup ∧ (∃ l, s'.log = l ++ s.log) ∧
      ∀ n, n ∈ s'.log ↔ 1 ≤ n ∧ n < s'.fresh := by
  obtain ⟨xs, ok⟩ := run_ok hb h
  obtain ⟨s', hev, ok', hl⟩ := finall_ok hb hK _ _ xs s rfl rfl ok
  refine ⟨s', hev, ok'.good.chain, ok'.once, hl, fun n => ?_⟩
  have h1 := ok'.all n
  simp only [List.not_mem_nil, false_or] at h1
  exact h1

theorem setMarked_mono : ∀ (f : Nat) (s : FS) (n : Nat) (l : List Bool) (r : FS), setMarked f s n l = some r →
    setMarked (f + 1) s n l = some r
  | 0, s, n, l, r, h => by simp [setMarked] at h
  | f + 1, s, n, l, r, h => by
    by_cases hn : n = 0
    · simp only [setMarked, if_pos hn] at h ⊢; exact h
    · cases l with
      | nil => simp only [setMarked, if_neg hn] at h; exact absurd h (by simp)
      | cons b l =>
        simp only [setMarked, if_neg hn] at h ⊢
        exact setMarked_mono f _ _ _ _ h

theorem loop_mono (beh : Beh) : ∀ (f : Nat), (∀ (s : FS) (n p : Nat) (r : FS), finalizeLoop f beh s n p = some r →
    finalizeLoop (f + 1) beh s n p = some r) ∧
    ∀ (s : FS) (as : List Act) (r : FS), acts f beh s as = some r → acts (f + 1) beh s as = some r := by
  intro f
  induction f with
  | zero => exact ⟨fun s n p r h => by simp [finalizeLoop] at h, fun s as r h => by simp [acts] at h⟩
  | succ f ih =>
    constructor
    · intro s n p r h
      rw [finalizeLoop] at h ⊢
      by_cases hn : n = 0
      · rw [if_pos hn] at h ⊢; exact h
      · rw [if_neg hn] at h ⊢
        by_cases hm : (s.node n).marked = false
        · rw [if_pos hm] at h ⊢
          simp only [Option.bind_eq_some_iff] at h ⊢
          obtain ⟨s1, h1, s2, h2, h3⟩ := h
          exact ⟨s1, h1, s2, ih.2 _ _ _ h2, ih.1 _ _ _ _ h3⟩
        · rw [if_neg hm] at h ⊢; exact ih.1 _ _ _ _ h
    · intro s as r h
      match as with
      | [] => rw [acts] at h ⊢; exact h
      | .reg o :: as => rw [acts] at h ⊢; exact ih.2 _ _ _ h
      | .gc fl :: as =>
        rw [acts] at h ⊢
        simp only [Option.bind_eq_some_iff] at h ⊢
        obtain ⟨s1, h1, s2, h2, h3⟩ := h
        exact ⟨s1, setMarked_mono _ _ _ _ _ h1, s2, ih.1 _ _ _ _ h2, ih.2 _ _ _ h3⟩

/-- More fuel gives the same result. -/
theorem step_mono (beh : Beh) {s : FS} {l : List Bool} {r : FS} {f : Nat}
    (h : ((setMarked f s s.fin l).bind fun s => finalize f beh s) = some r) :
    ∀ g, f ≤ g → ((setMarked g s s.fin l).bind fun s => finalize g beh s) = some r := by
  intro g hg
  induction g, hg using Nat.le_induction with
  | base => exact h
  | succ g _ ih =>
    simp only [Option.bind_eq_some_iff] at ih ⊢
    obtain ⟨s1, h1, h2⟩ := ih
    exact ⟨s1, setMarked_mono _ _ _ _ _ h1, (loop_mono beh g).1 _ _ _ _ h2⟩

/-- Nodes 1 and 2 whose finalizers do nothing, and node 3 registered last. -/
def exS : FS := register (register (register init 100) 200) 300

/-- The finalizer of node 2 makes the collector run, directly or because it allocates. -/
def exBeh : Beh := fun _ n => if n = 2 then [.gc [true, false]] else []

/-- The negation of C24 in general: a finalizer that makes the collector run (for this it suffices that it allocates an
object) can cause another finalizer to be called twice.  Three finalizers are registered; the collector finds the object of
the last one reachable, those of the two others unreachable. -/
theorem C24_twice : ∃ s', Run exBeh s' ∧ s'.log = [1, 1, 2] := by
  have hd : ((setMarked 12 exS exS.fin [true, false, false]).bind fun s => finalize 12 exBeh s).map (·.log) = some [1, 1, 2] := by
    decide
  obtain ⟨s', hs', hl⟩ := Option.map_eq_some_iff.1 hd
  exact ⟨s', Run.gc [true, false, false] (Run.reg 300 (Run.reg 200 (Run.reg 100 Run.init))) ⟨12, step_mono exBeh hs'⟩, hl⟩

/-- The same, when the finalizer of node 2 registers two finalizers instead: each is called once, and the new ones wait. -/
example : ((setMarked 12 exS exS.fin [true, false, false]).bind fun s => finalize 12 (fun _ n => if n = 2 then [.reg 7, .reg 8] else []) s).map
    (fun s => (s.log, s.fin, (s.node 5).next, (s.node 4).next, (s.node 3).next)) = some ([1, 2], 5, 4, 3, 0) := by decide

example : (finall 12 (fun k n => if k = 0 then [.reg n] else []) exS).map (·.log) = some [1, 2, 4, 3] := by decide

end Verif.Fin
