import Verif.Common
import Verif.Ptrs.Spec
import Verif.Layout.PropsLayout

namespace Verif.Ptrs

theorem range_mul {α : Type} (m n : Nat) (f : Nat → List α) :
    (List.range (m * n)).flatMap f = (List.range n).flatMap fun i => (List.range m).flatMap fun j => f (i * m + j) := by
  induction n with
  | zero => simp
  | succ n ih =>
    rw [Nat.mul_succ, List.range_add, List.flatMap_append, ih, List.range_succ, List.flatMap_append]
    simp only [List.flatMap_cons, List.flatMap_nil, List.append_nil, List.flatMap_map]
    rw [Nat.mul_comm n m]

/-! ### Numbers of pointers -/

theorem nof_mul : ∀ (t : Ty) (n : Nat), nofPtrs t n = nofPtrs t 1 * n
  | .nil, n => by simp [nofPtrs]
  | .basic _, n => by simp [nofPtrs]
  | .ptr true, n => by simp [nofPtrs]
  | .ptr false, n => by simp [nofPtrs]
  | .arr m e, n => by
    simp only [nofPtrs, Nat.mul_one]
    rw [nof_mul e (m * n), nof_mul e m, Nat.mul_assoc]
  | .record _ true b fs, n => by simp [nofPtrs]
  | .record _ false b fs, n => by simp [nofPtrs]

theorem nof_inner : ∀ (t : Ty), nofPtrs (inner t) 1 = 0 → nofPtrs t 1 = 0
  | .nil, h => by simp [nofPtrs]
  | .basic _, h => by simp [nofPtrs]
  | .ptr true, h => by simp [nofPtrs, inner] at h
  | .ptr false, h => by simp [nofPtrs]
  | .arr m e, h => by
    simp only [nofPtrs, Nat.mul_one]
    rw [nof_mul, nof_inner e (by simpa [inner] using h)]; simp
  | .record _ true b fs, h => h
  | .record _ false b fs, h => by simp [nofPtrs]

mutual
theorem put_length : ∀ (t : Ty) (n adr : Nat), (put t n adr).length = nofPtrs t n
  | .nil, n, adr => by simp [put, nofPtrs]
  | .basic _, n, adr => by simp [put, nofPtrs]
  | .ptr true, n, adr => by simp [put, nofPtrs]
  | .ptr false, n, adr => by simp [put, nofPtrs]
  | .arr m e, n, adr => by
    simp only [put, nofPtrs]
    by_cases h : nofPtrs (inner e) 1 > 0
    · rw [if_pos h]; exact put_length e _ _
    · rw [if_neg h, nof_mul, nof_inner e (by omega)]; simp
  | .record s true b fs, n, adr => by
    simp only [put, nofPtrs, List.length_flatMap, List.length_append]
    have : ∀ i, (put b 1 (adr + i * s)).length + (putFlds fs (adr + i * s)).length = nofPtrs b 1 + nofFlds fs :=
      fun i => by rw [put_length b, putFlds_length fs]
    simp only [this]
    rw [List.map_const']
    simp [Nat.mul_comm]
  | .record _ false b fs, n, adr => by simp [put, nofPtrs]
theorem putFlds_length : ∀ (fs : Flds) (adr : Nat), (putFlds fs adr).length = nofFlds fs
  | .nil, adr => by simp [putFlds, nofFlds]
  | .fld _ a t rest, adr => by simp only [putFlds, nofFlds, List.length_append, put_length t, putFlds_length rest]
  | .hid a rest, adr => by simp only [putFlds, nofFlds, List.length_cons, putFlds_length rest]; omega
end

/-- The test in line 303 only saves time. -/
theorem put_arr (m : Nat) (e : Ty) (n adr : Nat) : put (.arr m e) n adr = put e (m * n) adr := by
  simp only [put]
  by_cases h : nofPtrs (inner e) 1 > 0
  · rw [if_pos h]
  · rw [if_neg h]
    have : (put e (m * n) adr).length = 0 := by rw [put_length, nof_mul, nof_inner e (by omega)]; simp
    exact (List.length_eq_zero_iff.mp this).symm

mutual
theorem put_shift : ∀ (t : Ty) (n adr d : Nat), put t n (adr + d) = (put t n adr).map (· + d)
  | .nil, n, adr, d => by simp [put]
  | .basic _, n, adr, d => by simp [put]
  | .ptr true, n, adr, d => by
    simp only [put, List.map_map]
    apply List.map_congr_left; intro i _; simp only [Function.comp]; omega
  | .ptr false, n, adr, d => by simp [put]
  | .arr m e, n, adr, d => by rw [put_arr, put_arr]; exact put_shift e _ _ _
  | .record s true b fs, n, adr, d => by
    simp only [put, List.map_flatMap, List.map_append]
    congr 1; funext i
    rw [show adr + d + i * s = adr + i * s + d by omega, put_shift b, putFlds_shift fs]
  | .record _ false b fs, n, adr, d => by simp [put]
theorem putFlds_shift : ∀ (fs : Flds) (adr d : Nat), putFlds fs (adr + d) = (putFlds fs adr).map (· + d)
  | .nil, adr, d => by simp [putFlds]
  | .fld _ a t rest, adr, d => by
    simp only [putFlds, List.map_append]
    rw [show adr + d + a = adr + a + d by omega, put_shift t, putFlds_shift rest]
  | .hid a rest, adr, d => by
    simp only [putFlds, List.map_cons]
    rw [putFlds_shift rest, show adr + d + a = adr + a + d by omega]
end

theorem flatMap_nil_fn {α β : Type} (l : List α) : l.flatMap (fun _ => ([] : List β)) = [] := by simp

theorem put_copies : ∀ (t : Ty) (n adr : Nat), put t n adr = (List.range n).flatMap fun i => put t 1 (adr + i * size t)
  | .nil, n, adr => by simp [put]
  | .basic _, n, adr => by simp [put]
  | .ptr true, n, adr => by
    simp only [put, size, List.range_one, List.map_cons, List.map_nil, Nat.zero_mul, Nat.add_zero]
    induction List.range n with
    | nil => rfl
    | cons a as ih => simp [ih]
  | .ptr false, n, adr => by simp [put]
  | .arr m e, n, adr => by
    rw [put_arr, put_copies e (m * n) adr, range_mul]
    congr 1; funext i
    rw [put_arr, put_copies e (m * 1), Nat.mul_one]
    congr 1; funext j
    simp only [size]
    congr 1
    rw [Nat.add_mul, Nat.mul_assoc]; omega
  | .record s true b fs, n, adr => by simp [put, size]
  | .record _ false b fs, n, adr => by simp [put]

theorem put_at (t : Ty) (adr : Nat) : put t 1 adr = (put t 1 0).map (adr + ·) := by
  have := put_shift t 1 0 adr
  rw [Nat.zero_add] at this
  rw [this]
  apply List.map_congr_left; intro i _; omega

theorem putFlds_at (fs : Flds) (adr : Nat) : putFlds fs adr = (putFlds fs 0).map (adr + ·) := by
  have := putFlds_shift fs 0 adr
  rw [Nat.zero_add] at this
  rw [this]
  apply List.map_congr_left; intro i _; omega

/-! ### The offsets are those of the pointers -/

theorem mem_arr {m : Nat} {e : Ty} {o : Nat} : o ∈ put (.arr m e) 1 0 ↔ ∃ i, i < m ∧ ∃ o', o' ∈ put e 1 0 ∧ o = i * size e + o' := by
  rw [put_arr, put_copies, Nat.mul_one]
  simp only [List.mem_flatMap, List.mem_range, Nat.zero_add]
  constructor
  · rintro ⟨i, hi, h⟩
    rw [put_at] at h
    obtain ⟨o', ho', rfl⟩ := List.mem_map.mp h
    exact ⟨i, hi, o', ho', rfl⟩
  · rintro ⟨i, hi, o', ho', rfl⟩
    refine ⟨i, hi, ?_⟩
    rw [put_at]
    exact List.mem_map.mpr ⟨o', ho', rfl⟩

theorem put_record (s : Nat) (b : Ty) (fs : Flds) (adr : Nat) :
    put (.record s true b fs) 1 adr = put b 1 adr ++ putFlds fs adr := by
  simp [put]

mutual
theorem mem_put : ∀ (t : Ty) (o : Nat), o ∈ put t 1 0 ↔ PtrAt t o
  | .nil, o => by simp only [put, List.not_mem_nil, false_iff]; intro h; cases h
  | .basic _, o => by simp only [put, List.not_mem_nil, false_iff]; intro h; cases h
  | .ptr true, o => by
    simp only [put, List.range_one, List.map_cons, List.map_nil, List.mem_singleton, Nat.zero_mul, Nat.zero_add]
    constructor
    · rintro rfl; exact .ptr
    · intro h; cases h; rfl
  | .ptr false, o => by simp only [put, List.not_mem_nil, false_iff]; intro h; cases h
  | .arr m e, o => by
    rw [mem_arr]
    constructor
    · rintro ⟨i, hi, o', ho', rfl⟩; exact .elem hi ((mem_put e o').mp ho')
    · intro h
      cases h with
      | elem hi h => exact ⟨_, hi, _, (mem_put e _).mpr h, rfl⟩
  | .record s true b fs, o => by
    rw [put_record, List.mem_append, mem_put b o, mem_putFlds fs o]
    constructor
    · rintro (h | ⟨a, t, o', h1, h2, rfl⟩ | h)
      · exact .base h
      · exact .field h1 h2
      · exact .hidden h
    · intro h
      cases h with
      | base h => exact Or.inl h
      | field h1 h2 => exact Or.inr (Or.inl ⟨_, _, _, h1, h2, rfl⟩)
      | hidden h => exact Or.inr (Or.inr h)
  | .record _ false b fs, o => by simp only [put, List.not_mem_nil, false_iff]; intro h; cases h
theorem mem_putFlds : ∀ (fs : Flds) (o : Nat),
    o ∈ putFlds fs 0 ↔ (∃ a t o', HasField fs a t ∧ PtrAt t o' ∧ o = a + o') ∨ HasHidden fs o
  | .nil, o => by
    simp only [putFlds, List.not_mem_nil, false_iff]
    rintro (⟨a, t, o', h, _⟩ | h) <;> cases h
  | .fld x a t rest, o => by
    simp only [putFlds, List.mem_append, Nat.zero_add]
    rw [mem_putFlds rest o, put_at, List.mem_map]
    constructor
    · rintro (⟨o', ho', rfl⟩ | ⟨a', t', o', h1, h2, rfl⟩ | h)
      · exact Or.inl ⟨a, t, o', .here .., (mem_put t o').mp ho', rfl⟩
      · exact Or.inl ⟨a', t', o', .fld h1, h2, rfl⟩
      · exact Or.inr (.fld h)
    · rintro (⟨a', t', o', h1, h2, rfl⟩ | h)
      · cases h1 with
        | here => exact Or.inl ⟨o', (mem_put t o').mpr h2, rfl⟩
        | fld h1 => exact Or.inr (Or.inl ⟨a', t', o', h1, h2, rfl⟩)
      · cases h with
        | fld h => exact Or.inr (Or.inr h)
  | .hid a rest, o => by
    simp only [putFlds, List.mem_cons, Nat.zero_add]
    rw [mem_putFlds rest o]
    constructor
    · rintro (rfl | ⟨a', t', o', h1, h2, rfl⟩ | h)
      · exact Or.inr (.here ..)
      · exact Or.inl ⟨a', t', o', .hid h1, h2, rfl⟩
      · exact Or.inr (.hid h)
    · rintro (⟨a', t', o', h1, h2, rfl⟩ | h)
      · cases h1 with
        | hid h1 => exact Or.inr (Or.inl ⟨a', t', o', h1, h2, rfl⟩)
      · cases h with
        | here => exact Or.inl rfl
        | hid h => exact Or.inr (Or.inr h)
end

/-! ### Layout -/

open Layout (layoutTyp layoutRec) in
theorem placed_size (al : Nat) : ∀ (t : Ty) {s a : Nat}, Placed al t → layoutTyp al (erase t) = some (s, a) → s = size t
  | .nil, s, a, _, h => by
    simp only [erase, layoutTyp, Option.some.injEq, Prod.mk.injEq] at h
    rw [← h.1]; rfl
  | .basic _, s, a, _, h => by
    simp only [erase, layoutTyp, Option.some.injEq, Prod.mk.injEq] at h
    rw [← h.1]; rfl
  | .ptr _, s, a, _, h => by
    simp only [erase, layoutTyp, Option.some.injEq, Prod.mk.injEq] at h
    rw [← h.1]; rfl
  | .arr n e, s, a, hp, h => by
    simp only [Placed] at hp
    simp only [erase, layoutTyp, Option.bind_eq_bind, Option.bind_eq_some_iff, Prod.exists, Option.some.injEq,
      Prod.mk.injEq] at h
    obtain ⟨s0, a0, h0, s1, h1, rfl, rfl⟩ := h
    obtain ⟨rfl, -⟩ := Layout.ck_some h1
    rw [placed_size al e hp h0]; rfl
  | .record s' _ b fs, s, a, hp, h => by
    simp only [Placed] at hp
    obtain ⟨⟨ls, l, hl, hs, _⟩, _⟩ := hp
    simp only [erase, layoutTyp, hl, Option.bind_eq_bind, Option.bind_some, Option.some.injEq, Prod.mk.injEq] at h
    rw [← h.1, ← hs]; rfl

/-- The offsets with the size of a pointer. -/
def words (os : List Nat) : List (Nat × Nat) := os.map fun o => (o, 8)

open Layout (CSpec.shift CSpec.scalars CSpec.recScalars CSpec.fieldScalars layoutTyp layoutRec) in
mutual
theorem put_sub (al : Nat) : ∀ (t : Ty) {ss : List (Nat × Nat)}, Placed al t → CSpec.scalars al (erase t) = some ss →
    List.Sublist (words (put t 1 0)) ss
  | .nil, ss, _, h => by simp [put, words]
  | .basic _, ss, _, h => by simp [put, words]
  | .ptr true, ss, _, h => by
    simp only [erase, CSpec.scalars, Option.some.injEq] at h
    rw [← h]; simp [put, words]
  | .ptr false, ss, _, h => by simp [put, words]
  | .arr n e, ss, hp, h => by
    simp only [Placed] at hp
    simp only [erase, CSpec.scalars, Option.bind_eq_bind, Option.bind_eq_some_iff, Prod.exists, Option.some.injEq] at h
    obtain ⟨se, he, s, a, hl, rfl⟩ := h
    have ih := put_sub al e hp he
    have hs := placed_size al e hp hl
    subst hs
    rw [put_arr, put_copies, Nat.mul_one, words, List.map_flatMap]
    apply List.Sublist.flatMap_right
    intro i _
    rw [put_at]
    have := ih.map (fun x => (x.1 + i * size e, x.2))
    simp only [words, List.map_map] at this
    simp only [CSpec.shift, List.map_map]
    convert this using 1
    apply List.map_congr_left
    intro o _
    simp only [Function.comp, Prod.mk.injEq, and_true]; omega
  | .record s' false b fs, ss, hp, h => by simp [put, words]
  | .record s' true b fs, ss, hp, h => by
    simp only [Placed] at hp
    obtain ⟨⟨ls, l, hl, _, hadr⟩, hb, hpb, hpf⟩ := hp
    rw [put_record, words, List.map_append]
    cases b with
    | record sb tb bb fb =>
      have ih := fun ss => put_sub al (.record sb tb bb fb) (ss := ss) hpb
      simp only [erase, CSpec.scalars, eraseRec, CSpec.recScalars, Option.bind_eq_bind, Option.bind_eq_some_iff, Prod.exists,
        Option.some.injEq] at h ih
      simp only [eraseRec] at hl
      obtain ⟨x, hx, ls', l', hl', y, hy, rfl⟩ := h
      rw [hl] at hl'
      simp only [Option.some.injEq, Prod.mk.injEq] at hl'
      obtain ⟨rfl, rfl⟩ := hl'
      exact (ih _ hx).append (putFlds_sub al fs hpf hadr hy)
    | nil =>
      simp only [erase, CSpec.scalars, eraseRec, CSpec.recScalars, Option.bind_eq_bind, Option.bind_eq_some_iff,
        Prod.exists] at h
      simp only [eraseRec] at hl
      obtain ⟨ls', l', hl', hy⟩ := h
      rw [hl] at hl'
      simp only [Option.some.injEq, Prod.mk.injEq] at hl'
      obtain ⟨rfl, rfl⟩ := hl'
      have := putFlds_sub al fs hpf hadr hy
      simpa [put, words] using this
    | basic => rcases hb with hb | hb <;> cases hb
    | ptr => rcases hb with hb | hb <;> cases hb
    | arr => rcases hb with hb | hb <;> cases hb
theorem putFlds_sub (al : Nat) : ∀ (fs : Flds) {pfs : List Layout.PF} {ss : List (Nat × Nat)}, PlacedFlds al fs →
    adrs fs = some (pfs.map (·.adr)) → CSpec.fieldScalars al (eraseFlds fs) pfs = some ss →
    List.Sublist (words (putFlds fs 0)) ss
  | .nil, pfs, ss, _, _, h => by simp [putFlds, words]
  | .hid a rest, pfs, ss, _, h, _ => by simp [adrs] at h
  | .fld x a t rest, pfs, ss, hp, ha, h => by
    simp only [PlacedFlds] at hp
    simp only [adrs, Option.map_eq_some_iff] at ha
    obtain ⟨as, has, he⟩ := ha
    cases pfs with
    | nil => simp at he
    | cons f pfs =>
      simp only [List.map_cons, List.cons.injEq] at he
      obtain ⟨rfl, rfl⟩ := he
      simp only [eraseFlds, CSpec.fieldScalars, Option.bind_eq_bind, Option.bind_eq_some_iff, Option.some.injEq] at h
      obtain ⟨sx, hx, sy, hy, rfl⟩ := h
      simp only [putFlds, words, List.map_append, Nat.zero_add]
      refine List.Sublist.append ?_ (putFlds_sub al rest hp.2 has hy)
      have := (put_sub al t hp.1 hx).map (fun x => (x.1 + f.adr, x.2))
      rw [put_at]
      simp only [words, List.map_map] at this ⊢
      simp only [CSpec.shift]
      convert this using 1
      apply List.map_congr_left
      intro o _
      simp only [Function.comp, Prod.mk.injEq, and_true]; omega
end

/-! ### Import -/

theorem size_import (t : Ty) : size (importTy t) = size t := by
  induction t using Ty.rec (motive_2 := fun _ => True) <;> simp_all [importTy, size]

theorem putFlds_hidden (as : List Nat) (fs : Flds) (adr : Nat) :
    putFlds (hidden as fs) adr = as.map (adr + ·) ++ putFlds fs adr := by
  induction as with
  | nil => rfl
  | cons a as ih => simp [hidden, putFlds, ih]

mutual
/-- Nothing in the type is untraced, and records in it have no base type. -/
def Plain : Ty → Prop
  | .ptr tr => tr = true
  | .arr _ e => Plain e
  | .record _ tr b fs => tr = true ∧ b = .nil ∧ PlainFlds fs
  | _ => True
def PlainFlds : Flds → Prop
  | .nil => True
  | .fld _ _ t rest => Plain t ∧ PlainFlds rest
  | .hid _ rest => PlainFlds rest
end

mutual
/-- The types of fields that are not exported are plain. -/
def HiddenPlain : Ty → Prop
  | .arr _ e => HiddenPlain e
  | .record _ _ b fs => HiddenPlain b ∧ HiddenPlainFlds fs
  | _ => True
def HiddenPlainFlds : Flds → Prop
  | .nil => True
  | .fld true _ t rest => HiddenPlain t ∧ HiddenPlainFlds rest
  | .fld false _ t rest => Plain t ∧ HiddenPlainFlds rest
  | .hid _ rest => HiddenPlainFlds rest
end

mutual
theorem outHd_put : ∀ (t : Ty) (n adr : Nat), Plain t → outHd t n adr = put t n adr
  | .nil, n, adr, _ => by simp [outHd, put]
  | .basic _, n, adr, _ => by simp [outHd, put]
  | .ptr true, n, adr, _ => by simp [outHd, put]
  | .ptr false, n, adr, h => by simp [Plain] at h
  | .arr m e, n, adr, h => by rw [put_arr, outHd]; exact outHd_put e _ _ (by simpa [Plain] using h)
  | .record s true b fs, n, adr, h => by
    simp only [Plain] at h
    obtain ⟨_, rfl, h⟩ := h
    simp only [outHd, put]
    congr 1; funext i
    rw [outHdFlds_put fs _ h]; rfl
  | .record _ false b fs, n, adr, h => by simp [Plain] at h
theorem outHdFlds_put : ∀ (fs : Flds) (adr : Nat), PlainFlds fs → outHdFlds fs adr = putFlds fs adr
  | .nil, adr, _ => by simp [outHdFlds, putFlds]
  | .fld _ a t rest, adr, h => by
    simp only [PlainFlds] at h
    simp only [outHdFlds, putFlds, outHd_put t _ _ h.1, outHdFlds_put rest _ h.2]
  | .hid a rest, adr, h => by
    simp only [PlainFlds] at h
    simp only [outHdFlds, putFlds, outHdFlds_put rest _ h]
end

mutual
theorem put_import : ∀ (t : Ty) (n adr : Nat), HiddenPlain t → put (importTy t) n adr = put t n adr
  | .nil, n, adr, _ => rfl
  | .basic _, n, adr, _ => rfl
  | .ptr true, n, adr, _ => rfl
  | .ptr false, n, adr, _ => rfl
  | .arr m e, n, adr, h => by
    rw [importTy, put_arr, put_arr]; exact put_import e _ _ (by simpa [HiddenPlain] using h)
  | .record s true b fs, n, adr, h => by
    simp only [HiddenPlain] at h
    simp only [importTy, put]
    congr 1; funext i
    rw [put_import b _ _ h.1, putFlds_import fs _ h.2]
  | .record _ false b fs, n, adr, _ => by simp [importTy, put]
theorem putFlds_import : ∀ (fs : Flds) (adr : Nat), HiddenPlainFlds fs → putFlds (importFlds fs) adr = putFlds fs adr
  | .nil, adr, _ => rfl
  | .fld true a t rest, adr, h => by
    simp only [HiddenPlainFlds] at h
    simp only [importFlds, putFlds, put_import t _ _ h.1, putFlds_import rest _ h.2]
  | .fld false a t rest, adr, h => by
    simp only [HiddenPlainFlds] at h
    simp only [importFlds, putFlds, putFlds_hidden, putFlds_import rest _ h.2, outHd_put t _ _ h.1]
    rw [put_at t (adr + a), put_at t a, List.map_map]
    congr 1
    apply List.map_congr_left; intro o _; simp only [Function.comp]; omega
  | .hid a rest, adr, h => by
    simp only [HiddenPlainFlds] at h
    simp only [importFlds, putFlds, putFlds_import rest _ h]
end

theorem importFlds_hidden (as : List Nat) (fs : Flds) : importFlds (hidden as fs) = hidden as (importFlds fs) := by
  induction as with
  | nil => rfl
  | cons a as ih => simp [hidden, importFlds, ih]

mutual
theorem import_import : ∀ (t : Ty), importTy (importTy t) = importTy t
  | .nil => rfl
  | .basic _ => rfl
  | .ptr _ => rfl
  | .arr m e => by simp only [importTy, import_import e]
  | .record s tr b fs => by simp only [importTy, import_import b, importFlds_import fs]
theorem importFlds_import : ∀ (fs : Flds), importFlds (importFlds fs) = importFlds fs
  | .nil => rfl
  | .fld true a t rest => by simp only [importFlds, import_import t, importFlds_import rest]
  | .fld false a t rest => by simp only [importFlds, importFlds_hidden, importFlds_import rest]
  | .hid a rest => by simp only [importFlds, importFlds_import rest]
end

mutual
theorem outHd_shift : ∀ (t : Ty) (n adr d : Nat), outHd t n (adr + d) = (outHd t n adr).map (· + d)
  | .nil, n, adr, d => by simp [outHd]
  | .basic _, n, adr, d => by simp [outHd]
  | .ptr tr, n, adr, d => by
    simp only [outHd, List.map_map]
    apply List.map_congr_left; intro i _; simp only [Function.comp]; omega
  | .arr m e, n, adr, d => by simp only [outHd]; exact outHd_shift e _ _ _
  | .record s tr b fs, n, adr, d => by
    simp only [outHd, List.map_flatMap]
    congr 1; funext i
    rw [show adr + d + i * s = adr + i * s + d by omega, outHdFlds_shift fs]
theorem outHdFlds_shift : ∀ (fs : Flds) (adr d : Nat), outHdFlds fs (adr + d) = (outHdFlds fs adr).map (· + d)
  | .nil, adr, d => by simp [outHdFlds]
  | .fld _ a t rest, adr, d => by
    simp only [outHdFlds, List.map_append]
    rw [show adr + d + a = adr + a + d by omega, outHd_shift t, outHdFlds_shift rest]
  | .hid a rest, adr, d => by
    simp only [outHdFlds, List.map_cons]
    rw [outHdFlds_shift rest, show adr + d + a = adr + a + d by omega]
end

theorem outHdFlds_hidden (as : List Nat) (fs : Flds) (adr : Nat) :
    outHdFlds (hidden as fs) adr = as.map (adr + ·) ++ outHdFlds fs adr := by
  induction as with
  | nil => rfl
  | cons a as ih => simp [hidden, outHdFlds, ih]

mutual
theorem outHd_import : ∀ (t : Ty) (n adr : Nat), outHd (importTy t) n adr = outHd t n adr
  | .nil, n, adr => rfl
  | .basic _, n, adr => rfl
  | .ptr _, n, adr => rfl
  | .arr m e, n, adr => by simp only [importTy, outHd]; exact outHd_import e _ _
  | .record s tr b fs, n, adr => by
    simp only [importTy, outHd]
    congr 1; funext i
    rw [outHdFlds_import fs]
theorem outHdFlds_import : ∀ (fs : Flds) (adr : Nat), outHdFlds (importFlds fs) adr = outHdFlds fs adr
  | .nil, adr => rfl
  | .fld true a t rest, adr => by simp only [importFlds, outHdFlds, outHd_import t, outHdFlds_import rest]
  | .fld false a t rest, adr => by
    simp only [importFlds, outHdFlds, outHdFlds_hidden, outHdFlds_import rest]
    congr 1
    rw [show adr + a = a + adr by omega, outHd_shift t 1 a adr]
    apply List.map_congr_left; intro o _; omega
  | .hid a rest, adr => by simp only [importFlds, outHdFlds, outHdFlds_import rest]
end

/-! ### Global variables -/

theorem enumP_eq (n adr : Nat) : enumP adr n = (List.range n).map fun i => adr + i * 8 := by
  induction n generalizing adr with
  | zero => rfl
  | succ n ih =>
    rw [enumP, ih, List.range_succ_eq_map, List.map_cons, List.map_map]
    simp only [Nat.zero_mul, Nat.add_zero, List.cons.injEq, true_and]
    apply List.map_congr_left; intro i _; simp only [Function.comp]; omega

theorem enumTab_eq (adr : Nat) (os : List Nat) (z : Int) (hz : z < 0) :
    enumTab adr (os.map (fun (o : Nat) => (o : Int)) ++ [z]) = os.map (adr + ·) := by
  induction os with
  | nil => simp only [List.map_nil, List.nil_append, enumTab]; rw [if_neg (by omega)]
  | cons o os ih =>
    simp only [List.map_cons, List.cons_append, enumTab]
    rw [if_pos (by omega), ih]; simp

theorem enumR_eq (tab : List Int) (size : Nat) (n adr : Nat) :
    enumR adr tab size n = (List.range n).flatMap fun i => enumTab (adr + i * size) tab := by
  induction n generalizing adr with
  | zero => rfl
  | succ n ih =>
    rw [enumR, ih, List.range_succ_eq_map, List.flatMap_cons, List.flatMap_map]
    simp only [Nat.zero_mul, Nat.add_zero]
    congr 2; funext i
    simp only [Nat.succ_mul]
    congr 1; omega

theorem enumTab_tdesc (t : Ty) (adr : Nat) : enumTab adr (tdesc t).tail = put t 1 adr := by
  rw [put_at]
  simp only [tdesc, List.cons_append, List.tail_cons]
  exact enumTab_eq _ _ _ (by omega)

theorem flatten_put : ∀ (t : Ty) (n adr : Nat), put t n adr = put (flatten n t).2 (flatten n t).1 adr ∧
    (∀ m e, (flatten n t).2 ≠ .arr m e)
  | .nil, n, adr => ⟨rfl, by intro m e h; cases h⟩
  | .basic _, n, adr => ⟨rfl, by intro m e h; cases h⟩
  | .ptr _, n, adr => ⟨rfl, by intro m e h; cases h⟩
  | .record .., n, adr => ⟨rfl, by intro m e h; cases h⟩
  | .arr m e, n, adr => by
    have ih := flatten_put e (n * m) adr
    rw [put_arr, Nat.mul_comm]
    exact ih

theorem put_record' (s : Nat) (tr : Bool) (b : Ty) (fs : Flds) (n adr : Nat) :
    put (.record s tr b fs) n adr = enumR adr (tdesc (.record s tr b fs)).tail s n := by
  rw [enumR_eq, put_copies]
  congr 1; funext i
  rw [enumTab_tdesc]; rfl

theorem enumVar_eq (t : Ty) (adr : Nat) : enumVar t adr = put t 1 adr := by
  simp only [enumVar]
  by_cases h : nofPtrs t 1 > 0
  · rw [if_pos h]
    cases t with
    | nil => rfl
    | basic => rfl
    | ptr tr =>
      cases tr with
      | true => simp [put]
      | false => simp [nofPtrs] at h
    | record s tr b fs => rw [put_record']
    | arr n e =>
      have hf := flatten_put e n adr
      rw [put_arr, Nat.mul_one, hf.1]
      have h2 : nofPtrs (flatten n e).2 (flatten n e).1 > 0 := by
        rw [← put_length _ _ adr, ← hf.1, put_length]
        simpa [nofPtrs] using h
      rcases hfl : flatten n e with ⟨N, b⟩
      rw [hfl] at h2 hf
      simp only [hfl] at h2 hf ⊢
      cases b with
      | nil => rfl
      | basic => rfl
      | ptr tr =>
        cases tr with
        | true => simp only [enumP_eq, put]
        | false => simp [nofPtrs] at h2
      | record s tr b fs => rw [put_record']
      | arr m e' => exact absurd rfl (hf.2 m e')
  · rw [if_neg h]
    have : (put t 1 adr).length = 0 := by rw [put_length]; omega
    exact (List.length_eq_zero_iff.mp this).symm

end Verif.Ptrs
