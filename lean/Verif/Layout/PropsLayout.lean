import Verif.Layout.Lemmas

/-!
# C13: addresses of record fields
-/
namespace Verif.Layout
open CSpec

theorem fields_types (al : Nat) : ∀ (fs : Fields) {off base o b : Nat} {pfs : List PF},
    layoutFields al fs off base = some (o, b, pfs) →
    pfs.map (fun f => some (f.size, f.align)) = (Fields.types fs).map (layoutTyp al)
  | .nil, off, base, o, b, pfs, h => by
    simp only [layoutFields, Option.some.injEq, Prod.mk.injEq] at h
    obtain ⟨-, -, rfl⟩ := h; rfl
  | .cons priv tid named t rest, off, base, o, b, pfs, h => by
    simp only [layoutFields, Option.bind_eq_bind, Option.bind_eq_some_iff, Prod.exists, Option.some.injEq,
      Prod.mk.injEq] at h
    obtain ⟨size, fbase, ht, adr, hadr, off', hoff, o1, b1, pfs1, hrest, -, -, rfl⟩ := h
    simp [Fields.types, fields_types al rest hrest, ht]

theorem close_fields {imp : Bool} {off base : Nat} {fs : List PF} {l : Level}
    (h : close imp off base fs = some l) : l.fields = fs := by
  simp only [close, Option.bind_eq_bind, Option.bind_eq_some_iff, Option.some.injEq] at h
  obtain ⟨o, ho, rfl⟩ := h; rfl

/-- The placed fields are the declared ones, in order, with the sizes and alignments of their types. -/
theorem C13_declared (al : Nat) : ∀ (r : Rec) {ls : List Level} {l : Level}, layoutRec al r = some (ls, l) →
    (allFields (ls, l)).map (fun f => some (f.size, f.align)) = (recTypes r).map (layoutTyp al)
  | .root imp fs, ls, l, h => by
    simp only [layoutRec, Option.bind_eq_bind, Option.bind_eq_some_iff, Prod.exists, Option.some.injEq,
      Prod.mk.injEq] at h
    obtain ⟨o, b, pfs, hf, l', hl, rfl, rfl⟩ := h
    simp only [allFields, List.nil_append, List.flatMap_cons, List.flatMap_nil, List.append_nil, close_fields hl,
      recTypes]
    exact fields_types al fs hf
  | .ext b imp fs, ls, l, h => by
    simp only [layoutRec, Option.bind_eq_bind, Option.bind_eq_some_iff, Prod.exists, Option.some.injEq,
      Prod.mk.injEq] at h
    obtain ⟨lsb, lb, hb, o, bs, pfs, hf, l', hl, rfl, rfl⟩ := h
    have h1 := C13_declared al b hb
    have hall : allFields (lsb ++ [lb], l') = allFields (lsb, lb) ++ pfs := by
      simp [allFields, close_fields hl]
    rw [hall, List.map_append, h1, fields_types al fs hf, recTypes, List.map_append]

/-- C13.  In every record, including the fields it inherits: each field's address is a multiple of the
alignment of its type, each field lies inside the record, fields do not overlap, and the size of the record
is a multiple of the alignment of each field. -/
theorem C13_fields (al : Nat) (hal : al = 4 ∨ al = 8) (r : Rec) (wf : r.WF) (ls : List Level) (l : Level)
    (h : layoutRec al r = some (ls, l)) :
    (∀ f ∈ allFields (ls, l), f.align ∣ f.adr ∧ f.adr + f.size ≤ l.size ∧ f.align ∣ l.size) ∧
    (allFields (ls, l)).Pairwise (fun x y => x.adr + x.size ≤ y.adr) := by
  have ok := rec_ok al hal r wf h
  refine ⟨?_, ok.fields.sorted⟩
  intro f hf
  have hf := ok.fields.fld f hf
  refine ⟨hf.2.1, ?_, Nat.dvd_trans (hf.1.dvd_of_le ok.p2 hf.2.2.1) ok.dvd⟩
  have := hf.2.2.2.2.1
  simp only at this
  omega

/-- C13.  An extension keeps the addresses of the fields of its base type. -/
theorem C13_extension (al : Nat) (b : Rec) (imp : Bool) (fs : Fields) (ls : List Level) (l : Level)
    (h : layoutRec al (.ext b imp fs) = some (ls, l)) :
    ∃ lsb lb, layoutRec al b = some (lsb, lb) ∧ allFields (ls, l) = allFields (lsb, lb) ++ l.fields := by
  simp only [layoutRec, Option.bind_eq_bind, Option.bind_eq_some_iff, Prod.exists, Option.some.injEq,
    Prod.mk.injEq] at h
  obtain ⟨lsb, lb, hb, o, bs, pfs, hf, l', hl, rfl, rfl⟩ := h
  exact ⟨lsb, lb, hb, by simp [allFields]⟩

/-- What holds of the basic components in an area of `size` bytes. -/
structure ScalarsOK (al lo hi : Nat) (ss : List (Nat × Nat)) : Prop where
  mem : ∀ x ∈ ss, lo ≤ x.1 ∧ x.1 + x.2 ≤ hi
  sorted : ss.Pairwise (fun x y => x.1 + x.2 ≤ y.1)

theorem ScalarsOK.shift {al hi d : Nat} {ss : List (Nat × Nat)} (h : ScalarsOK al 0 hi ss) :
    ScalarsOK al d (hi + d) (shift d ss) := by
  refine ⟨?_, ?_⟩
  · intro x hx
    simp only [CSpec.shift, List.mem_map] at hx
    obtain ⟨y, hy, rfl⟩ := hx
    have := h.mem y hy
    simp only; omega
  · simp only [CSpec.shift, List.pairwise_map]
    exact h.sorted.imp (fun h => by omega)

theorem ScalarsOK.append {al a b c d : Nat} {xs ys : List (Nat × Nat)} (h1 : ScalarsOK al a b xs)
    (h2 : ScalarsOK al c d ys) (hab : b ≤ c) (hac : a ≤ c) (hbd : b ≤ d) : ScalarsOK al a d (xs ++ ys) := by
  refine ⟨?_, ?_⟩
  · intro x hx
    rcases List.mem_append.1 hx with hx | hx
    · have := h1.mem x hx; omega
    · have := h2.mem x hx; omega
  · rw [List.pairwise_append]
    refine ⟨h1.sorted, h2.sorted, ?_⟩
    intro x hx y hy
    have := h1.mem x hx
    have := h2.mem y hy
    omega

/-- Alignment of the components relative to the alignment `a` of their container. -/
def Aligned (al a : Nat) (ss : List (Nat × Nat)) : Prop := ∀ x ∈ ss, P2 x.2 ∧ min x.2 al ≤ a ∧ min x.2 al ∣ x.1

theorem Aligned.shift {al a d : Nat} (hal : al = 4 ∨ al = 8) (ha : P2 a) {ss : List (Nat × Nat)}
    (h : Aligned al a ss) (hd : a ∣ d) : Aligned al a (shift d ss) := by
  intro x hx
  simp only [CSpec.shift, List.mem_map] at hx
  obtain ⟨y, hy, rfl⟩ := hx
  obtain ⟨p, q, r⟩ := h y hy
  exact ⟨p, q, Nat.dvd_add r (Nat.dvd_trans ((P2_min hal p).dvd_of_le ha q) hd)⟩

theorem range_scalars (al s : Nat) (ss : List (Nat × Nat)) (h : ScalarsOK al 0 s ss) (n : Nat) :
    ScalarsOK al 0 (n * s) ((List.range n).flatMap fun i => shift (i * s) ss) := by
  induction n with
  | zero => exact ⟨by simp, by simp⟩
  | succ n ih =>
    rw [List.range_succ, List.flatMap_append]
    have := h.shift (d := n * s)
    have e : s + n * s = (n + 1) * s := by rw [Nat.add_mul]; omega
    rw [e] at this
    simp only [List.flatMap_cons, List.flatMap_nil, List.append_nil]
    exact ih.append this (Nat.le_refl _) (Nat.zero_le _) (by rw [← e]; omega)

mutual
theorem typ_scalars (al : Nat) (hal : al = 4 ∨ al = 8) : ∀ (t : Typ) {s a : Nat}, t.WF →
    layoutTyp al t = some (s, a) → ∃ ss, scalars al t = some ss ∧ ScalarsOK al 0 s ss ∧ Aligned al a ss
  | .basic size, s, a, wf, h => by
    simp only [layoutTyp, Option.some.injEq, Prod.mk.injEq] at h
    obtain ⟨rfl, rfl⟩ := h
    have wf : P2 size := wf
    refine ⟨_, rfl, ⟨by simp, by simp⟩, ?_⟩
    intro x hx
    simp only [List.mem_singleton] at hx
    subst hx
    rw [sizeAlignment_eq hal wf]
    exact ⟨wf, Nat.le_refl _, Nat.dvd_zero _⟩
  | .array n e, s, a, wf, h => by
    simp only [layoutTyp, Option.bind_eq_bind, Option.bind_eq_some_iff, Prod.exists, Option.some.injEq,
      Prod.mk.injEq] at h
    obtain ⟨s0, a0, h0, s1, h1, rfl, rfl⟩ := h
    obtain ⟨rfl, -⟩ := ck_some h1
    obtain ⟨ss, e1, ok, alg⟩ := typ_scalars al hal e wf.2 h0
    have tk := typ_ok al hal e wf.2 h0
    refine ⟨_, by rw [scalars, e1, h0]; rfl, range_scalars al s0 ss ok n, ?_⟩
    intro x hx
    rw [List.mem_flatMap] at hx
    obtain ⟨i, -, hx⟩ := hx
    exact alg.shift hal tk.1 (Dvd.dvd.mul_left tk.2.1 i) x hx
  | .record r, s, a, wf, h => by
    simp only [layoutTyp, Option.bind_eq_bind, Option.bind_eq_some_iff, Prod.exists, Option.some.injEq,
      Prod.mk.injEq] at h
    obtain ⟨ls, l, h0, rfl, rfl⟩ := h
    obtain ⟨ss, e1, ok, alg⟩ := rec_scalars al hal r wf h0
    refine ⟨ss, by rw [scalars]; exact e1, ⟨?_, ok.sorted⟩, alg⟩
    intro x hx
    have := ok.mem x hx
    omega
theorem rec_scalars (al : Nat) (hal : al = 4 ∨ al = 8) : ∀ (r : Rec) {ls : List Level} {l : Level}, r.WF →
    layoutRec al r = some (ls, l) →
    ∃ ss, recScalars al r = some ss ∧ ScalarsOK al 0 (l.size - l.gap) ss ∧ Aligned al l.align ss
  | .root imp fs, ls, l, wf, h => by
    have h' := h
    simp only [layoutRec, Option.bind_eq_bind, Option.bind_eq_some_iff, Prod.exists, Option.some.injEq,
      Prod.mk.injEq] at h
    obtain ⟨o, b, pfs, hf, l', hl, rfl, rfl⟩ := h
    obtain ⟨pb, _, lb, ok⟩ := fields_ok al hal fs wf (Or.inl rfl) (by omega) hf
    obtain ⟨_, e2, e3, e4, e5, e6, e7, e8⟩ := close_ok hl pb
    obtain ⟨ss, e1, ok, alg⟩ := fields_scalars al hal fs wf (Or.inl rfl) (by omega) hf
    refine ⟨ss, ?_, by rwa [e6], by rwa [e3]⟩
    rw [recScalars, h']
    simp only [Option.bind_eq_bind, Option.bind_some]
    rw [e2, e1]
  | .ext b imp fs, ls, l, wf, h => by
    have h' := h
    simp only [layoutRec, Option.bind_eq_bind, Option.bind_eq_some_iff, Prod.exists, Option.some.injEq,
      Prod.mk.injEq] at h
    obtain ⟨lsb, lb, hb, o, bs, pfs, hf, l', hl, rfl, rfl⟩ := h
    have hbo := rec_ok al hal b wf.1 hb
    obtain ⟨pb, hle, hlal, fok⟩ := fields_ok al hal fs wf.2 hbo.p2 hbo.leal hf
    obtain ⟨_, e2, e3, e4, e5, e6, e7, e8⟩ := close_ok hl pb
    obtain ⟨s1, e1, ok1, alg1⟩ := rec_scalars al hal b wf.1 hb
    obtain ⟨s2, e2', ok2, alg2⟩ := fields_scalars al hal fs wf.2 hbo.p2 hbo.leal hf
    refine ⟨s1 ++ s2, ?_, ?_, ?_⟩
    · rw [recScalars, e1]
      simp only [Option.bind_eq_bind, Option.bind_some]
      rw [h']
      simp only [Option.bind_some]
      rw [e2, e2']
      rfl
    · rw [e6]
      exact ok1.append ok2 (Nat.le_refl _) (Nat.zero_le _) fok.le
    · rw [e3]
      intro x hx
      rcases List.mem_append.1 hx with hx | hx
      · have := alg1 x hx
        exact ⟨this.1, Nat.le_trans this.2.1 hle, this.2.2⟩
      · exact alg2 x hx
theorem fields_scalars (al : Nat) (hal : al = 4 ∨ al = 8) : ∀ (fs : Fields) {off base o b : Nat} {pfs : List PF},
    fs.WF → P2 base → base ≤ al → layoutFields al fs off base = some (o, b, pfs) →
    ∃ ss, fieldScalars al fs pfs = some ss ∧ ScalarsOK al off o ss ∧ Aligned al b ss
  | .nil, off, base, o, b, pfs, _, hb, hle, h => by
    simp only [layoutFields, Option.some.injEq, Prod.mk.injEq] at h
    obtain ⟨rfl, rfl, rfl⟩ := h
    exact ⟨[], rfl, ⟨by simp, by simp⟩, by intro x hx; simp at hx⟩
  | .cons priv tid named t rest, off, base, o, b, pfs, wf, hb, hle, h => by
    have hall := fields_ok al hal (.cons priv tid named t rest) wf hb hle h
    simp only [layoutFields, Option.bind_eq_bind, Option.bind_eq_some_iff, Prod.exists, Option.some.injEq,
      Prod.mk.injEq] at h
    obtain ⟨size, fbase, ht, adr, hadr, off', hoff, o1, b1, pfs1, hrest, rfl, rfl, rfl⟩ := h
    obtain ⟨pf, dv, ps, lal⟩ := typ_ok al hal t wf.1 ht
    obtain ⟨rfl, -⟩ := ck_some hadr
    obtain ⟨rfl, -⟩ := ck_some hoff
    have hpb : P2 (if fbase > base then fbase else base) := by split <;> assumption
    have hlb : (if fbase > base then fbase else base) ≤ al := by split <;> assumption
    have rok := fields_ok al hal rest wf.2 hpb hlb hrest
    obtain ⟨s1, e1, ok1, alg1⟩ := typ_scalars al hal t wf.1 ht
    obtain ⟨s2, e2, ok2, alg2⟩ := fields_scalars al hal rest wf.2 hpb hlb hrest
    have hmax : fbase ≤ b1 := by have := rok.2.1; split at this <;> omega
    have hal' := align_spec pf off
    refine ⟨_, by rw [fieldScalars, e1, e2]; rfl, ?_, ?_⟩
    · have sh := ok1.shift (d := align off fbase)
      have hle2 := rok.2.2.2.le
      have := sh.append ok2 (by omega) (by omega) (by omega)
      refine ⟨?_, this.sorted⟩
      intro x hx
      have := this.mem x hx
      omega
    · intro x hx
      rcases List.mem_append.1 hx with hx | hx
      · have := alg1.shift hal pf hal'.1 x hx
        exact ⟨this.1, Nat.le_trans this.2.1 hmax, this.2.2⟩
      · exact alg2 x hx
end

/-- C13, in terms of memory: in every type, nested to any depth, each basic component of `s` bytes lies at a
multiple of `min s al`, inside the type, and no two components overlap; this also holds of the elements of
an array, since the alignment of a type divides its size. -/
theorem C13_scalars (al : Nat) (hal : al = 4 ∨ al = 8) (t : Typ) (wf : t.WF) (s a : Nat)
    (h : layoutTyp al t = some (s, a)) :
    ∃ ss, scalars al t = some ss ∧ (∀ x ∈ ss, min x.2 al ∣ x.1 ∧ x.1 + x.2 ≤ s ∧ min x.2 al ∣ a) ∧
      ss.Pairwise (fun x y => x.1 + x.2 ≤ y.1) ∧ a ∣ s := by
  obtain ⟨ss, e, ok, alg⟩ := typ_scalars al hal t wf h
  have tk := typ_ok al hal t wf h
  refine ⟨ss, e, ?_, ok.sorted, tk.2.1⟩
  intro x hx
  have h1 := alg x hx
  have h2 := ok.mem x hx
  exact ⟨h1.2.2, h2.2, (P2_min hal h1.1).dvd_of_le tk.1 h1.2.1⟩

/-! ### Concrete cases -/

/-- `RECORD a: CHAR; b: HUGEINT; c: INTEGER END`. -/
def exRec : Rec := .root false (.cons false 1 true (.basic 1) (.cons true 2 true (.basic 8)
  (.cons false 3 true (.basic 4) .nil)))

/-- An extension with an array of records. -/
def exExt : Rec := .ext exRec false (.cons false 1 true (.basic 1)
  (.cons false 4 false (.array 3 (.record exRec)) .nil))

example : exExt.WF := by simp [exExt, exRec, Rec.WF, Fields.WF, Typ.WF, P2]

example : layoutTyp 8 (.record exRec) = some (24, 8) ∧ layoutTyp 8 (.record exExt) = some (96, 8) ∧
    layoutTyp 4 (.record exRec) = some (16, 4) := by decide

/-- The fields of an extension may lie in the padding of the base type: copying a base record of 24 bytes
over an extended one would overwrite the field at 20. -/
theorem C13_dense_packing : layoutTyp 8 (.record exRec) = some (24, 8) ∧
    (layoutRec 8 exExt).map (fun p => (allFields p).map PF.adr) = some [0, 8, 16, 20, 24] := by decide

/-- The size of an array that exceeds the compiler's LONGINT overflows. -/
theorem C13_overflow : layoutTyp 8 (.array (2 ^ 28) (.basic 8)) = none := by decide

end Verif.Layout
