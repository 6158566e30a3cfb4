import Verif.Common
import Verif.Layout.Spec

/-!
# Lemmas about `TypSize`
-/
namespace Verif.Layout
open CSpec

/-- The alignments that occur. -/
def P2 (a : Nat) : Prop := a = 1 ∨ a = 2 ∨ a = 4 ∨ a = 8

mutual
/-- Well-formed types: basic types have 1, 2, 4 or 8 bytes, and arrays at least one element (src/compiler/OPP.Mod
157 reports other lengths). -/
def Typ.WF : Typ → Prop
  | .basic s => P2 s
  | .array n e => 1 ≤ n ∧ e.WF
  | .record r => r.WF
def Rec.WF : Rec → Prop
  | .root _ fs => fs.WF
  | .ext b _ fs => b.WF ∧ fs.WF
def Fields.WF : Fields → Prop
  | .nil => True
  | .cons _ _ _ t rest => t.WF ∧ rest.WF
end

theorem P2.pos {a : Nat} (h : P2 a) : 1 ≤ a := by unfold P2 at h; omega

theorem align_spec {b : Nat} (h : P2 b) (o : Nat) :
    b ∣ align o b ∧ o ≤ align o b ∧ align o b < o + b := by
  rcases h with rfl | rfl | rfl | rfl <;> simp only [align] <;> omega

theorem align_eq_cAlign {b : Nat} (h : P2 b) (o : Nat) : align o b = cAlign o b := by
  rcases h with rfl | rfl | rfl | rfl <;> simp only [align, cAlign] <;> omega

/-- `align` gives the least multiple. -/
theorem align_unique {b : Nat} (h : P2 b) {o m : Nat} (hd : b ∣ m) (h1 : o ≤ m) (h2 : m < o + b) :
    align o b = m := by
  rcases h with rfl | rfl | rfl | rfl <;> simp only [align] <;> omega

theorem align_of_dvd {b : Nat} (h : P2 b) {o : Nat} (hd : b ∣ o) : align o b = o :=
  align_unique h hd (Nat.le_refl _) (by have := h.pos; omega)

theorem P2.dvd_of_le {a b : Nat} (ha : P2 a) (hb : P2 b) (h : a ≤ b) : a ∣ b := by
  rcases ha with rfl | rfl | rfl | rfl <;> rcases hb with rfl | rfl | rfl | rfl <;> omega

theorem sizeAlignment_eq {al s : Nat} (hal : al = 4 ∨ al = 8) (hs : P2 s) : sizeAlignment al s = min s al := by
  rcases hal with rfl | rfl <;> rcases hs with rfl | rfl | rfl | rfl <;> decide

theorem P2_min {al s : Nat} (hal : al = 4 ∨ al = 8) (hs : P2 s) : P2 (min s al) := by
  rcases hal with rfl | rfl <;> rcases hs with rfl | rfl | rfl | rfl <;> simp [P2]

theorem ck_some {n m : Nat} (h : ck n = some m) : m = n ∧ n < 2 ^ 31 := by
  unfold ck at h
  split at h
  · simp only [Option.some.injEq] at h; exact ⟨h.symm, by assumption⟩
  · simp at h

/-- What holds of placed fields between two offsets. -/
structure FieldsOK (al off o b : Nat) (pfs : List PF) : Prop where
  le : off ≤ o
  fld : ∀ f ∈ pfs, P2 f.align ∧ f.align ∣ f.adr ∧ f.align ≤ b ∧ off ≤ f.adr ∧ f.adr + f.size ≤ o ∧ 0 < f.size ∧
    f.align ∣ f.size ∧ f.align ≤ al
  sorted : pfs.Pairwise (fun x y => x.adr + x.size ≤ y.adr)

def allFields (p : List Level × Level) : List PF := (p.1 ++ [p.2]).flatMap Level.fields

/-- What holds of a record. -/
structure RecOK (al : Nat) (p : List Level × Level) : Prop where
  p2 : P2 p.2.align
  leal : p.2.align ≤ al
  dvd : p.2.align ∣ p.2.size
  pos : 0 < p.2.size
  gap : p.2.gap ≤ p.2.size
  sz : p.2.size = align (if p.2.size - p.2.gap = 0 then 1 else p.2.size - p.2.gap) p.2.align
  fields : FieldsOK al 0 (p.2.size - p.2.gap) p.2.align (allFields p)

theorem close_ok {imp : Bool} {off base : Nat} {fs : List PF} {l : Level} (h : close imp off base fs = some l)
    (hb : P2 base) :
    l.imported = imp ∧ l.fields = fs ∧ l.align = base ∧ l.align ∣ l.size ∧ 0 < l.size ∧ l.size - l.gap = off ∧
      l.gap ≤ l.size ∧ l.size = align (if off = 0 then 1 else off) base := by
  simp only [close, Option.bind_eq_bind, Option.bind_eq_some_iff, Option.some.injEq] at h
  obtain ⟨o, ho, rfl⟩ := h
  obtain ⟨rfl, -⟩ := ck_some ho
  have := align_spec hb (if off = 0 then 1 else off)
  refine ⟨rfl, rfl, rfl, this.1, ?_, ?_, Nat.sub_le _ _, rfl⟩ <;> split at this <;> simp_all <;> omega

mutual
theorem typ_ok (al : Nat) (hal : al = 4 ∨ al = 8) : ∀ (t : Typ) {s a : Nat}, t.WF →
    layoutTyp al t = some (s, a) → P2 a ∧ a ∣ s ∧ 0 < s ∧ a ≤ al
  | .basic size, s, a, wf, h => by
    simp only [layoutTyp, Option.some.injEq, Prod.mk.injEq] at h
    obtain ⟨rfl, rfl⟩ := h
    have wf : P2 size := wf
    rw [sizeAlignment_eq hal wf]
    refine ⟨P2_min hal wf, ?_, wf.pos, by omega⟩
    rcases hal with rfl | rfl <;> rcases wf with rfl | rfl | rfl | rfl <;> decide
  | .array n e, s, a, wf, h => by
    simp only [layoutTyp, Option.bind_eq_bind, Option.bind_eq_some_iff, Prod.exists, Option.some.injEq,
      Prod.mk.injEq] at h
    obtain ⟨s0, a0, h0, s1, h1, rfl, rfl⟩ := h
    obtain ⟨p, d, q, r⟩ := typ_ok al hal e wf.2 h0
    obtain ⟨rfl, -⟩ := ck_some h1
    exact ⟨p, Dvd.dvd.mul_left d n, Nat.mul_pos wf.1 q, r⟩
  | .record r, s, a, wf, h => by
    simp only [layoutTyp, Option.bind_eq_bind, Option.bind_eq_some_iff, Prod.exists, Option.some.injEq,
      Prod.mk.injEq] at h
    obtain ⟨ls, l, h0, rfl, rfl⟩ := h
    have := rec_ok al hal r wf h0
    exact ⟨this.p2, this.dvd, this.pos, this.leal⟩
theorem rec_ok (al : Nat) (hal : al = 4 ∨ al = 8) : ∀ (r : Rec) {p : List Level × Level}, r.WF →
    layoutRec al r = some p → RecOK al p
  | .root imp fs, p, wf, h => by
    simp only [layoutRec, Option.bind_eq_bind, Option.bind_eq_some_iff, Prod.exists, Option.some.injEq] at h
    obtain ⟨o, b, pfs, hf, l, hl, rfl⟩ := h
    obtain ⟨pb, _, lb, ok⟩ := fields_ok al hal fs wf (Or.inl rfl) (by omega) hf
    obtain ⟨_, e2, e3, e4, e5, e6, e7, e8⟩ := close_ok hl pb
    refine ⟨by rwa [e3], by rwa [e3], e4, e5, e7, ?_, ?_⟩
    · show l.size = _; simp only [e6, e3]; exact e8
    · simp only [allFields, List.nil_append, List.flatMap_cons, List.flatMap_nil, List.append_nil]
      rw [e6, e3, e2]; exact ok
  | .ext b imp fs, p, wf, h => by
    simp only [layoutRec, Option.bind_eq_bind, Option.bind_eq_some_iff, Prod.exists, Option.some.injEq] at h
    obtain ⟨ls, lb, hb, o, bs, pfs, hf, l, hl, rfl⟩ := h
    have hbo := rec_ok al hal b wf.1 hb
    obtain ⟨pb, hle, hlal, ok⟩ := fields_ok al hal fs wf.2 hbo.p2 hbo.leal hf
    obtain ⟨_, e2, e3, e4, e5, e6, e7, e8⟩ := close_ok hl pb
    refine ⟨by rwa [e3], by rwa [e3], e4, e5, e7, ?_, ?_⟩
    · show l.size = _; simp only [e6, e3]; exact e8
    · have hall : allFields (ls ++ [lb], l) = allFields (ls, lb) ++ pfs := by
        simp [allFields, e2]
      rw [hall, e6, e3]
      have f1 := hbo.fields
      refine ⟨Nat.zero_le _, ?_, ?_⟩
      · intro f hf
        rcases List.mem_append.1 hf with hf | hf
        · have h1 := f1.fld f hf
          have h2 := ok.le
          simp only at h1 h2 hle
          exact ⟨h1.1, h1.2.1, by omega, Nat.zero_le _, by omega, h1.2.2.2.2.2⟩
        · have := ok.fld f hf
          exact ⟨this.1, this.2.1, this.2.2.1, Nat.zero_le _, this.2.2.2.2⟩
      · rw [List.pairwise_append]
        refine ⟨f1.sorted, ok.sorted, ?_⟩
        intro x hx y hy
        have h1 := f1.fld x hx
        have h2 := ok.fld y hy
        simp only at h1 h2
        omega
theorem fields_ok (al : Nat) (hal : al = 4 ∨ al = 8) : ∀ (fs : Fields) {off base o b : Nat} {pfs : List PF},
    fs.WF → P2 base → base ≤ al → layoutFields al fs off base = some (o, b, pfs) →
    P2 b ∧ base ≤ b ∧ b ≤ al ∧ FieldsOK al off o b pfs
  | .nil, off, base, o, b, pfs, _, hb, hle, h => by
    simp only [layoutFields, Option.some.injEq, Prod.mk.injEq] at h
    obtain ⟨rfl, rfl, rfl⟩ := h
    exact ⟨hb, Nat.le_refl _, hle, ⟨Nat.le_refl _, by simp, by simp⟩⟩
  | .cons priv tid named t rest, off, base, o, b, pfs, wf, hb, hle, h => by
    simp only [layoutFields, Option.bind_eq_bind, Option.bind_eq_some_iff, Prod.exists, Option.some.injEq,
      Prod.mk.injEq] at h
    obtain ⟨size, fbase, ht, adr, hadr, off', hoff, o1, b1, pfs1, hrest, rfl, rfl, rfl⟩ := h
    obtain ⟨pf, dv, ps, lal⟩ := typ_ok al hal t wf.1 ht
    obtain ⟨rfl, -⟩ := ck_some hadr
    obtain ⟨rfl, -⟩ := ck_some hoff
    have hpb : P2 (if fbase > base then fbase else base) := by split <;> assumption
    have hlb : (if fbase > base then fbase else base) ≤ al := by split <;> assumption
    obtain ⟨q1, q2, q3, ok⟩ := fields_ok al hal rest wf.2 hpb hlb hrest
    have hal' := align_spec pf off
    have hle2 := ok.le
    have hmax : fbase ≤ b1 ∧ base ≤ b1 := by split at q2 <;> omega
    refine ⟨q1, hmax.2, q3, ⟨by omega, ?_, ?_⟩⟩
    · intro f hf
      rcases List.mem_cons.1 hf with rfl | hf
      · exact ⟨pf, hal'.1, hmax.1, hal'.2.1, hle2, ps, dv, lal⟩
      · have := ok.fld f hf
        exact ⟨this.1, this.2.1, this.2.2.1, by omega, this.2.2.2.2⟩
    · rw [List.pairwise_cons]
      refine ⟨?_, ok.sorted⟩
      intro y hy
      have := ok.fld y hy
      simp only
      omega
end

end Verif.Layout
