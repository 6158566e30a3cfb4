import Verif.Layout.PropsLayout

/-!
# Lemmas about the C struct emitted for a record
-/
namespace Verif.Layout
open CSpec

theorem cOffsets_append (xs ys : List (Nat × Nat)) (off : Nat) :
    cOffsets (xs ++ ys) off =
      ((cOffsets xs off).1 ++ (cOffsets ys (cOffsets xs off).2).1, (cOffsets ys (cOffsets xs off).2).2) := by
  induction xs generalizing off with
  | nil => rfl
  | cons x xs ih => obtain ⟨s, a⟩ := x; simp [cOffsets, ih]

theorem cOffsets_length (xs : List (Nat × Nat)) (off : Nat) : (cOffsets xs off).1.length = xs.length := by
  induction xs generalizing off with
  | nil => rfl
  | cons x xs ih => obtain ⟨s, a⟩ := x; simp [cOffsets, ih]

def maxA (xs : List (Nat × Nat)) (m : Nat) : Nat := xs.foldl (fun m x => max m x.2) m

theorem maxA_append (xs ys : List (Nat × Nat)) (m : Nat) : maxA (xs ++ ys) m = maxA ys (maxA xs m) := by
  simp [maxA]

/-- The members written by `FillGap` fill the gap exactly. -/
theorem fillGap_ok {A gap off al cur : Nat} (cs : List (Nat × Nat)) (hal : P2 al) (hA : al ≤ A)
    (hcur : 1 ≤ cur) (hgap : 0 < gap) :
    (cOffsets ((fillGap gap off al cur).1.map (cMember A cs)) off).2 = off + gap ∧
    maxA ((fillGap gap off al cur).1.map (cMember A cs)) cur = (fillGap gap off al cur).2 ∧
    cur ≤ (fillGap gap off al cur).2 ∧ (fillGap gap off al cur).2 ≤ max cur al ∧
    (∀ k, Member.fld k ∉ (fillGap gap off al cur).1) := by
  have hsp := align_spec hal off
  by_cases h : cur < al ∧ gap ≥ (align off al - off) + al
  · have hmin : min al A = al := by omega
    have h3 : al = 2 ∨ al = 4 ∨ al = 8 := by unfold P2 at hal; omega
    simp only [fillGap, if_pos h, if_pos h3]
    by_cases hg : gap - ((align off al - off) + al) > 0
    · simp only [if_pos hg, List.cons_append, List.nil_append, List.map_cons, List.map_nil, cMember, cOffsets, maxA,
        List.foldl_cons, List.foldl_nil, hmin, ← align_eq_cAlign hal]
      refine ⟨?_, ?_, ?_, ?_, by simp⟩
      · simp only [cAlign, Nat.add_sub_cancel, Nat.div_one, Nat.mul_one]; omega
      · omega
      · omega
      · omega
    · simp only [if_neg hg, List.append_nil, List.map_cons, List.map_nil, cMember, cOffsets, maxA,
        List.foldl_cons, List.foldl_nil, hmin, ← align_eq_cAlign hal]
      refine ⟨?_, ?_, ?_, ?_, by simp⟩ <;> omega
  · simp only [fillGap, if_neg h, if_pos hgap, List.map_cons, List.map_nil, cMember, cOffsets, maxA, List.foldl_cons, List.foldl_nil,
      cAlign, Nat.add_sub_cancel, Nat.div_one, Nat.mul_one]
    refine ⟨trivial, by omega, Nat.le_refl _, by omega, by simp⟩

/-- The fields among members, with their offsets. -/
def offs (A : Nat) (cs : List (Nat × Nat)) (ms : List Member) (off : Nat) : List (Nat × Nat) :=
  (ms.zip (cOffsets (ms.map (cMember A cs)) off).1).filterMap fun x =>
    match x.1 with
    | .fld k => some (k, x.2)
    | _ => none

theorem offs_append (A : Nat) (cs : List (Nat × Nat)) (xs ys : List Member) (off : Nat) :
    offs A cs (xs ++ ys) off =
      offs A cs xs off ++ offs A cs ys (cOffsets (xs.map (cMember A cs)) off).2 := by
  simp only [offs, List.map_append, cOffsets_append]
  rw [List.zip_append (by simp [cOffsets_length]), List.filterMap_append]

theorem offs_nofld {A : Nat} {cs : List (Nat × Nat)} {xs : List Member} (h : ∀ k, Member.fld k ∉ xs) (off : Nat) :
    offs A cs xs off = [] := by
  simp only [offs, List.filterMap_eq_nil_iff]
  intro x hx
  have hx := (List.of_mem_zip hx).1
  obtain ⟨m, o⟩ := x
  cases m with
  | fld k => exact absurd hx (h k)
  | int _ => rfl
  | chars _ => rfl

theorem offs_fld (A : Nat) (cs : List (Nat × Nat)) (k : Nat) (ys : List Member) (off : Nat) :
    offs A cs (.fld k :: ys) off =
      (k, cAlign off (cs.getD k (0, 1)).2) ::
        offs A cs ys (cAlign off (cs.getD k (0, 1)).2 + (cs.getD k (0, 1)).1) := by
  simp [offs, cOffsets, cMember]

/-- The result of the loop over the fields of one level. -/
structure LoopOK (A : Nat) (cs : List (Nat × Nat)) (file : File) (imp : Bool) (L hi k : Nat) (fs : List PF)
    (st : FS) (r : List Member × FS) : Prop where
  fin : (cOffsets (r.1.map (cMember A cs)) st.off).2 = r.2.off
  al : maxA (r.1.map (cMember A cs)) st.curAlign = r.2.curAlign
  lo : st.off ≤ r.2.off
  hi : r.2.off ≤ hi
  cur : st.curAlign ≤ r.2.curAlign
  curL : r.2.curAlign ≤ L
  at_ : ∀ x ∈ offs A cs r.1 st.off, ∃ i f, fs[i]? = some f ∧ x = (k + i, f.adr)
  all : ∀ i f, fs[i]? = some f → skipped file imp f = false →
    (k + i, f.adr) ∈ offs A cs r.1 st.off ∧ f.align ≤ r.2.curAlign
  once : ((offs A cs r.1 st.off).map Prod.fst).Sublist (List.range' k fs.length)

theorem getElem?_succ_cons {α : Type} {x : α} {xs : List α} {i : Nat} : (x :: xs)[i + 1]? = xs[i]? := rfl

theorem fieldLoop_ok {A : Nat} (cs : List (Nat × Nat)) (file : File) (imp : Bool) {al L hi : Nat} (hal : P2 al)
    (hL : al ≤ L) (hA : L ≤ A) :
    ∀ (fs : List PF) (k : Nat) (prev : Option Nat) (st : FS),
    (∀ f ∈ fs, P2 f.align ∧ f.align ∣ f.adr ∧ st.off ≤ f.adr ∧ f.adr + f.size ≤ hi ∧ f.align ≤ L) →
    fs.Pairwise (fun x y => x.adr + x.size ≤ y.adr) →
    (∀ i f, fs[i]? = some f → skipped file imp f = false → cs.getD (k + i) (0, 1) = (f.size, f.align)) →
    (∀ i j f g, fs[i]? = some f → fs[j]? = some g → f.tid = g.tid →
      (f.size, f.align) = (g.size, g.align) ∧ cs.getD (k + i) (0, 1) = cs.getD (k + j) (0, 1)) →
    (∀ tid, prev = some tid → ∀ i f, fs[i]? = some f → f.tid = tid →
      cs.getD (k + i) (0, 1) = (f.size, f.align) ∧ f.align ≤ st.curAlign) →
    1 ≤ st.curAlign → st.curAlign ≤ L → st.off ≤ hi →
    LoopOK A cs file imp L hi k fs st (fieldLoop file imp al fs k prev st)
  | [], k, prev, st, _, _, _, _, _, h1, hcL, hhi => by
    refine ⟨rfl, rfl, Nat.le_refl _, hhi, Nat.le_refl _, hcL, ?_, ?_, ?_⟩
    · simp [fieldLoop, offs]
    · simp
    · simp [fieldLoop, offs]
  | f :: fs, k, prev, st, hp, hs, hc, ht, hprev, h1, hcL, hhi => by
    have hpf := hp f (by simp)
    have hsort := List.pairwise_cons.1 hs
    have tail_p : ∀ g ∈ fs, P2 g.align ∧ g.align ∣ g.adr ∧ f.adr + f.size ≤ g.adr ∧ g.adr + g.size ≤ hi ∧
        g.align ≤ L := by
      intro g hg
      have := hp g (by simp [hg])
      exact ⟨this.1, this.2.1, hsort.1 g hg, this.2.2.2⟩
    have tail_c : ∀ i g, fs[i]? = some g → skipped file imp g = false →
        cs.getD (k + 1 + i) (0, 1) = (g.size, g.align) := by
      intro i g hg hsk
      have := hc (i + 1) g hg hsk
      rwa [show k + (i + 1) = k + 1 + i by omega] at this
    have tail_t : ∀ i j g g', fs[i]? = some g → fs[j]? = some g' → g.tid = g'.tid →
        (g.size, g.align) = (g'.size, g'.align) ∧
          cs.getD (k + 1 + i) (0, 1) = cs.getD (k + 1 + j) (0, 1) := by
      intro i j g g' hg hg' e
      have := ht (i + 1) (j + 1) g g' hg hg' e
      rwa [show k + (i + 1) = k + 1 + i by omega, show k + (j + 1) = k + 1 + j by omega] at this
    rw [fieldLoop]
    split
    · -- declared together with the preceding field
      rename_i hj
      obtain ⟨hpv, hadr, -⟩ := hj
      have hcf := hprev f.tid hpv 0 f rfl rfl
      rw [Nat.add_zero] at hcf
      have hal' : cAlign st.off f.align = f.adr := by
        rw [← align_eq_cAlign hpf.1, ← hadr]; exact align_of_dvd hpf.1 hpf.2.1
      have ih := fieldLoop_ok cs file imp hal hL hA fs (k + 1) prev { st with off := f.adr + f.size } tail_p hsort.2
        tail_c tail_t
        (by
          intro tid htid i g hg e
          have := hprev tid htid (i + 1) g hg e
          rwa [show k + (i + 1) = k + 1 + i by omega] at this)
        h1 hcL hpf.2.2.2.1
      set r := fieldLoop file imp al fs (k + 1) prev { st with off := f.adr + f.size } with hr
      have hofs : offs A cs (.fld k :: r.1) st.off = (k, f.adr) :: offs A cs r.1 (f.adr + f.size) := by
        rw [offs_fld, hcf.1, hal']
      refine ⟨?_, ?_, ?_, ih.hi, ih.cur, ih.curL, ?_, ?_, ?_⟩
      · simp only [List.map_cons, cMember, cOffsets, hcf.1, hal']; exact ih.fin
      · simp only [List.map_cons, cMember, hcf.1, maxA, List.foldl_cons]
        rw [Nat.max_eq_left hcf.2]; exact ih.al
      · have := ih.lo; simp only at this; show st.off ≤ r.2.off; omega
      · intro x hx
        rw [hofs] at hx
        rcases List.mem_cons.1 hx with rfl | hx
        · exact ⟨0, f, rfl, rfl⟩
        · obtain ⟨i, g, hg, rfl⟩ := ih.at_ x hx
          exact ⟨i + 1, g, hg, by rw [show k + (i + 1) = k + 1 + i by omega]⟩
      · intro i g hg hsk
        rw [hofs]
        cases i with
        | zero =>
          simp only [List.getElem?_cons_zero, Option.some.injEq] at hg
          subst hg
          exact ⟨by simp, Nat.le_trans hcf.2 ih.cur⟩
        | succ i =>
          have := ih.all i g hg hsk
          rw [show k + 1 + i = k + (i + 1) by omega] at this
          exact ⟨List.mem_cons_of_mem _ this.1, this.2⟩
      · rw [hofs]
        simp only [List.map_cons, List.length_cons, List.range'_succ]
        exact ih.once.cons_cons _
    · split
      · -- skipped
        rename_i _ hsk
        have ih := fieldLoop_ok cs file imp hal hL hA fs (k + 1) none st
          (fun g hg => by have := tail_p g hg; have := hp g (by simp [hg]); exact this) hsort.2
          tail_c tail_t (by simp) h1 hcL hhi
        refine ⟨ih.fin, ih.al, ih.lo, ih.hi, ih.cur, ih.curL, ?_, ?_, ?_⟩
        · intro x hx
          obtain ⟨i, g, hg, rfl⟩ := ih.at_ x hx
          exact ⟨i + 1, g, hg, by rw [show k + (i + 1) = k + 1 + i by omega]⟩
        · intro i g hg hs'
          cases i with
          | zero =>
            simp only [List.getElem?_cons_zero, Option.some.injEq] at hg
            subst hg
            rw [hsk] at hs'; exact absurd hs' (by decide)
          | succ i =>
            have := ih.all i g hg hs'
            rwa [show k + 1 + i = k + (i + 1) by omega] at this
        · simp only [List.length_cons, List.range'_succ]
          exact ih.once.cons _
      · -- written, after a filler if need be
        rename_i _ hsk
        have hsk : skipped file imp f = false := by simpa using hsk
        have hcf : cs.getD k (0, 1) = (f.size, f.align) := by simpa using hc 0 f rfl hsk
        have hsp := align_spec hpf.1 st.off
        have hle : align st.off f.align ≤ f.adr := by
          by_contra hlt
          have : align st.off f.align = f.adr :=
            align_unique hpf.1 hpf.2.1 hpf.2.2.1 (by omega)
          omega
        set cur := if f.align > st.curAlign then f.align else st.curAlign with hcur
        have hcur1 : st.curAlign ≤ cur ∧ f.align ≤ cur ∧ cur ≤ L ∧ cur = max st.curAlign f.align := by
          have := hpf.2.2.2.2
          rw [hcur]; split <;> omega
        obtain ⟨g, hg⟩ : ∃ g, g = (if f.adr - align st.off f.align > 0 then
            fillGap (f.adr - align st.off f.align) st.off al cur else ([], cur)) := ⟨_, rfl⟩
        simp only
        rw [← hg]
        -- facts about the filler
        have hgf : ∃ e, (cOffsets (g.1.map (cMember A cs)) st.off).2 = e ∧ st.off ≤ e ∧ cAlign e f.align = f.adr ∧
            maxA (g.1.map (cMember A cs)) cur = g.2 ∧ cur ≤ g.2 ∧ g.2 ≤ L ∧ (∀ k, Member.fld k ∉ g.1) := by
          by_cases hgap : f.adr - align st.off f.align > 0
          · rw [if_pos hgap] at hg
            obtain ⟨q1, q2, q3, q4, q5⟩ := fillGap_ok cs (off := st.off) (cur := cur) hal (Nat.le_trans hL hA) (by omega) hgap
            refine ⟨st.off + (f.adr - align st.off f.align), by rw [hg]; exact q1, by omega, ?_, by rw [hg]; exact q2, by rw [hg]; exact q3, ?_, by rw [hg]; exact q5⟩
            · rw [← align_eq_cAlign hpf.1]
              exact align_unique hpf.1 hpf.2.1 (by omega) (by omega)
            · rw [hg]; omega
          · rw [if_neg hgap] at hg
            refine ⟨st.off, by rw [hg]; rfl, Nat.le_refl _, ?_, by rw [hg]; rfl, by rw [hg], ?_, by rw [hg]; simp⟩
            · rw [← align_eq_cAlign hpf.1]; omega
            · rw [hg]; exact hcur1.2.2.1
        obtain ⟨e, ge, gle, gadr, gal, gcur, gL, gno⟩ := hgf
        have ih := fieldLoop_ok cs file imp hal hL hA fs (k + 1) (some f.tid) ⟨f.adr + f.size, g.2⟩ tail_p hsort.2
          tail_c tail_t
          (by
            intro tid htid i g' hg' e'
            simp only [Option.some.injEq] at htid
            subst htid
            have := ht (i + 1) 0 g' f hg' rfl e'
            rw [show k + (i + 1) = k + 1 + i by omega, show k + 0 = k from rfl, hcf] at this
            refine ⟨this.2.trans this.1.symm, ?_⟩
            have h2 := this.1
            simp only [Prod.mk.injEq] at h2
            simp only
            omega)
          (by simp only; omega) (by simpa using gL) hpf.2.2.2.1
        set r := fieldLoop file imp al fs (k + 1) (some f.tid) ⟨f.adr + f.size, g.2⟩ with hr
        have hofs : offs A cs (g.1 ++ .fld k :: r.1) st.off = (k, f.adr) :: offs A cs r.1 (f.adr + f.size) := by
          rw [offs_append, offs_nofld gno, ge, offs_fld, hcf, gadr, List.nil_append]
        refine ⟨?_, ?_, ?_, ih.hi, ?_, ih.curL, ?_, ?_, ?_⟩
        · simp only [List.map_append, List.map_cons, cMember, cOffsets_append, ge, cOffsets, hcf, gadr]
          exact ih.fin
        · have h2 := ih.al
          simp only at h2
          simp only [List.map_append, List.map_cons, cMember, maxA_append, hcf]
          show maxA ((f.size, f.align) :: _) _ = _
          have e1 : ∀ m, maxA ((f.size, f.align) :: r.1.map (cMember A cs)) m =
              maxA (r.1.map (cMember A cs)) (max m f.align) := fun m => rfl
          rw [e1]
          rw [show max (maxA (g.1.map (cMember A cs)) st.curAlign) f.align = g.2 from ?_]
          · exact h2
          · have comm : ∀ (xs : List (Nat × Nat)) (m n : Nat), maxA xs (max m n) = max (maxA xs m) n := by
              intro xs
              induction xs with
              | nil => intros; rfl
              | cons x xs ih =>
                intro m n
                show maxA xs (max (max m n) x.2) = max (maxA xs (max m x.2)) n
                rw [← ih]; congr 1; omega
            rw [← comm, ← hcur1.2.2.2]; exact gal
        · have := ih.lo; simp only at this; show st.off ≤ r.2.off
          have := hpf.2.2.1; omega
        · have := ih.cur; simp only at this; show st.curAlign ≤ r.2.curAlign; omega
        · intro x hx
          rw [hofs] at hx
          rcases List.mem_cons.1 hx with rfl | hx
          · exact ⟨0, f, rfl, rfl⟩
          · obtain ⟨i, g, hg, rfl⟩ := ih.at_ x hx
            exact ⟨i + 1, g, hg, by rw [show k + (i + 1) = k + 1 + i by omega]⟩
        · intro i g' hg' hsk'
          rw [hofs]
          cases i with
          | zero =>
            simp only [List.getElem?_cons_zero, Option.some.injEq] at hg'
            subst hg'
            refine ⟨by simp, ?_⟩
            have := ih.cur; simp only at this; show f.align ≤ r.2.curAlign; omega
          | succ i =>
            have := ih.all i g' hg' hsk'
            rw [show k + 1 + i = k + (i + 1) by omega] at this
            exact ⟨List.mem_cons_of_mem _ this.1, this.2⟩
        · rw [hofs]
          simp only [List.map_cons, List.length_cons, List.range'_succ]
          exact ih.once.cons_cons _

/-! ### Records with base types -/

/-- Within each level, fields with the same type object have the same size and alignment, also in C. -/
def TidHyp (cs : List (Nat × Nat)) : List Level → Nat → Prop
  | [], _ => True
  | l :: ls, k => (∀ i j f g, l.fields[i]? = some f → l.fields[j]? = some g → f.tid = g.tid →
      (f.size, f.align) = (g.size, g.align) ∧ cs.getD (k + i) (0, 1) = cs.getD (k + j) (0, 1)) ∧
      TidHyp cs ls (k + l.fields.length)

def flagL (ls : List Level) : List (Bool × PF) := ls.flatMap fun l => l.fields.map fun f => (l.imported, f)

/-- The result of the loop over the levels. -/
structure LevelsOK (A : Nat) (cs : List (Nat × Nat)) (file : File) (L hi k : Nat) (fs : List (Bool × PF))
    (st : FS) (r : List Member × FS) : Prop where
  fin : (cOffsets (r.1.map (cMember A cs)) st.off).2 = r.2.off
  al : maxA (r.1.map (cMember A cs)) st.curAlign = r.2.curAlign
  lo : st.off ≤ r.2.off
  hi : r.2.off ≤ hi
  cur : st.curAlign ≤ r.2.curAlign
  curL : r.2.curAlign ≤ L
  at_ : ∀ x ∈ offs A cs r.1 st.off, ∃ i b f, fs[i]? = some (b, f) ∧ x = (k + i, f.adr)
  all : ∀ i b f, fs[i]? = some (b, f) → skipped file b f = false →
    (k + i, f.adr) ∈ offs A cs r.1 st.off ∧ f.align ≤ r.2.curAlign
  once : ((offs A cs r.1 st.off).map Prod.fst).Sublist (List.range' k fs.length)

theorem flagL_cons (l : Level) (ls : List Level) :
    flagL (l :: ls) = l.fields.map (fun f => (l.imported, f)) ++ flagL ls := rfl

theorem levelsLoop_ok {A : Nat} (cs : List (Nat × Nat)) (file : File) {L hi : Nat} (hA : L ≤ A) :
    ∀ (ls : List Level) (k : Nat) (st : FS),
    (∀ l ∈ ls, P2 l.align ∧ l.align ≤ L) →
    (∀ x ∈ flagL ls, P2 x.2.align ∧ x.2.align ∣ x.2.adr ∧ st.off ≤ x.2.adr ∧ x.2.adr + x.2.size ≤ hi ∧ x.2.align ≤ L) →
    (flagL ls).Pairwise (fun x y => x.2.adr + x.2.size ≤ y.2.adr) →
    (∀ i b f, (flagL ls)[i]? = some (b, f) → skipped file b f = false →
      cs.getD (k + i) (0, 1) = (f.size, f.align)) →
    TidHyp cs ls k → 1 ≤ st.curAlign → st.curAlign ≤ L → st.off ≤ hi →
    LevelsOK A cs file L hi k (flagL ls) st (levelsLoop file ls k st)
  | [], k, st, _, _, _, _, _, h1, hcL, hhi => by
    refine ⟨rfl, rfl, Nat.le_refl _, hhi, Nat.le_refl _, hcL, ?_, ?_, ?_⟩
    · simp [levelsLoop, offs]
    · simp [flagL]
    · simp [levelsLoop, offs]
  | l :: ls, k, st, hl, hp, hs, hc, ht, h1, hcL, hhi => by
    rw [flagL_cons] at hp hs hc
    have hlen : (l.fields.map (fun f => (l.imported, f))).length = l.fields.length := by simp
    obtain ⟨hs1, hs2, hs3⟩ := List.pairwise_append.1 hs
    have hl0 := hl l (by simp)
    have hget : ∀ (i : Nat) (f : PF), l.fields[i]? = some f →
        (l.fields.map (fun f => (l.imported, f)) ++ flagL ls)[i]? = some (l.imported, f) := by
      intro i f hf
      have hlt : i < l.fields.length := by
        by_contra hn
        rw [List.getElem?_eq_none (by omega)] at hf
        simp at hf
      rw [List.getElem?_append_left (by simpa using hlt), List.getElem?_map, hf]; rfl
    have lp := fieldLoop_ok cs file l.imported hl0.1 hl0.2 hA (hi := hi) l.fields k none st
      (fun f hf => hp (l.imported, f) (by simp [hf]))
      (by rw [List.pairwise_map] at hs1; exact hs1)
      (fun i f hf hsk => hc i l.imported f (hget i f hf) hsk)
      ht.1 (by simp) h1 hcL hhi
    rw [levelsLoop]
    set r := fieldLoop file l.imported l.align l.fields k none st with hr
    -- every later field starts after the loop's offset
    have hoff : ∀ x ∈ flagL ls, r.2.off ≤ x.2.adr := by
      intro x hx
      -- take the bound `hi` to be the address of `x`
      have lp' := fieldLoop_ok cs file l.imported hl0.1 hl0.2 hA (hi := x.2.adr) l.fields k none st
        (fun f hf => by
          have h := hp (l.imported, f) (by simp [hf])
          exact ⟨h.1, h.2.1, h.2.2.1, hs3 (l.imported, f) (by simp [hf]) x hx, h.2.2.2.2⟩)
        (by rw [List.pairwise_map] at hs1; exact hs1)
        (fun i f hf hsk => hc i l.imported f (hget i f hf) hsk)
        ht.1 (by simp) h1 hcL (hp x (by simp [hx])).2.2.1
      exact lp'.hi
    have ih := levelsLoop_ok cs file hA (hi := hi) ls (k + l.fields.length) r.2
      (fun l' hl' => hl l' (by simp [hl']))
      (fun x hx => by
        have h := hp x (by simp [hx])
        exact ⟨h.1, h.2.1, hoff x hx, h.2.2.2⟩)
      hs2
      (fun i b f hf hsk => by
        have := hc (l.fields.length + i) b f
          (by rw [List.getElem?_append_right (by simp), hlen, Nat.add_sub_cancel_left]; exact hf) hsk
        rwa [← Nat.add_assoc] at this)
      ht.2 (Nat.le_trans h1 lp.cur) lp.curL lp.hi
    set r' := levelsLoop file ls (k + l.fields.length) r.2 with hr'
    have hofs : offs A cs (r.1 ++ r'.1) st.off = offs A cs r.1 st.off ++ offs A cs r'.1 r.2.off := by
      rw [offs_append, lp.fin]
    rw [flagL_cons]
    refine ⟨?_, ?_, Nat.le_trans lp.lo ih.lo, ih.hi, Nat.le_trans lp.cur ih.cur, ih.curL, ?_, ?_, ?_⟩
    · simp only [List.map_append, cOffsets_append, lp.fin]; exact ih.fin
    · simp only [List.map_append, maxA_append, lp.al]; exact ih.al
    · intro x hx
      simp only [hofs] at hx
      rcases List.mem_append.1 hx with hx | hx
      · obtain ⟨i, f, hf, rfl⟩ := lp.at_ x hx
        exact ⟨i, l.imported, f, hget i f hf, rfl⟩
      · obtain ⟨i, b, f, hf, rfl⟩ := ih.at_ x hx
        refine ⟨l.fields.length + i, b, f, ?_, by rw [Nat.add_assoc]⟩
        rw [List.getElem?_append_right (by simp), hlen, Nat.add_sub_cancel_left]; exact hf
    · intro i b f hf hsk
      simp only [hofs]
      by_cases hi' : i < l.fields.length
      · rw [List.getElem?_append_left (by simpa using hi'), List.getElem?_map] at hf
        simp only [Option.map_eq_some_iff, Prod.mk.injEq] at hf
        obtain ⟨g, hg, rfl, rfl⟩ := hf
        have := lp.all i g hg hsk
        exact ⟨List.mem_append_left _ this.1, Nat.le_trans this.2 ih.cur⟩
      · rw [List.getElem?_append_right (by simpa using Nat.le_of_not_lt hi'), hlen] at hf
        have := ih.all (i - l.fields.length) b f hf hsk
        rw [show k + l.fields.length + (i - l.fields.length) = k + i by omega] at this
        exact ⟨List.mem_append_right _ this.1, this.2⟩
    · simp only [hofs, List.map_append, List.length_append, hlen]
      rw [← List.range'_append_1]
      exact lp.once.append ih.once

/-- Every level of a laid-out record has a suitable alignment. -/
theorem levels_align (al : Nat) (hal : al = 4 ∨ al = 8) : ∀ (r : Rec) {p : List Level × Level}, r.WF →
    layoutRec al r = some p → ∀ l ∈ p.1 ++ [p.2], P2 l.align ∧ l.align ≤ p.2.align
  | .root imp fs, p, wf, h => by
    have ok := rec_ok al hal _ wf h
    simp only [layoutRec, Option.bind_eq_bind, Option.bind_eq_some_iff, Prod.exists, Option.some.injEq] at h
    obtain ⟨o, b, pfs, hf, l, hl, rfl⟩ := h
    intro l' hl'
    simp only [List.nil_append, List.mem_singleton] at hl'
    subst hl'
    exact ⟨ok.p2, Nat.le_refl _⟩
  | .ext b imp fs, p, wf, h => by
    have ok := rec_ok al hal _ wf h
    simp only [layoutRec, Option.bind_eq_bind, Option.bind_eq_some_iff, Prod.exists, Option.some.injEq] at h
    obtain ⟨ls, lb, hb, o, bs, pfs, hf, l, hl, rfl⟩ := h
    have hbo := rec_ok al hal b wf.1 hb
    obtain ⟨pb, hle, -, -⟩ := fields_ok al hal fs wf.2 hbo.p2 hbo.leal hf
    have e3 := (close_ok hl pb).2.2.1
    intro l' hl'
    rcases List.mem_append.1 hl' with hl' | hl'
    · have := levels_align al hal b wf.1 hb l' hl'
      simp only at this hle ⊢
      exact ⟨this.1, by omega⟩
    · simp only [List.mem_singleton] at hl'
      subst hl'
      exact ⟨ok.p2, Nat.le_refl _⟩

theorem flagged_map (p : List Level × Level) : (flagged p).map Prod.snd = allFields p := by
  simp [flagged, allFields, List.map_flatMap, Function.comp_def]

/-- What C makes of the struct written for a record. -/
theorem fieldList_ok {A : Nat} (hA : A = 4 ∨ A = 8) (r : Rec) (wf : r.WF) {ls : List Level} {l : Level}
    (h : layoutRec A r = some (ls, l)) (cs : List (Nat × Nat)) (file : File)
    (hc : ∀ (i : Nat) (b : Bool) (f : PF), (flagged (ls, l))[i]? = some (b, f) → skipped file b f = false →
      cs.getD i (0, 1) = (f.size, f.align))
    (ht : TidHyp cs (ls ++ [l]) 0) :
    (∀ x ∈ fieldOffsets A cs (fieldList file ls l), ∃ f, (allFields (ls, l))[x.1]? = some f ∧ x.2 = f.adr) ∧
    (∀ (i : Nat) (b : Bool) (f : PF), (flagged (ls, l))[i]? = some (b, f) → skipped file b f = false →
      (i, f.adr) ∈ fieldOffsets A cs (fieldList file ls l)) ∧
    ((fieldOffsets A cs (fieldList file ls l)).map Prod.fst).Nodup ∧
    cStructAlign ((fieldList file ls l).map (cMember A cs)) ≤ l.align ∧
    (∀ x ∈ flagged (ls, l), skipped file x.1 x.2 = false →
      x.2.align ≤ cStructAlign ((fieldList file ls l).map (cMember A cs))) ∧
    1 ≤ cStructAlign ((fieldList file ls l).map (cMember A cs)) ∧
    (cStructAlign ((fieldList file ls l).map (cMember A cs)) = l.align →
      cStruct ((fieldList file ls l).map (cMember A cs)) = (l.size, l.align)) := by
  have ok := rec_ok A hA r wf h
  have hal := levels_align A hA r wf h
  have hfld : ∀ x ∈ flagL (ls ++ [l]), x.2 ∈ allFields (ls, l) := by
    intro x hx
    have : x.2 ∈ (flagged (ls, l)).map Prod.snd := List.mem_map_of_mem hx
    rwa [flagged_map] at this
  have lv := levelsLoop_ok (A := A) cs file (L := l.align) (hi := l.size - l.gap) ok.leal (ls ++ [l]) 0 ⟨0, 1⟩
    hal
    (fun x hx => by
      have := ok.fields.fld x.2 (hfld x hx)
      exact ⟨this.1, this.2.1, Nat.zero_le _, this.2.2.2.2.1, this.2.2.1⟩)
    (by
      have := ok.fields.sorted
      rw [← flagged_map, List.pairwise_map] at this
      exact this)
    (by intro i b f hf hsk; rw [Nat.zero_add]; exact hc i b f hf hsk)
    ht (Nat.le_refl _) ok.p2.pos (Nat.zero_le _)
  obtain ⟨r0, hr0⟩ : ∃ r0, r0 = levelsLoop file (ls ++ [l]) 0 ⟨0, 1⟩ := ⟨_, rfl⟩
  rw [← hr0] at lv
  obtain ⟨gap, hgap⟩ : ∃ gap, gap = (if l.size - l.gap = 0 then 1 else l.size - l.gap - r0.2.off) := ⟨_, rfl⟩
  have hfl : fieldList file ls l = r0.1 ++ if gap > 0 then (fillGap gap r0.2.off l.align r0.2.curAlign).1 else [] := by
    simp only [fieldList, ← hr0, ← hgap]
  have hhi := lv.hi
  -- the filler at the end
  have htl : ∃ ms, fieldList file ls l = r0.1 ++ ms ∧ (∀ k, Member.fld k ∉ ms) ∧
      (cOffsets (ms.map (cMember A cs)) r0.2.off).2 = (if l.size - l.gap = 0 then 1 else l.size - l.gap) ∧
      r0.2.curAlign ≤ maxA (ms.map (cMember A cs)) r0.2.curAlign ∧
      maxA (ms.map (cMember A cs)) r0.2.curAlign ≤ l.align := by
    by_cases hg : gap > 0
    · rw [if_pos hg] at hfl
      obtain ⟨q1, q2, q3, q4, q5⟩ := fillGap_ok cs (off := r0.2.off) (cur := r0.2.curAlign) ok.p2 ok.leal
        (Nat.le_trans (Nat.le_refl 1) lv.cur) hg
      have := lv.curL
      refine ⟨_, hfl, q5, ?_, by rw [q2]; exact q3, by rw [q2]; simp only at q4 ⊢; omega⟩
      rw [q1, hgap]; split
      · rename_i h0; rw [h0] at hhi; simp only at *; omega
      · omega
    · rw [if_neg hg] at hfl
      have h0 : ¬ l.size - l.gap = 0 := by intro h0; rw [if_pos h0] at hgap; omega
      rw [if_neg h0] at hgap
      refine ⟨[], hfl, by simp, ?_, Nat.le_refl _, lv.curL⟩
      rw [if_neg h0]; show r0.2.off = _; omega
  obtain ⟨ms, e1, e2, e3, e4, e5⟩ := htl
  have hofs : fieldOffsets A cs (fieldList file ls l) = offs A cs r0.1 0 := by
    show offs A cs (fieldList file ls l) 0 = _
    rw [e1, offs_append, offs_nofld e2, List.append_nil]
  have hal2 : cStructAlign ((fieldList file ls l).map (cMember A cs)) = maxA (ms.map (cMember A cs)) r0.2.curAlign := by
    show maxA _ 1 = _
    rw [e1, List.map_append, maxA_append]
    have := lv.al
    simp only at this
    rw [this]
  have hend : (cOffsets ((fieldList file ls l).map (cMember A cs)) 0).2 =
      (if l.size - l.gap = 0 then 1 else l.size - l.gap) := by
    rw [e1, List.map_append, cOffsets_append]
    have := lv.fin
    simp only at this
    rw [this]; exact e3
  refine ⟨?_, ?_, ?_, ?_, ?_, ?_, ?_⟩
  · intro x hx
    rw [hofs] at hx
    obtain ⟨i, b, f, hf, rfl⟩ := lv.at_ x hx
    refine ⟨f, ?_, rfl⟩
    rw [← flagged_map, List.getElem?_map, Nat.zero_add]
    show ((flagL (ls ++ [l]))[i]?).map Prod.snd = some f
    rw [hf]; rfl
  · intro i b f hf hsk
    rw [hofs]
    have := (lv.all i b f hf hsk).1
    rwa [Nat.zero_add] at this
  · rw [hofs]
    exact lv.once.nodup (List.nodup_range')
  · rw [hal2]; exact e5
  · intro x hx hsk
    rw [hal2]
    obtain ⟨i, hi⟩ := List.getElem?_of_mem hx
    exact Nat.le_trans (lv.all i x.1 x.2 hi hsk).2 e4
  · rw [hal2]; have := lv.cur; simp only at this; omega
  · intro he
    rw [cStruct, hend, he, ← align_eq_cAlign ok.p2, ← ok.sz]

/-! ### From types to the hypotheses -/

theorem fields_objs (al : Nat) : ∀ (fs : Fields) {off base o b : Nat} {pfs : List PF},
    layoutFields al fs off base = some (o, b, pfs) →
    ∀ (i : Nat) (f : PF), pfs[i]? = some f →
      ∃ t, (Fields.objs fs)[i]? = some (f.tid, t) ∧ layoutTyp al t = some (f.size, f.align)
  | .nil, off, base, o, b, pfs, h => by
    simp only [layoutFields, Option.some.injEq, Prod.mk.injEq] at h
    obtain ⟨-, -, rfl⟩ := h; simp
  | .cons priv tid named t rest, off, base, o, b, pfs, h => by
    simp only [layoutFields, Option.bind_eq_bind, Option.bind_eq_some_iff, Prod.exists, Option.some.injEq,
      Prod.mk.injEq] at h
    obtain ⟨size, fbase, ht, adr, hadr, off', hoff, o1, b1, pfs1, hrest, -, -, rfl⟩ := h
    intro i f hf
    cases i with
    | zero =>
      simp only [List.getElem?_cons_zero, Option.some.injEq] at hf
      subst hf
      exact ⟨t, rfl, ht⟩
    | succ i => exact fields_objs al rest hrest i f hf

theorem cFields_objs (al : Nat) (file : File) : ∀ (fs : Fields) {cs : List (Nat × Nat)},
    cFields al file fs = some cs → cs.length = (Fields.objs fs).length ∧
    ∀ (i tid : Nat) (t : Typ), (Fields.objs fs)[i]? = some (tid, t) → ∃ x, cs[i]? = some x ∧ cTyp al file t = some x
  | .nil, cs, h => by
    simp only [cFields, Option.some.injEq] at h
    subst h; simp [Fields.objs]
  | .cons priv tid named t rest, cs, h => by
    simp only [cFields, Option.bind_eq_bind, Option.bind_eq_some_iff, Option.some.injEq] at h
    obtain ⟨x, hx, y, hy, rfl⟩ := h
    obtain ⟨hl, ih⟩ := cFields_objs al file rest hy
    refine ⟨by simp [Fields.objs, hl], ?_⟩
    intro i tid' t' ht
    cases i with
    | zero =>
      simp only [Fields.objs, List.getElem?_cons_zero, Option.some.injEq, Prod.mk.injEq] at ht
      obtain ⟨rfl, rfl⟩ := ht
      exact ⟨x, rfl, hx⟩
    | succ i => exact ih i tid' t' ht

theorem objs_length (al : Nat) : ∀ (fs : Fields) {off base o b : Nat} {pfs : List PF},
    layoutFields al fs off base = some (o, b, pfs) → pfs.length = (Fields.objs fs).length
  | .nil, off, base, o, b, pfs, h => by
    simp only [layoutFields, Option.some.injEq, Prod.mk.injEq] at h
    obtain ⟨-, -, rfl⟩ := h; rfl
  | .cons priv tid named t rest, off, base, o, b, pfs, h => by
    simp only [layoutFields, Option.bind_eq_bind, Option.bind_eq_some_iff, Prod.exists, Option.some.injEq,
      Prod.mk.injEq] at h
    obtain ⟨size, fbase, ht, adr, hadr, off', hoff, o1, b1, pfs1, hrest, -, -, rfl⟩ := h
    simp [Fields.objs, objs_length al rest hrest]

theorem tidHyp_append (cs : List (Nat × Nat)) (xs ys : List Level) (k : Nat) :
    TidHyp cs (xs ++ ys) k ↔ TidHyp cs xs k ∧ TidHyp cs ys (k + (xs.flatMap Level.fields).length) := by
  induction xs generalizing k with
  | nil => simp [TidHyp]
  | cons x xs ih =>
    simp only [List.cons_append, TidHyp, ih, List.flatMap_cons, List.length_append, and_assoc]
    rw [Nat.add_assoc]

theorem tidHyp_mono {cs : List (Nat × Nat)} (ys : List (Nat × Nat)) : ∀ (ls : List Level) (k : Nat),
    k + (ls.flatMap Level.fields).length ≤ cs.length → TidHyp cs ls k → TidHyp (cs ++ ys) ls k
  | [], _, _, _ => trivial
  | l :: ls, k, hk, h => by
    simp only [List.flatMap_cons, List.length_append] at hk
    refine ⟨?_, tidHyp_mono ys ls _ (by omega) h.2⟩
    intro i j f g hf hg e
    have := h.1 i j f g hf hg e
    have hi : i < l.fields.length := by
      by_contra hn; rw [List.getElem?_eq_none (by omega)] at hf; simp at hf
    have hj : j < l.fields.length := by
      by_contra hn; rw [List.getElem?_eq_none (by omega)] at hg; simp at hg
    refine ⟨this.1, ?_⟩
    rw [List.getD_eq_getElem?_getD, List.getD_eq_getElem?_getD, List.getElem?_append_left (by omega),
      List.getElem?_append_left (by omega), ← List.getD_eq_getElem?_getD, ← List.getD_eq_getElem?_getD]
    exact this.2

theorem level_tid (al : Nat) (file : File) (fs : Fields) {off base o b : Nat} {pfs : List PF}
    (h : layoutFields al fs off base = some (o, b, pfs)) {cs : List (Nat × Nat)} (hc : cFields al file fs = some cs)
    (ho : ∀ x ∈ Fields.objs fs, ∀ y ∈ Fields.objs fs, x.1 = y.1 → x.2 = y.2) (pre : List (Nat × Nat)) (l : Level)
    (hl : l.fields = pfs) : TidHyp (pre ++ cs) [l] pre.length := by
  refine ⟨?_, trivial⟩
  rw [hl]
  intro i j f g hf hg e
  obtain ⟨t, h1, h2⟩ := fields_objs al fs h i f hf
  obtain ⟨u, h3, h4⟩ := fields_objs al fs h j g hg
  have htu : t = u := ho _ (List.mem_of_getElem? h1) _ (List.mem_of_getElem? h3) e
  subst htu
  obtain ⟨-, hcs⟩ := cFields_objs al file fs hc
  obtain ⟨x, e1, e2⟩ := hcs i _ t h1
  obtain ⟨y, e3, e4⟩ := hcs j _ t h3
  rw [h2] at h4
  rw [e2] at e4
  simp only [Option.some.injEq] at h4 e4
  refine ⟨h4, ?_⟩
  rw [List.getD_eq_getElem?_getD, List.getD_eq_getElem?_getD, List.getElem?_append_right (by omega),
    List.getElem?_append_right (by omega), Nat.add_sub_cancel_left, Nat.add_sub_cancel_left, e1, e3, e4]

theorem rec_tid (al : Nat) (file : File) : ∀ (r : Rec) {ls : List Level} {l : Level} {cs : List (Nat × Nat)},
    recObjs r → layoutRec al r = some (ls, l) → cRec al file r = some cs →
    TidHyp cs (ls ++ [l]) 0 ∧ cs.length = (allFields (ls, l)).length
  | .root imp fs, ls, l, cs, ho, h, hc => by
    simp only [layoutRec, Option.bind_eq_bind, Option.bind_eq_some_iff, Prod.exists, Option.some.injEq,
      Prod.mk.injEq] at h
    obtain ⟨o, b, pfs, hf, l', hl, rfl, rfl⟩ := h
    have e := close_fields hl
    rw [cRec] at hc
    refine ⟨?_, ?_⟩
    · exact level_tid al file fs hf hc ho.2 [] l' e
    · simp only [allFields, List.nil_append, List.flatMap_cons, List.flatMap_nil, List.append_nil, e]
      rw [objs_length al fs hf, (cFields_objs al file fs hc).1]
  | .ext b imp fs, ls, l, cs, ho, h, hc => by
    simp only [layoutRec, Option.bind_eq_bind, Option.bind_eq_some_iff, Prod.exists, Option.some.injEq,
      Prod.mk.injEq] at h
    obtain ⟨lsb, lb, hb, o, bs, pfs, hf, l', hl, rfl, rfl⟩ := h
    have e := close_fields hl
    simp only [cRec, Option.bind_eq_bind, Option.bind_eq_some_iff, Option.some.injEq] at hc
    obtain ⟨x, hx, y, hy, rfl⟩ := hc
    obtain ⟨t1, t2⟩ := rec_tid al file b ho.1 hb hx
    refine ⟨?_, ?_⟩
    · rw [tidHyp_append]
      refine ⟨tidHyp_mono y _ _ (by rw [Nat.zero_add, t2]; exact Nat.le_refl _) t1, ?_⟩
      have := level_tid al file fs hf hy ho.2.2 x l' e
      rw [t2] at this
      rw [Nat.zero_add]; exact this
    · have hall : allFields (lsb ++ [lb], l') = allFields (lsb, lb) ++ pfs := by
        simp [allFields, e]
      rw [hall, List.length_append, List.length_append, t2, objs_length al fs hf, (cFields_objs al file fs hy).1]

end Verif.Layout
