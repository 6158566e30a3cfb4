import Verif.Layout.LemmasStruct

/-!
# C14: the C struct emitted for a record
-/
namespace Verif.Layout
open CSpec

/-- C14, part.  Under C's rules, every field that is a member of the emitted struct lies at the address the
compiler assigned to it, every field that is not hidden is a member, and none occurs twice — provided the
C types of the visible fields have the size and alignment the compiler computed for them.  Missing: that
this proviso always holds; `C14_hidden_alignment` shows that it does not. -/
theorem C14_offsets_partial {A : Nat} (hA : A = 4 ∨ A = 8) (r : Rec) (wf : r.WF) (ho : recObjs r)
    (ls : List Level) (l : Level) (h : layoutRec A r = some (ls, l)) (file : File) (cs : List (Nat × Nat))
    (hcs : cRec A file r = some cs)
    (hvis : ∀ (i : Nat) (b : Bool) (f : PF), (flagged (ls, l))[i]? = some (b, f) → skipped file b f = false →
      cs[i]? = some (f.size, f.align)) :
    (∀ x ∈ fieldOffsets A cs (fieldList file ls l), ∃ f, (allFields (ls, l))[x.1]? = some f ∧ x.2 = f.adr) ∧
    (∀ (i : Nat) (b : Bool) (f : PF), (flagged (ls, l))[i]? = some (b, f) → skipped file b f = false →
      (i, f.adr) ∈ fieldOffsets A cs (fieldList file ls l)) ∧
    ((fieldOffsets A cs (fieldList file ls l)).map Prod.fst).Nodup := by
  have := fieldList_ok hA r wf h cs file
    (fun i b f hf hs => by rw [List.getD_eq_getElem?_getD, hvis i b f hf hs]; rfl) (rec_tid A file r ho h hcs).1
  exact ⟨this.1, this.2.1, this.2.2.1⟩

/-- C14, part.  If moreover some visible field has the alignment of the record, the struct has the size
and the alignment the compiler computed. -/
theorem C14_size_partial {A : Nat} (hA : A = 4 ∨ A = 8) (r : Rec) (wf : r.WF) (ho : recObjs r)
    (ls : List Level) (l : Level) (h : layoutRec A r = some (ls, l)) (file : File) (cs : List (Nat × Nat))
    (hcs : cRec A file r = some cs)
    (hvis : ∀ (i : Nat) (b : Bool) (f : PF), (flagged (ls, l))[i]? = some (b, f) → skipped file b f = false →
      cs[i]? = some (f.size, f.align))
    (hmax : l.align = 1 ∨ ∃ x ∈ flagged (ls, l), skipped file x.1 x.2 = false ∧ x.2.align = l.align) :
    cStruct ((fieldList file ls l).map (cMember A cs)) = (l.size, l.align) := by
  have := fieldList_ok hA r wf h cs file
    (fun i b f hf hs => by rw [List.getD_eq_getElem?_getD, hvis i b f hf hs]; rfl) (rec_tid A file r ho h hcs).1
  obtain ⟨-, -, -, h1, h2, h3, h4⟩ := this
  apply h4
  rcases hmax with e | ⟨x, hx, hs, e⟩
  · omega
  · have := h2 x hx hs; omega

theorem fields_attain (al : Nat) : ∀ (fs : Fields) {off base o b : Nat} {pfs : List PF},
    layoutFields al fs off base = some (o, b, pfs) → b = base ∨ ∃ f ∈ pfs, f.align = b
  | .nil, off, base, o, b, pfs, h => by
    simp only [layoutFields, Option.some.injEq, Prod.mk.injEq] at h
    exact Or.inl h.2.1.symm
  | .cons priv tid named t rest, off, base, o, b, pfs, h => by
    simp only [layoutFields, Option.bind_eq_bind, Option.bind_eq_some_iff, Prod.exists, Option.some.injEq,
      Prod.mk.injEq] at h
    obtain ⟨size, fbase, ht, adr, hadr, off', hoff, o1, b1, pfs1, hrest, rfl, rfl, rfl⟩ := h
    rcases fields_attain al rest hrest with e | ⟨f, hf, e⟩
    · split at e
      · exact Or.inr ⟨_, by simp; left; rfl, by simpa using e.symm⟩
      · exact Or.inl e
    · exact Or.inr ⟨f, by simp [hf], e⟩

theorem rec_attain (al : Nat) : ∀ (r : Rec) {ls : List Level} {l : Level},
    layoutRec al r = some (ls, l) → l.align = 1 ∨ ∃ f ∈ allFields (ls, l), f.align = l.align
  | .root imp fs, ls, l, h => by
    simp only [layoutRec, Option.bind_eq_bind, Option.bind_eq_some_iff, Prod.exists, Option.some.injEq,
      Prod.mk.injEq] at h
    obtain ⟨o, b, pfs, hf, l', hl, rfl, rfl⟩ := h
    simp only [close, Option.bind_eq_bind, Option.bind_eq_some_iff, Option.some.injEq] at hl
    obtain ⟨o', -, rfl⟩ := hl
    rcases fields_attain al fs hf with e | ⟨f, hf, e⟩
    · exact Or.inl e
    · exact Or.inr ⟨f, by simpa [allFields] using hf, e⟩
  | .ext b imp fs, ls, l, h => by
    simp only [layoutRec, Option.bind_eq_bind, Option.bind_eq_some_iff, Prod.exists, Option.some.injEq,
      Prod.mk.injEq] at h
    obtain ⟨lsb, lb, hb, o, bs, pfs, hf, l', hl, rfl, rfl⟩ := h
    simp only [close, Option.bind_eq_bind, Option.bind_eq_some_iff, Option.some.injEq] at hl
    obtain ⟨o', -, rfl⟩ := hl
    rcases fields_attain al fs hf with e | ⟨f, hf, e⟩
    · rcases rec_attain al b hb with e' | ⟨f, hf, e'⟩
      · exact Or.inl (e.trans e')
      · refine Or.inr ⟨f, ?_, e'.trans e.symm⟩
        simp only [allFields, List.flatMap_append, List.mem_append] at hf ⊢
        exact Or.inl hf
    · exact Or.inr ⟨f, by simp [allFields, hf], e⟩

theorem open_fields (al : Nat) (file : File) (imp : Bool) : ∀ (fs : Fields) {off base o b : Nat} {pfs : List PF},
    openFields file imp fs → layoutFields al fs off base = some (o, b, pfs) →
    ∀ f ∈ pfs, skipped file imp f = false
  | .nil, off, base, o, b, pfs, _, h => by
    simp only [layoutFields, Option.some.injEq, Prod.mk.injEq] at h
    obtain ⟨-, -, rfl⟩ := h; simp
  | .cons priv tid named t rest, off, base, o, b, pfs, ho, h => by
    simp only [layoutFields, Option.bind_eq_bind, Option.bind_eq_some_iff, Prod.exists, Option.some.injEq,
      Prod.mk.injEq] at h
    obtain ⟨size, fbase, ht, adr, hadr, off', hoff, o1, b1, pfs1, hrest, -, -, rfl⟩ := h
    intro f hf
    rcases List.mem_cons.1 hf with rfl | hf
    · cases priv with
      | false => cases file <;> rfl
      | true => obtain ⟨rfl, rfl⟩ := ho.1 rfl; rfl
    · exact open_fields al file imp rest ho.2.2 hrest f hf

theorem close_imported {imp : Bool} {off base : Nat} {fs : List PF} {l : Level}
    (h : close imp off base fs = some l) : l.imported = imp := by
  simp only [close, Option.bind_eq_bind, Option.bind_eq_some_iff, Option.some.injEq] at h
  obtain ⟨o, ho, rfl⟩ := h; rfl

theorem open_rec (al : Nat) (file : File) : ∀ (r : Rec) {ls : List Level} {l : Level}, openRec file r →
    layoutRec al r = some (ls, l) → ∀ x ∈ flagged (ls, l), skipped file x.1 x.2 = false
  | .root imp fs, ls, l, ho, h => by
    simp only [layoutRec, Option.bind_eq_bind, Option.bind_eq_some_iff, Prod.exists, Option.some.injEq,
      Prod.mk.injEq] at h
    obtain ⟨o, b, pfs, hf, l', hl, rfl, rfl⟩ := h
    intro x hx
    simp only [flagged, List.nil_append, List.flatMap_cons, List.flatMap_nil, List.append_nil, List.mem_map,
      close_fields hl, close_imported hl] at hx
    obtain ⟨f, hf', rfl⟩ := hx
    exact open_fields al file imp fs ho hf f hf'
  | .ext b imp fs, ls, l, ho, h => by
    simp only [layoutRec, Option.bind_eq_bind, Option.bind_eq_some_iff, Prod.exists, Option.some.injEq,
      Prod.mk.injEq] at h
    obtain ⟨lsb, lb, hb, o, bs, pfs, hf, l', hl, rfl, rfl⟩ := h
    intro x hx
    have hfl : flagged (lsb ++ [lb], l') = flagged (lsb, lb) ++ pfs.map (fun f => (imp, f)) := by
      simp [flagged, close_fields hl, close_imported hl]
    rw [hfl] at hx
    rcases List.mem_append.1 hx with hx | hx
    · exact open_rec al file b ho.1 hb x hx
    · rw [List.mem_map] at hx
      obtain ⟨f, hf', rfl⟩ := hx
      exact open_fields al file imp fs ho.2 hf f hf'

mutual
theorem typ_open {A : Nat} (hA : A = 4 ∨ A = 8) (file : File) : ∀ (t : Typ) {s a : Nat}, t.WF → typObjs t →
    openTyp file t → layoutTyp A t = some (s, a) → cTyp A file t = some (s, a)
  | .basic size, s, a, wf, _, _, h => by
    simp only [layoutTyp, Option.some.injEq, Prod.mk.injEq] at h
    obtain ⟨rfl, rfl⟩ := h
    rw [cTyp, sizeAlignment_eq hA wf]
  | .array n e, s, a, wf, ho, hop, h => by
    simp only [layoutTyp, Option.bind_eq_bind, Option.bind_eq_some_iff, Prod.exists, Option.some.injEq,
      Prod.mk.injEq] at h
    obtain ⟨s0, a0, h0, s1, h1, rfl, rfl⟩ := h
    obtain ⟨rfl, -⟩ := ck_some h1
    rw [cTyp, typ_open hA file e wf.2 ho hop h0]; rfl
  | .record r, s, a, wf, ho, hop, h => by
    simp only [layoutTyp, Option.bind_eq_bind, Option.bind_eq_some_iff, Prod.exists, Option.some.injEq,
      Prod.mk.injEq] at h
    obtain ⟨ls, l, h0, rfl, rfl⟩ := h
    have hc := rec_open hA (if r.imported then .header else file) r wf ho hop h0
    have hsk := open_rec A (if r.imported then .header else file) r hop h0
    have := C14_size_partial hA r wf ho ls l h0 (if r.imported then .header else file) _ hc
      (by
        intro i b f hf _
        rw [← flagged_map]
        simp [hf])
      (by
        rcases rec_attain A r h0 with e | ⟨f, hf, e⟩
        · exact Or.inl e
        · rw [← flagged_map, List.mem_map] at hf
          obtain ⟨x, hx, rfl⟩ := hf
          exact Or.inr ⟨x, hx, hsk x hx, e⟩)
    rw [cTyp, h0]
    simp only [Option.bind_eq_bind, Option.bind_some]
    rw [hc, Option.bind_some, this]
theorem rec_open {A : Nat} (hA : A = 4 ∨ A = 8) (file : File) : ∀ (r : Rec) {ls : List Level} {l : Level}, r.WF →
    recObjs r → openRec file r → layoutRec A r = some (ls, l) →
    cRec A file r = some ((allFields (ls, l)).map fun f => (f.size, f.align))
  | .root imp fs, ls, l, wf, ho, hop, h => by
    simp only [layoutRec, Option.bind_eq_bind, Option.bind_eq_some_iff, Prod.exists, Option.some.injEq,
      Prod.mk.injEq] at h
    obtain ⟨o, b, pfs, hf, l', hl, rfl, rfl⟩ := h
    rw [cRec, fields_open hA file imp fs wf ho.1 hop hf]
    simp [allFields, close_fields hl]
  | .ext b imp fs, ls, l, wf, ho, hop, h => by
    simp only [layoutRec, Option.bind_eq_bind, Option.bind_eq_some_iff, Prod.exists, Option.some.injEq,
      Prod.mk.injEq] at h
    obtain ⟨lsb, lb, hb, o, bs, pfs, hf, l', hl, rfl, rfl⟩ := h
    rw [cRec, rec_open hA file b wf.1 ho.1 hop.1 hb]
    simp only [Option.bind_eq_bind, Option.bind_some]
    rw [fields_open hA file imp fs wf.2 ho.2.1 hop.2 hf]
    simp [allFields, close_fields hl]
theorem fields_open {A : Nat} (hA : A = 4 ∨ A = 8) (file : File) (imp : Bool) :
    ∀ (fs : Fields) {off base o b : Nat} {pfs : List PF}, fs.WF → fieldsObjs fs → openFields file imp fs →
    layoutFields A fs off base = some (o, b, pfs) →
    cFields A file fs = some (pfs.map fun f => (f.size, f.align))
  | .nil, off, base, o, b, pfs, _, _, _, h => by
    simp only [layoutFields, Option.some.injEq, Prod.mk.injEq] at h
    obtain ⟨-, -, rfl⟩ := h; rfl
  | .cons priv tid named t rest, off, base, o, b, pfs, wf, ho, hop, h => by
    simp only [layoutFields, Option.bind_eq_bind, Option.bind_eq_some_iff, Prod.exists, Option.some.injEq,
      Prod.mk.injEq] at h
    obtain ⟨size, fbase, ht, adr, hadr, off', hoff, o1, b1, pfs1, hrest, -, -, rfl⟩ := h
    rw [cFields, typ_open hA file t wf.1 ho.1 hop.2.1 ht]
    simp only [Option.bind_eq_bind, Option.bind_some]
    rw [fields_open hA file imp rest wf.2 ho.2 hop.2.2 hrest]
    rfl
end

/-- C14 where nothing is hidden: every C type has the size and alignment the compiler computed, to any depth
of nesting. -/
theorem C14_open_type {A : Nat} (hA : A = 4 ∨ A = 8) (file : File) (t : Typ) (wf : t.WF) (ho : typObjs t)
    (hop : openTyp file t) (s a : Nat) (h : layoutTyp A t = some (s, a)) : cTyp A file t = some (s, a) :=
  typ_open hA file t wf ho hop h

/-- C14 where nothing is hidden: each field of a record is a member of its struct, at the address the
compiler assigned to it. -/
theorem C14_open_fields {A : Nat} (hA : A = 4 ∨ A = 8) (file : File) (r : Rec) (wf : r.WF) (ho : recObjs r)
    (hop : openRec file r) (ls : List Level) (l : Level) (h : layoutRec A r = some (ls, l)) :
    ∃ cs, cRec A file r = some cs ∧
      (∀ i f, (allFields (ls, l))[i]? = some f → (i, f.adr) ∈ fieldOffsets A cs (fieldList file ls l)) ∧
      ((fieldOffsets A cs (fieldList file ls l)).map Prod.fst).Nodup := by
  have hc := rec_open hA file r wf ho hop h
  have hsk := open_rec A file r hop h
  have := C14_offsets_partial hA r wf ho ls l h file _ hc
    (by
      intro i b f hf _
      rw [← flagged_map]
      simp [hf])
  refine ⟨_, hc, ?_, this.2.2⟩
  intro i f hf
  rw [← flagged_map, List.getElem?_map, Option.map_eq_some_iff] at hf
  obtain ⟨x, hx, rfl⟩ := hf
  exact this.2.1 i x.1 x.2 hx (hsk x (List.mem_of_getElem? hx))

/-! ### Concrete cases -/

/-- A record with a hidden field in a gap that `FillGap` handles well. -/
def exGood : Rec := .root true (.cons false 1 true (.basic 1) (.cons true 2 true (.basic 8)
  (.cons false 1 true (.basic 1) (.cons false 1 true (.basic 1) .nil))))

example : (layoutRec 8 exGood).map (fun p => fieldList .header p.1 p.2) =
    some [.fld 0, .int 8, .fld 2, .fld 3] := by decide

example : cTyp 8 .header (.record exGood) = some (24, 8) ∧ layoutTyp 8 (.record exGood) = some (24, 8) := by
  decide

/-- C14 fails when the field that determines the alignment is hidden and the filler has no room for
an aligned member: for `RECORD a*: CHAR; b: HUGEINT; c*: LONGINT END` the compiler computes size 24 and
alignment 8, but the struct in the header file has size 20 and alignment 4.  A client that puts such a record
into a record of its own gets the wrong offset: the compiler assigns 8, C assigns 4. -/
theorem C14_hidden_alignment :
    layoutTyp 8 (.record exRec) = some (24, 8) ∧ cTyp 8 .header (.record exRec) = some (20, 4) ∧
    (let r := Rec.root false (.cons false 3 true (.basic 4) (.cons false 9 true (.record exRec) .nil))
     (layoutRec 8 r).map (fun p => (allFields p).map PF.adr) = some [0, 8] ∧
     (do let p ← layoutRec 8 r
         let cs ← cRec 8 .header r
         some (fieldOffsets 8 cs (fieldList .header p.1 p.2))) = some [(0, 0), (1, 4)]) := by decide

example : exExt.WF ∧ openRec .body exExt ∧ recObjs exExt := by
  refine ⟨by simp [exExt, exRec, Rec.WF, Fields.WF, Typ.WF, P2],
    by simp [exExt, exRec, openRec, openFields, openTyp, Rec.imported], ?_⟩
  simp [exExt, exRec, recObjs, fieldsObjs, typObjs, Fields.objs]

end Verif.Layout
