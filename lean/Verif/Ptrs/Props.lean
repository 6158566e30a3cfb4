import Verif.Ptrs.Lemmas
import Verif.Heap.LemmasRun

/-! C39: the tables that tell the garbage collector where the pointers are. -/
namespace Verif.Ptrs

/-- C39.  The offsets in the type descriptor of a type are exactly the offsets of the traced pointers in it; their number is the
one for which room is reserved in the descriptor, and the descriptor ends with the sentinel the collector expects after
that many offsets. -/
theorem C39_offsets (t : Ty) :
    (∀ o, o ∈ put t 1 0 ↔ PtrAt t o) ∧ (put t 1 0).length = nofPtrs t 1 ∧
    tdesc t = (size t : Int) :: (put t 1 0).map (fun (o : Nat) => (o : Int)) ++ [-(8 * ((nofPtrs t 1 : Int) + 1))] ∧
    (tdesc t).length = 1 + tdescRoom t := by
  refine ⟨mem_put t, put_length t 1 0, ?_, ?_⟩
  · simp only [tdesc, put_length]
    congr 2; ring
  · simp [tdesc, tdescRoom, put_length]; omega

/-- C39.  In a type laid out by the compiler (C13), there is one offset for each pointer, the pointers lie inside the type,
do not overlap, and are aligned. -/
theorem C39_layout (al : Nat) (hal : al = 4 ∨ al = 8) (t : Ty) (hp : Placed al t) (wf : (erase t).WF) (s a : Nat)
    (hl : Layout.layoutTyp al (erase t) = some (s, a)) :
    (put t 1 0).Nodup ∧ (put t 1 0).Pairwise (fun x y => x + 8 ≤ y) ∧ (∀ o ∈ put t 1 0, o + 8 ≤ size t ∧ al ∣ o) ∧
    (put t 1 0 ≠ [] → al ∣ size t) := by
  obtain ⟨ss, hss, hmem, hpw, hdv⟩ := Layout.C13_scalars al hal (erase t) wf s a hl
  have hs := placed_size al t hp hl
  have hsub := put_sub al t hp hss
  have hpair : (put t 1 0).Pairwise (fun x y => x + 8 ≤ y) := by
    have := hpw.sublist hsub
    simpa [words, List.pairwise_map] using this
  have hmin : min 8 al = al := by omega
  have hm : ∀ o ∈ put t 1 0, o + 8 ≤ size t ∧ al ∣ o ∧ al ∣ a := by
    intro o ho
    have := hmem (o, 8) (hsub.subset (List.mem_map.mpr ⟨o, ho, rfl⟩))
    simp only [hmin] at this
    rw [← hs]; exact ⟨this.2.1, this.1, this.2.2⟩
  refine ⟨hpair.imp (fun h => by omega), hpair, fun o ho => ⟨(hm o ho).1, (hm o ho).2.1⟩, ?_⟩
  intro hne
  obtain ⟨o, ho⟩ := List.exists_mem_of_ne_nil _ hne
  rw [← hs]
  exact Nat.dvd_trans (hm o ho).2.2 hdv

/-- C39, and the link to C20 to C23: the descriptor of a record type, once the module is loaded, is one with which the storage
manager works.  `__INITYP` (src/runtime/SYSTEM.h 316-324) replaces the size by the size of a block. -/
theorem C39_descriptor (t : Ty) (hp : Placed 8 t) (wf : (erase t).WF) (s a : Nat)
    (hl : Layout.layoutTyp 8 (erase t) = some (s, a)) (St : Nat → Prop) (m : Heap.Mem) (tag : Nat) (htag : tag % 8 = 0)
    (h0 : m tag = ((size t + 39) / 32 * 32 : Nat))
    (htab : ∀ i w, (tdesc t).tail[i]? = some w → m (tag + 8 + 8 * i) = w)
    (hst : ∀ i, i < (tdesc t).length → St (tag + 8 * i)) :
    Heap.Desc St m tag ((size t + 39) / 32) (put t 1 0) := by
  obtain ⟨hnd, _, hin, _⟩ := C39_layout 8 (Or.inr rfl) t hp wf s a hl
  have htl : (tdesc t).tail = (put t 1 0).map (fun (o : Nat) => (o : Int)) ++ [-(((put t 1 0).length : Int) + 1) * 8] := rfl
  refine ⟨by omega, htag, ?_, ?_, ?_, hnd, ?_, ?_⟩
  · rw [h0, Nat.mul_comm]
  · intro i o ho
    apply htab
    have hi : i < (put t 1 0).length := (List.getElem?_eq_some_iff.mp ho).1
    rw [htl, List.getElem?_append_left (by simpa using hi), List.getElem?_map, ho]; rfl
  · have := htab (put t 1 0).length (-(((put t 1 0).length : Int) + 1) * 8) (by
      rw [htl, List.getElem?_append_right (by simp)]; simp)
    rw [this]; ring
  · intro o ho
    obtain ⟨h1, h2⟩ := hin o ho
    omega
  · intro i hi
    apply hst
    simp only [tdesc, List.length_cons, List.length_append, List.length_map, List.length_singleton]
    omega

/-- C39 for global variables: the addresses a module passes to the collector for a variable are exactly those of its
traced pointers, each once. -/
theorem C39_globals (t : Ty) (adr : Nat) :
    (∀ a, a ∈ enumVar t adr ↔ ∃ o, PtrAt t o ∧ a = adr + o) ∧ (enumVar t adr).length = nofPtrs t 1 := by
  rw [enumVar_eq]
  refine ⟨?_, put_length ..⟩
  intro a
  rw [put_at, List.mem_map]
  constructor
  · rintro ⟨o, ho, rfl⟩; exact ⟨o, (mem_put t o).mp ho, rfl⟩
  · rintro ⟨o, ho, rfl⟩; exact ⟨o, (mem_put t o).mpr ho, rfl⟩

/-- C39 for types imported from other modules: the offsets are those of the type in its own module, provided that the
types of fields that are not exported contain no untraced pointers and no records with base types. -/
theorem C39_import_partial (t : Ty) (h : HiddenPlain t) (o : Nat) :
    (o ∈ put (importTy t) 1 0 ↔ PtrAt t o) ∧ put (importTy t) 1 0 = put t 1 0 := by
  have := put_import t 1 0 h
  exact ⟨by rw [this]; exact mem_put t o, this⟩

/-- C39: a type that passes through several modules: the third module sees what the second one sees, and fields that are not
exported there hide the same pointers. -/
theorem C39_reexport (t : Ty) (adr : Nat) :
    importTy (importTy t) = importTy t ∧ outHd (importTy t) 1 adr = outHd t 1 adr :=
  ⟨import_import t, outHd_import t 1 adr⟩

/-! ### Where the property fails -/

/-- `B = RECORD p: POINTER TO ... END`. -/
def exB : Ty := .record 8 true .nil (.fld true 0 (.ptr true) .nil)

/-- `E = RECORD (B) q: POINTER TO ... END`. -/
def exE : Ty := .record 16 true exB (.fld true 8 (.ptr true) .nil)

/-- `T* = RECORD i*: LONGINT; e: E END`. -/
def exT : Ty := .record 24 true .nil (.fld true 0 (.basic 8) (.fld false 8 exE .nil))

/-- C39 fails for imported types: a field that is not exported and whose type is an extension loses the pointers of the base
type.  A module that imports `T` and extends it lists the pointer at 16 but not the one at 8, so that the collector reclaims
objects reachable only through it. -/
theorem C39_hidden_base :
    PtrAt exT 8 ∧ 8 ∉ put (importTy exT) 1 0 ∧ put (importTy exT) 1 0 = [16] ∧ put exT 1 0 = [8, 16] ∧
    Placed 8 exT ∧ (erase exT).WF := by
  refine ⟨(mem_put exT 8).mp (by decide), by decide, by decide, by decide, ?_, ?_⟩
  · simp only [exT, exE, exB, Placed, PlacedFlds, IsRec, true_or, or_true, and_true]
    repeat' first | trivial | exact ⟨_, _, rfl, rfl, rfl⟩ | apply And.intro
  · simp [exT, exE, exB, erase, eraseRec, eraseFlds, Layout.Typ.WF, Layout.Rec.WF, Layout.Fields.WF, Layout.P2]

/-- `T* = RECORD i*: LONGINT; a: POINTER [1] TO ... END`, with an untraced pointer in a field that is not exported. -/
def exU : Ty := .record 16 true .nil (.fld true 0 (.basic 8) (.fld false 8 (.ptr false) .nil))

/-- C39 fails for imported types also for untraced pointers: in a module that imports `T` the field counts as traced, so that
the collector follows whatever address it contains. -/
theorem C39_hidden_untraced : (∀ o, ¬ PtrAt exU o) ∧ put (importTy exU) 1 0 = [8] := by
  refine ⟨fun o h => ?_, by decide⟩
  have := (mem_put exU o).mpr h
  simp [exU, put, putFlds] at this

/-! ### Concrete cases -/

/-- `RECORD (B) a: ARRAY 2 OF ARRAY 3 OF RECORD i: LONGINT; p: POINTER END; q: POINTER [1] END`. -/
def exArr : Ty := .record 112 true exB (.fld true 8 (.arr 2 (.arr 3 (.record 16 true .nil
  (.fld true 0 (.basic 8) (.fld true 8 (.ptr true) .nil))))) (.fld true 104 (.ptr false) .nil))

example : put exArr 1 0 = [0, 16, 32, 48, 64, 80, 96] ∧ tdesc exArr = [112, 0, 16, 32, 48, 64, 80, 96, -64] := by decide

example : Placed 8 exArr ∧ (erase exArr).WF ∧ Layout.layoutTyp 8 (erase exArr) = some (112, 8) := by
  refine ⟨?_, ?_, by decide⟩
  · simp only [exArr, exB, Placed, PlacedFlds, IsRec, true_or, or_true, and_true]
    repeat' first | trivial | exact ⟨_, _, rfl, rfl, rfl⟩ | apply And.intro
  · simp [exArr, exB, erase, eraseRec, eraseFlds, Layout.Typ.WF, Layout.Rec.WF, Layout.Fields.WF, Layout.P2]

example : enumVar (.arr 2 exB) 1000 = [1000, 1008] ∧ enumVar (.arr 2 (.arr 2 (.ptr true))) 1000 = [1000, 1008, 1016, 1024] := by
  decide

/-- A type with a hidden array of records meets the hypothesis of `C39_import_partial`. -/
def exH : Ty := .record 40 true exB (.fld false 8 (.arr 2 (.record 16 true .nil
  (.fld true 0 (.basic 8) (.fld false 8 (.ptr true) .nil)))) .nil)

example : HiddenPlain exH ∧ put (importTy exH) 1 0 = [0, 16, 32] := by
  refine ⟨by simp [exH, exB, HiddenPlain, HiddenPlainFlds, Plain, PlainFlds], by decide⟩

end Verif.Ptrs
