import Verif.Common
import Mathlib.Data.Finset.Card
import Mathlib.Data.Finset.Range
import Verif.FileNum.PropsNum
import Verif.SymFile.PropsExport

/-!
# C19: importing what was exported
-/
namespace Verif.SymFile
open Verif.FileNum Verif.Arith

theorem inNum_write {x : Int} (h : InRange 32 x) (r : Stream) : inNum (writeNum x ++ r) = some (x, r) :=
  C17_roundtrip (by decide) h r

theorem inNameLoop_out (n : Name) : ∀ (k : Nat) (r : Stream), (∀ c ∈ n, c ≠ 0) → n.length < k →
    inNameLoop k (n ++ 0 :: r) = some (n, r) := by
  induction n with
  | nil =>
    intro k r _ hk
    cases k with
    | zero => simp at hk
    | succ k => simp [inNameLoop]
  | cons c n ih =>
    intro k r h hk
    cases k with
    | zero => simp at hk
    | succ k =>
      rw [List.cons_append, inNameLoop, if_neg (h c (by simp)), ih k r (fun d hd => h d (by simp [hd]))
        (by simpa using hk)]
      rfl

theorem inName_out {n : Name} (h : WFName n) (r : Stream) : inName (outName n ++ r) = some (n, r) := by
  have := inNameLoop_out n 256 r h.1 h.2
  simpa [inName, outName] using this

theorem nodup_length {l : List Nat} (h : l.Nodup) {k : Nat} (hk : ∀ m ∈ l, m < k) : l.length ≤ k := by
  have h1 : l.toFinset ⊆ Finset.range k := by
    intro m hm
    rw [Finset.mem_range]
    exact hk m (List.mem_toFinset.1 hm)
  have h2 := Finset.card_le_card h1
  rwa [List.toFinset_card_of_nodup h, Finset.card_range] at h2

/-- The states of exporter and importer correspond. -/
structure Rel (env : Env) (s : ES) (i : IS) : Prop where
  len : i.tbl.length = s.refs.length
  mods : i.mods = s.mods.map env.modName
  good : Good s

/-- The importer's state after reading what the exporter wrote while going from `s` to `s'`. -/
def after (env : Env) (R : List Nat) (i : IS) (s s' : ES) : IS :=
  ⟨i.tbl ++ (s'.refs.drop s.refs.length).map (fun id => some (renDesc env R (env.typ id))),
    s'.mods.map env.modName⟩

theorem after_self {env : Env} {R : List Nat} {i : IS} {s : ES} (h : Rel env s i) :
    after env R i s s = i := by
  cases i
  simp [after, ← h.mods]

theorem after_trans {env : Env} {R : List Nat} {i : IS} {s s1 s2 : ES} (h1 : s.refs <+: s1.refs)
    (h2 : s1.refs <+: s2.refs) : after env R (after env R i s s1) s1 s2 = after env R i s s2 := by
  obtain ⟨a, ha⟩ := h1
  obtain ⟨b, hb⟩ := h2
  simp [after, ← hb, ← ha]

theorem after_rel {env : Env} {R : List Nat} {i : IS} {s s' : ES} (h : Rel env s i)
    (e : Ext env s s') : Rel env s' (after env R i s s') := by
  refine ⟨?_, rfl, e.good h.good⟩
  have := e.pre.length_le
  simp [after, h.len]; omega

/-- `inn` reads back what `out` writes, for texts shorter than `k`. -/
def RT (env : Env) (R : List Nat) (out : TRef → ES → Option (List Nat × ES)) (inn : Reader) (k : Nat) :
    Prop :=
  ∀ t s bs s' i rest, WFT t → out t s = some (bs, s') → Rel env s i → s'.refs <+: R → bs.length < k →
    inn i (bs ++ rest) = some (renT R t, after env R i s s', rest)

theorem inMod_out {env : Env} (hw : WFEnv env) {m : Nat} {s s' : ES} {bs : List Nat} {i : IS}
    (h : outMod env m s = some (bs, s')) (hm : i.mods = s.mods.map env.modName) (hg : Good s)
    (rest : Stream) :
    inMod i (bs ++ rest) = some (env.modName m, ⟨i.tbl, s'.mods.map env.modName⟩, rest) := by
  unfold outMod at h
  split at h
  · split at h
    · rename_i hi
      simp only [Option.some.injEq, Prod.mk.injEq] at h
      obtain ⟨rfl, rfl⟩ := h
      have hlt := List.idxOf_lt_length_of_mem hi
      have h64 := nodup_length hg.2.1 hg.2.2.1
      have hget : i.mods[s.mods.idxOf m]? = some (env.modName m) := by
        rw [hm, List.getElem?_map, List.getElem?_eq_getElem hlt, List.getElem_idxOf]
        rfl
      rw [inMod, inNum_write (by simp only [InRange]; norm_num; omega)]
      simp only [Option.bind_eq_bind, Option.bind_some]
      by_cases h0 : s.mods.idxOf m = 0
      · rw [h0] at hget ⊢
        simp [hget, ← hm]
      · rw [if_neg (by omega), if_neg (by omega), if_pos (by omega)]
        rw [show (- -(s.mods.idxOf m : Int)).toNat = s.mods.idxOf m by omega, hget]
        simp [← hm]
    · simp only [Option.some.injEq, Prod.mk.injEq] at h
      obtain ⟨rfl, rfl⟩ := h
      rw [inMod, List.append_assoc, inNum_write (by decide)]
      simp only [Option.bind_eq_bind, Option.bind_some]
      rw [if_neg (by decide), if_pos trivial, inName_out (hw.2 m)]
      simp [hm]
  · simp at h

section
variable {env : Env} {R : List Nat} {out : TRef → ES → Option (List Nat × ES)} {inn : Reader} {k : Nat}
  (ho : OutGood env out) (hrt : RT env R out inn k)
include ho hrt

theorem inPars_out (ps : List Par) : ∀ (n : Nat) (s s' : ES) (bs : List Nat) (i : IS) (rest : Stream),
    (∀ p ∈ ps, WFPar p) → outPars out ps s = some (bs, s') → Rel env s i → s'.refs <+: R →
    bs.length < k → bs.length ≤ n →
    inPars inn n i (bs ++ rest) = some (ps.map (renPar R), after env R i s s', rest) := by
  induction ps with
  | nil =>
    intro n s s' bs i rest _ h hr _ _ hn
    simp only [outPars, Option.some.injEq, Prod.mk.injEq] at h
    obtain ⟨rfl, rfl⟩ := h
    have := writeNum_pos 18
    obtain ⟨n, rfl⟩ : ∃ m, n = m + 1 := ⟨n - 1, by omega⟩
    rw [inPars, inNum_write (by decide)]
    simp [after_self hr]
  | cons p ps ih =>
    intro n s s' bs i rest hwf h hr hR hk hn
    simp only [outPars, Option.bind_eq_bind, Option.bind_eq_some_iff, Prod.exists, Option.some.injEq,
      Prod.mk.injEq] at h
    obtain ⟨b1, s1, h1, b2, s2, h2, rfl, rfl⟩ := h
    obtain ⟨wt, wa, wn⟩ := hwf p (by simp)
    have e1 := (ho _ _ _ _ h1).1
    have e2 := (outPars_good ho _ _ _ _ h2).1
    simp only [List.length_append] at hk hn
    have hp := writeNum_pos (if p.isVar then 24 else 23)
    obtain ⟨n, rfl⟩ : ∃ m, n = m + 1 := ⟨n - 1, by omega⟩
    simp only [List.append_assoc]
    rw [inPars, inNum_write (by cases p.isVar <;> decide)]
    simp only [Option.bind_eq_bind, Option.bind_some]
    rw [if_neg (by cases p.isVar <;> decide),
      hrt _ _ _ _ _ _ wt h1 hr (e2.pre.trans hR) (by omega)]
    simp only [Option.bind_some]
    rw [inNum_write wa]
    simp only [Option.bind_some]
    rw [inName_out wn]
    simp only [Option.bind_some]
    rw [ih n s1 s2 b2 _ rest (fun q hq => hwf q (by simp [hq])) h2 (after_rel hr e1) hR (by omega)
      (by omega), after_trans e1.pre e2.pre]
    simp only [Option.bind_some, List.map_cons, renPar]
    cases p with
    | mk isVar typ adr name => cases isVar <;> rfl

theorem inSign_out {res : TRef} {ps : List Par} {n : Nat} {s s' : ES} {bs : List Nat} {i : IS}
    {rest : Stream} (wr : WFT res) (wp : ∀ p ∈ ps, WFPar p) (h : outSign out res ps s = some (bs, s'))
    (hr : Rel env s i) (hR : s'.refs <+: R) (hk : bs.length < k) (hn : bs.length ≤ n) :
    inSign inn n i (bs ++ rest) =
      some ((renT R res, ps.map (renPar R)), after env R i s s', rest) := by
  simp only [outSign, Option.bind_eq_bind, Option.bind_eq_some_iff, Prod.exists, Option.some.injEq,
    Prod.mk.injEq] at h
  obtain ⟨b1, s1, h1, b2, s2, h2, rfl, rfl⟩ := h
  have e1 := (ho _ _ _ _ h1).1
  have e2 := (outPars_good ho _ _ _ _ h2).1
  simp only [List.length_append] at hk hn
  rw [List.append_assoc, inSign, hrt _ _ _ _ _ _ wr h1 hr (e2.pre.trans hR) (by omega)]
  simp only [Option.bind_eq_bind, Option.bind_some]
  rw [inPars_out ho hrt ps n s1 s2 b2 _ rest wp h2 (after_rel hr e1) hR (by omega) (by omega),
    after_trans e1.pre e2.pre]
  rfl

/-- The loop over the fields; `nx` is the tag that follows the fields. -/
theorem inFlds_out (fs : List Fld) : ∀ (n : Nat) (s s' : ES) (bs : List Nat) (i : IS) (nx : Int)
    (rest : Stream), (∀ f ∈ fs, WFFld f) → outFlds out fs s = some (bs, s') → Rel env s i →
    s'.refs <+: R → bs.length < k → bs.length < n → InRange 32 nx → ¬ (25 ≤ nx ∧ nx ≤ 28) →
    (do let (tag, t) ← inNum (bs ++ (writeNum nx ++ rest))
        inFlds inn n tag i t) =
      some ((fs.map (renFld R), nx), after env R i s s', rest) := by
  induction fs with
  | nil =>
    intro n s s' bs i nx rest _ h hr _ _ hn hx hx2
    simp only [outFlds, Option.some.injEq, Prod.mk.injEq] at h
    obtain ⟨rfl, rfl⟩ := h
    obtain ⟨n, rfl⟩ : ∃ m, n = m + 1 := ⟨n - 1, by simp at hn; omega⟩
    rw [List.nil_append, inNum_write hx]
    simp only [Option.bind_eq_bind, Option.bind_some]
    rw [inFlds, if_neg hx2]
    simp [after_self hr]
  | cons f fs ih =>
    intro n s s' bs i nx rest hwf h hr hR hk hn hx hx2
    cases f with
    | visible ro t name adr =>
      simp only [outFlds, Option.bind_eq_bind, Option.bind_eq_some_iff, Prod.exists, Option.some.injEq,
        Prod.mk.injEq] at h
      obtain ⟨b1, s1, h1, b2, s2, h2, rfl, rfl⟩ := h
      obtain ⟨wt, wn, wa⟩ := hwf _ (List.mem_cons_self ..)
      have e1 := (ho _ _ _ _ h1).1
      have e2 := (outFlds_good ho _ _ _ _ h2).1
      simp only [List.length_append] at hk hn
      have hp := writeNum_pos (if ro then 26 else 25)
      obtain ⟨n, rfl⟩ : ∃ m, n = m + 1 := ⟨n - 1, by omega⟩
      simp only [List.append_assoc]
      rw [inNum_write (by cases ro <;> decide)]
      simp only [Option.bind_eq_bind, Option.bind_some]
      rw [inFlds, if_pos (by cases ro <;> decide), if_pos (by cases ro <;> decide),
        hrt _ _ _ _ _ _ wt h1 hr (e2.pre.trans hR) (by omega)]
      simp only [Option.bind_eq_bind, Option.bind_some]
      rw [inName_out wn]
      simp only [Option.bind_some]
      rw [inNum_write wa]
      simp only [Option.bind_some]
      have ih' := ih n s1 s2 b2 (after env R i s s1) nx rest (fun q hq => hwf q (by simp [hq])) h2
        (after_rel hr e1) hR (by omega) (by omega) hx hx2
      simp only [Option.bind_eq_bind, Option.bind_eq_some_iff, Prod.exists] at ih'
      obtain ⟨tg, st, q1, q2⟩ := ih'
      rw [q1]
      simp only [Option.bind_some]
      rw [q2, after_trans e1.pre e2.pre]
      cases ro <;> simp [renFld]
    | hdptr adr =>
      simp only [outFlds, Option.bind_eq_bind, Option.bind_eq_some_iff, Prod.exists, Option.some.injEq,
        Prod.mk.injEq] at h
      obtain ⟨b2, s2, h2, rfl, rfl⟩ := h
      have wa : InRange 32 adr := hwf _ (List.mem_cons_self ..)
      simp only [List.length_append] at hk hn
      have hp := writeNum_pos 27
      obtain ⟨n, rfl⟩ : ∃ m, n = m + 1 := ⟨n - 1, by omega⟩
      simp only [List.append_assoc]
      rw [inNum_write (by decide)]
      simp only [Option.bind_eq_bind, Option.bind_some]
      rw [inFlds, if_pos (by decide), if_neg (by decide), if_pos rfl, inNum_write wa]
      simp only [Option.bind_eq_bind, Option.bind_some]
      have ih' := ih n s s2 b2 i nx rest (fun q hq => hwf q (by simp [hq])) h2
        hr hR (by omega) (by omega) hx hx2
      simp only [Option.bind_eq_bind, Option.bind_eq_some_iff, Prod.exists] at ih'
      obtain ⟨tg, st, q1, q2⟩ := ih'
      rw [q1]
      simp only [Option.bind_some]
      rw [q2]
      simp [renFld]

omit ho hrt in
theorem outTProcs_head {ps : List TProc} {s s' : ES} {bs : List Nat}
    (h : outTProcs out ps s = some (bs, s')) :
    ∃ (nx : Int) (b : List Nat), bs = writeNum nx ++ b ∧ (nx = 18 ∨ nx = 29) := by
  cases ps with
  | nil =>
    simp only [outTProcs, Option.some.injEq, Prod.mk.injEq] at h
    exact ⟨18, [], by simp [h.1], Or.inl rfl⟩
  | cons p ps =>
    simp only [outTProcs, Option.bind_eq_bind, Option.bind_eq_some_iff, Prod.exists, Option.some.injEq,
      Prod.mk.injEq] at h
    obtain ⟨b1, s1, h1, b2, s2, h2, rfl, rfl⟩ := h
    exact ⟨29, b1 ++ (outName p.name ++ (writeNum p.num ++ b2)), by simp only [List.append_assoc], Or.inr rfl⟩

theorem inTProcs_out (ps : List TProc) : ∀ (n : Nat) (s s' : ES) (bs : List Nat) (i : IS)
    (rest : Stream), (∀ p ∈ ps, WFTProc p) → outTProcs out ps s = some (bs, s') → Rel env s i →
    s'.refs <+: R → bs.length < k → bs.length ≤ n →
    (do let (tag, t) ← inNum (bs ++ rest)
        inTProcs inn n tag i t) =
      some (ps.map (renTProc R), after env R i s s', rest) := by
  induction ps with
  | nil =>
    intro n s s' bs i rest _ h hr _ _ hn
    simp only [outTProcs, Option.some.injEq, Prod.mk.injEq] at h
    obtain ⟨rfl, rfl⟩ := h
    have := writeNum_pos 18
    obtain ⟨n, rfl⟩ : ∃ m, n = m + 1 := ⟨n - 1, by omega⟩
    rw [inNum_write (by decide)]
    simp [inTProcs, after_self hr]
  | cons p ps ih =>
    intro n s s' bs i rest hwf h hr hR hk hn
    simp only [outTProcs, Option.bind_eq_bind, Option.bind_eq_some_iff, Prod.exists, Option.some.injEq,
      Prod.mk.injEq] at h
    obtain ⟨b1, s1, h1, b2, s2, h2, rfl, rfl⟩ := h
    obtain ⟨wr, wp, wn, wa⟩ := hwf p (by simp)
    have e1 := (outSign_good ho h1).1
    have e2 := (outTProcs_good ho _ _ _ _ h2).1
    simp only [List.length_append] at hk hn
    have hp := writeNum_pos 29
    obtain ⟨n, rfl⟩ : ∃ m, n = m + 1 := ⟨n - 1, by omega⟩
    simp only [List.append_assoc]
    rw [inNum_write (by decide)]
    simp only [Option.bind_eq_bind, Option.bind_some]
    rw [inTProcs, if_neg (by decide), if_pos rfl,
      inSign_out ho hrt wr wp h1 hr (e2.pre.trans hR) (by omega) (by omega)]
    simp only [Option.bind_eq_bind, Option.bind_some]
    rw [inName_out wn]
    simp only [Option.bind_some]
    rw [inNum_write wa]
    simp only [Option.bind_some]
    have ih' := ih n s1 s2 b2 (after env R i s s1) rest (fun q hq => hwf q (by simp [hq])) h2
      (after_rel hr e1) hR (by omega) (by omega)
    simp only [Option.bind_eq_bind, Option.bind_eq_some_iff, Prod.exists] at ih'
    obtain ⟨tg, st, q1, q2⟩ := ih'
    rw [q1]
    simp only [Option.bind_some]
    rw [q2, after_trans e1.pre e2.pre]
    rfl

theorem inBody_out {b : Body} {n : Nat} {s s' : ES} {bs : List Nat} {i : IS} {rest : Stream}
    (wb : WFBody b) (h : outBody out b s = some (bs, s')) (hr : Rel env s i) (hR : s'.refs <+: R)
    (hk : bs.length < k) (hn : bs.length ≤ n) :
    ∃ (tag : Int) (t : Stream), inNum (bs ++ rest) = some (tag, t) ∧ tag ≠ 35 ∧
      inBody inn n tag i t = some (renBody R b, after env R i s s', rest) := by
  cases b with
  | ptr base =>
    simp only [outBody, Option.bind_eq_bind, Option.bind_eq_some_iff, Prod.exists, Option.some.injEq,
      Prod.mk.injEq] at h
    obtain ⟨b1, s1, h1, rfl, rfl⟩ := h
    simp only [List.length_append] at hk hn
    refine ⟨36, b1 ++ rest, ?_, by decide, ?_⟩
    · rw [List.append_assoc, inNum_write (by decide)]
    · rw [inBody, if_pos rfl, hrt _ _ _ _ _ _ wb h1 hr hR (by omega)]
      rfl
  | arr base c =>
    simp only [outBody, Option.bind_eq_bind, Option.bind_eq_some_iff, Prod.exists, Option.some.injEq,
      Prod.mk.injEq] at h
    obtain ⟨b1, s1, h1, rfl, rfl⟩ := h
    simp only [List.length_append] at hk hn
    refine ⟨37, b1 ++ (writeNum c ++ rest), ?_, by decide, ?_⟩
    · rw [List.append_assoc, List.append_assoc, inNum_write (by decide)]
    · rw [inBody, if_neg (by decide), if_pos rfl, hrt _ _ _ _ _ _ wb.1 h1 hr hR (by omega)]
      simp only [Option.bind_eq_bind, Option.bind_some]
      rw [inNum_write wb.2]
      rfl
  | darr base =>
    simp only [outBody, Option.bind_eq_bind, Option.bind_eq_some_iff, Prod.exists, Option.some.injEq,
      Prod.mk.injEq] at h
    obtain ⟨b1, s1, h1, rfl, rfl⟩ := h
    simp only [List.length_append] at hk hn
    refine ⟨38, b1 ++ rest, ?_, by decide, ?_⟩
    · rw [List.append_assoc, inNum_write (by decide)]
    · rw [inBody, if_neg (by decide), if_neg (by decide), if_pos rfl,
        hrt _ _ _ _ _ _ wb h1 hr hR (by omega)]
      rfl
  | proc res ps =>
    simp only [outBody, Option.bind_eq_bind, Option.bind_eq_some_iff, Prod.exists, Option.some.injEq,
      Prod.mk.injEq] at h
    obtain ⟨b1, s1, h1, rfl, rfl⟩ := h
    simp only [List.length_append] at hk hn
    refine ⟨40, b1 ++ rest, ?_, by decide, ?_⟩
    · rw [List.append_assoc, inNum_write (by decide)]
    · rw [inBody, if_neg (by decide), if_neg (by decide), if_neg (by decide), if_neg (by decide),
        if_pos rfl, inSign_out ho hrt wb.1 wb.2 h1 hr hR (by omega) (by omega)]
      rfl
  | record base size align c flds procs =>
    simp only [outBody, Option.bind_eq_bind, Option.bind_eq_some_iff, Prod.exists, Option.some.injEq,
      Prod.mk.injEq] at h
    obtain ⟨b1, s1, h1, b2, s2, h2, b3, s3, h3, rfl, rfl⟩ := h
    obtain ⟨wb, ws, wa, wc, wf, wp⟩ := wb
    have e1 := (ho _ _ _ _ h1).1
    have e2 := (outFlds_good ho _ _ _ _ h2).1
    have e3 := (outTProcs_good ho _ _ _ _ h3).1
    simp only [List.length_append] at hk hn
    have hp := writeNum_pos 39
    refine ⟨39, b1 ++ (writeNum size ++ (writeNum align ++ (writeNum c ++ (b2 ++ (b3 ++ rest))))),
      ?_, by decide, ?_⟩
    · simp only [List.append_assoc]
      rw [inNum_write (by decide)]
    · obtain ⟨bt, hbt, wt⟩ : ∃ bt, out bt s = some (b1, s1) ∧ WFT bt ∧
          (if renT R bt = .basic 10 then none else some (renT R bt)) = base.map (renT R) := by
        cases base with
        | none => exact ⟨_, h1, ⟨by decide, by decide, by decide⟩, by simp [renT]⟩
        | some t =>
          refine ⟨t, h1, (wb t rfl).1, ?_⟩
          have hne : renT R t ≠ .basic 10 := by
            have := (wb t rfl).2
            cases t <;> simp_all [renT]
          simp [hne]
      rw [inBody, if_neg (by decide), if_neg (by decide), if_neg (by decide), if_pos rfl,
        hrt _ _ _ _ _ _ wt.1 hbt hr ((e2.pre.trans e3.pre).trans hR) (by omega)]
      simp only [Option.bind_eq_bind, Option.bind_some]
      rw [inNum_write ws]
      simp only [Option.bind_some]
      rw [inNum_write wa]
      simp only [Option.bind_some]
      rw [inNum_write wc]
      simp only [Option.bind_some]
      obtain ⟨nx, b3', hb3, hnx⟩ := outTProcs_head h3
      have hf := inFlds_out ho hrt flds n s1 s2 b2 (after env R i s s1) nx (b3' ++ rest) wf h2
        (after_rel hr e1) (e3.pre.trans hR) (by omega) (by omega)
        (by rcases hnx with rfl | rfl <;> decide) (by rcases hnx with rfl | rfl <;> decide)
      rw [show writeNum nx ++ (b3' ++ rest) = b3 ++ rest by rw [hb3, List.append_assoc]] at hf
      simp only [Option.bind_eq_bind, Option.bind_eq_some_iff, Prod.exists] at hf
      obtain ⟨tg, st, q1, q2⟩ := hf
      rw [q1]
      simp only [Option.bind_some]
      rw [q2]
      simp only [Option.bind_some]
      have hr2 : Rel env s2 (after env R (after env R i s s1) s1 s2) := after_rel (after_rel hr e1) e2
      have ht := inTProcs_out ho hrt procs n s2 s3 b3 _ rest wp h3 hr2 hR (by omega) (by omega)
      rw [hb3, List.append_assoc, inNum_write (by rcases hnx with rfl | rfl <;> decide)] at ht
      simp only [Option.bind_eq_bind, Option.bind_some] at ht
      rw [ht, after_trans e1.pre e2.pre, after_trans (e1.pre.trans e2.pre) e3.pre]
      simp only [Option.bind_some, renBody, ← wt.2]

end

theorem inStr_out {env : Env} (hw : WFEnv env) (R : List Nat) : ∀ (k depth : Nat),
    RT env R (outStr env depth) (inStr k) k := by
  intro k
  induction k with
  | zero => intro depth t s bs s' i rest _ _ _ _ hk; omega
  | succ k ih =>
    intro depth t s bs s' i rest wt h hr hR hk
    cases t with
    | basic f =>
      have h' : outStr env depth (.basic f) s = some (writeNum (-(f : Int)), s) := by
        cases depth <;> rfl
      rw [h'] at h
      simp only [Option.some.injEq, Prod.mk.injEq] at h
      obtain ⟨rfl, rfl⟩ := h
      obtain ⟨w1, w2, w3⟩ := wt
      rw [inStr, inNum_write (by simp only [InRange]; norm_num; omega)]
      simp only [Option.bind_eq_bind, Option.bind_some, neg_neg]
      rw [if_pos (by omega), inTyp, if_neg (by omega), if_neg (by omega), if_pos (by omega)]
      simp [renT, after_self hr]
    | int n =>
      have h' : outStr env depth (.int n) s = some (writeNum (-4) ++ writeNum n, s) := by
        cases depth <;> rfl
      rw [h'] at h
      simp only [Option.some.injEq, Prod.mk.injEq] at h
      obtain ⟨rfl, rfl⟩ := h
      rw [inStr, List.append_assoc, inNum_write (by decide)]
      simp only [Option.bind_eq_bind, Option.bind_some, neg_neg]
      rw [if_pos (by decide), inTyp, if_pos rfl,
        inNum_write (by rcases wt with rfl | rfl | rfl | rfl <;> decide)]
      rcases wt with rfl | rfl | rfl | rfl <;> simp [renT, after_self hr]
    | set n =>
      have h' : outStr env depth (.set n) s = some (writeNum (-7) ++ writeNum n, s) := by
        cases depth <;> rfl
      rw [h'] at h
      simp only [Option.some.injEq, Prod.mk.injEq] at h
      obtain ⟨rfl, rfl⟩ := h
      rw [inStr, List.append_assoc, inNum_write (by decide)]
      simp only [Option.bind_eq_bind, Option.bind_some, neg_neg]
      rw [if_pos (by decide), inTyp, if_neg (by decide), if_pos rfl,
        inNum_write (by rcases wt with rfl | rfl <;> decide)]
      rcases wt with rfl | rfl <;> simp [renT, after_self hr]
    | str id =>
      cases depth with
      | zero => simp [outStr] at h
      | succ depth =>
        rw [outStr] at h
        split at h
        · rename_i hi
          simp only [Option.some.injEq, Prod.mk.injEq] at h
          obtain ⟨rfl, rfl⟩ := h
          have hlt := List.idxOf_lt_length_of_mem hi
          have hg := hr.good.2.2.2
          simp only [firstRef] at hg hk ⊢
          rw [inStr, inNum_write (by simp only [InRange]; norm_num; omega)]
          simp only [Option.bind_eq_bind, Option.bind_some, neg_neg]
          have hl := hr.len
          rw [if_pos (by omega), inTyp, if_neg (by omega), if_neg (by omega), if_neg (by omega),
            if_pos (by simp only [firstRef]; omega)]
          obtain ⟨c, rfl⟩ := hR
          rw [after_self hr]
          simp only [renT, firstRef, List.idxOf_append_of_mem hi, Option.some.injEq,
            Prod.mk.injEq, TRef.str.injEq, and_true]
          omega
        · rename_i hi
          dsimp only at h
          split at h
          · simp at h
          · rename_i hlt
            simp only [Option.bind_eq_bind, Option.bind_eq_some_iff, Prod.exists, Option.some.injEq,
              Prod.mk.injEq] at h
            obtain ⟨bm, s2, hm, bb, s3, hb, rfl, rfl⟩ := h
            have hg1 : Good { s with refs := s.refs ++ [id] } := by
              obtain ⟨g1, g2, g3, g4⟩ := hr.good
              refine ⟨?_, g2, g3, Nat.lt_of_not_le hlt⟩
              show (s.refs ++ [id]).Nodup
              rw [List.nodup_append]
              refine ⟨g1, by simp, ?_⟩
              intro a ha b hb'
              rw [List.mem_singleton] at hb'
              subst hb'
              rintro rfl; exact hi ha
            obtain ⟨m1, m2, m3, m4⟩ := outMod_ext hm
            have hg2 := m3 hg1
            obtain ⟨e, ie⟩ := outBody_good (outStr_good env depth) hb
            obtain ⟨wn, wsf, wb⟩ := hw.1 id
            have hpre : s.refs ++ [id] <+: s3.refs := by
              have := e.pre; rw [m1] at this; exact this
            have hp34 := writeNum_pos 34
            simp only [List.length_append] at hk
            rw [inStr]
            simp only [List.append_assoc]
            rw [inNum_write (by decide)]
            simp only [Option.bind_eq_bind, Option.bind_some]
            rw [if_neg (by decide)]
            have hmm := inMod_out hw (i := { i with tbl := i.tbl ++ [none] }) hm hr.mods hg1
              (outName (env.typ id).name ++ ((if (env.typ id).sysflag ≠ 0 then
                writeNum 35 ++ writeNum (env.typ id).sysflag else []) ++ (bb ++ rest)))
            rw [hmm]
            simp only [Option.bind_some]
            rw [inName_out wn]
            simp only [Option.bind_some]
            have hrel2 : Rel env s2 ⟨i.tbl ++ [none], s2.mods.map env.modName⟩ := by
              refine ⟨?_, rfl, hg2⟩
              rw [m1]; simp [hr.len]
            obtain ⟨tag, st, q1, q2, q3⟩ := inBody_out (outStr_good env depth) (ih depth) (n := k)
              (rest := rest) wb hb hrel2 hR (by omega) (by omega)
            have hflag : (do
                let (tag, s) ← inNum ((if (env.typ id).sysflag ≠ 0 then
                  writeNum 35 ++ writeNum (env.typ id).sysflag else []) ++ (bb ++ rest))
                (if tag = 35 then do
                  let (f, s) ← inNum s
                  let (t, s) ← inNum s
                  some (f, t, s)
                else some (0, tag, s))) = some ((env.typ id).sysflag, tag, st) := by
              by_cases hz : (env.typ id).sysflag = 0
              · rw [if_neg (by simp [hz]), List.nil_append, q1]
                simp only [Option.bind_eq_bind, Option.bind_some]
                rw [if_neg q2, hz]
              · rw [if_pos hz, List.append_assoc, inNum_write (by decide)]
                simp only [Option.bind_eq_bind, Option.bind_some]
                rw [if_pos trivial, inNum_write wsf]
                simp only [Option.bind_some]
                rw [q1]
                rfl
            simp only [Option.bind_eq_bind, Option.bind_eq_some_iff, Prod.exists] at hflag
            obtain ⟨tg0, st0, f1, f2⟩ := hflag
            rw [f1]
            simp only [Option.bind_some]
            rw [f2]
            simp only [Option.bind_some]
            rw [q3]
            simp only [Option.bind_some, Option.some.injEq, Prod.mk.injEq, and_true]
            obtain ⟨c, hc⟩ := hpre
            obtain ⟨d, hd⟩ := hR
            constructor
            · rw [← hd, ← hc]
              simp only [renT, hr.len, TRef.str.injEq]
              rw [List.append_assoc, List.append_assoc, List.idxOf_append_of_notMem hi]
              simp
            · simp only [after, m1, ← hc, IS.mk.injEq, and_true]
              rw [List.append_assoc s.refs, List.drop_left]
              rw [show (s.refs ++ ([id] ++ c)).drop (s.refs ++ [id]).length = c by
                rw [← List.append_assoc, List.drop_left]]
              rw [List.append_assoc, List.set_append, if_neg (by simp), Nat.sub_self]
              rfl

/-! ### Objects -/

theorem outObj_good {env : Env} {o : Obj} {s s' : ES} {bs : List Nat}
    (h : outObj env o s = some (bs, s')) :
    Ext env s s' ∧ (∀ j ∈ idsObj o, j ∈ s'.refs) ∧ 0 < bs.length := by
  have ho := outStr_good env maxDepth
  cases o with
  | con v name =>
    simp only [outObj, Option.some.injEq, Prod.mk.injEq] at h
    obtain ⟨rfl, rfl⟩ := h
    exact ⟨Ext.refl _ _, by simp [idsObj], by simp [outName]⟩
  | typ t =>
    simp only [outObj, Option.bind_eq_bind, Option.bind_eq_some_iff, Prod.exists, Option.some.injEq,
      Prod.mk.injEq] at h
    obtain ⟨b1, s1, h1, rfl, rfl⟩ := h
    obtain ⟨e1, i1, p1⟩ := ho _ _ _ _ h1
    exact ⟨e1, i1, by simp only [List.length_append]; omega⟩
  | «alias» t name =>
    simp only [outObj, Option.bind_eq_bind, Option.bind_eq_some_iff, Prod.exists, Option.some.injEq,
      Prod.mk.injEq] at h
    obtain ⟨b1, s1, h1, rfl, rfl⟩ := h
    obtain ⟨e1, i1, p1⟩ := ho _ _ _ _ h1
    exact ⟨e1, i1, by simp only [List.length_append]; omega⟩
  | var ro t name =>
    simp only [outObj, Option.bind_eq_bind, Option.bind_eq_some_iff, Prod.exists, Option.some.injEq,
      Prod.mk.injEq] at h
    obtain ⟨b1, s1, h1, rfl, rfl⟩ := h
    obtain ⟨e1, i1, p1⟩ := ho _ _ _ _ h1
    exact ⟨e1, i1, by simp only [List.length_append]; omega⟩
  | xproc res ps name =>
    simp only [outObj, Option.bind_eq_bind, Option.bind_eq_some_iff, Prod.exists, Option.some.injEq,
      Prod.mk.injEq] at h
    obtain ⟨b1, s1, h1, rfl, rfl⟩ := h
    obtain ⟨e1, i1⟩ := outSign_good ho h1
    exact ⟨e1, i1, by simp only [List.length_append, outName]; simp⟩
  | iproc res ps name =>
    simp only [outObj, Option.bind_eq_bind, Option.bind_eq_some_iff, Prod.exists, Option.some.injEq,
      Prod.mk.injEq] at h
    obtain ⟨b1, s1, h1, rfl, rfl⟩ := h
    obtain ⟨e1, i1⟩ := outSign_good ho h1
    exact ⟨e1, i1, by simp only [List.length_append, outName]; simp⟩
  | cproc res ps code name =>
    simp only [outObj, Option.bind_eq_bind, Option.bind_eq_some_iff, Prod.exists, Option.some.injEq,
      Prod.mk.injEq] at h
    obtain ⟨b1, s1, h1, rfl, rfl⟩ := h
    obtain ⟨e1, i1⟩ := outSign_good ho h1
    exact ⟨e1, i1, by simp only [List.length_append, outName]; simp⟩

theorem inConst_out {v : CVal} (wv : WFConst v) (i : IS) (rest : Stream) :
    ∃ (tag : Int) (st : Stream), inNum (outConst v ++ rest) = some (tag, st) ∧ tag ≤ 11 ∧
      inConst tag i st = some (v, i, rest) := by
  cases v with
  | bool c =>
    refine ⟨2, c :: rest, ?_, by decide, ?_⟩
    · rw [outConst, List.append_assoc, inNum_write (by decide)]; rfl
    · simp [inConst, inCh]
  | char c =>
    refine ⟨3, c :: rest, ?_, by decide, ?_⟩
    · rw [outConst, List.append_assoc, inNum_write (by decide)]; rfl
    · simp [inConst, inCh]
  | int x n =>
    obtain ⟨w1, w2⟩ := wv
    refine ⟨4, writeNum x ++ (writeNum n ++ rest), ?_, by decide, ?_⟩
    · simp only [outConst, List.append_assoc]; rw [inNum_write (by decide)]
    · rw [inConst, if_neg (by decide), if_neg (by decide), if_pos rfl, inNum_write w1]
      simp only [Option.bind_eq_bind, Option.bind_some]
      rw [inTyp, if_pos rfl, inNum_write (by rcases w2 with rfl | rfl | rfl | rfl <;> decide)]
      rcases w2 with rfl | rfl | rfl | rfl <;> simp
  | set x n =>
    obtain ⟨w1, w2⟩ := wv
    refine ⟨7, writeNum x ++ (writeNum n ++ rest), ?_, by decide, ?_⟩
    · simp only [outConst, List.append_assoc]; rw [inNum_write (by decide)]
    · rw [inConst, if_neg (by decide), if_neg (by decide), if_neg (by decide), if_pos rfl,
        C17_roundtrip (by decide) w1]
      simp only [Option.bind_eq_bind, Option.bind_some]
      rw [inTyp, if_neg (by decide), if_pos rfl, inNum_write (by rcases w2 with rfl | rfl <;> decide)]
      rcases w2 with rfl | rfl <;> simp
  | real b =>
    refine ⟨5, b ++ rest, ?_, by decide, ?_⟩
    · simp only [outConst, List.append_assoc]; rw [inNum_write (by decide)]
    · have : readBytes 4 (b ++ rest) = some (b, rest) := by
        have : b.length = 4 := wv
        simp [readBytes, ← this]
      simp [inConst, inBytes, this]
  | lreal b =>
    refine ⟨6, b ++ rest, ?_, by decide, ?_⟩
    · simp only [outConst, List.append_assoc]; rw [inNum_write (by decide)]
    · have : readBytes 8 (b ++ rest) = some (b, rest) := by
        have : b.length = 8 := wv
        simp [readBytes, ← this]
      simp [inConst, inBytes, this]
  | string s =>
    refine ⟨8, outName s ++ rest, ?_, by decide, ?_⟩
    · simp only [outConst, List.append_assoc]; rw [inNum_write (by decide)]
    · simp [inConst, inName_out wv]
  | nil =>
    refine ⟨9, rest, ?_, by decide, ?_⟩
    · simp only [outConst]; rw [inNum_write (by decide)]
    · simp [inConst]

theorem inObj_out {env : Env} (hw : WFEnv env) {R : List Nat} {o : Obj} {n : Nat} {s s' : ES}
    {bs : List Nat} {i : IS} {rest : Stream} (wo : WFObj o) (h : outObj env o s = some (bs, s'))
    (hr : Rel env s i) (hR : s'.refs <+: R) (hn : bs.length ≤ n) :
    ∃ (tag : Int) (st : Stream), inNum (bs ++ rest) = some (tag, st) ∧
      inObj n tag i st = some (renObj R o, after env R i s s', rest) := by
  have ho := outStr_good env maxDepth
  have hrt := inStr_out hw R n maxDepth
  cases o with
  | con v name =>
    simp only [outObj, Option.some.injEq, Prod.mk.injEq] at h
    obtain ⟨rfl, rfl⟩ := h
    obtain ⟨wv, wn⟩ := wo
    obtain ⟨tag, st, q1, q2, q3⟩ := inConst_out wv i (outName name ++ rest)
    refine ⟨tag, st, by rw [List.append_assoc, q1], ?_⟩
    rw [inObj, if_neg (by omega), if_pos q2, q3]
    simp only [Option.bind_eq_bind, Option.bind_some]
    rw [inName_out wn, after_self hr]
    rfl
  | typ t =>
    simp only [outObj, Option.bind_eq_bind, Option.bind_eq_some_iff, Prod.exists, Option.some.injEq,
      Prod.mk.injEq] at h
    obtain ⟨b1, s1, h1, rfl, rfl⟩ := h
    have hp := writeNum_pos 19
    simp only [List.length_append] at hn
    refine ⟨19, b1 ++ rest, by rw [List.append_assoc, inNum_write (by decide)], ?_⟩
    rw [inObj, if_pos rfl, hrt _ _ _ _ _ _ wo h1 hr hR (by omega)]
    rfl
  | «alias» t name =>
    simp only [outObj, Option.bind_eq_bind, Option.bind_eq_some_iff, Prod.exists, Option.some.injEq,
      Prod.mk.injEq] at h
    obtain ⟨b1, s1, h1, rfl, rfl⟩ := h
    have hp := writeNum_pos 20
    simp only [List.length_append] at hn
    refine ⟨20, b1 ++ (outName name ++ rest),
      by rw [List.append_assoc, List.append_assoc, inNum_write (by decide)], ?_⟩
    rw [inObj, if_neg (by decide), if_neg (by decide), if_neg (by decide), if_pos rfl,
      hrt _ _ _ _ _ _ wo.1 h1 hr hR (by omega)]
    simp only [Option.bind_eq_bind, Option.bind_some]
    rw [inName_out wo.2]
    rfl
  | var ro t name =>
    simp only [outObj, Option.bind_eq_bind, Option.bind_eq_some_iff, Prod.exists, Option.some.injEq,
      Prod.mk.injEq] at h
    obtain ⟨b1, s1, h1, rfl, rfl⟩ := h
    have hp := writeNum_pos (if ro then 22 else 21)
    simp only [List.length_append] at hn
    refine ⟨if ro then 22 else 21, b1 ++ (outName name ++ rest),
      by rw [List.append_assoc, List.append_assoc, inNum_write (by cases ro <;> decide)], ?_⟩
    rw [inObj, if_neg (by cases ro <;> decide), if_neg (by cases ro <;> decide),
      if_neg (by cases ro <;> decide), if_neg (by cases ro <;> decide),
      hrt _ _ _ _ _ _ wo.1 h1 hr hR (by omega)]
    simp only [Option.bind_eq_bind, Option.bind_some]
    rw [inName_out wo.2]
    cases ro <;> rfl
  | xproc res ps name =>
    simp only [outObj, Option.bind_eq_bind, Option.bind_eq_some_iff, Prod.exists, Option.some.injEq,
      Prod.mk.injEq] at h
    obtain ⟨b1, s1, h1, rfl, rfl⟩ := h
    have hp := writeNum_pos 31
    simp only [List.length_append] at hn
    refine ⟨31, b1 ++ (outName name ++ rest),
      by rw [List.append_assoc, List.append_assoc, inNum_write (by decide)], ?_⟩
    rw [inObj, if_neg (by decide), if_neg (by decide), if_pos (by decide),
      inSign_out ho hrt wo.1 wo.2.1 h1 hr hR (by omega) (by omega)]
    simp only [Option.bind_eq_bind, Option.bind_some]
    rw [if_pos trivial, inName_out wo.2.2]
    rfl
  | iproc res ps name =>
    simp only [outObj, Option.bind_eq_bind, Option.bind_eq_some_iff, Prod.exists, Option.some.injEq,
      Prod.mk.injEq] at h
    obtain ⟨b1, s1, h1, rfl, rfl⟩ := h
    have hp := writeNum_pos 32
    simp only [List.length_append] at hn
    refine ⟨32, b1 ++ (outName name ++ rest),
      by rw [List.append_assoc, List.append_assoc, inNum_write (by decide)], ?_⟩
    rw [inObj, if_neg (by decide), if_neg (by decide), if_pos (by decide),
      inSign_out ho hrt wo.1 wo.2.1 h1 hr hR (by omega) (by omega)]
    simp only [Option.bind_eq_bind, Option.bind_some]
    rw [if_neg (by decide), if_pos trivial, inName_out wo.2.2]
    rfl
  | cproc res ps code name =>
    simp only [outObj, Option.bind_eq_bind, Option.bind_eq_some_iff, Prod.exists, Option.some.injEq,
      Prod.mk.injEq] at h
    obtain ⟨b1, s1, h1, rfl, rfl⟩ := h
    obtain ⟨w1, w2, w3, w4⟩ := wo
    have hp := writeNum_pos 33
    simp only [List.length_append] at hn
    refine ⟨33, b1 ++ (writeNum code.length ++ (code ++ (outName name ++ rest))),
      by simp only [List.append_assoc]; rw [inNum_write (by decide)], ?_⟩
    rw [inObj, if_neg (by decide), if_neg (by decide), if_pos (by decide),
      inSign_out ho hrt w1 w2 h1 hr hR (by omega) (by omega)]
    simp only [Option.bind_eq_bind, Option.bind_some]
    rw [if_neg (by decide), if_neg (by decide), if_pos trivial,
      inNum_write (by simp only [InRange]; norm_num; omega)]
    simp only [Option.bind_some]
    have : readBytes (code.length : Int).toNat (code ++ (outName name ++ rest)) =
        some (code, outName name ++ rest) := by simp [readBytes]
    rw [this]
    simp only [Option.bind_some]
    rw [inName_out w4]
    rfl

theorem inObjs_out {env : Env} (hw : WFEnv env) {R : List Nat} (os : List Obj) :
    ∀ (n : Nat) (s s' : ES) (bs : List Nat) (i : IS), (∀ o ∈ os, WFObj o) →
    outObjs env os s = some (bs, s') → Rel env s i → s'.refs <+: R → bs.length < n →
    inObjs n i bs = some (os.map (renObj R), after env R i s s') ∧ Ext env s s' ∧
      ∀ o ∈ os, ∀ j ∈ idsObj o, j ∈ s'.refs := by
  induction os with
  | nil =>
    intro n s s' bs i _ h hr _ hn
    simp only [outObjs, Option.some.injEq, Prod.mk.injEq] at h
    obtain ⟨rfl, rfl⟩ := h
    obtain ⟨n, rfl⟩ : ∃ m, n = m + 1 := ⟨n - 1, by simp at hn; omega⟩
    refine ⟨by simp [inObjs, after_self hr], Ext.refl _ _, by simp⟩
  | cons o os ih =>
    intro n s s' bs i hwf h hr hR hn
    simp only [outObjs, Option.bind_eq_bind, Option.bind_eq_some_iff, Prod.exists, Option.some.injEq,
      Prod.mk.injEq] at h
    obtain ⟨b1, s1, h1, b2, s2, h2, rfl, rfl⟩ := h
    obtain ⟨e1, i1, p1⟩ := outObj_good h1
    simp only [List.length_append] at hn
    obtain ⟨n, rfl⟩ : ∃ m, n = m + 1 := ⟨n - 1, by omega⟩
    obtain ⟨q, e2, i2⟩ := ih n s1 s2 b2 (after env R i s s1) (fun o ho => hwf o (by simp [ho])) h2
      (after_rel hr e1) hR (by omega)
    obtain ⟨tag, st, q1, q2⟩ := inObj_out hw (R := R) (n := n) (rest := b2) (hwf o (by simp)) h1 hr
      (e2.pre.trans hR) (by omega)
    refine ⟨?_, e1.trans e2, ?_⟩
    · have hne : ¬ (b1 ++ b2 = []) := by
        intro hc
        have := congrArg List.length hc
        simp at this
        have := this.1
        subst this
        simp at p1
      rw [inObjs, if_neg hne, q1]
      simp only [Option.bind_eq_bind, Option.bind_some]
      rw [q2]
      simp only [Option.bind_some]
      rw [q, after_trans e1.pre e2.pre]
      rfl
    · intro o' ho' j hj
      rcases List.mem_cons.1 ho' with rfl | ho'
      · exact e2.pre.subset (i1 j hj)
      · exact i2 o' ho' j hj

theorem inLinks_out (ls : List Name) : ∀ (n : Nat) (rest : Stream), (∀ l ∈ ls, WFName l ∧ l ≠ []) →
    ls.length < n → inLinks n (outLinks ls ++ rest) = some (ls, rest) := by
  induction ls with
  | nil =>
    intro n rest _ hn
    obtain ⟨n, rfl⟩ : ∃ m, n = m + 1 := ⟨n - 1, by simp at hn; omega⟩
    have : inName ([] ++ 0 :: rest) = some ([], rest) := by
      have := inName_out (n := []) ⟨by simp, by simp⟩ rest
      simpa [outName] using this
    simp only [List.nil_append] at this
    simp [inLinks, outLinks, this]
  | cons l ls ih =>
    intro n rest hwf hn
    obtain ⟨n, rfl⟩ : ∃ m, n = m + 1 := ⟨n - 1, by simp at hn; omega⟩
    obtain ⟨w1, w2⟩ := hwf l (by simp)
    rw [outLinks, List.append_assoc, inLinks, inName_out w1]
    simp only [Option.bind_eq_bind, Option.bind_some]
    rw [if_neg w2, ih n rest (fun l hl => hwf l (by simp [hl])) (by simpa using hn)]
    rfl

theorem outLinks_length (ls : List Name) : ls.length < (outLinks ls).length := by
  induction ls with
  | nil => simp [outLinks]
  | cons l ls ih => simp [outLinks, outName]; omega

/-- **C19.**  Importing an exported interface yields the same interface: there is a list `R` of type
numbers, without duplicates, such that the importer's table of types holds, in the order of `R`, exactly
the descriptions of those types, and the objects are the exported ones; every type an exported object
mentions, and every type such a type mentions in turn, is in the table.  Types are identified by their
position, modules by name. -/
theorem C19_roundtrip {env : Env} (hw : WFEnv env) {links : List Name} {objs : List Obj}
    (hl : ∀ l ∈ links, WFName l ∧ l ≠ []) (hobj : ∀ o ∈ objs, WFObj o) {bs : List Nat} {s : ES}
    (h : export_ env links objs = some (bs, s)) :
    ∃ R : List Nat, R.Nodup ∧
      import_ bs = some ⟨env.modName 0, links, objs.map (renObj R),
        R.map (fun id => some (renDesc env R (env.typ id)))⟩ ∧
      (∀ o ∈ objs, ∀ j ∈ idsObj o, j ∈ R) ∧
      (∀ id ∈ R, ∀ j ∈ idsBody (env.typ id).body, j ∈ R) := by
  simp only [export_, Option.bind_eq_bind, Option.bind_eq_some_iff, Prod.exists, Option.some.injEq,
    Prod.mk.injEq] at h
  obtain ⟨b, s', hb, rfl, rfl⟩ := h
  have hg : Good { refs := [], mods := [0] } := by
    refine ⟨List.nodup_nil, by simp, by simp, by decide⟩
  have hrel : Rel env { refs := [], mods := [0] } ⟨[], [env.modName 0]⟩ := ⟨rfl, rfl, hg⟩
  obtain ⟨q, e, ids⟩ := inObjs_out hw (R := s'.refs) objs
    ((writeNum 16 ++ outName (env.modName 0) ++ outLinks links ++ b).length + 1) _ s' b
    ⟨[], [env.modName 0]⟩ hobj hb hrel (List.prefix_refl _) (by simp only [List.length_append]; omega)
  refine ⟨s'.refs, (e.good hg).1, ?_, ids, ?_⟩
  · have hm : inMod { tbl := [], mods := [] }
        (writeNum 16 ++ outName (env.modName 0) ++ outLinks links ++ b) =
        some (env.modName 0, ⟨[], [env.modName 0]⟩, outLinks links ++ b) := by
      simp only [List.append_assoc]
      rw [inMod, inNum_write (by decide)]
      simp only [Option.bind_eq_bind, Option.bind_some]
      rw [if_neg (by decide), if_pos trivial, inName_out (hw.2 0)]
      rfl
    have hlen := outLinks_length links
    rw [import_]
    dsimp only
    rw [hm]
    simp only [Option.bind_eq_bind, Option.bind_some]
    rw [inLinks_out links _ _ hl (by simp only [List.length_append]; omega)]
    simp only [Option.bind_some]
    rw [q]
    simp [after]
  · intro id hid j hj
    exact e.closed id hid (by simp) j hj

/-- **C19**: the recursion bound of the model's exporter is never what stops it; a larger bound gives the
same text or the same failure (too many types or too many modules). -/
theorem C19_export_depth (env : Env) (d : Nat) (t : TRef) (s : ES) (hd : 255 ≤ d) :
    outStr env d t s = outStr env maxDepth t s := by
  obtain ⟨d, rfl⟩ : ∃ m, d = m + 1 := ⟨d - 1, by omega⟩
  exact outStr_depth env d 254 t s (by omega) (by omega)

/-- **C19 fails for integer constants that need more than 32 bits**: the value is written with 64 bits and
read back into 32. -/
theorem C19_int_const_truncated (v : Int) (hv : InI64 v) (hbig : ¬ InRange 32 v) (i : IS)
    (rest : Stream) :
    ∃ st v', inNum (outConst (.int v 8) ++ rest) = some (4, st) ∧
      inConst 4 i st = some (.int v' 8, i, rest) ∧ v' ≠ v := by
  refine ⟨writeNum v ++ (writeNum 8 ++ rest), wrapW 32 v, ?_, ?_, ?_⟩
  · simp only [outConst, List.append_assoc]; rw [inNum_write (by decide)]; rfl
  · have h8 := C17_roundtrip (len := 8) (x := v) (by decide) (by simpa [InI64, InRange] using hv)
      (writeNum 8 ++ rest)
    rw [readNum, if_pos (by decide)] at h8
    simp only [Option.map_eq_some_iff, Prod.exists, Prod.mk.injEq] at h8
    obtain ⟨q, r, h8, hq, rfl⟩ := h8
    have hq' : wrapW 32 q = wrapW 32 v := by
      rw [← hq]; simp only [wrapW]; norm_num; omega
    have : inNum (writeNum v ++ (writeNum 8 ++ rest)) = some (wrapW 32 v, writeNum 8 ++ rest) := by
      rw [inNum, readNum, if_pos (by decide), h8]
      simp only [Option.map_some, ← hq']
    rw [inConst, if_neg (by decide), if_neg (by decide), if_pos rfl, this]
    simp only [Option.bind_eq_bind, Option.bind_some]
    rw [inTyp, if_pos rfl, inNum_write (by decide)]
    simp
  · intro hc
    apply hbig
    rw [← hc]
    simp only [InRange, wrapW]; norm_num; omega

/-! ### A concrete module meets the hypotheses: a list type that refers to itself. -/

/-- `TYPE List* = POINTER TO Node; Node* = RECORD next*: List; val*: LONGINT END`, in module "M". -/
def exampleEnv : Env where
  typ := fun id => if id = 0 then ⟨0, [76], 0, .ptr (.str 1)⟩
    else ⟨0, [78], 0, .record none 16 8 0 [.visible false (.str 0) [110] 0,
      .visible false (.int 4) [118] 8] []⟩
  modName := fun _ => [77]

theorem exampleEnv_wf : WFEnv exampleEnv := by
  constructor
  · intro id
    by_cases h : id = 0
    · subst h
      refine ⟨⟨by decide, by decide⟩, by decide, trivial⟩
    · have : exampleEnv.typ id = ⟨0, [78], 0, .record none 16 8 0 [.visible false (.str 0) [110] 0,
        .visible false (.int 4) [118] 8] []⟩ := by simp [exampleEnv, h]
      rw [this]
      refine ⟨⟨by decide, by decide⟩, by decide, ⟨by simp, by decide, by decide, by decide, ?_, by simp⟩⟩
      intro f hf
      simp only [List.mem_cons, List.not_mem_nil, or_false] at hf
      rcases hf with rfl | rfl
      · exact ⟨trivial, ⟨by decide, by decide⟩, by decide⟩
      · exact ⟨Or.inr (Or.inr (Or.inl rfl)), ⟨by decide, by decide⟩, by decide⟩
  · intro m
    exact ⟨by simp [exampleEnv], by simp [exampleEnv]⟩

theorem exampleEnv_export (d : Nat) :
    (outStr exampleEnv (d + 3) (.str 0) { refs := [], mods := [0] }).isSome = true := by
  simp [outStr, outMod, exampleEnv, outBody, outFlds, outTProcs, firstRef]

example : (export_ exampleEnv [] [.typ (.str 0), .con (.int 300 2) [99]]).isSome = true := by
  have h := exampleEnv_export 252
  obtain ⟨⟨b, s⟩, h⟩ := Option.isSome_iff_exists.1 h
  have h' : outStr exampleEnv maxDepth (.str 0) { refs := [], mods := [0] } = some (b, s) := h
  simp [export_, outObjs, outObj, h']

end Verif.SymFile
