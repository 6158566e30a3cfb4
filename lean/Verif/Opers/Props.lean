import Verif.Common
import Verif.Opers.Model
import Verif.Types.Props

/-!
# C62: operators
-/
namespace Verif.Opers
open Verif.Types

variable {T : Tab}

theorem isConst_iff (e : Ex) : isConst e = true ↔ Constant e := by
  unfold isConst Constant
  cases e.kind <;> simp

theorem noValue_iff (e : Ex) : noValue e = false ↔ e.value := by
  unfold noValue Ex.value
  cases e.kind <;> simp

/-! ### Operands brought to one type -/

theorem includes_self {t : Nat} (h : Numeric T t) : Includes T t t := by
  rcases h with h | h | h
  · exact .inl ⟨h, h, Nat.le_refl _⟩
  · exact .inr (.inl ⟨h, .inr h⟩)
  · exact .inr (.inr ⟨h, .inr (.inr h)⟩)

theorem mix_num (hw : Wf T) {x y : Ex} {r : Nat} (h : Smallest T x.typ y.typ r) : mix T x y = ([], r, r) := by
  obtain ⟨h1, h2, h3⟩ := h
  unfold mix
  by_cases he : x.typ = y.typ
  · rw [if_pos he]
    rcases h3 with h3 | ⟨h3, h4⟩
    · rw [h3, he]
    · exact absurd (by rw [← he]; rw [h3] at h1; exact h1) h4
  · rw [if_neg he]
    simp only [Includes] at h1 h2 h3
    rcases h3 with rfl | ⟨rfl, h4⟩
    · rcases h1 with ⟨a, b, c⟩ | ⟨a, b⟩ | ⟨a, b⟩
      · simp only [a, b]
        rw [if_neg (by omega)]; simp
      · rcases b with b | b
        · simp [a, b]
        · exact absurd (by rw [hw.real' _ a, hw.real' _ b]) he
      · rcases b with b | b | b
        · simp [a, b]
        · simp [a, b]
        · exact absurd (by rw [hw.lreal' _ a, hw.lreal' _ b]) he
    · rcases h2 with ⟨a, b, c⟩ | ⟨a, b⟩ | ⟨a, b⟩
      · simp only [a, b]
        rw [if_pos ⟨trivial, by
          by_contra hc
          exact h4 (.inl ⟨b, a, by omega⟩)⟩]
      · rcases b with b | b
        · simp [a, b]
        · exact absurd (by rw [hw.real' _ a, hw.real' _ b]) he
      · rcases b with b | b | b
        · simp [a, b]
        · simp [a, b]
        · exact absurd (by rw [hw.lreal' _ a, hw.lreal' _ b]) he

theorem num_mix (hw : Wf T) {x y : Ex} {z t : Nat} (h : mix T x y = ([], z, t)) (hz : Numeric T z) : t = z ∧ Smallest T x.typ y.typ z := by
  unfold mix at h
  by_cases he : x.typ = y.typ
  · rw [if_pos he] at h
    simp only [Prod.mk.injEq, true_and] at h
    obtain ⟨rfl, rfl⟩ := h
    exact ⟨he.symm, includes_self hz, by rw [← he]; exact includes_self hz, .inl he⟩
  · rw [if_neg he] at h
    have hstr : ¬ Numeric T stringtyp := by unfold Numeric Integer Real; rw [hw.str]; simp
    cases hf : (T x.typ).form <;> simp only [hf] at h
    case char =>
      split at h
      · simp only [Prod.mk.injEq, true_and] at h
        exact absurd (h.1 ▸ hz) hstr
      · simp at h
    case int =>
      split at h
      · rename_i hc
        simp only [Prod.mk.injEq, true_and] at h
        obtain ⟨rfl, rfl⟩ := h
        refine ⟨rfl, includes_self hz, .inl ⟨hf, hc.1, by omega⟩, .inr ⟨rfl, ?_⟩⟩
        rintro (h | h | h)
        · omega
        · rw [hc.1] at h; simp at h
        · rw [hc.1] at h; simp at h
      · rename_i hc
        split at h
        · rename_i hc2
          simp only [Prod.mk.injEq, true_and] at h
          obtain ⟨rfl, rfl⟩ := h
          refine ⟨rfl, ?_, includes_self hz, .inl rfl⟩
          rcases hc2 with h2 | h2 | h2
          · exact .inl ⟨h2, hf, by
              by_contra hh
              exact hc ⟨h2, by omega⟩⟩
          · exact .inr (.inl ⟨h2, .inl hf⟩)
          · exact .inr (.inr ⟨h2, .inl hf⟩)
        · simp at h
    case set =>
      exfalso
      split at h
      · simp only [Prod.mk.injEq, true_and] at h
        rw [← h.1] at hz
        unfold Numeric Integer Real at hz; rw [hf] at hz; simp at hz
      · split at h
        · rename_i hg
          simp only [Prod.mk.injEq, true_and] at h
          rw [← h.1] at hz
          unfold Numeric Integer Real at hz; rw [hg] at hz; simp at hz
        · simp at h
    case real =>
      split at h
      · rename_i hc
        simp only [Prod.mk.injEq, true_and] at h
        obtain ⟨rfl, rfl⟩ := h
        refine ⟨rfl, includes_self hz, .inr (.inl ⟨hf, .inl hc⟩), .inr ⟨rfl, ?_⟩⟩
        unfold Includes; rw [hc, hf]; simp
      · split at h
        · rename_i hc2
          simp only [Prod.mk.injEq, true_and] at h
          obtain ⟨rfl, rfl⟩ := h
          refine ⟨rfl, ?_, includes_self hz, .inl rfl⟩
          rcases hc2 with h2 | h2
          · exact .inr (.inl ⟨h2, .inr hf⟩)
          · exact .inr (.inr ⟨h2, .inr (.inl hf)⟩)
        · simp at h
    case lreal =>
      split at h
      · rename_i hc
        simp only [Prod.mk.injEq, true_and] at h
        obtain ⟨rfl, rfl⟩ := h
        refine ⟨rfl, includes_self hz, .inr (.inr ⟨hf, hc⟩), .inr ⟨rfl, ?_⟩⟩
        rcases hc with hc | hc | hc
        · unfold Includes; rw [hc, hf]; simp
        · unfold Includes; rw [hc, hf]; simp
        · exact absurd (by rw [hw.lreal' _ hf, hw.lreal' _ hc]) he
      · simp at h
    all_goals
      exfalso
      first
        | (simp only [Prod.mk.injEq] at h
           obtain ⟨_, rfl, _⟩ := h
           unfold Numeric Integer Real at hz; rw [hf] at hz; simp at hz)
        | simp at h

theorem mix_set {x y : Ex} {r : Nat} (h : LargerSet T x.typ y.typ r) : mix T x y = ([], r, r) := by
  obtain ⟨h1, h2, h3⟩ := h
  unfold SetType at h1 h2
  unfold mix
  by_cases he : x.typ = y.typ
  · rw [if_pos he]
    rcases h3 with ⟨rfl, _⟩ | ⟨rfl, h⟩
    · rw [he]
    · rw [he] at h; omega
  · rw [if_neg he]
    simp only [h1, h2]
    rcases h3 with ⟨rfl, h⟩ | ⟨rfl, h⟩
    · rw [if_neg (by omega)]; simp
    · rw [if_pos ⟨trivial, h⟩]

/-- What the types of the operands are if no error was reported so far and the type after it is no number. -/
theorem mix_cases (hw : Wf T) {x y : Ex} {z t : Nat} (h : mix T x y = ([], z, t)) (hz : ¬ Numeric T z) :
    (SetType T z ∧ t = z ∧ LargerSet T x.typ y.typ z) ∨ (¬ SetType T z ∧ t = y.typ ∧
      (z = x.typ ∧ (x.typ = y.typ ∨ x.typ = niltyp ∧ ((T y.typ).form = .ptr ∨ (T y.typ).form = .proc) ∨
          (T x.typ).form = .ptr ∧ checkPtrOp T x.typ y.typ = [] ∨ (T x.typ).form = .proc ∧ y.typ = niltyp ∨ (T x.typ).form = .str ∨
          (T x.typ).form = .comp ∧ (T x.typ).comp ≠ .record) ∨
        z = stringtyp ∧ x.typ = chartyp ∧ Constant x ∧ x.typ ≠ y.typ)) := by
  unfold mix at h
  have hstr : ¬ SetType T stringtyp := by unfold SetType; rw [hw.str]; simp
  by_cases he : x.typ = y.typ
  · rw [if_pos he] at h
    simp only [Prod.mk.injEq, true_and] at h
    obtain ⟨rfl, rfl⟩ := h
    by_cases hs : SetType T x.typ
    · exact .inl ⟨hs, he.symm, hs, by rw [← he]; exact hs, .inl ⟨he, by rw [he]⟩⟩
    · exact .inr ⟨hs, rfl, .inl ⟨rfl, .inl he⟩⟩
  · rw [if_neg he] at h
    cases hf : (T x.typ).form <;> simp only [hf] at h
    case char =>
      split at h
      · rename_i hc
        simp only [Prod.mk.injEq, true_and] at h
        obtain ⟨rfl, rfl⟩ := h
        exact .inr ⟨hstr, rfl, .inr ⟨rfl, hw.char' _ hf, (isConst_iff x).mp hc, he⟩⟩
      · simp at h
    case set =>
      split at h
      · rename_i hc
        simp only [Prod.mk.injEq, true_and] at h
        obtain ⟨rfl, rfl⟩ := h
        exact .inl ⟨hf, rfl, hf, hc.1, .inr ⟨rfl, hc.2⟩⟩
      · rename_i hc
        split at h
        · rename_i hg
          simp only [Prod.mk.injEq, true_and] at h
          obtain ⟨rfl, rfl⟩ := h
          exact .inl ⟨hg, rfl, hf, hg, .inl ⟨rfl, by
            by_contra hh
            exact hc ⟨hg, by omega⟩⟩⟩
        · simp at h
    case nil =>
      simp only [Prod.mk.injEq] at h
      obtain ⟨h1, rfl, rfl⟩ := h
      split at h1
      · rename_i hg
        exact .inr ⟨by unfold SetType; rw [hf]; simp, rfl, .inl ⟨rfl, .inr (.inl ⟨hw.nil' _ hf, hg⟩)⟩⟩
      · simp at h1
    case ptr =>
      simp only [Prod.mk.injEq] at h
      obtain ⟨h1, rfl, rfl⟩ := h
      exact .inr ⟨by unfold SetType; rw [hf]; simp, rfl, .inl ⟨rfl, .inr (.inr (.inl ⟨rfl, h1⟩))⟩⟩
    case proc =>
      simp only [Prod.mk.injEq] at h
      obtain ⟨h1, rfl, rfl⟩ := h
      split at h1
      · rename_i hg
        exact .inr ⟨by unfold SetType; rw [hf]; simp, rfl, .inl ⟨rfl, .inr (.inr (.inr (.inl ⟨rfl, hw.nil' _ hg⟩)))⟩⟩
      · simp at h1
    case str =>
      simp only [Prod.mk.injEq, true_and] at h
      obtain ⟨rfl, rfl⟩ := h
      exact .inr ⟨by unfold SetType; rw [hf]; simp, rfl, .inl ⟨rfl, .inr (.inr (.inr (.inr (.inl rfl))))⟩⟩
    case comp =>
      simp only [Prod.mk.injEq] at h
      obtain ⟨h1, rfl, rfl⟩ := h
      split at h1
      · simp at h1
      · rename_i hg
        exact .inr ⟨by unfold SetType; rw [hf]; simp, rfl, .inl ⟨rfl, .inr (.inr (.inr (.inr (.inr ⟨rfl, hg⟩))))⟩⟩
    all_goals
      exfalso
      first
        | (simp at h; done)
        | (apply hz
           repeat' split at h
           all_goals first
             | (simp at h; done)
             | (simp only [Prod.mk.injEq, true_and] at h
                obtain ⟨rfl, rfl⟩ := h
                unfold Numeric Integer Real
                simp_all))

/-- Pointers to records. -/
theorem checkPtrOp_eq (hw : Wf T) {x y : Nat} (hx : (T x).form = .ptr) : checkPtrOp T x y = [] ↔
    y = niltyp ∨ ∃ a b, RecPtr T x a ∧ RecPtr T y b ∧ (Ext T a b ∨ Ext T b a) := by
  have hlev : ∀ {t u : Nat}, Ext T t u → (T t).comp = .record → (T u).extlev ≤ (T t).extlev := by
    intro t u h
    induction h with
    | refl => intro _; exact Nat.le_refl _
    | step h1 h2 _ ih =>
      intro h3
      obtain ⟨h4, h5⟩ := hw.record _ _ h1 h2
      have := ih h4
      omega
  have heq : ∀ {t u : Nat}, Ext T t u → (T t).comp = .record → (T t).extlev = (T u).extlev → t = u := by
    intro t u h h1 h2
    cases h with
    | refl => rfl
    | step h3 h4 h5 =>
      obtain ⟨h6, h7⟩ := hw.record _ _ h3 h4
      have := hlev h5 h6
      omega
  unfold checkPtrOp
  by_cases hy : (T y).form = .ptr
  · rw [if_pos hy]
    obtain ⟨p, hp⟩ := hw.ptr x hx
    obtain ⟨q, hq⟩ := hw.ptr y hy
    simp only [hp, hq, Option.getD_some]
    have hyn : y ≠ niltyp := by rintro rfl; rw [hw.nil] at hy; simp at hy
    by_cases hr : (T p).comp = .record ∧ (T q).comp = .record
    · rw [if_pos hr]
      have e : (∃ a b, RecPtr T x a ∧ RecPtr T y b ∧ (Ext T a b ∨ Ext T b a)) ↔ (Ext T p q ∨ Ext T q p) := by
        constructor
        · rintro ⟨a, b, ⟨_, ha, _⟩, ⟨_, hb, _⟩, h⟩
          rw [hp] at ha; rw [hq] at hb
          cases ha; cases hb; exact h
        · intro h; exact ⟨p, q, ⟨hx, hp, hr.1⟩, ⟨hy, hq, hr.2⟩, h⟩
      rw [e]
      by_cases hl : (T p).extlev < (T q).extlev
      · rw [if_pos hl]
        have hc := climb_eq hw p ((T q).extlev + 1) q hr.2 (by omega)
        cases hn : (climb T p ((T q).extlev + 1) (some q)).isNone with
        | false => simp only [Bool.false_eq_true, if_false, true_iff]; exact .inr (.inr (hc.mp hn))
        | true =>
          simp only [if_true, List.cons_ne_nil, false_iff, not_or]
          refine ⟨hyn, fun h => ?_, fun h => ?_⟩
          · have := hlev h hr.1; omega
          · have := hc.mpr h; rw [hn] at this; cases this
      · rw [if_neg hl]
        have hc := climb_eq hw q ((T p).extlev + 1) p hr.1 (by omega)
        cases hn : (climb T q ((T p).extlev + 1) (some p)).isNone with
        | false => simp only [Bool.false_eq_true, if_false, true_iff]; exact .inr (.inl (hc.mp hn))
        | true =>
          simp only [if_true, List.cons_ne_nil, false_iff, not_or]
          refine ⟨hyn, fun h => ?_, fun h => ?_⟩
          · have := hc.mpr h; rw [hn] at this; cases this
          · have h1 := hlev h hr.2
            have := heq h hr.2 (by omega)
            subst this
            have := hc.mpr (.refl _); rw [hn] at this; cases this
    · rw [if_neg hr]
      simp only [List.cons_ne_nil, false_iff, not_or]
      refine ⟨hyn, ?_⟩
      rintro ⟨a, b, ⟨_, ha, ha'⟩, ⟨_, hb, hb'⟩, h⟩
      rw [hp] at ha; rw [hq] at hb
      cases ha; cases hb
      exact hr ⟨ha', hb'⟩
  · rw [if_neg hy]
    by_cases hn : (T y).form = .nil
    · rw [if_pos hn]; simp only [true_iff]; exact .inl (hw.nil' _ hn)
    · rw [if_neg hn]
      simp only [List.cons_ne_nil, false_iff, not_or]
      refine ⟨by rintro rfl; rw [hw.nil] at hn; simp at hn, ?_⟩
      rintro ⟨a, b, _, ⟨hb, _⟩, _⟩
      exact hy hb

/-! ### Strings -/

theorem charArr_iff (hw : Wf T) (t : Nat) : charArr T t = true ↔ ((T t).comp = .array ∨ (T t).comp = .dyn) ∧ (T t).base = some chartyp ∨ t = stringtyp := by
  unfold charArr
  rw [decide_eq_true_eq]
  constructor
  · rintro (⟨h1, h2⟩ | h)
    · cases hb : (T t).base with
      | none => rw [hb, Option.getD_none, hw.undf] at h2; simp at h2
      | some b =>
        rw [hb, Option.getD_some] at h2
        rw [hw.char' _ h2]
        exact .inl ⟨h1, rfl⟩
    · exact .inr (hw.str' _ h)
  · rintro (⟨h1, h2⟩ | rfl)
    · refine .inl ⟨h1, ?_⟩
      rw [h2, Option.getD_some, hw.char]
    · exact .inr (by rw [hw.str])

theorem strings_iff (hw : Wf T) {x y : Ex} {z : Nat} (hz : z = x.typ ∧ x.typ ≠ chartyp ∨ z = stringtyp ∧ x.typ = chartyp ∧ Constant x) :
    strings T x y z y.typ = true ↔ StringLike T x ∧ StringLike T y := by
  have hx : charArr T z = true ↔ StringLike T x := by
    rw [charArr_iff hw]
    rcases hz with ⟨rfl, h⟩ | ⟨rfl, h1, h2⟩
    · unfold StringLike; tauto
    · unfold StringLike; tauto
  have hzc : (T z).form ≠ .char := by
    rcases hz with ⟨rfl, h⟩ | ⟨rfl, h1, h2⟩
    · exact fun e => h (hw.char' _ e)
    · rw [hw.str]; simp
  have hcs : charArr T stringtyp = true := (charArr_iff hw _).mpr (.inr rfl)
  have hcc : ¬ charArr T chartyp = true := by rw [charArr_iff hw, hw.char]; simp [chartyp, stringtyp]
  unfold strings
  simp only [hzc, false_and, and_false, if_false, Bool.and_eq_true, hx]
  constructor
  · rintro ⟨h1, h2⟩
    refine ⟨h1, ?_⟩
    split at h2
    · rename_i hc
      exact .inr (.inr ⟨hw.char' _ hc.2.1, (isConst_iff y).mp hc.2.2⟩)
    · rw [charArr_iff hw] at h2
      unfold StringLike; tauto
  · rintro ⟨h1, h2⟩
    refine ⟨h1, ?_⟩
    split
    · exact hcs
    · rename_i hc
      rw [charArr_iff hw]
      rcases h2 with h2 | h2 | ⟨h2, h3⟩
      · exact .inl h2
      · exact .inr h2
      · exact absurd ⟨hx.mpr h1, by rw [h2, hw.char], (isConst_iff y).mpr h3⟩ hc

/-! ### Operands that are not both constants -/

theorem mix_undef (hw : Wf T) {x y : Ex} {z t : Nat} (h : mix T x y = ([], z, t)) (hx : x.typ ≠ undftyp) : (T z).form ≠ .undef := by
  intro hu
  have hn : ¬ Numeric T z := by unfold Numeric Integer Real; rw [hu]; simp
  rcases mix_cases hw h hn with ⟨h1, _⟩ | ⟨_, _, ⟨h1, _⟩ | ⟨h1, _⟩⟩
  · unfold SetType at h1; rw [hu] at h1; simp at h1
  · exact hx (h1 ▸ hw.undf' _ hu)
  · rw [h1, hw.str] at hu; simp at hu

theorem bool_mix (hw : Wf T) {x y : Ex} {z t : Nat} (h : mix T x y = ([], z, t)) (hb : (T z).form = .bool) : x.typ = booltyp ∧ y.typ = booltyp ∧ z = booltyp ∧ t = booltyp := by
  have hn : ¬ Numeric T z := by unfold Numeric Integer Real; rw [hb]; simp
  have hz := hw.bool' _ hb
  rcases mix_cases hw h hn with ⟨h1, _⟩ | ⟨_, ht, ⟨h1, h2⟩ | ⟨h1, _⟩⟩
  · unfold SetType at h1; rw [hb] at h1; simp at h1
  · rw [h1] at hz
    rw [hz] at h2
    have e : x.typ = y.typ := by
      rcases h2 with h2 | ⟨h2, _⟩ | ⟨h2, _⟩ | ⟨h2, _⟩ | h2 | ⟨h2, _⟩
      · rw [hz]; exact h2
      · simp [booltyp, niltyp] at h2
      all_goals rw [hw.bool] at h2; simp at h2
    exact ⟨hz, e ▸ hz, h1.trans hz, by rw [ht, ← e]; exact hz⟩
  · rw [h1, hw.str] at hb; simp at hb

theorem same_mix {x y : Ex} (h : x.typ = y.typ) : mix T x y = ([], x.typ, y.typ) := by
  unfold mix; rw [if_pos h]

/-- `Op` where no operand is the name of a type or a procedure and not both are constants. -/
def opVar (T : Tab) (o : BinOp) (x y : Arg) : List Nat × Nat × Tree :=
  ((mix T x.ex y.ex).1 ++ (opCase T o x y (mix T x.ex y.ex).2.1 (mix T x.ex y.ex).2.2).1, (opCase T o x y (mix T x.ex y.ex).2.1 (mix T x.ex y.ex).2.2).2)

theorem opVar_of_mix {o : BinOp} {x y : Arg} {z t : Nat} (h : mix T x.ex y.ex = ([], z, t)) : opVar T o x y = opCase T o x y z t := by
  unfold opVar; rw [h]; rfl

theorem opVar_ok {o : BinOp} {x y : Arg} {r : Nat} {tr : Tree} (h : opVar T o x y = ([], r, tr)) :
    ∃ z t, mix T x.ex y.ex = ([], z, t) ∧ opCase T o x y z t = ([], r, tr) := by
  unfold opVar at h
  rcases hm : mix T x.ex y.ex with ⟨es, z, t⟩
  rw [hm] at h
  simp only [Prod.mk.injEq, List.append_eq_nil_iff] at h
  obtain ⟨⟨rfl, h1⟩, h2⟩ := h
  exact ⟨z, t, rfl, Prod.ext h1 h2⟩

theorem form_num {z : Nat} : Numeric T z ↔ (T z).form = .int ∨ (T z).form = .real ∨ (T z).form = .lreal := Iff.rfl

/-- The case of `+`, `-` and `*`. -/
theorem opCase_arith {o : BinOp} (ho : o = .add ∨ o = .sub ∨ o = .mul) (x y : Arg) {z t r : Nat} (hu : (T z).form ≠ .undef) (ht : Numeric T z → t = z) :
    (∃ tr, opCase T o x y z t = ([], r, tr)) ↔ (Numeric T z ∨ SetType T z) ∧ r = z := by
  by_cases hi : (T z).form = .int
  · have hn : Numeric T z := .inl hi
    have := ht hn
    subst this
    have e : ∃ tr, opCase T o x y t t = ([], t, tr) := by
      rcases ho with rfl | rfl | rfl <;> simp only [opCase, hi, if_true, node] <;> split_ifs <;> exact ⟨_, rfl⟩
    constructor
    · rintro ⟨tr, h⟩
      obtain ⟨tr', h'⟩ := e
      rw [h'] at h
      simp only [Prod.mk.injEq, true_and] at h
      exact ⟨.inl hn, h.1.symm⟩
    · rintro ⟨_, rfl⟩; exact e
  · by_cases hk : (T z).form = .real ∨ (T z).form = .lreal ∨ (T z).form = .set
    · have hk' : (T z).form = .undef ∨ (T z).form = .real ∨ (T z).form = .lreal ∨ (T z).form = .set := .inr hk
      have e : opCase T o x y z t = ([], z, .both) := by
        rcases ho with rfl | rfl | rfl <;> simp only [opCase, if_neg hi, if_pos hk', node]
      rw [e]
      constructor
      · rintro ⟨tr, h⟩
        simp only [Prod.mk.injEq, true_and] at h
        refine ⟨?_, h.1.symm⟩
        rcases hk with h | h | h
        · exact .inl (.inr (.inl h))
        · exact .inl (.inr (.inr h))
        · exact .inr h
      · rintro ⟨_, rfl⟩; exact ⟨_, rfl⟩
    · have hk' : ¬ ((T z).form = .undef ∨ (T z).form = .real ∨ (T z).form = .lreal ∨ (T z).form = .set) := by tauto
      constructor
      · rintro ⟨tr, h⟩
        exfalso
        rcases ho with rfl | rfl | rfl <;> simp [opCase, if_neg hi, if_neg hk', node] at h
      · rintro ⟨(h | h), _⟩
        · rcases h with h | h | h
          · exact absurd h hi
          · exact absurd (.inl h) hk
          · exact absurd (.inr (.inl h)) hk
        · exact absurd (.inr (.inr h)) hk

theorem opCase_quo (x y : Arg) {z t r : Nat} (hu : (T z).form ≠ .undef) (hz : Numeric T z → ¬ (isConst y.ex = true ∧ y.val = 0)) :
    (∃ tr, opCase T .quo x y z t = ([], r, tr)) ↔ Numeric T z ∧ r = (if (T z).form = .int then realtyp else z) ∨ SetType T z ∧ r = z := by
  by_cases hn : Numeric T z
  · simp only [opCase, if_neg (hz hn), node, form_num, SetType]
    cases hf : (T z).form <;> simp [hf] at hu ⊢ <;> exact eq_comm
  · rw [form_num] at hn
    simp only [opCase, node, form_num, SetType]
    cases hf : (T z).form <;> simp [hf] at hu hn ⊢
    exact eq_comm

theorem opCase_div {o : BinOp} (ho : o = .div ∨ o = .mod) (x y : Arg) {z t r : Nat} (hu : (T z).form ≠ .undef) (hz : Numeric T z → ¬ (isConst y.ex = true ∧ y.val = 0)) :
    (∃ tr, opCase T o x y z t = ([], r, tr)) ↔ Integer T z ∧ r = z := by
  unfold Integer
  by_cases hi : (T z).form = .int
  · replace hz := hz (.inl hi)
    have e : ∃ tr, opCase T o x y z t = ([], z, tr) := by
      rcases ho with rfl | rfl
      · simp only [opCase, hi, if_true, node]
        by_cases h1 : isConst y.ex = true
        · rw [if_pos h1, if_neg (fun h => hz ⟨h1, h⟩)]
          split_ifs <;> exact ⟨_, rfl⟩
        · rw [if_neg h1]; exact ⟨_, rfl⟩
      · simp only [opCase, hi, if_true, node, if_neg hz]; exact ⟨_, rfl⟩
    constructor
    · rintro ⟨tr, h⟩
      obtain ⟨tr', h'⟩ := e
      rw [h'] at h
      simp only [Prod.mk.injEq, true_and] at h
      exact ⟨hi, h.1.symm⟩
    · rintro ⟨_, rfl⟩; exact e
  · constructor
    · rintro ⟨tr, h⟩
      rcases ho with rfl | rfl <;> simp [opCase, if_neg hi, if_neg hu, node] at h
    · rintro ⟨h, _⟩; exact absurd h hi

theorem opCase_bool {o : BinOp} (ho : o = .and ∨ o = .or) (x y : Arg) {z t r : Nat} (hu : (T z).form ≠ .undef) (ht : (T z).form = .bool → t = z) :
    (∃ tr, opCase T o x y z t = ([], r, tr)) ↔ (T z).form = .bool ∧ r = z := by
  by_cases hi : (T z).form = .bool
  · have := ht hi
    subst this
    have e : ∃ tr, opCase T o x y t t = ([], t, tr) := by
      rcases ho with rfl | rfl <;> simp only [opCase, hi, if_true, node] <;> split_ifs <;> exact ⟨_, rfl⟩
    constructor
    · rintro ⟨tr, h⟩
      obtain ⟨tr', h'⟩ := e
      rw [h'] at h
      simp only [Prod.mk.injEq, true_and] at h
      exact ⟨hi, h.1.symm⟩
    · rintro ⟨_, rfl⟩; exact e
  · constructor
    · rintro ⟨tr, h⟩
      rcases ho with rfl | rfl <;> simp [opCase, if_neg hi, if_neg hu] at h
    · rintro ⟨h, _⟩; exact absurd h hi

theorem opCase_eq {o : BinOp} (ho : o.equality) (x y : Arg) {z t r : Nat} :
    (∃ tr, opCase T o x y z t = ([], r, tr)) ↔ ((T z).form = .undef ∨ (T z).form = .byte ∨ (T z).form = .bool ∨ (T z).form = .char ∨ (T z).form = .int ∨
      (T z).form = .real ∨ (T z).form = .lreal ∨ (T z).form = .set ∨ (T z).form = .nil ∨ (T z).form = .ptr ∨ (T z).form = .proc ∨
      strings T x.ex y.ex z t = true) ∧ r = booltyp := by
  have e : opCase T o x y z t = opCase T .eq x y z t := by cases o <;> simp [BinOp.equality] at ho <;> rfl
  rw [e]
  simp only [opCase, node]
  split_ifs with h
  · constructor
    · rintro ⟨tr, h2⟩; simp only [Prod.mk.injEq, true_and] at h2; exact ⟨h, h2.1.symm⟩
    · rintro ⟨_, rfl⟩; exact ⟨_, rfl⟩
  · constructor
    · rintro ⟨tr, h2⟩; simp at h2
    · rintro ⟨h2, _⟩; exact absurd h2 h

theorem opCase_lt {o : BinOp} (ho : o.relation) (hn : ¬ o.equality) (x y : Arg) {z t r : Nat} :
    (∃ tr, opCase T o x y z t = ([], r, tr)) ↔ ((T z).form = .undef ∨ (T z).form = .char ∨ (T z).form = .int ∨
      (T z).form = .real ∨ (T z).form = .lreal ∨ strings T x.ex y.ex z t = true) ∧ r = booltyp := by
  have e : opCase T o x y z t = opCase T .lt x y z t := by cases o <;> simp [BinOp.relation] at ho <;> simp [BinOp.equality] at hn <;> rfl
  rw [e]
  simp only [opCase, node]
  split_ifs with h
  · constructor
    · rintro ⟨tr, h2⟩; simp only [Prod.mk.injEq, true_and] at h2; exact ⟨h, h2.1.symm⟩
    · rintro ⟨_, rfl⟩; exact ⟨_, rfl⟩
  · constructor
    · rintro ⟨tr, h2⟩; simp at h2
    · rintro ⟨h2, _⟩; exact absurd h2 h

theorem smallest_exists (hw : Wf T) {x y : Nat} (hx : Numeric T x) (hy : Numeric T y) : ∃ r, Smallest T x y r := by
  by_cases h : Includes T y x
  · exact ⟨y, h, includes_self hy, .inl rfl⟩
  · refine ⟨x, includes_self hx, ?_, .inr ⟨rfl, h⟩⟩
    unfold Numeric Integer Real at hx hy
    unfold Includes at h ⊢
    rcases hx with hx | hx | hx <;> rcases hy with hy | hy | hy <;> simp [hx, hy] at h ⊢ <;> omega

theorem larger_exists {x y : Nat} (hx : SetType T x) (hy : SetType T y) : ∃ r, LargerSet T x y r := by
  by_cases h : (T x).size ≤ (T y).size
  · exact ⟨y, hx, hy, .inl ⟨rfl, h⟩⟩
  · exact ⟨x, hx, hy, .inr ⟨rfl, by omega⟩⟩

theorem smallest_numeric {x y r : Nat} (h : Smallest T x y r) : Numeric T x ∧ Numeric T y ∧ Numeric T r := by
  obtain ⟨h1, h2, _⟩ := h
  unfold Includes at h1 h2
  unfold Numeric Integer Real
  tauto

theorem larger_set {x y r : Nat} (h : LargerSet T x y r) : SetType T r := by
  obtain ⟨h1, h2, h3⟩ := h
  rcases h3 with ⟨rfl, _⟩ | ⟨rfl, _⟩ <;> assumption

theorem quo_type (hw : Wf T) {x y r : Nat} (h : Smallest T x y r) :
    (if (T r).form = .int then realtyp else r) = (if (T x).form = .lreal ∨ (T y).form = .lreal then lrltyp else realtyp) := by
  obtain ⟨h1, h2, h3⟩ := h
  unfold Includes at h1 h2 h3
  by_cases hi : (T r).form = .int
  · rw [if_pos hi]
    rw [hi] at h1 h2
    rw [if_neg]
    rintro (h | h)
    · rw [h] at h1; simp at h1
    · rw [h] at h2; simp at h2
  · rw [if_neg hi]
    by_cases hr : (T r).form = .real
    · rw [if_neg]
      · exact hw.real' _ hr
      · rw [hr] at h1 h2
        rintro (h | h)
        · rw [h] at h1; simp at h1
        · rw [h] at h2; simp at h2
    · have hl : (T r).form = .lreal := by tauto
      rw [if_pos]
      · exact hw.lreal' _ hl
      · rcases h3 with rfl | ⟨rfl, _⟩ <;> tauto

/-- `Op` accepts exactly what the rules allow, where not both operands are constants. -/
theorem opVar_iff (hw : Wf T) (ci cs : Nat) (o : BinOp) (x y : Arg) (r : Nat) (hx : Sound T x.ex) (vx : x.ex.value)
    (hc : ¬ (Constant x.ex ∧ Constant y.ex)) (hz : ¬ (Constant y.ex ∧ Numeric T y.ex.typ ∧ y.val = 0 ∧ (o = .quo ∨ o = .div ∨ o = .mod))) :
    (∃ tr, opVar T o x y = ([], r, tr)) ↔ Rule T ci cs o x.ex y.ex r := by
  have hxu : x.ex.typ ≠ undftyp := hx.1 vx
  have mixed : (∃ tr, opVar T o x y = ([], r, tr)) ↔ ∃ z t, mix T x.ex y.ex = ([], z, t) ∧ ∃ tr, opCase T o x y z t = ([], r, tr) := by
    constructor
    · rintro ⟨tr, h⟩
      obtain ⟨z, t, h1, h2⟩ := opVar_ok h
      exact ⟨z, t, h1, tr, h2⟩
    · rintro ⟨z, t, h1, tr, h2⟩
      exact ⟨tr, by rw [opVar_of_mix h1]; exact h2⟩
  rw [mixed]
  by_cases harith : o = .add ∨ o = .sub ∨ o = .mul
  · constructor
    · rintro ⟨z, t, hm, h⟩
      rw [opCase_arith harith x y (mix_undef hw hm hxu) (fun hn => (num_mix hw hm hn).1)] at h
      obtain ⟨h | h, rfl⟩ := h
      · exact .arith harith (fun h => hc ⟨h.1, h.2.1⟩) (num_mix hw hm h).2
      · rcases mix_cases hw hm (by unfold Numeric Integer Real; unfold SetType at h; rw [h]; simp) with h2 | h2
        · exact .sets (by tauto) hc h2.2.2
        · exact absurd h h2.1
    · intro h
      cases h with
      | arith _ _ h =>
        have hm := mix_num hw h
        refine ⟨r, r, hm, ?_⟩
        rw [opCase_arith harith x y (mix_undef hw hm hxu) (fun _ => rfl)]
        exact ⟨.inl (smallest_numeric h).2.2, rfl⟩
      | sets _ _ h =>
        have hm := mix_set h
        refine ⟨r, r, hm, ?_⟩
        rw [opCase_arith harith x y (mix_undef hw hm hxu) (fun _ => rfl)]
        exact ⟨.inr (larger_set h), rfl⟩
      | constant _ h1 h2 _ _ => exact absurd ⟨h1, h2⟩ hc
      | constantSets _ h1 h2 _ _ => exact absurd ⟨h1, h2⟩ hc
      | _ h => exfalso; rcases harith with rfl | rfl | rfl <;> simp [BinOp.relation, BinOp.equality] at h
  by_cases hquo : o = .quo
  · subst hquo
    have hz' : ∀ {z t}, mix T x.ex y.ex = ([], z, t) → Numeric T z → ¬ (isConst y.ex = true ∧ y.val = 0) := fun hm hn h =>
      hz ⟨(isConst_iff _).mp h.1, (smallest_numeric (num_mix hw hm hn).2).2.1, h.2, .inl rfl⟩
    constructor
    · rintro ⟨z, t, hm, h⟩
      rw [opCase_quo x y (mix_undef hw hm hxu) (hz' hm)] at h
      rcases h with ⟨h, rfl⟩ | ⟨h, rfl⟩
      · have hs := (num_mix hw hm h).2
        rw [quo_type hw hs]
        exact .quotient rfl (smallest_numeric hs).1 (smallest_numeric hs).2.1
      · rcases mix_cases hw hm (by unfold Numeric Integer Real; unfold SetType at h; rw [h]; simp) with h2 | h2
        · exact .sets (by tauto) hc h2.2.2
        · exact absurd h h2.1
    · intro h
      cases h with
      | arith h _ _ => simp at h
      | quotient _ h1 h2 =>
        obtain ⟨z, hs⟩ := smallest_exists hw h1 h2
        have hm := mix_num hw hs
        refine ⟨z, z, hm, ?_⟩
        rw [opCase_quo x y (mix_undef hw hm hxu) (hz' hm)]
        exact .inl ⟨(smallest_numeric hs).2.2, (quo_type hw hs).symm⟩
      | sets _ _ h =>
        have hm := mix_set h
        refine ⟨r, r, hm, ?_⟩
        rw [opCase_quo x y (mix_undef hw hm hxu) (hz' hm)]
        exact .inr ⟨larger_set h, rfl⟩
      | constant _ h1 h2 _ _ => exact absurd ⟨h1, h2⟩ hc
      | constantSets _ h1 h2 _ _ => exact absurd ⟨h1, h2⟩ hc
      | _ h => exfalso; simp [BinOp.relation, BinOp.equality] at h
  by_cases hdiv : o = .div ∨ o = .mod
  · have hz' : ∀ {z t}, mix T x.ex y.ex = ([], z, t) → Numeric T z → ¬ (isConst y.ex = true ∧ y.val = 0) := fun hm hn h =>
      hz ⟨(isConst_iff _).mp h.1, (smallest_numeric (num_mix hw hm hn).2).2.1, h.2, .inr hdiv⟩
    constructor
    · rintro ⟨z, t, hm, h⟩
      rw [opCase_div hdiv x y (mix_undef hw hm hxu) (hz' hm)] at h
      obtain ⟨h, rfl⟩ := h
      have hs := (num_mix hw hm (.inl h)).2
      have hi : Integer T x.ex.typ ∧ Integer T y.ex.typ := by
        obtain ⟨h1, h2, _⟩ := hs
        unfold Integer at h ⊢
        unfold Includes at h1 h2
        rw [h] at h1 h2
        simp at h1 h2
        exact ⟨h1.1, h2.1⟩
      exact .integer hdiv hc hi.1 hi.2 hs
    · intro h
      cases h with
      | integer _ _ h1 h2 hs =>
        have hm := mix_num hw hs
        refine ⟨r, r, hm, ?_⟩
        rw [opCase_div hdiv x y (mix_undef hw hm hxu) (hz' hm)]
        refine ⟨?_, rfl⟩
        obtain ⟨_, _, rfl | ⟨rfl, _⟩⟩ := hs
        · exact h2
        · exact h1
      | constant _ h1 h2 _ _ => exact absurd ⟨h1, h2⟩ hc
      | constantSets _ h1 h2 _ _ => exact absurd ⟨h1, h2⟩ hc
      | arith h _ _ => exact absurd h harith
      | quotient h _ _ => exact absurd h hquo
      | _ h => exfalso; rcases hdiv with rfl | rfl <;> simp [BinOp.relation, BinOp.equality] at h
  by_cases hbool : o = .and ∨ o = .or
  · constructor
    · rintro ⟨z, t, hm, h⟩
      rw [opCase_bool hbool x y (mix_undef hw hm hxu) (fun hb => by obtain ⟨_, _, h3, h4⟩ := bool_mix hw hm hb; rw [h3, h4])] at h
      obtain ⟨h, rfl⟩ := h
      obtain ⟨h1, h2, h3, _⟩ := bool_mix hw hm h
      rw [h3]
      exact .bool hbool h1 h2
    · intro h
      cases h with
      | bool _ h1 h2 =>
        have hm := same_mix (T := T) (h1.trans h2.symm)
        refine ⟨_, _, hm, ?_⟩
        rw [opCase_bool hbool x y (mix_undef hw hm hxu) (fun _ => h2.trans h1.symm)]
        exact ⟨by rw [h1, hw.bool], h1.symm⟩
      | arith h _ _ => exact absurd h harith
      | quotient h _ _ => exact absurd h hquo
      | integer h _ _ _ _ => exact absurd h hdiv
      | _ h => exfalso; rcases hbool with rfl | rfl <;> simp [BinOp.relation, BinOp.equality] at h
  have hrel : o.relation := by cases o <;> simp [BinOp.relation] at *
  by_cases heq : o.equality
  · constructor
    · rintro ⟨z, t, hm, h⟩
      rw [opCase_eq heq] at h
      obtain ⟨h, rfl⟩ := h
      by_cases hn : Numeric T z
      · have hs := smallest_numeric (num_mix hw hm hn).2
        exact .numbers hrel hs.1 hs.2.1
      rcases mix_cases hw hm hn with ⟨_, _, h2⟩ | ⟨h1, rfl, h2⟩
      · exact .equalSet heq h2.1 h2.2.1
      have hu := mix_undef hw hm hxu
      rcases h2 with ⟨rfl, h2⟩ | ⟨rfl, h2, h3, h4⟩
      · by_cases hch : x.ex.typ = chartyp
        · rcases h2 with h2 | ⟨h2, _⟩ | ⟨h2, _⟩ | ⟨h2, _⟩ | h2 | ⟨h2, _⟩
          · exact .chars hrel hch (h2 ▸ hch)
          · rw [hch] at h2; simp [chartyp, niltyp] at h2
          all_goals rw [hch, hw.char] at h2; simp at h2
        rw [strings_iff hw (.inl ⟨rfl, hch⟩)] at h
        rcases h with h | h | h | h | h | h | h | h | h | h | h | h
        · exact absurd h hu
        · rcases h2 with h2 | ⟨h2, _⟩ | ⟨h2, _⟩ | ⟨h2, _⟩ | h2 | ⟨h2, _⟩
          · exact .equalByte heq (hw.byte' _ h) (h2 ▸ hw.byte' _ h)
          · rw [h2, hw.nil] at h; simp at h
          all_goals rw [h] at h2; simp at h2
        · rcases h2 with h2 | ⟨h2, _⟩ | ⟨h2, _⟩ | ⟨h2, _⟩ | h2 | ⟨h2, _⟩
          · exact .equalBool heq (hw.bool' _ h) (h2 ▸ hw.bool' _ h)
          · rw [h2, hw.nil] at h; simp at h
          all_goals rw [h] at h2; simp at h2
        · exact absurd (hw.char' _ h) hch
        · exact absurd (.inl h) hn
        · exact absurd (.inr (.inl h)) hn
        · exact absurd (.inr (.inr h)) hn
        · exact absurd h h1
        · have hx := hw.nil' _ h
          rcases h2 with h2 | ⟨h2, h3⟩ | ⟨h2, _⟩ | ⟨h2, _⟩ | h2 | ⟨h2, _⟩
          · exact .nils heq hx (h2 ▸ hx)
          · exact .nilEqual heq hx h3
          all_goals rw [h] at h2; simp at h2
        · rcases h2 with h2 | ⟨h2, _⟩ | ⟨h2, h3⟩ | ⟨h2, _⟩ | h2 | ⟨h2, _⟩
          · exact .equalSame heq (.inl h) h2
          · rw [h2, hw.nil] at h; simp at h
          · rcases (checkPtrOp_eq hw h).mp h3 with h4 | ⟨a, b, h4, h5, h6⟩
            · exact .equalNil heq (.inl h) h4
            · exact .equalPtr heq h4 h5 h6
          all_goals rw [h] at h2; simp at h2
        · rcases h2 with h2 | ⟨h2, _⟩ | ⟨h2, h3⟩ | ⟨h2, h3⟩ | h2 | ⟨h2, _⟩
          · exact .equalSame heq (.inr h) h2
          · rw [h2, hw.nil] at h; simp at h
          · rw [h] at h2; simp at h2
          · exact .equalNil heq (.inr h) h3
          all_goals rw [h] at h2; simp at h2
        · exact .strings hrel h.1 h.2
      · rw [strings_iff hw (.inr ⟨rfl, h2, h3⟩), hw.str] at h
        simp at h
        exact .strings hrel h.1 h.2
    · intro h
      have key : ∀ z t, mix T x.ex y.ex = ([], z, t) → ((T z).form = .byte ∨ (T z).form = .bool ∨ (T z).form = .char ∨ (T z).form = .int ∨
          (T z).form = .real ∨ (T z).form = .lreal ∨ (T z).form = .set ∨ (T z).form = .nil ∨ (T z).form = .ptr ∨ (T z).form = .proc ∨
          strings T x.ex y.ex z t = true) → ∃ z t, mix T x.ex y.ex = ([], z, t) ∧ ∃ tr, opCase T o x y z t = ([], booltyp, tr) := by
        intro z t hm hk
        exact ⟨z, t, hm, (opCase_eq heq x y).mpr ⟨.inr hk, rfl⟩⟩
      cases h with
      | numbers _ h1 h2 =>
        obtain ⟨z, hs⟩ := smallest_exists hw h1 h2
        refine key z z (mix_num hw hs) ?_
        rcases (smallest_numeric hs).2.2 with h | h | h <;> (try unfold Integer at h) <;> simp [h]
      | chars _ h1 h2 => exact key _ _ (same_mix (h1.trans h2.symm)) (by rw [h1, hw.char]; simp)
      | strings _ h1 h2 =>
        by_cases he : x.ex.typ = y.ex.typ
        · have hm := same_mix (T := T) he
          by_cases hch : x.ex.typ = chartyp
          · exact key _ _ hm (by rw [hch, hw.char]; simp)
          · exact key _ _ hm (by simp only [(strings_iff hw (.inl ⟨rfl, hch⟩)).mpr ⟨h1, h2⟩, or_true])
        · rcases h1 with ⟨h3, h4⟩ | h3 | ⟨h3, h4⟩
          · have hf : (T x.ex.typ).form = .comp := (hw.comp _).mpr (by rcases h3 with h | h <;> rw [h] <;> simp)
            have hm : mix T x.ex y.ex = ([], x.ex.typ, y.ex.typ) := by
              unfold mix
              rw [if_neg he]
              simp only [hf]
              rw [if_neg (by rcases h3 with h | h <;> rw [h] <;> simp)]
            exact key _ _ hm (by simp only [(strings_iff hw (.inl ⟨rfl, by rintro hh; rw [hh, hw.char] at hf; simp at hf⟩)).mpr ⟨.inl ⟨h3, h4⟩, h2⟩, or_true])
          · have hf : (T x.ex.typ).form = .str := by rw [h3, hw.str]
            have hm : mix T x.ex y.ex = ([], x.ex.typ, y.ex.typ) := by
              unfold mix
              rw [if_neg he]
              simp only [hf]
            exact key _ _ hm (by simp only [(strings_iff hw (.inl ⟨rfl, by rintro hh; rw [hh, hw.char] at hf; simp at hf⟩)).mpr ⟨.inr (.inl h3), h2⟩, or_true])
          · have hf : (T x.ex.typ).form = .char := by rw [h3, hw.char]
            have hm : mix T x.ex y.ex = ([], stringtyp, y.ex.typ) := by
              unfold mix
              rw [if_neg he]
              simp only [hf]
              rw [if_pos ((isConst_iff _).mpr h4)]
            exact key _ _ hm (by simp only [(strings_iff hw (.inr ⟨rfl, h3, h4⟩)).mpr ⟨.inr (.inr ⟨h3, h4⟩), h2⟩, or_true])
      | equalBool _ h1 h2 => exact key _ _ (same_mix (h1.trans h2.symm)) (by rw [h1, hw.bool]; simp)
      | equalSet _ h1 h2 =>
        obtain ⟨z, hs⟩ := larger_exists h1 h2
        refine key z z (mix_set hs) ?_
        have := larger_set hs
        unfold SetType at this
        simp [this]
      | equalSame _ h1 h2 => exact key _ _ (same_mix h2) (by rcases h1 with h | h <;> simp [h])
      | equalNil _ h1 h2 =>
        have he : x.ex.typ ≠ y.ex.typ := by rintro he; rw [he, h2, hw.nil] at h1; simp at h1
        refine key x.ex.typ y.ex.typ ?_ (by rcases h1 with h | h <;> simp [h])
        unfold mix
        rw [if_neg he]
        rcases h1 with h | h
        · simp only [h]; rw [(checkPtrOp_eq hw h).mpr (.inl h2)]
        · simp only [h]; rw [h2, hw.nil]; simp
      | nilEqual _ h1 h2 =>
        have he : x.ex.typ ≠ y.ex.typ := by rintro he; rw [← he, h1, hw.nil] at h2; simp at h2
        have hf : (T x.ex.typ).form = .nil := by rw [h1, hw.nil]
        refine key x.ex.typ y.ex.typ ?_ (by simp [hf])
        unfold mix
        rw [if_neg he]
        simp only [hf, if_pos h2]
      | equalPtr _ h1 h2 h3 =>
        by_cases he : x.ex.typ = y.ex.typ
        · exact key _ _ (same_mix he) (by simp [h1.1])
        · refine key x.ex.typ y.ex.typ ?_ (by simp [h1.1])
          unfold mix
          rw [if_neg he]
          simp only [h1.1]
          rw [(checkPtrOp_eq hw h1.1).mpr (.inr ⟨_, _, h1, h2, h3⟩)]
      | equalByte _ h1 h2 => exact key _ _ (same_mix (h1.trans h2.symm)) (by rw [h1, hw.byte]; simp)
      | nils _ h1 h2 => exact key _ _ (same_mix (h1.trans h2.symm)) (by rw [h1, hw.nil]; simp)
      | arith h _ _ => exact absurd h harith
      | quotient h _ _ => exact absurd h hquo
      | integer h _ _ _ _ => exact absurd h hdiv
      | bool h _ _ => exact absurd h hbool
      | constant _ h1 h2 _ _ => exact absurd ⟨h1, h2⟩ hc
      | constantSets _ h1 h2 _ _ => exact absurd ⟨h1, h2⟩ hc
      | sets h _ _ => exfalso; revert h heq; cases o <;> simp [BinOp.equality]
  · constructor
    · rintro ⟨z, t, hm, h⟩
      rw [opCase_lt hrel heq] at h
      obtain ⟨h, rfl⟩ := h
      by_cases hn : Numeric T z
      · have hs := smallest_numeric (num_mix hw hm hn).2
        exact .numbers hrel hs.1 hs.2.1
      have hcs : ¬ charArr T z = true → ¬ (T z).form = .char → ¬ strings T x.ex y.ex z t = true := by
        intro hz hzc
        unfold strings
        simp [hzc, hz]
      rcases mix_cases hw hm hn with ⟨h0, _, h2⟩ | ⟨h1, rfl, h2⟩
      · unfold SetType at h0
        rw [h0] at h
        simp at h
        refine absurd h (hcs ?_ (by rw [h0]; simp))
        rw [charArr_iff hw]
        rintro (⟨h3, _⟩ | h3)
        · have := (hw.comp z).mpr (by rcases h3 with h | h <;> rw [h] <;> simp)
          rw [h0] at this; simp at this
        · rw [h3, hw.str] at h0; simp at h0
      have hu := mix_undef hw hm hxu
      rcases h2 with ⟨rfl, h2⟩ | ⟨rfl, h2, h3, h4⟩
      · by_cases hch : x.ex.typ = chartyp
        · rcases h2 with h2 | ⟨h2, _⟩ | ⟨h2, _⟩ | ⟨h2, _⟩ | h2 | ⟨h2, _⟩
          · exact .chars hrel hch (h2 ▸ hch)
          · rw [hch] at h2; simp [chartyp, niltyp] at h2
          all_goals rw [hch, hw.char] at h2; simp at h2
        rw [strings_iff hw (.inl ⟨rfl, hch⟩)] at h
        rcases h with h | h | h | h | h | h
        · exact absurd h hu
        · exact absurd (hw.char' _ h) hch
        · exact absurd (.inl h) hn
        · exact absurd (.inr (.inl h)) hn
        · exact absurd (.inr (.inr h)) hn
        · exact .strings hrel h.1 h.2
      · rw [strings_iff hw (.inr ⟨rfl, h2, h3⟩), hw.str] at h
        simp at h
        exact .strings hrel h.1 h.2
    · intro h
      have key : ∀ z t, mix T x.ex y.ex = ([], z, t) → ((T z).form = .char ∨ (T z).form = .int ∨
          (T z).form = .real ∨ (T z).form = .lreal ∨
          strings T x.ex y.ex z t = true) → ∃ z t, mix T x.ex y.ex = ([], z, t) ∧ ∃ tr, opCase T o x y z t = ([], booltyp, tr) := by
        intro z t hm hk
        exact ⟨z, t, hm, (opCase_lt hrel heq x y).mpr ⟨.inr hk, rfl⟩⟩
      cases h with
      | numbers _ h1 h2 =>
        obtain ⟨z, hs⟩ := smallest_exists hw h1 h2
        refine key z z (mix_num hw hs) ?_
        rcases (smallest_numeric hs).2.2 with h | h | h <;> (try unfold Integer at h) <;> simp [h]
      | chars _ h1 h2 => exact key _ _ (same_mix (h1.trans h2.symm)) (by rw [h1, hw.char]; simp)
      | strings _ h1 h2 =>
        by_cases he : x.ex.typ = y.ex.typ
        · have hm := same_mix (T := T) he
          by_cases hch : x.ex.typ = chartyp
          · exact key _ _ hm (by rw [hch, hw.char]; simp)
          · exact key _ _ hm (by simp only [(strings_iff hw (.inl ⟨rfl, hch⟩)).mpr ⟨h1, h2⟩, or_true])
        · rcases h1 with ⟨h3, h4⟩ | h3 | ⟨h3, h4⟩
          · have hf : (T x.ex.typ).form = .comp := (hw.comp _).mpr (by rcases h3 with h | h <;> rw [h] <;> simp)
            have hm : mix T x.ex y.ex = ([], x.ex.typ, y.ex.typ) := by
              unfold mix
              rw [if_neg he]
              simp only [hf]
              rw [if_neg (by rcases h3 with h | h <;> rw [h] <;> simp)]
            exact key _ _ hm (by simp only [(strings_iff hw (.inl ⟨rfl, by rintro hh; rw [hh, hw.char] at hf; simp at hf⟩)).mpr ⟨.inl ⟨h3, h4⟩, h2⟩, or_true])
          · have hf : (T x.ex.typ).form = .str := by rw [h3, hw.str]
            have hm : mix T x.ex y.ex = ([], x.ex.typ, y.ex.typ) := by
              unfold mix
              rw [if_neg he]
              simp only [hf]
            exact key _ _ hm (by simp only [(strings_iff hw (.inl ⟨rfl, by rintro hh; rw [hh, hw.char] at hf; simp at hf⟩)).mpr ⟨.inr (.inl h3), h2⟩, or_true])
          · have hf : (T x.ex.typ).form = .char := by rw [h3, hw.char]
            have hm : mix T x.ex y.ex = ([], stringtyp, y.ex.typ) := by
              unfold mix
              rw [if_neg he]
              simp only [hf]
              rw [if_pos ((isConst_iff _).mpr h4)]
            exact key _ _ hm (by simp only [(strings_iff hw (.inr ⟨rfl, h3, h4⟩)).mpr ⟨.inr (.inr ⟨h3, h4⟩), h2⟩, or_true])
      | arith h _ _ => exact absurd h harith
      | quotient h _ _ => exact absurd h hquo
      | integer h _ _ _ _ => exact absurd h hdiv
      | bool h _ _ => exact absurd h hbool
      | constant _ h1 h2 _ _ => exact absurd ⟨h1, h2⟩ hc
      | constantSets _ h1 h2 _ _ => exact absurd ⟨h1, h2⟩ hc
      | sets h _ _ => exfalso; revert h hrel; cases o <;> simp [BinOp.relation]
      | _ h => exact absurd h heq

/-! ### Two constants -/

/-- Two constants can be brought to one type. -/
inductive CMix (T : Tab) (x y : Nat) : Nat → Prop
  | int : Integer T x → Integer T y → CMix T x y x
  | real {z : Nat} : Numeric T x → Numeric T y → ¬ (Integer T x ∧ Integer T y) → Smallest T x y z → CMix T x y z
  | set : SetType T x → SetType T y → CMix T x y x
  | bool : x = booltyp → y = booltyp → CMix T x y booltyp
  | char : x = chartyp → y = chartyp → CMix T x y chartyp
  | str : x = chartyp ∨ x = stringtyp → y = chartyp ∨ y = stringtyp → ¬ (x = chartyp ∧ y = chartyp) → CMix T x y stringtyp
  | nil : x = niltyp → y = niltyp → CMix T x y niltyp

theorem constMix_iff (hw : Wf T) {x y : Ex} (hx : Sound T x) (hy : Sound T y) (cx : Constant x) (cy : Constant y) (z : Nat) :
    constMix T x y = ([], z) ↔ CMix T x.typ y.typ z := by
  have fx := hx.2.2 cx
  have fy := hy.2.2 cy
  constructor
  · intro h
    unfold constMix at h
    rcases fx with fx | fx | fx | fx | fx | fx | fx | fx <;> rcases fy with fy | fy | fy | fy | fy | fy | fy | fy <;>
      simp [fx, fy] at h <;> subst h
    · have e := hw.bool' _ fx; rw [e]; exact .bool rfl (hw.bool' _ fy)
    · have e := hw.char' _ fx; rw [e]; exact .char rfl (hw.char' _ fy)
    · exact .str (.inl (hw.char' _ fx)) (.inr (hw.str' _ fy)) (by rw [hw.str' _ fy]; simp [chartyp, stringtyp])
    · exact .int fx fy
    · refine .real (.inl fx) (.inr (.inl fy)) (by unfold Integer; simp [fx, fy]) ?_
      rw [← hw.real' _ fy]
      exact ⟨.inr (.inl ⟨fy, .inl fx⟩), .inr (.inl ⟨fy, .inr fy⟩), .inl rfl⟩
    · refine .real (.inl fx) (.inr (.inr fy)) (by unfold Integer; simp [fx, fy]) ?_
      rw [← hw.lreal' _ fy]
      exact ⟨.inr (.inr ⟨fy, .inl fx⟩), .inr (.inr ⟨fy, .inr (.inr fy)⟩), .inl rfl⟩
    · refine .real (.inr (.inl fx)) (.inl fy) (by unfold Integer; simp [fx, fy]) ?_
      exact ⟨.inr (.inl ⟨fx, .inr fx⟩), .inr (.inl ⟨fx, .inl fy⟩), .inr ⟨rfl, by unfold Includes; simp [fx, fy]⟩⟩
    · refine .real (.inr (.inl fx)) (.inr (.inl fy)) (by unfold Integer; simp [fx]) ?_
      exact ⟨.inr (.inl ⟨fx, .inr fx⟩), .inr (.inl ⟨fx, .inr fy⟩), .inl (by rw [hw.real' _ fx, hw.real' _ fy])⟩
    · refine .real (.inr (.inl fx)) (.inr (.inr fy)) (by unfold Integer; simp [fx]) ?_
      rw [← hw.lreal' _ fy]
      exact ⟨.inr (.inr ⟨fy, .inr (.inl fx)⟩), .inr (.inr ⟨fy, .inr (.inr fy)⟩), .inl rfl⟩
    · refine .real (.inr (.inr fx)) (.inl fy) (by unfold Integer; simp [fx]) ?_
      exact ⟨.inr (.inr ⟨fx, .inr (.inr fx)⟩), .inr (.inr ⟨fx, .inl fy⟩), .inr ⟨rfl, by unfold Includes; simp [fx, fy]⟩⟩
    · refine .real (.inr (.inr fx)) (.inr (.inl fy)) (by unfold Integer; simp [fx]) ?_
      exact ⟨.inr (.inr ⟨fx, .inr (.inr fx)⟩), .inr (.inr ⟨fx, .inr (.inl fy)⟩), .inr ⟨rfl, by unfold Includes; simp [fx, fy]⟩⟩
    · refine .real (.inr (.inr fx)) (.inr (.inr fy)) (by unfold Integer; simp [fx]) ?_
      exact ⟨.inr (.inr ⟨fx, .inr (.inr fx)⟩), .inr (.inr ⟨fx, .inr (.inr fy)⟩), .inl (by rw [hw.lreal' _ fx, hw.lreal' _ fy])⟩
    · exact .set fx fy
    · rw [hw.str' _ fx]
      exact .str (.inr rfl) (.inl (hw.char' _ fy)) (by simp [chartyp, stringtyp])
    · rw [hw.str' _ fx]
      exact .str (.inr rfl) (.inr (hw.str' _ fy)) (by simp [chartyp, stringtyp])
    · have e := hw.nil' _ fx; rw [e]; exact .nil rfl (hw.nil' _ fy)
  · intro h
    unfold constMix
    cases h with
    | int h1 h2 => unfold Integer at h1 h2; simp [h1, h2]
    | set h1 h2 => unfold SetType at h1 h2; simp [h1, h2]
    | bool h1 h2 => simp [h1, h2]
    | char h1 h2 => simp [h1, h2]
    | nil h1 h2 => simp [h1, h2]
    | str h1 h2 h3 =>
      rcases h1 with h1 | h1 <;> rcases h2 with h2 | h2 <;> simp [h1, h2, hw.char, hw.str]
      exact absurd ⟨h1, h2⟩ h3
    | real h1 h2 h3 hs =>
      obtain ⟨s1, s2, s3⟩ := hs
      unfold Includes at s1 s2 s3
      unfold Integer at h3
      rcases h1 with h1 | h1 | h1 <;> rcases h2 with h2 | h2 | h2 <;> (try unfold Integer at h1) <;> (try unfold Integer at h2) <;>
        simp [h1, h2] at s1 s2 s3 h3 ⊢
      · rw [s3, hw.real' _ h2]
      · rw [s3, hw.lreal' _ h2]
      · rcases s3 with rfl | rfl
        · rw [h2] at s1; simp at s1
        · rfl
      · rcases s1 with s1 | s1
        · rw [hw.real' _ h1, hw.real' _ s1]
        · rcases s3 with rfl | s3
          rw [hw.real' _ h1, hw.real' _ h2]
      · rw [hw.lreal' _ s2]
      all_goals rw [hw.lreal' _ h1, hw.lreal' _ s1]

theorem smallest_real {x y r : Nat} (h : Smallest T x y r) (hn : ¬ (Integer T x ∧ Integer T y)) : (T r).form = .real ∨ (T r).form = .lreal := by
  obtain ⟨s1, s2, _⟩ := h
  unfold Includes at s1 s2
  unfold Integer at hn
  rcases s1 with ⟨a, b, _⟩ | ⟨a, _⟩ | ⟨a, _⟩
  · rcases s2 with ⟨c, d, _⟩ | ⟨c, _⟩ | ⟨c, _⟩
    · exact absurd ⟨b, d⟩ hn
    · exact .inl c
    · exact .inr c
  · exact .inl a
  · exact .inr a

theorem constOp_split (ci cs : Nat) (o : BinOp) (x y : Arg) (r : Nat) :
    (∃ tr, constOp T ci cs o x y = ([], r, tr)) ↔ ∃ z, constMix T x.ex y.ex = ([], z) ∧ constCase T ci cs o x y z = ([], r) := by
  unfold constOp
  constructor
  · rintro ⟨tr, h⟩
    simp only [Prod.mk.injEq, List.append_eq_nil_iff] at h
    exact ⟨_, Prod.ext h.1.1 rfl, Prod.ext h.1.2 h.2.1⟩
  · rintro ⟨z, h1, h2⟩
    refine ⟨.const, ?_⟩
    simp only [h1, h2, List.append_nil]

theorem constant_like {x : Ex} (cx : Constant x) (h : x.typ = chartyp ∨ x.typ = stringtyp) : StringLike T x :=
  h.elim (fun h => .inr (.inr ⟨h, cx⟩)) (fun h => .inr (.inl h))

theorem like_constant (hw : Wf T) {x : Ex} (cx : Constant x) (sx : Sound T x) (h : StringLike T x) : x.typ = chartyp ∨ x.typ = stringtyp := by
  rcases h with ⟨h, _⟩ | h | ⟨h, _⟩
  · have := (hw.comp x.typ).mpr (by rcases h with h | h <;> rw [h] <;> simp)
    have := sx.2.2 cx
    simp_all
  · exact .inr h
  · exact .inl h

/-- `ConstOp` accepts exactly what the rules allow. -/
theorem constOp_iff (hw : Wf T) (ci cs : Nat) (o : BinOp) (x y : Arg) (r : Nat) (hx : Sound T x.ex) (hy : Sound T y.ex)
    (cx : Constant x.ex) (cy : Constant y.ex) (hz : ¬ (Numeric T y.ex.typ ∧ y.val = 0 ∧ (o = .quo ∨ o = .div ∨ o = .mod))) :
    (∃ tr, constOp T ci cs o x y = ([], r, tr)) ↔ Rule T ci cs o x.ex y.ex r := by
  rw [constOp_split]
  simp only [constMix_iff hw hx hy cx cy]
  constructor
  · rintro ⟨z, hm, h⟩
    cases hm with
    | int h1 h2 =>
      have e : (if (T x.ex.typ).form = .lreal ∨ (T y.ex.typ).form = .lreal then lrltyp else realtyp) = realtyp := by
        unfold Integer at h1 h2; simp [h1, h2]
      have h1' : (T x.ex.typ).form = .int := h1
      cases o <;> simp [constCase, h1'] at h
      · subst h; exact .constant (by simp) cx cy h1 h2
      · subst h; exact .constant (by simp) cx cy h1 h2
      · subst h; exact .constant (by simp) cx cy h1 h2
      · rw [← h.2, ← e]; exact .quotient rfl (.inl h1) (.inl h2)
      · rw [← h.2]; exact .constant (by simp) cx cy h1 h2
      · rw [← h.2]; exact .constant (by simp) cx cy h1 h2
      all_goals subst h; exact .numbers trivial (.inl h1) (.inl h2)
    | real h1 h2 h3 hs =>
      have hr := smallest_real hs h3
      have hi : (T z).form ≠ .int := by rcases hr with h | h <;> rw [h] <;> simp
      have hq := quo_type hw hs
      rw [if_neg hi] at hq
      have ha : ¬ (Constant x.ex ∧ Constant y.ex ∧ Integer T x.ex.typ ∧ Integer T y.ex.typ) := fun h => h3 h.2.2
      rcases hr with hr | hr <;> cases o <;> simp [constCase, hr] at h
      all_goals first
        | (subst h; exact .arith (by simp) ha hs)
        | (subst h; exact .numbers trivial h1 h2)
        | (rw [← h.2, hq]; exact .quotient rfl h1 h2)
    | set h1 h2 =>
      have h1' : (T x.ex.typ).form = .set := h1
      cases o <;> simp [constCase, h1'] at h
      all_goals first
        | (subst h; exact .equalSet trivial h1 h2)
        | (subst h; exact .constantSets (by simp) cx cy h1 h2)
    | bool h1 h2 =>
      cases o <;> simp [constCase, hw.bool] at h
      all_goals first
        | (subst h; exact .equalBool trivial h1 h2)
        | (subst h; exact .bool (by simp) h1 h2)
    | char h1 h2 =>
      cases o <;> simp [constCase, hw.char] at h
      all_goals (subst h; exact .chars trivial h1 h2)
    | str h1 h2 h3 =>
      cases o <;> simp [constCase, hw.str] at h
      all_goals (subst h; exact .strings trivial (constant_like cx h1) (constant_like cy h2))
    | nil h1 h2 =>
      cases o <;> simp [constCase, hw.nil] at h
      all_goals (subst h; exact .nils trivial h1 h2)
  · intro h
    have rel : ∀ z, o.relation → (T z).form = .char ∨ (T z).form = .int ∨ (T z).form = .real ∨ (T z).form = .lreal ∨ (T z).form = .str →
        constCase T ci cs o x y z = ([], booltyp) := by
      intro z ho hf
      cases o <;> simp [BinOp.relation] at ho <;> simp only [constCase] <;> rcases hf with hf | hf | hf | hf | hf <;> simp [hf]
    have eql : ∀ z, o.equality → constCase T ci cs o x y z = ([], booltyp) := by
      intro z ho
      cases o <;> simp [BinOp.equality] at ho <;> rfl
    cases h with
    | arith ho ha hs =>
      have hn := smallest_numeric hs
      refine ⟨r, .real hn.1 hn.2.1 (fun h => ha ⟨cx, cy, h⟩) hs, ?_⟩
      have hr := smallest_real hs (fun h => ha ⟨cx, cy, h⟩)
      rcases ho with rfl | rfl | rfl <;> rcases hr with hr | hr <;> simp [constCase, hr]
    | quotient ho h1 h2 =>
      subst ho
      have hy0 : y.val ≠ 0 := fun h => hz ⟨h2, h, .inl rfl⟩
      by_cases hi : Integer T x.ex.typ ∧ Integer T y.ex.typ
      · refine ⟨_, .int hi.1 hi.2, ?_⟩
        unfold Integer at hi
        simp [constCase, hi.1, hi.2, hy0]
      · obtain ⟨z, hs⟩ := smallest_exists hw h1 h2
        refine ⟨z, .real h1 h2 hi hs, ?_⟩
        have hr := smallest_real hs hi
        have hq := quo_type hw hs
        rw [if_neg (by rcases hr with h | h <;> rw [h] <;> simp)] at hq
        rw [← hq]
        rcases hr with hr | hr <;> simp [constCase, hr, hy0]
    | integer _ hc _ _ _ => exact absurd ⟨cx, cy⟩ hc
    | sets _ hc _ => exact absurd ⟨cx, cy⟩ hc
    | constant ho _ _ h1 h2 =>
      refine ⟨_, .int h1 h2, ?_⟩
      have h1' : (T x.ex.typ).form = .int := h1
      rcases ho with rfl | rfl | rfl | rfl | rfl
      · simp [constCase, h1']
      · simp [constCase, h1']
      · simp [constCase, h1']
      · simp [constCase, h1', show y.val ≠ 0 from fun h => hz ⟨.inl h2, h, by simp⟩]
      · simp [constCase, h1', show y.val ≠ 0 from fun h => hz ⟨.inl h2, h, by simp⟩]
    | constantSets ho _ _ h1 h2 =>
      refine ⟨_, .set h1 h2, ?_⟩
      have h1' : (T x.ex.typ).form = .set := h1
      rcases ho with rfl | rfl | rfl | rfl <;> simp [constCase, h1']
    | bool ho h1 h2 =>
      refine ⟨_, .bool h1 h2, ?_⟩
      rcases ho with rfl | rfl <;> simp [constCase, hw.bool]
    | numbers ho h1 h2 =>
      by_cases hi : Integer T x.ex.typ ∧ Integer T y.ex.typ
      · exact ⟨_, .int hi.1 hi.2, rel _ ho (.inr (.inl hi.1))⟩
      · obtain ⟨z, hs⟩ := smallest_exists hw h1 h2
        refine ⟨z, .real h1 h2 hi hs, rel _ ho ?_⟩
        rcases (smallest_numeric hs).2.2 with h | h | h <;> (try unfold Integer at h) <;> simp [h]
    | chars ho h1 h2 => exact ⟨_, .char h1 h2, rel _ ho (by simp [hw.char])⟩
    | strings ho h1 h2 =>
      have h1 := like_constant hw cx hx h1
      have h2 := like_constant hw cy hy h2
      by_cases hc : x.ex.typ = chartyp ∧ y.ex.typ = chartyp
      · exact ⟨_, .char hc.1 hc.2, rel _ ho (by simp [hw.char])⟩
      · exact ⟨_, .str h1 h2 hc, rel _ ho (by simp [hw.str])⟩
    | equalBool ho h1 h2 => exact ⟨_, .bool h1 h2, eql _ ho⟩
    | equalSet ho h1 h2 => exact ⟨_, .set h1 h2, eql _ ho⟩
    | nils ho h1 h2 => exact ⟨_, .nil h1 h2, eql _ ho⟩
    | equalSame _ h1 _ => have := hx.2.2 cx; rcases h1 with h | h <;> simp [h] at this
    | equalNil _ h1 _ => have := hx.2.2 cx; rcases h1 with h | h <;> simp [h] at this
    | nilEqual _ _ h1 => have := hy.2.2 cy; rcases h1 with h | h <;> simp [h] at this
    | equalPtr _ h1 _ _ => have := hx.2.2 cx; simp [h1.1] at this
    | equalByte _ h1 _ => have := hx.2.2 cx; simp [h1, hw.byte] at this

/-! ### The theorems -/

/-- The property: the compiler accepts `x o y` without an error exactly where the report's tables allow it, and the expression then is of the type
they give; for all tables of types, operators, operands, and types of constant results. -/
theorem C62_operators (hw : Wf T) (ci cs : Nat) (o : BinOp) (x y : Arg) (r : Nat) (hx : Sound T x.ex) (hy : Sound T y.ex)
    (hz : ¬ (Constant y.ex ∧ Numeric T y.ex.typ ∧ y.val = 0 ∧ (o = .quo ∨ o = .div ∨ o = .mod))) :
    (∃ tr, op T ci cs o x y = ([], r, tr)) ↔ x.ex.value ∧ y.ex.value ∧ Rule T ci cs o x.ex y.ex r := by
  unfold op
  by_cases hv : noValue x.ex = true ∨ noValue y.ex = true
  · rw [if_pos hv]
    constructor
    · rintro ⟨tr, h⟩; simp at h
    · rintro ⟨h1, h2, _⟩
      rw [← noValue_iff] at h1 h2
      simp [h1, h2] at hv
  rw [if_neg hv]
  rw [not_or, Bool.not_eq_true, Bool.not_eq_true, noValue_iff, noValue_iff] at hv
  by_cases hc : isConst x.ex = true ∧ isConst y.ex = true
  · rw [if_pos hc]
    rw [isConst_iff, isConst_iff] at hc
    rw [constOp_iff hw ci cs o x y r hx hy hc.1 hc.2 (fun h => hz ⟨hc.2, h⟩)]
    exact ⟨fun h => ⟨hv.1, hv.2, h⟩, fun h => h.2.2⟩
  · rw [if_neg hc]
    rw [isConst_iff, isConst_iff] at hc
    have := opVar_iff hw ci cs o x y r hx hv.1 hc hz
    unfold opVar at this
    rw [this]
    exact ⟨fun h => ⟨hv.1, hv.2, h⟩, fun h => h.2.2⟩

/-- Division by a constant zero is reported, of integers always, of reals unless the dividend is a constant 0.0. -/
theorem C62_zero (ci cs : Nat) (o : BinOp) (x y : Arg) (r : Nat) (tr : Tree) (hw : Wf T) (cy : Constant y.ex) (ny : Numeric T y.ex.typ) (hy : y.val = 0)
    (ho : o = .quo ∧ ¬ (Constant x.ex ∧ x.val = 0 ∧ ¬ (Integer T x.ex.typ ∧ Integer T y.ex.typ)) ∨ o = .div ∨ o = .mod) (hx : Sound T x.ex)  (sy : Sound T y.ex) :
    op T ci cs o x y ≠ ([], r, tr) := by
  intro h
  unfold op at h
  by_cases hv : noValue x.ex = true ∨ noValue y.ex = true
  · rw [if_pos hv] at h; simp at h
  rw [if_neg hv] at h
  rw [not_or, Bool.not_eq_true, Bool.not_eq_true, noValue_iff, noValue_iff] at hv
  by_cases hc : isConst x.ex = true ∧ isConst y.ex = true
  · rw [if_pos hc] at h
    rw [isConst_iff, isConst_iff] at hc
    obtain ⟨z, hm, h⟩ := (constOp_split ci cs o x y r).mp ⟨tr, h⟩
    rw [constMix_iff hw hx sy hc.1 hc.2] at hm
    cases hm with
    | int h1 h2 =>
      unfold Integer at h1
      rcases ho with ⟨rfl, _⟩ | rfl | rfl <;> simp [constCase, h1, hy] at h
    | real h1 h2 h3 hs =>
      rcases ho with ⟨rfl, h4⟩ | rfl | rfl <;> rcases smallest_real hs h3 with h5 | h5 <;> simp [constCase, h5, hy] at h
      all_goals exact h4 ⟨hc.1, h.1, h3⟩
    | set h1 h2 => unfold SetType at h2; rw [form_num] at ny; simp [h2] at ny
    | bool h1 h2 => rw [form_num, h2, hw.bool] at ny; simp at ny
    | char h1 h2 => rw [form_num, h2, hw.char] at ny; simp at ny
    | str h1 h2 _ => rcases h2 with h2 | h2 <;> rw [form_num, h2] at ny <;> simp [hw.char, hw.str] at ny
    | nil h1 h2 => rw [form_num, h2, hw.nil] at ny; simp at ny
  · rw [if_neg hc] at h
    obtain ⟨z, t, hm, h⟩ := opVar_ok (o := o) (x := x) (y := y) (T := T) (r := r) (tr := tr) h
    have hu := mix_undef hw hm (hx.1 hv.1)
    have hcy := (isConst_iff _).mpr cy
    have hns : (T z).form ≠ .set := by
      intro hs
      rcases mix_cases hw hm (by rw [form_num, hs]; simp) with h2 | h2
      · have := h2.2.2.2.1
        unfold SetType at this
        rw [form_num, this] at ny; simp at ny
      · exact h2.1 hs
    rcases ho with ⟨rfl, _⟩ | rfl | rfl <;> simp only [opCase, node, hcy, hy, and_self, if_true, hu, hns, or_self, if_false] at h <;> split_ifs at h <;> simp at h

/-- Operators with one operand, and ABS, CAP and ODD: accepted exactly where the report allows them, with the type it gives. -/
theorem C62_unary (hw : Wf T) (ci : Nat) (o : UnOp) (x : Ex) (r : Nat) : mop T ci o x = ([], r) ↔ x.value ∧ UnRule T ci x o r := by
  unfold mop
  by_cases hv : noValue x = true
  · rw [if_pos hv]
    constructor
    · intro h; simp at h
    · rintro ⟨h, _⟩
      rw [← noValue_iff, hv] at h; simp at h
  rw [if_neg hv]
  rw [Bool.not_eq_true, noValue_iff] at hv
  have num : ∀ {t}, (T t).form = .int ∨ (T t).form = .real ∨ (T t).form = .lreal ↔ Numeric T t := fun {t} => form_num.symm
  constructor
  · intro h
    refine ⟨hv, ?_⟩
    cases o
    · simp only [Prod.mk.injEq, ite_eq_left_iff, List.cons_ne_self, imp_false, not_not] at h
      rw [← h.2, hw.bool' _ h.1]; exact .not (hw.bool' _ h.1)
    · simp only [Prod.mk.injEq, ite_eq_left_iff, List.cons_ne_self, imp_false, not_not] at h
      rw [← h.2]; exact .plus h.1
    · simp only at h
      split_ifs at h with h1 h2
      · simp only [Prod.mk.injEq, true_and] at h; subst h
        exact .minusConst ((isConst_iff _).mp h2.1) h2.2
      · simp only [Prod.mk.injEq, true_and] at h; subst h
        rw [isConst_iff] at h2
        by_cases hs : (T x.typ).form = .set
        · exact .complement hs
        · exact .minus (by rw [form_num]; tauto) h2
      · simp at h
    · simp only at h
      split_ifs at h with h1 h2
      · simp only [Prod.mk.injEq, true_and] at h; subst h
        exact .absConst ((isConst_iff _).mp h2.1) h2.2
      · simp only [Prod.mk.injEq, true_and] at h; subst h
        rw [isConst_iff] at h2
        exact .abs h1 h2
      · simp at h
    · simp only at h
      split_ifs at h with h1
      · simp only [Prod.mk.injEq, true_and] at h; subst h
        rw [hw.char' _ h1]; exact .cap (hw.char' _ h1)
      · simp at h
    · simp only [Prod.mk.injEq, ite_eq_left_iff, List.cons_ne_self, imp_false, not_not] at h
      rw [← h.2]; exact .odd h.1
  · rintro ⟨_, h⟩
    cases h with
    | not h => simp only [h, hw.bool, if_true]
    | plus h => rw [form_num] at h; simp only [h, if_true]
    | minus h h2 =>
      rw [form_num] at h
      have h1 : (T x.typ).form = .int ∨ (T x.typ).form = .set ∨ (T x.typ).form = .real ∨ (T x.typ).form = .lreal := by tauto
      simp only [h1, if_true]
      rw [if_neg (by rw [isConst_iff]; exact h2)]
    | minusConst h1 h2 =>
      have h2' : (T x.typ).form = .int := h2
      simp only [h2', (isConst_iff _).mpr h1, true_or, if_true, and_self]
    | complement h =>
      have h' : (T x.typ).form = .set := h
      simp [h']
    | abs h h2 =>
      rw [form_num] at h
      simp only [h, if_true]
      rw [if_neg (by rw [isConst_iff]; exact h2)]
    | absConst h1 h2 =>
      have h2' : (T x.typ).form = .int := h2
      simp only [h2', (isConst_iff _).mpr h1, true_or, if_true, and_self]
    | cap h => simp only [h, hw.char, if_true]
    | odd h =>
      have h' : (T x.typ).form = .int := h
      simp only [h', if_true]

/-- `x IN y`: an integer and a set, and a constant element has to be in the range of the set's type. -/
theorem C62_in (x : Arg) (y : Ex) (r : Nat) : inOp T x y = ([], r) ↔ x.ex.value ∧ y.value ∧ InRule T x.ex y x.val ∧ r = booltyp := by
  unfold inOp InRule Integer SetType
  rw [← noValue_iff, ← noValue_iff, ← isConst_iff]
  cases h1 : noValue x.ex <;> cases h2 : noValue y <;> simp
  rw [eq_comm (a := booltyp)]
  by_cases h4 : (T x.ex.typ).form = .int <;> by_cases h5 : (T y.typ).form = .set <;> simp [h4, h5]
  cases h3 : isConst x.ex <;> simp
  intro _
  rw [Int.mul_comm]
  exact fun _ => Iff.rfl

/-- The elements of sets: integers, constants from 0 to 63; ranges of constants go up. -/
theorem C62_sets (st cs : Nat) (x y : Arg) :
    ((∃ r, setElem T st cs x = ([], r)) ↔ x.ex.value ∧ Element T x.ex x.val) ∧
    ((∃ r, setRange T st x y = ([], r)) ↔ x.ex.value ∧ y.ex.value ∧ Element T x.ex x.val ∧ Element T y.ex y.val ∧
      (Constant x.ex → Constant y.ex → x.val ≤ y.val)) := by
  unfold Element Integer
  rw [← noValue_iff, ← noValue_iff, ← isConst_iff, ← isConst_iff]
  constructor
  · unfold setElem
    cases h1 : noValue x.ex <;> cases h3 : isConst x.ex <;> by_cases h4 : (T x.ex.typ).form = .int <;> simp [h4]
  · unfold setRange
    cases h1 : noValue x.ex <;> cases h2 : noValue y.ex <;> cases h3 : isConst x.ex <;> cases h4 : isConst y.ex <;>
      by_cases h5 : (T x.ex.typ).form = .int <;> by_cases h6 : (T y.ex.typ).form = .int <;> simp [h5, h6]

/-- Where only one operand is left in the tree, it has the value of the whole expression: for all values of the operands, which for constants are
theirs, and 0 or 1 for Booleans. -/
theorem C62_one_operand (hw : Wf T) (ci cs : Nat) (o : BinOp) (x y : Arg) (r : Nat) (tr : Tree) (hx : Sound T x.ex) (h : op T ci cs o x y = ([], r, tr))
    (vx vy : Int) (hvx : Constant x.ex → vx = x.val) (hvy : Constant y.ex → vy = y.val)
    (hb : o = .and ∨ o = .or → (vx = 0 ∨ vx = 1) ∧ (vy = 0 ∨ vy = 1)) :
    (tr = .left → o.value vx vy = vx) ∧ (tr = .right → o.value vx vy = vy) := by
  unfold op at h
  by_cases hv : noValue x.ex = true ∨ noValue y.ex = true
  · rw [if_pos hv] at h; simp at h
  rw [if_neg hv] at h
  by_cases hc : isConst x.ex = true ∧ isConst y.ex = true
  · rw [if_pos hc] at h
    unfold constOp at h
    simp only [Prod.mk.injEq] at h
    rw [← h.2.2]; simp
  rw [if_neg hc] at h
  rw [not_or, Bool.not_eq_true, Bool.not_eq_true, noValue_iff, noValue_iff] at hv
  obtain ⟨z, t, hm, h⟩ := opVar_ok (o := o) (x := x) (y := y) (T := T) (r := r) (tr := tr) h
  have hu := mix_undef hw hm (hx.1 hv.1)
  rw [← isConst_iff] at hvx hvy
  cases o <;> simp only [opCase, node, hu, if_false] at h <;> simp only [BinOp.value]
  all_goals (split_ifs at h <;> simp only [Prod.mk.injEq] at h <;> obtain ⟨h1, h2, rfl⟩ := h <;> simp_all)
  all_goals (try omega)

/-! ### Cases -/

/-- `i + 1`, `i / 2` and `p = NIL` for `i: INTEGER` and a pointer, the table of C53 with INTEGER and SET. -/
example : op rT 24 23 .add ⟨⟨.var false false, 29⟩, 0⟩ ⟨⟨.const 0, 24⟩, 1⟩ = ([], 29, .both) := by decide
example : Rule rT 24 23 .add ⟨.var false false, 29⟩ ⟨.const 0, 24⟩ 29 :=
  ((C62_operators rT_wf 24 23 .add ⟨⟨.var false false, 29⟩, 0⟩ ⟨⟨.const 0, 24⟩, 1⟩ 29 (by unfold Sound Ex.value; simp [Constant]; decide)
    (by unfold Sound Ex.value; simp [Constant]; decide) (by simp)).mp ⟨.both, by decide⟩).2.2
example : op rT 24 23 .quo ⟨⟨.var false false, 29⟩, 0⟩ ⟨⟨.const 0, 24⟩, 2⟩ = ([], realtyp, .both) := by decide
example : op rT 24 23 .quo ⟨⟨.var false false, 29⟩, 0⟩ ⟨⟨.const 0, 24⟩, 0⟩ = ([205], realtyp, .both) := by decide
example : op rT 24 23 .eq ⟨⟨.var false false, 14⟩, 0⟩ ⟨⟨.const 0, niltyp⟩, 0⟩ = ([], booltyp, .both) := by decide
example : op rT 24 23 .eq ⟨⟨.var false false, 14⟩, 0⟩ ⟨⟨.var false false, 15⟩, 0⟩ = ([], booltyp, .both) := by decide
example : op rT 24 23 .lt ⟨⟨.var false false, 14⟩, 0⟩ ⟨⟨.var false false, 15⟩, 0⟩ = ([108], undftyp, .both) := by decide
example : op rT 24 23 .lt ⟨⟨.var false false, 16⟩, 0⟩ ⟨⟨.const 2, chartyp⟩, 65⟩ = ([], booltyp, .both) := by decide
example : op rT 24 23 .add ⟨⟨.var false false, 16⟩, 0⟩ ⟨⟨.const 0, 24⟩, 1⟩ = ([105], undftyp, .both) := by decide

/-- Where the code departs from the claim: a quotient of the constants 0.0 and 0.0 is accepted (OPB.Mod 520-525), as a constant that is not a number. -/
theorem C62_nan (ci cs : Nat) : ∃ x y : Arg, Constant y.ex ∧ Real rT y.ex.typ ∧ y.val = 0 ∧ op rT ci cs .quo x y = ([], realtyp, .const) :=
  ⟨⟨⟨.const 0, realtyp⟩, 0⟩, ⟨⟨.const 0, realtyp⟩, 0⟩, ⟨0, rfl⟩, .inl rfl, rfl, rfl⟩

/-- Where the code departs: of `0 * f()` only the constant is left, the call is not in the tree (OPB.Mod 705-706). -/
theorem C62_times_zero (ci cs : Nat) : ∃ x y : Arg, y.ex.kind = .other ∧ op rT ci cs .mul x y = ([], 29, .left) :=
  ⟨⟨⟨.const 0, 24⟩, 0⟩, ⟨⟨.other, 29⟩, 0⟩, rfl, rfl⟩

/-- Where the code departs: `{33}` is of the type of the large sets, but `{33..35}` is of type SET, also if that has but 32 elements: the
type `SetSetType` gave is overwritten (OPB.Mod 824). -/
theorem C62_range (st cs : Nat) (x y : Arg) (r : Nat) (h : setRange T st x y = ([], r)) : r = st := by
  unfold setRange at h
  exact (congrArg Prod.snd h).symm

example : setRange rT 23 ⟨⟨.const 0, 24⟩, 33⟩ ⟨⟨.const 0, 24⟩, 35⟩ = ([], 23) ∧ (rT 23).size * 8 = 32 := by decide
example : setElem rT 23 30 ⟨⟨.const 0, 24⟩, 33⟩ = ([], 30) := by decide

end Verif.Opers
