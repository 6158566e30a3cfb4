import Verif.Types.Model
import Verif.Common

/-! # C53: assignments and parameters are accepted by the rules of the report -/
namespace Verif.Types

variable {T : Tab}

/-! ### Loops -/

theorem Ext.rec_of (hw : Wf T) {t u : Nat} (h : Ext T t u) (ht : (T t).comp = .record) : (T u).comp = .record := by
  induction h with
  | refl => exact ht
  | step _ hb _ ih => exact ih (hw.record _ _ ht hb).1

/-- Going up from `q`: the loop finds `p` exactly if `q` is an extension of it. -/
theorem climb_eq (hw : Wf T) (p : Nat) : ∀ (f q : Nat), (T q).comp = .record → (T q).extlev < f →
    ((climb T p f (some q)).isNone = false ↔ Ext T q p)
  | 0, q, _, h => by omega
  | f + 1, q, hq, h => by
    have hu : q ≠ undftyp := by
      rintro rfl
      rw [hw.undf] at hq
      cases hq
    simp only [climb]
    by_cases hqp : q = p
    · rw [if_pos (.inl hqp)]
      exact ⟨fun _ => by rw [hqp]; exact .refl p, fun _ => rfl⟩
    · rw [if_neg (by simp [hqp, hu])]
      cases hb : (T q).base with
      | none =>
        cases f with
        | zero =>
          simp only [climb, Option.isNone_none, Bool.true_eq_false, false_iff]
          intro he
          cases he with
          | refl => exact hqp rfl
          | step _ h2 _ => rw [hb] at h2; cases h2
        | succ f =>
          simp only [climb, Option.isNone_none, Bool.true_eq_false, false_iff]
          intro he
          cases he with
          | refl => exact hqp rfl
          | step _ h2 _ => rw [hb] at h2; cases h2
      | some b =>
        obtain ⟨h1, h2⟩ := hw.record q b hq hb
        rw [climb_eq hw p f b h1 (by omega)]
        constructor
        · exact fun h => .step hq hb h
        · intro he
          cases he with
          | refl => exact absurd rfl hqp
          | step _ h3 h4 =>
            rw [hb] at h3
            cases h3
            exact h4

/-- Open dimensions taken off both. -/
theorem strip_eq (hw : Wf T) : ∀ (f t u : Nat), (T t).n < f →
    ¬((T (strip T f t u).1).comp = .dyn ∧ (T (strip T f t u).2).comp = .dyn) ∧
      (Equal T (strip T f t u).1 (strip T f t u).2 ↔ Equal T t u)
  | 0, t, u, h => by omega
  | f + 1, t, u, h => by
    simp only [strip]
    by_cases hd : (T t).comp = .dyn ∧ (T u).comp = .dyn
    · rw [if_pos hd]
      obtain ⟨a, ha, hn⟩ := hw.dyn t hd.1
      obtain ⟨b, hb, -⟩ := hw.dyn u hd.2
      rw [ha, hb, Option.getD_some, Option.getD_some]
      by_cases had : (T a).comp = .dyn
      · have := hn had
        obtain ⟨h1, h2⟩ := strip_eq hw f a b (by omega)
        refine ⟨h1, h2.trans ⟨fun h => .dyn hd.1 hd.2 ha hb h, fun h => ?_⟩⟩
        cases h with
        | same =>
          rw [ha] at hb
          cases hb
          exact .same a
        | dyn _ _ h1 h2 h3 =>
          rw [ha] at h1
          rw [hb] at h2
          cases h1
          cases h2
          exact h3
        | proc h1 _ _ _ =>
          have := (hw.comp t).mpr (by rw [hd.1]; simp)
          rw [h1] at this
          cases this
      · have hs : strip T f a b = (a, b) := by
          cases f with
          | zero => rfl
          | succ f => simp only [strip]; rw [if_neg (fun h => had h.1)]
        rw [hs]
        refine ⟨fun h => had h.1, ⟨fun h => .dyn hd.1 hd.2 ha hb h, fun h => ?_⟩⟩
        cases h with
        | same =>
          rw [ha] at hb
          cases hb
          exact .same a
        | dyn _ _ h1 h2 h3 =>
          rw [ha] at h1
          rw [hb] at h2
          cases h1
          cases h2
          exact h3
        | proc h1 _ _ _ =>
          have := (hw.comp t).mpr (by rw [hd.1]; simp)
          rw [h1] at this
          cases this
    · rw [if_neg hd]
      exact ⟨hd, Iff.rfl⟩

/-! ### Matching parameters -/

/-- Names of parameters agree, where they must. -/
def Names (names : Bool) (ps qs : List Par) : Prop := names = true → ps.map Par.name = qs.map Par.name

/-- **C53**, matching parameters: if the check of two lists of parameters ends, it reports nothing exactly if they match (and for a
forward declaration, if the names agree too). -/
theorem C53_match (hw : Wf T) : ∀ (f : Nat) (names : Bool) (ps qs : List Par) (es : List Nat), checkPars T f names ps qs = some es →
    (es = [] ↔ Match T ps qs ∧ Names names ps qs)
  | 0, _, _, _, _, h => by simp [checkPars] at h
  | f + 1, names, [], [], es, h => by
    simp only [checkPars, Option.some.injEq] at h
    subst h
    exact ⟨fun _ => ⟨.nil, fun _ => rfl⟩, fun _ => rfl⟩
  | f + 1, names, [], q :: qs, es, h => by
    simp only [checkPars, Option.some.injEq] at h
    subst h
    exact ⟨fun h => (by cases h), fun h => by cases h.1⟩
  | f + 1, names, p :: ps, [], es, h => by
    simp only [checkPars, Option.map_eq_some_iff] at h
    obtain ⟨es', _, rfl⟩ := h
    exact ⟨fun h => (by cases h), fun h => by cases h.1⟩
  | f + 1, names, p :: ps, q :: qs, es, h => by
    simp only [checkPars] at h
    obtain ⟨hnd, heq⟩ := strip_eq hw ((T p.typ).n + 1) p.typ q.typ (by omega)
    generalize strip T ((T p.typ).n + 1) p.typ q.typ = r at h hnd heq
    obtain ⟨es1, h1, h⟩ := Option.bind_eq_some_iff.mp h
    obtain ⟨es2, h2, rfl⟩ := Option.map_eq_some_iff.mp h
    have ih2 := C53_match hw f names ps qs es2 h2
    have hE : es1 = [] ↔ Equal T p.typ q.typ := by
      rw [← heq]
      by_cases hr : r.1 = r.2
      · rw [if_neg (by simpa using hr)] at h1
        cases h1
        rw [hr]
        exact ⟨fun _ => .same _, fun _ => rfl⟩
      · rw [if_pos hr] at h1
        by_cases hp : (T r.1).form = .proc ∧ (T r.2).form = .proc
        · rw [if_pos hp] at h1
          by_cases hb : (T r.1).base = (T r.2).base
          · rw [if_pos hb] at h1
            have ih1 := C53_match hw f false _ _ es1 h1
            rw [ih1]
            constructor
            · exact fun h => .proc hp.1 hp.2 hb h.1
            · intro h
              refine ⟨?_, fun h => by cases h⟩
              generalize ha : r.1 = a at h hr
              generalize hc : r.2 = c at h hr
              cases h with
              | same => exact absurd rfl hr
              | dyn hd _ _ _ _ =>
                have := (hw.comp a).mpr (by rw [hd]; simp)
                rw [← ha, hp.1] at this
                cases this
              | proc _ _ _ hm => exact hm
          · rw [if_neg hb] at h1
            cases h1
            refine ⟨fun h => (by cases h), fun h => ?_⟩
            generalize ha : r.1 = a at h hr hb hp
            generalize hc : r.2 = c at h hr hb hp
            cases h with
            | same => exact absurd rfl hr
            | dyn hd _ _ _ _ =>
              have := (hw.comp a).mpr (by rw [hd]; simp)
              rw [hp.1] at this
              cases this
            | proc _ _ hb' _ => exact absurd hb' hb
        · rw [if_neg hp] at h1
          cases h1
          refine ⟨fun h => (by cases h), fun h => ?_⟩
          generalize ha : r.1 = a at h hr hp hnd
          generalize hc : r.2 = c at h hr hp hnd
          cases h with
          | same => exact absurd rfl hr
          | dyn hd hd' _ _ _ => exact absurd ⟨hd, hd'⟩ hnd
          | proc h1 h2 _ _ => exact absurd ⟨h1, h2⟩ hp
    constructor
    · intro h
      simp only [List.append_eq_nil_iff] at h
      obtain ⟨⟨h3, h4⟩, h5⟩ := h
      have hv : ¬(p.var ≠ q.var ∨ names = true ∧ p.name ≠ q.name) := by
        intro hc
        rw [if_pos hc] at h4
        cases h4
      simp only [not_or, not_and, Decidable.not_not] at hv
      obtain ⟨hm, hn⟩ := ih2.mp h5
      exact ⟨.cons hv.1 (hE.mp h3) hm, fun h => by simp only [List.map_cons, hv.2 h, hn h]⟩
    · rintro ⟨hm, hn⟩
      cases hm with
      | cons hv he hm =>
        have hn' : Names names ps qs := fun h => by
          have := hn h
          simp only [List.map_cons, List.cons.injEq] at this
          exact this.2
        rw [hE.mpr he, ih2.mpr ⟨hm, hn'⟩, if_neg ?_]
        · rfl
        · rintro (h | ⟨h1, h2⟩)
          · exact h hv
          · have := hn h1
            simp only [List.map_cons, List.cons.injEq] at this
            exact h2 this.1

/-- More steps do not change the outcome. -/
theorem checkPars_mono : ∀ (f : Nat) (names : Bool) (ps qs : List Par) (es : List Nat), checkPars T f names ps qs = some es →
    ∀ g, f ≤ g → checkPars T g names ps qs = some es
  | 0, _, _, _, _, h, _, _ => by simp [checkPars] at h
  | f + 1, names, ps, qs, es, h, 0, hg => by omega
  | f + 1, names, [], [], es, h, g + 1, hg => by simpa [checkPars] using h
  | f + 1, names, [], q :: qs, es, h, g + 1, hg => by simpa [checkPars] using h
  | f + 1, names, p :: ps, [], es, h, g + 1, hg => by
    simp only [checkPars, Option.map_eq_some_iff] at h ⊢
    obtain ⟨es', h1, h2⟩ := h
    exact ⟨es', checkPars_mono f names ps [] es' h1 g (by omega), h2⟩
  | f + 1, names, p :: ps, q :: qs, es, h, g + 1, hg => by
    simp only [checkPars] at h ⊢
    generalize strip T ((T p.typ).n + 1) p.typ q.typ = r at h ⊢
    obtain ⟨es1, h1, h⟩ := Option.bind_eq_some_iff.mp h
    obtain ⟨es2, h2, h3⟩ := Option.map_eq_some_iff.mp h
    refine Option.bind_eq_some_iff.mpr ⟨es1, ?_, Option.map_eq_some_iff.mpr ⟨es2, checkPars_mono f names ps qs es2 h2 g (by omega), h3⟩⟩
    by_cases hr : r.1 ≠ r.2
    · rw [if_pos hr] at h1 ⊢
      by_cases hp : (T r.1).form = .proc ∧ (T r.2).form = .proc
      · rw [if_pos hp] at h1 ⊢
        by_cases hb : (T r.1).base = (T r.2).base
        · rw [if_pos hb] at h1 ⊢
          exact checkPars_mono f false _ _ es1 h1 g (by omega)
        · rw [if_neg hb] at h1 ⊢
          exact h1
      · rw [if_neg hp] at h1 ⊢
        exact h1
    · rw [if_neg hr] at h1 ⊢
      exact h1

/-- An element type of open arrays, through any number of dimensions. -/
inductive Elem (T : Tab) : Nat → Nat → Prop
  | refl (t : Nat) : Elem T t t
  | step {t b u : Nat} : (T t).comp = .dyn → (T t).base = some b → Elem T b u → Elem T t u

theorem strip_elem (hw : Wf T) : ∀ (f t u : Nat), Elem T t (strip T f t u).1
  | 0, t, u => .refl t
  | f + 1, t, u => by
    simp only [strip]
    by_cases hd : (T t).comp = .dyn ∧ (T u).comp = .dyn
    · rw [if_pos hd]
      obtain ⟨a, ha, hn⟩ := hw.dyn t hd.1
      rw [ha, Option.getD_some]
      exact .step hd.1 ha (strip_elem hw f a _)
    · rw [if_neg hd]
      exact .refl t

/-- **C53**, matching parameters: the check ends, if procedure types do not contain themselves as types of parameters (or of
parameters of parameters, and so on): then there is a rank that falls from a procedure type to those of its parameters. -/
theorem C53_match_ends (hw : Wf T) (rank : Nat → Nat)
    (hr : ∀ t p u, (T t).form = .proc → p ∈ (T t).params → Elem T p.typ u → (T u).form = .proc → rank u < rank t) :
    ∀ (m : Nat) (names : Bool) (ps qs : List Par), (∀ p u, p ∈ ps → Elem T p.typ u → (T u).form = .proc → rank u < m) →
      ∃ f es, checkPars T f names ps qs = some es := by
  intro m
  induction m with
  | zero =>
    intro names ps
    induction ps with
    | nil => intro qs _; exact ⟨1, by cases qs <;> simp [checkPars]⟩
    | cons p ps ih =>
      intro qs hm
      cases qs with
      | nil =>
        obtain ⟨f, es, h⟩ := ih [] (fun q u hq => hm q u (.tail _ hq))
        exact ⟨f + 1, 116 :: es, by simp [checkPars, h]⟩
      | cons q qs =>
        obtain ⟨f, es, h⟩ := ih qs (fun q u hq => hm q u (.tail _ hq))
        have hel := strip_elem hw ((T p.typ).n + 1) p.typ q.typ
        refine ⟨f + 1, ?_⟩
        simp only [checkPars, h]
        generalize strip T ((T p.typ).n + 1) p.typ q.typ = r at hel ⊢
        have hnp : (T r.1).form ≠ .proc := fun hf => by have := hm p r.1 (.head _) hel hf; omega
        by_cases hrr : r.1 ≠ r.2
        · rw [if_pos hrr, if_neg (fun h => hnp h.1)]
          simp
        · rw [if_neg hrr]
          simp
  | succ m ihm =>
    intro names ps
    induction ps with
    | nil => intro qs _; exact ⟨1, by cases qs <;> simp [checkPars]⟩
    | cons p ps ih =>
      intro qs hm
      cases qs with
      | nil =>
        obtain ⟨f, es, h⟩ := ih [] (fun q u hq => hm q u (.tail _ hq))
        exact ⟨f + 1, 116 :: es, by simp [checkPars, h]⟩
      | cons q qs =>
        obtain ⟨f, es, h⟩ := ih qs (fun q u hq => hm q u (.tail _ hq))
        have hel := strip_elem hw ((T p.typ).n + 1) p.typ q.typ
        generalize hrd : strip T ((T p.typ).n + 1) p.typ q.typ = r at hel
        by_cases hp : (T r.1).form = .proc ∧ (T r.2).form = .proc
        · obtain ⟨f2, es2, h2⟩ := ihm false (T r.1).params (T r.2).params (fun p' u hp' he hf => by
            have h1 := hr r.1 p' u hp.1 hp' he hf
            have h2 := hm p r.1 (.head _) hel hp.1
            omega)
          refine ⟨max f f2 + 1, ?_⟩
          simp only [checkPars, hrd]
          rw [checkPars_mono f names ps qs es h (max f f2) (by omega), checkPars_mono f2 false _ _ es2 h2 (max f f2) (by omega)]
          by_cases hrr : r.1 ≠ r.2
          · rw [if_pos hrr, if_pos hp]
            by_cases hb : (T r.1).base = (T r.2).base
            · rw [if_pos hb]
              simp
            · rw [if_neg hb]
              simp
          · rw [if_neg hrr]
            simp
        · refine ⟨f + 1, ?_⟩
          simp only [checkPars, hrd, h]
          by_cases hrr : r.1 ≠ r.2
          · rw [if_pos hrr, if_neg hp]
            simp
          · rw [if_neg hrr]
            simp

/-! ### Assignments -/

theorem form_comp (hw : Wf T) {t : Nat} {c : Comp} (h : (T t).comp = c) (hc : c ≠ .basic) : (T t).form = .comp :=
  (hw.comp t).mpr (by rw [h]; exact hc)

theorem comp_basic (hw : Wf T) {t : Nat} (h : (T t).form ≠ .comp) : (T t).comp = .basic := by
  cases hc : (T t).comp with
  | basic => rfl
  | _ => exact absurd ((hw.comp t).mpr (by rw [hc]; simp)) h

/-- The case of pointers. -/
theorem checkPtr_eq (hw : Wf T) {x : Nat} (hx : (T x).form = .ptr) (y : Nat) :
    checkPtr T x y = [] ↔ y = x ∨ y = niltyp ∨ x = sysptrtyp ∧ (T y).form = .ptr ∨ ∃ a b, RecPtr T x a ∧ RecPtr T y b ∧ Ext T b a := by
  simp only [checkPtr]
  by_cases h1 : x = y ∨ (T y).form = .nil ∨ x = sysptrtyp ∧ (T y).form = .ptr
  · rw [if_pos h1]
    refine ⟨fun _ => ?_, fun _ => rfl⟩
    rcases h1 with h | h | h
    · exact .inl h.symm
    · exact .inr (.inl (hw.nil' y h))
    · exact .inr (.inr (.inl h))
  · rw [if_neg h1]
    simp only [not_or] at h1
    by_cases h2 : (T y).form = .ptr
    · rw [if_pos h2]
      obtain ⟨p, hp⟩ := hw.ptr x hx
      obtain ⟨q, hq⟩ := hw.ptr y h2
      simp only [hp, hq, checkPtrs]
      by_cases h3 : (T p).comp = .record ∧ (T q).comp = .record
      · rw [if_pos h3]
        have hc := climb_eq hw p ((T q).extlev + 1) q h3.2 (by omega)
        cases hn : (climb T p ((T q).extlev + 1) (some q)).isNone with
        | false => exact ⟨fun _ => .inr (.inr (.inr ⟨p, q, ⟨hx, hp, h3.1⟩, ⟨h2, hq, h3.2⟩, hc.mp hn⟩)), fun _ => rfl⟩
        | true =>
          refine ⟨fun h => (by cases h), ?_⟩
          rintro (h | h | h | ⟨a, b, ⟨_, ha, _⟩, ⟨_, hb, _⟩, he⟩)
          · exact absurd h.symm h1.1
          · exact absurd (by rw [h, hw.nil]) h1.2.1
          · exact absurd h h1.2.2
          · rw [hp] at ha
            rw [hq] at hb
            cases ha
            cases hb
            have := hc.mpr he
            rw [hn] at this
            cases this
      · rw [if_neg h3]
        refine ⟨fun h => (by cases h), ?_⟩
        rintro (h | h | h | ⟨a, b, ⟨_, ha, ha'⟩, ⟨_, hb, hb'⟩, he⟩)
        · exact absurd h.symm h1.1
        · exact absurd (by rw [h, hw.nil]) h1.2.1
        · exact absurd h h1.2.2
        · rw [hp] at ha
          rw [hq] at hb
          cases ha
          cases hb
          exact absurd ⟨ha', hb'⟩ h3
    · rw [if_neg h2]
      refine ⟨fun h => (by cases h), ?_⟩
      rintro (h | h | h | ⟨a, b, _, ⟨h, _⟩, _⟩)
      · exact absurd h.symm h1.1
      · exact absurd (by rw [h, hw.nil]) h1.2.1
      · exact absurd h h1.2.2
      · exact absurd h h2

/-- The case of records. -/
theorem checkRec_eq (hw : Wf T) {x y : Nat} (hx : (T x).comp = .record) :
    (if x = y then [] else if (T y).comp = .record then if (climb T x ((T y).extlev) (T y).base).isNone then [113] else []
      else [113]) = ([] : List Nat) ↔ (T y).comp = .record ∧ Ext T y x := by
  by_cases h1 : x = y
  · rw [if_pos h1]
    exact ⟨fun _ => ⟨by rw [← h1]; exact hx, by rw [h1]; exact .refl y⟩, fun _ => rfl⟩
  · rw [if_neg h1]
    by_cases h2 : (T y).comp = .record
    · rw [if_pos h2]
      cases hb : (T y).base with
      | none =>
        have : climb T x (T y).extlev none = none := by cases (T y).extlev <;> rfl
        rw [this]
        refine ⟨fun h => (by cases h), fun h => ?_⟩
        cases h.2 with
        | refl => exact absurd rfl h1
        | step _ h3 _ => rw [hb] at h3; cases h3
      | some b =>
        obtain ⟨h3, h4⟩ := hw.record y b h2 hb
        have hc := climb_eq hw x ((T y).extlev) b h3 (by omega)
        cases hn : (climb T x (T y).extlev (some b)).isNone with
        | false => exact ⟨fun _ => ⟨h2, .step h2 hb (hc.mp hn)⟩, fun _ => rfl⟩
        | true =>
          refine ⟨fun h => (by cases h), fun h => ?_⟩
          cases h.2 with
          | refl => exact absurd rfl h1
          | step _ h5 h6 =>
            rw [hb] at h5
            cases h5
            have := hc.mpr h6
            rw [hn] at this
            cases this
    · rw [if_neg h2]
      exact ⟨fun h => (by cases h), fun h => absurd h.1 h2⟩

/-- The case of arrays. -/
theorem checkArr_eq (hw : Wf T) {x : Nat} {e : Ex} (hx : (T x).comp = .array) (he : e.typ = stringtyp → ∃ len, e.kind = .const len) :
    checkComp T x e = [] ↔ e.typ = x ∨ ((T e.typ).comp = .array ∧ (T e.typ).base = (T x).base ∧ (T e.typ).n ≤ (T x).n) ∨
      ∃ len, e.kind = .const len ∧ (e.typ = stringtyp ∨ e.typ = chartyp) ∧ (T x).base = some chartyp ∧ len ≤ (T x).n := by
  have hxf := form_comp hw hx (by simp)
  have hxs : x ≠ stringtyp := by rintro rfl; rw [hw.str] at hx; cases hx
  have hss : (T stringtyp).comp = .basic := by rw [hw.str]
  have hsf : (T stringtyp).form = .str := by rw [hw.str]
  have hcf : (T chartyp).form = .char := by rw [hw.char]
  have hxc : x ≠ chartyp := by rintro rfl; rw [hw.char] at hx; cases hx
  have key : ∀ y, (∀ len, e.kind = .const len → y = e.typ ∨ y = stringtyp ∧ e.typ = chartyp) →
      (y = stringtyp → ∃ len, e.kind = .const len) → ((if x = y then [] else if (T y).comp = .array ∧ (T y).base = (T x).base ∧ (T y).n ≤ (T x).n then []
    else if (T y).comp = .dyn ∧ (T y).base = (T x).base then [113]
    else if (T x).base = some chartyp then
      if (T y).form = .str then match e.kind with
        | .const len => if len > (T x).n then [114] else []
        | _ => []
      else [113]
    else [113]) = ([] : List Nat) ↔ y = x ∨ ((T y).comp = .array ∧ (T y).base = (T x).base ∧ (T y).n ≤ (T x).n) ∨
      ∃ len, e.kind = .const len ∧ y = stringtyp ∧ (T x).base = some chartyp ∧ len ≤ (T x).n) := by
    intro y _ hy
    by_cases h1 : x = y
    · rw [if_pos h1]; exact ⟨fun _ => .inl h1.symm, fun _ => rfl⟩
    · rw [if_neg h1]
      by_cases h2 : (T y).comp = .array ∧ (T y).base = (T x).base ∧ (T y).n ≤ (T x).n
      · rw [if_pos h2]; exact ⟨fun _ => .inr (.inl h2), fun _ => rfl⟩
      · rw [if_neg h2]
        by_cases h3 : (T y).comp = .dyn ∧ (T y).base = (T x).base
        · rw [if_pos h3]
          refine ⟨fun h => (by cases h), ?_⟩
          rintro (h | h | ⟨len, _, h, _⟩)
          · exact absurd h.symm h1
          · exact absurd h h2
          · rw [h, hss] at h3; cases h3.1
        · rw [if_neg h3]
          by_cases h4 : (T x).base = some chartyp
          · rw [if_pos h4]
            by_cases h5 : (T y).form = .str
            · rw [if_pos h5]
              have hys := hw.str' y h5
              obtain ⟨len, hk⟩ := hy hys
              simp only [hk]
              by_cases h6 : len > (T x).n
              · rw [if_pos h6]
                refine ⟨fun h => (by cases h), ?_⟩
                rintro (h | h | ⟨len', hl, _, _, h⟩)
                · exact absurd h.symm h1
                · exact absurd h h2
                · cases hl; omega
              · rw [if_neg h6]
                exact ⟨fun _ => .inr (.inr ⟨len, rfl, hys, h4, by omega⟩), fun _ => rfl⟩
            · rw [if_neg h5]
              refine ⟨fun h => (by cases h), ?_⟩
              rintro (h | h | ⟨len, _, h, _⟩)
              · exact absurd h.symm h1
              · exact absurd h h2
              · rw [h] at h5; exact absurd hsf h5
          · rw [if_neg h4]
            refine ⟨fun h => (by cases h), ?_⟩
            rintro (h | h | ⟨len, _, _, h, _⟩)
            · exact absurd h.symm h1
            · exact absurd h h2
            · exact absurd h h4
  simp only [checkComp, hx]
  by_cases hcc : (∃ len, e.kind = .const len) ∧ e.typ = chartyp
  · obtain ⟨⟨len, hk⟩, ht⟩ := hcc
    have hy : charToString T x e = stringtyp := by
      simp only [charToString, hk, ht, hcf, hx, and_self, if_true]
    rw [hy]
    refine (key stringtyp (fun l _ => .inr ⟨rfl, ht⟩) (fun _ => ⟨len, hk⟩)).trans ?_
    rw [ht]
    have hcs : stringtyp ≠ x := fun h => hxs h.symm
    have hcs' : chartyp ≠ x := fun h => hxc h.symm
    have hb : (T chartyp).comp = .basic := by rw [hw.char]
    constructor
    · rintro (h | h | ⟨l, h1, _, h2, h3⟩)
      · exact absurd h hcs
      · rw [hss] at h; cases h.1
      · exact .inr (.inr ⟨l, h1, .inr rfl, h2, h3⟩)
    · rintro (h | h | ⟨l, h1, _, h2, h3⟩)
      · exact absurd h hcs'
      · rw [hb] at h; cases h.1
      · exact .inr (.inr ⟨l, h1, rfl, h2, h3⟩)
  · have hy : charToString T x e = e.typ := by
      simp only [charToString]
      split
      · rename_i len hk
        rw [if_neg]
        rintro ⟨_, h⟩
        exact hcc ⟨⟨len, hk⟩, hw.char' _ h⟩
      · rfl
    rw [hy]
    refine (key e.typ (fun l _ => .inl rfl) he).trans ?_
    constructor
    · rintro (h | h | ⟨l, h1, h', h2, h3⟩)
      · exact .inl h
      · exact .inr (.inl h)
      · exact .inr (.inr ⟨l, h1, .inl h', h2, h3⟩)
    · rintro (h | h | ⟨l, h1, h' | h', h2, h3⟩)
      · exact .inl h
      · exact .inr (.inl h)
      · exact .inr (.inr ⟨l, h1, h', h2, h3⟩)
      · exact absurd ⟨⟨l, h1⟩, h'⟩ hcc

/-- The first test. -/
theorem notValue_eq (T : Tab) (x : Nat) (e : Ex) : notValue T x e = [] ↔ e.value ∨ (T x).form = .proc ∧ ∃ a r ps, e.kind = .proc a r ps := by
  simp only [notValue, Ex.value]
  cases hk : e.kind with
  | typ => simp
  | proc a r ps =>
    by_cases h : (T x).form = .proc
    · simp [h]
    · simp [h]
  | _ => simp

/-- The types of variables. -/
def VarType (T : Tab) (x : Nat) : Prop := (T x).form ≠ .undef ∧ (T x).form ≠ .str ∧ (T x).form ≠ .no ∧ (T x).form ≠ .nil

/-- The case of basic types. -/
theorem checkBasic_eq (hw : Wf T) {x y : Nat} (hx : VarType T x) (h1 : (T x).form ≠ .ptr) (h2 : (T x).form ≠ .proc) (h3 : (T x).form ≠ .comp) :
    checkBasic (T x).form (T y).form (T x).size (T y).size = [] ↔
      y = x ∨ Includes T x y ∨ (T x).form = .set ∧ (T y).form = .set ∧ (T y).size ≤ (T x).size ∨
        x = bytetyp ∧ ((T y).form = .byte ∨ (T y).form = .char ∨ (T y).form = .int) ∧ (T y).size = 1 := by
  have hbs : (T bytetyp).size = 1 := by rw [hw.byte]
  have hbf : (T bytetyp).form = .byte := by rw [hw.byte]
  obtain ⟨x1, x2, x3, x4⟩ := hx
  have hnb : ∀ c, c ≠ .byte → (T x).form = c → x ≠ bytetyp := by
    rintro c hc h rfl
    rw [hbf] at h
    exact hc h.symm
  cases hf : (T x).form with
  | undef => exact absurd hf x1
  | str => exact absurd hf x2
  | no => exact absurd hf x3
  | nil => exact absurd hf x4
  | ptr => exact absurd hf h1
  | proc => exact absurd hf h2
  | comp => exact absurd hf h3
  | byte =>
    have hx := hw.byte' x hf
    simp only [checkBasic, Includes, hf]
    constructor
    · intro h
      by_cases hc : ((T y).form = .byte ∨ (T y).form = .char ∨ (T y).form = .int) ∧ (T y).size = 1
      · exact .inr (.inr (.inr ⟨hx, hc⟩))
      · rw [if_neg hc] at h
        cases h
    · rintro (h | h | h | h)
      · rw [h, hx]
        exact if_pos ⟨.inl hbf, hbs⟩
      · rcases h with h | h | h <;> cases h.1
      · cases h.1
      · exact if_pos h.2
  | bool =>
    have hx := hw.bool' x hf
    have hb := hnb _ (by simp) hf
    simp only [checkBasic, Includes, hf]
    constructor
    · intro h
      by_cases hc : (T y).form = .bool
      · exact .inl ((hw.bool' y hc).trans hx.symm)
      · rw [if_pos hc] at h
        cases h
    · rintro (h | h | h | h)
      · rw [h, hf]; simp
      · rcases h with h | h | h <;> cases h.1
      · cases h.1
      · exact absurd h.1 hb
  | char =>
    have hx := hw.char' x hf
    have hb := hnb _ (by simp) hf
    simp only [checkBasic, Includes, hf]
    constructor
    · intro h
      by_cases hc : (T y).form = .char
      · exact .inl ((hw.char' y hc).trans hx.symm)
      · rw [if_pos hc] at h
        cases h
    · rintro (h | h | h | h)
      · rw [h, hf]; simp
      · rcases h with h | h | h <;> cases h.1
      · cases h.1
      · exact absurd h.1 hb
  | int =>
    have hb := hnb _ (by simp) hf
    simp only [checkBasic, Includes, hf]
    constructor
    · intro h
      by_cases hc : (T y).form ≠ .int ∨ (T x).size < (T y).size
      · rw [if_pos hc] at h
        cases h
      · have h1 : (T y).form = .int := by
          by_contra h
          exact hc (.inl h)
        exact .inr (.inl (.inl ⟨trivial, h1, by omega⟩))
    · rintro (h | h | h | h)
      · rw [h, hf]; simp
      · rcases h with h | h | h
        · rw [if_neg]
          rintro (g | g)
          · exact g h.2.1
          · omega
        · cases h.1
        · cases h.1
      · cases h.1
      · exact absurd h.1 hb
  | set =>
    have hb := hnb _ (by simp) hf
    simp only [checkBasic, Includes, hf]
    constructor
    · intro h
      by_cases hc : (T y).form ≠ .set ∨ (T x).size < (T y).size
      · rw [if_pos hc] at h
        cases h
      · have h1 : (T y).form = .set := by
          by_contra h
          exact hc (.inl h)
        exact .inr (.inr (.inl ⟨trivial, h1, by omega⟩))
    · rintro (h | h | h | h)
      · rw [h, hf]; simp
      · rcases h with h | h | h <;> cases h.1
      · rw [if_neg]
        rintro (g | g)
        · exact g h.2.1
        · omega
      · exact absurd h.1 hb
  | real =>
    have hb := hnb _ (by simp) hf
    simp only [checkBasic, Includes, hf]
    constructor
    · intro h
      by_cases hc : (T y).form = .int ∨ (T y).form = .real
      · exact .inr (.inl (.inr (.inl ⟨trivial, hc⟩)))
      · rw [if_neg hc] at h
        cases h
    · rintro (h | h | h | h)
      · rw [h, hf]; simp
      · rcases h with h | h | h
        · cases h.1
        · exact if_pos h.2
        · cases h.1
      · cases h.1
      · exact absurd h.1 hb
  | lreal =>
    have hb := hnb _ (by simp) hf
    simp only [checkBasic, Includes, hf]
    constructor
    · intro h
      by_cases hc : (T y).form = .int ∨ (T y).form = .real ∨ (T y).form = .lreal
      · exact .inr (.inl (.inr (.inr ⟨trivial, hc⟩)))
      · rw [if_neg hc] at h
        cases h
    · rintro (h | h | h | h)
      · rw [h, hf]; simp
      · rcases h with h | h | h
        · cases h.1
        · cases h.1
        · exact if_pos h.2
      · cases h.1
      · exact absurd h.1 hb

/-- **C53**, assignments: if the check of `x := e` ends, it reports nothing exactly if the expression is assignment compatible with
the type of the variable. -/
theorem C53_assign (hw : Wf T) (f x : Nat) (e : Ex) (es : List Nat) (hx : VarType T x)
    (he : e.typ = stringtyp → ∃ len, e.kind = .const len) (h : checkAssign T f x e = some es) : es = [] ↔ Compatible T x e := by
  simp only [checkAssign, Option.map_eq_some_iff] at h
  obtain ⟨es1, h1, rfl⟩ := h
  simp only [List.append_eq_nil_iff, notValue_eq]
  obtain ⟨x1, x2, x3, x4⟩ := hx
  have hnf : (T niltyp).form = .nil := by rw [hw.nil]
  have hsf : (T stringtyp).form = .str := by rw [hw.str]
  cases hf : (T x).form with
  | undef => exact absurd hf x1
  | str => exact absurd hf x2
  | no => exact absurd hf x3
  | nil => exact absurd hf x4
  | ptr =>
    simp only [hf, Option.some.injEq] at h1
    subst h1
    have hcb := comp_basic hw (t := x) (by rw [hf]; simp)
    rw [checkPtr_eq hw hf]
    constructor
    · rintro ⟨hv | ⟨hv, _⟩, h⟩
      · rcases h with h | h | h | ⟨a, b, h1, h2, h3⟩
        · exact .same hv h (by rw [hcb]; simp)
        · exact .nil hv h (.inl hf)
        · exact .sysptr hv h.1 h.2
        · exact .pointer hv h1 h2 h3
      · cases hv
    · intro h
      cases h with
      | same hv h _ => exact ⟨.inl hv, .inl h⟩
      | numeric _ h => rcases h with h | h | h <;> rw [hf] at h <;> cases h.1
      | record _ h _ _ => rw [hcb] at h; cases h
      | pointer hv h1 h2 h3 => exact ⟨.inl hv, .inr (.inr (.inr ⟨_, _, h1, h2, h3⟩))⟩
      | nil hv h _ => exact ⟨.inl hv, .inr (.inl h)⟩
      | string h _ _ _ _ => rw [hcb] at h; cases h
      | char h _ _ _ _ => rw [hcb] at h; cases h
      | proc h _ _ _ => rw [hf] at h; cases h
      | set _ h _ _ => rw [hf] at h; cases h
      | byte _ h _ _ => rw [h, hw.byte] at hf; cases hf
      | sysptr hv h h' => exact ⟨.inl hv, .inr (.inr (.inl ⟨h, h'⟩))⟩
      | array _ h _ _ _ => rw [hcb] at h; cases h
  | proc =>
    have hcb := comp_basic hw (t := x) (by rw [hf]; simp)
    simp only [hf, checkProcTyp] at h1
    have hrest : Compatible T x e ↔ (e.value ∧ (e.typ = x ∨ e.typ = niltyp)) ∨
        ∃ r ps, e.kind = .proc true r ps ∧ (T x).base = some r ∧ Match T (T x).params ps := by
      constructor
      · intro h
        cases h with
        | same hv h _ => exact .inl ⟨hv, .inl h⟩
        | numeric _ h => rcases h with h | h | h <;> rw [hf] at h <;> cases h.1
        | record _ h _ _ => rw [hcb] at h; cases h
        | pointer hv h1 h2 h3 => have := h1.1; rw [hf] at this; cases this
        | nil hv h _ => exact .inl ⟨hv, .inr h⟩
        | string h _ _ _ _ => rw [hcb] at h; cases h
        | char h _ _ _ _ => rw [hcb] at h; cases h
        | proc _ h1 h2 h3 => exact .inr ⟨_, _, h1, h2, h3⟩
        | set _ h _ _ => rw [hf] at h; cases h
        | byte _ h _ _ => rw [h, hw.byte] at hf; cases hf
        | sysptr hv h h' => rw [h, hw.sysptr.1] at hf; cases hf
        | array _ h _ _ _ => rw [hcb] at h; cases h
      · rintro (⟨hv, h | h⟩ | ⟨r, ps, h1, h2, h3⟩)
        · exact .same hv h (by rw [hcb]; simp)
        · exact .nil hv h (.inr hf)
        · exact .proc hf h1 h2 h3
    rw [hrest]
    by_cases hkp : ∃ a r ps, e.kind = .proc a r ps
    · obtain ⟨a, r, ps, hk⟩ := hkp
      have hnv : ¬e.value := fun h => h.2 _ _ _ hk
      simp only [hk] at h1
      cases a with
      | false =>
        simp only [Bool.false_eq_true, if_false, Option.some.injEq] at h1
        subst h1
        refine ⟨fun h => (by cases h.2), ?_⟩
        rintro (h | ⟨r, ps, h, _⟩)
        · exact absurd h.1 hnv
        · rw [hk] at h; cases h
      | true =>
        simp only [if_true, checkProc] at h1
        by_cases hb : (T x).base = some r
        · rw [if_pos hb] at h1
          rw [C53_match hw f false _ _ es1 h1]
          constructor
          · exact fun h => .inr ⟨r, ps, hk, hb, h.2.1⟩
          · rintro (h | ⟨r', ps', h, _, hm⟩)
            · exact absurd h.1 hnv
            · rw [hk] at h
              cases h
              exact ⟨.inr ⟨rfl, _, _, _, hk⟩, hm, fun h => (by cases h)⟩
        · rw [if_neg hb] at h1
          cases h1
          refine ⟨fun h => (by cases h.2), ?_⟩
          rintro (h | ⟨r', ps', h, h2, _⟩)
          · exact absurd h.1 hnv
          · rw [hk] at h
            cases h
            exact absurd h2 hb
    · have h1' : some (if x = e.typ ∨ (T e.typ).form = .nil then ([] : List Nat) else [113]) = some es1 := by
        cases hk : e.kind with
        | proc a r ps => exact absurd ⟨a, r, ps, hk⟩ hkp
        | _ => simpa only [hk] using h1
      have h2 := Option.some.inj h1'
      subst h2
      constructor
      · rintro ⟨hv | hv, h⟩
        · by_cases hc : x = e.typ ∨ (T e.typ).form = .nil
          · rcases hc with hc | hc
            · exact .inl ⟨hv, .inl hc.symm⟩
            · exact .inl ⟨hv, .inr (hw.nil' _ hc)⟩
          · rw [if_neg hc] at h
            cases h
        · exact absurd hv.2 hkp
      · rintro (⟨hv, h⟩ | ⟨r, ps, h, _⟩)
        · refine ⟨.inl hv, if_pos ?_⟩
          rcases h with h | h
          · exact .inl h.symm
          · exact .inr (by rw [h, hnf])
        · exact absurd ⟨_, _, _, h⟩ hkp
  | comp =>
    simp only [hf, Option.some.injEq] at h1
    subst h1
    have hnp : (T x).form ≠ .proc := by rw [hf]; simp
    have hval : ∀ p : Prop, (e.value ∨ (T x).form = .proc ∧ p) ↔ e.value := fun p => ⟨fun h => h.elim id fun h => absurd h.1 hnp, .inl⟩
    rw [← hf, hval]
    have hcomp := (hw.comp x).mp hf
    cases hc : (T x).comp with
    | basic => exact absurd hc hcomp
    | dyn =>
      simp only [checkComp, hc]
      refine ⟨fun h => (by cases h.2), fun h => ?_⟩
      cases h with
      | same _ _ h => exact absurd hc h
      | numeric _ h => rcases h with h | h | h <;> rw [hf] at h <;> cases h.1
      | record _ h _ _ => rw [hc] at h; cases h
      | pointer hv h1 h2 h3 => have := h1.1; rw [hf] at this; cases this
      | nil hv _ h => rw [hf] at h; rcases h with h | h <;> cases h
      | string h _ _ _ _ => rw [hc] at h; cases h
      | char h _ _ _ _ => rw [hc] at h; cases h
      | proc h _ _ _ => rw [hf] at h; cases h
      | set _ h _ _ => rw [hf] at h; cases h
      | byte _ h _ _ => rw [h, hw.byte] at hf; cases hf
      | sysptr hv h h' => rw [h, hw.sysptr.1] at hf; cases hf
      | array _ h _ _ _ => rw [hc] at h; cases h
    | record =>
      have hcr : checkComp T x e = (if x = e.typ then [] else if (T e.typ).comp = .record then
          if (climb T x ((T e.typ).extlev) (T e.typ).base).isNone then [113] else [] else [113]) := by
        simp only [checkComp, charToString, hc]
        cases e.kind <;> simp
      rw [hcr, checkRec_eq hw hc]
      constructor
      · exact fun h => .record h.1 hc h.2.1 h.2.2
      · intro h
        cases h with
        | same hv h _ => exact ⟨hv, by rw [h]; exact hc, by rw [h]; exact .refl x⟩
        | numeric _ h => rcases h with h | h | h <;> rw [hf] at h <;> cases h.1
        | record hv _ h1 h2 => exact ⟨hv, h1, h2⟩
        | pointer hv h1 h2 h3 => have := h1.1; rw [hf] at this; cases this
        | nil hv _ h => rw [hf] at h; rcases h with h | h <;> cases h
        | string h _ _ _ _ => rw [hc] at h; cases h
        | char h _ _ _ _ => rw [hc] at h; cases h
        | proc h _ _ _ => rw [hf] at h; cases h
        | set _ h _ _ => rw [hf] at h; cases h
        | byte _ h _ _ => rw [h, hw.byte] at hf; cases hf
        | sysptr hv h h' => rw [h, hw.sysptr.1] at hf; cases hf
        | array _ h _ _ _ => rw [hc] at h; cases h
    | array =>
      rw [checkArr_eq hw hc he]
      have hcv : ∀ len, e.kind = .const len → e.value := fun len h => ⟨by rw [h]; simp, by rw [h]; simp⟩
      constructor
      · rintro ⟨hv, h | h | ⟨len, h1, h2 | h2, h3, h4⟩⟩
        · exact .same hv h (by rw [hc]; simp)
        · exact .array hv hc h.1 h.2.1 h.2.2
        · exact .string hc h3 h1 h2 h4
        · exact .char hc h3 h1 h2 h4
      · intro h
        cases h with
        | same hv h _ => exact ⟨hv, .inl h⟩
        | numeric _ h => rcases h with h | h | h <;> rw [hf] at h <;> cases h.1
        | record _ h _ _ => rw [hc] at h; cases h
        | pointer hv h1 h2 h3 => have := h1.1; rw [hf] at this; cases this
        | nil hv _ h => rw [hf] at h; rcases h with h | h <;> cases h
        | string _ h1 h2 h3 h4 => exact ⟨hcv _ h2, .inr (.inr ⟨_, h2, .inl h3, h1, h4⟩)⟩
        | char _ h1 h2 h3 h4 => exact ⟨hcv _ h2, .inr (.inr ⟨_, h2, .inr h3, h1, h4⟩)⟩
        | proc h _ _ _ => rw [hf] at h; cases h
        | set _ h _ _ => rw [hf] at h; cases h
        | byte _ h _ _ => rw [h, hw.byte] at hf; cases hf
        | sysptr hv h h' => rw [h, hw.sysptr.1] at hf; cases hf
        | array hv _ h1 h2 h3 => exact ⟨hv, .inr (.inl ⟨h1, h2, h3⟩)⟩
  | _ =>
    simp only [hf, Option.some.injEq] at h1
    subst h1
    have hnp : (T x).form ≠ .proc := by rw [hf]; simp
    have hval : ∀ p : Prop, (e.value ∨ (T x).form = .proc ∧ p) ↔ e.value := fun p => ⟨fun h => h.elim id fun h => absurd h.1 hnp, .inl⟩
    rw [← hf, hval]
    have hcb := comp_basic hw (t := x) (by rw [hf]; simp)
    have hrest : Compatible T x e ↔ e.value ∧ (e.typ = x ∨ Includes T x e.typ ∨ (T x).form = .set ∧ (T e.typ).form = .set ∧ (T e.typ).size ≤ (T x).size ∨
        x = bytetyp ∧ ((T e.typ).form = .byte ∨ (T e.typ).form = .char ∨ (T e.typ).form = .int) ∧ (T e.typ).size = 1) := by
      constructor
      · intro h
        cases h with
        | same hv h _ => exact ⟨hv, .inl h⟩
        | numeric hv h => exact ⟨hv, .inr (.inl h)⟩
        | record _ h _ _ => rw [hcb] at h; cases h
        | pointer hv h1 h2 h3 => have := h1.1; rw [hf] at this; cases this
        | nil hv _ h => rw [hf] at h; rcases h with h | h <;> cases h
        | string h _ _ _ _ => rw [hcb] at h; cases h
        | char h _ _ _ _ => rw [hcb] at h; cases h
        | proc h _ _ _ => rw [hf] at h; cases h
        | set hv h1 h2 h3 => exact ⟨hv, .inr (.inr (.inl ⟨h1, h2, h3⟩))⟩
        | byte hv h1 h2 h3 => exact ⟨hv, .inr (.inr (.inr ⟨h1, h2, h3⟩))⟩
        | sysptr hv h h' => rw [h, hw.sysptr.1] at hf; cases hf
        | array _ h _ _ _ => rw [hcb] at h; cases h
      · rintro ⟨hv, h | h | ⟨h1, h2, h3⟩ | ⟨h1, h2, h3⟩⟩
        · exact .same hv h (by rw [hcb]; simp)
        · exact .numeric hv h
        · exact .set hv h1 h2 h3
        · exact .byte hv h1 h2 h3
    rw [hrest]
    refine and_congr_right fun _ => ?_
    refine (show _ ↔ _ from checkBasic_eq hw ⟨x1, x2, x3, x4⟩ (by rw [hf]; simp) (by rw [hf]; simp) (by rw [hf]; simp))

theorem ArrayCompatible.dyn {var : Bool} {f a : Nat} (h : ArrayCompatible T var f a) : (T f).comp = .dyn := by
  cases h <;> assumption

/-- The check of parameters that are open arrays. -/
theorem dynCheck_eq (hw : Wf T) (var : Bool) : ∀ (m f a : Nat), (T f).comp = .dyn → (T f).n < m →
    (dynCheck T var m f a = [] ↔ ArrayCompatible T var f a)
  | 0, _, _, _, h => by omega
  | m + 1, f, a, hf, hm => by
    obtain ⟨fe, hfe, hdn⟩ := hw.dyn f hf
    have hbb : (T bytetyp).comp = .basic := by rw [hw.byte]
    simp only [dynCheck, hfe, Option.getD_some]
    by_cases h1 : var = true ∧ fe = bytetyp
    · rw [if_pos h1]
      exact ⟨fun _ => .bytes h1.1 hf (by rw [hfe, h1.2]), fun _ => rfl⟩
    · rw [if_neg h1]
      by_cases h2 : (T a).comp = .array ∨ (T a).comp = .dyn
      · rw [if_pos h2]
        have hae : ∃ ae, (T a).base = some ae := by
          rcases h2 with h | h
          · obtain ⟨b, hb, _⟩ := hw.array a h
            exact ⟨b, hb⟩
          · obtain ⟨b, hb, _⟩ := hw.dyn a h
            exact ⟨b, hb⟩
        obtain ⟨ae, hae⟩ := hae
        simp only [hae, Option.getD_some]
        by_cases h3 : (T fe).comp = .dyn
        · rw [if_pos h3, dynCheck_eq hw var m fe ae h3 (by have := hdn h3; omega)]
          constructor
          · exact fun h => .open hf hfe h2 hae h
          · intro h
            cases h with
            | elem _ g1 _ g2 g3 => rw [hfe] at g1; cases g1; exact absurd h3 g3
            | «open» _ g1 _ g2 g3 => rw [hfe] at g1; cases g1; rw [hae] at g2; cases g2; exact g3
            | bytes g0 _ g1 => rw [hfe] at g1; cases g1; rw [hbb] at h3; cases h3
            | pointers _ _ g1 _ _ g2 =>
              rw [hfe] at g1; cases g1
              have := comp_basic hw (t := fe) (by rw [g2.1]; simp)
              rw [this] at h3; cases h3
        · rw [if_neg h3]
          have hinv : ArrayCompatible T var f a ↔ ae = fe ∨ var = false ∧ ∃ c d, RecPtr T fe c ∧ RecPtr T ae d ∧ Ext T d c := by
            constructor
            · intro h
              cases h with
              | elem _ g1 _ g2 g3 => rw [hfe] at g1; cases g1; rw [hae] at g2; cases g2; exact .inl rfl
              | «open» _ g1 _ g2 g3 => rw [hfe] at g1; cases g1; exact absurd g3.dyn h3
              | bytes g0 _ g1 => rw [hfe] at g1; cases g1; exact absurd ⟨g0, rfl⟩ h1
              | pointers g0 _ g1 _ g2 g3 g4 g5 =>
                rw [hfe] at g1; cases g1; rw [hae] at g2; cases g2
                exact .inr ⟨g0, _, _, g3, g4, g5⟩
            · rintro (rfl | ⟨g0, c, d, g1, g2, g3⟩)
              · exact .elem hf hfe h2 hae h3
              · exact .pointers g0 hf hfe h2 hae g1 g2 g3
          rw [hinv]
          by_cases h4 : fe ≠ ae
          · rw [if_pos h4]
            by_cases h5 : var = false ∧ (T fe).form = .ptr ∧ (T ae).form = .ptr
            · rw [if_pos h5]
              obtain ⟨h50, h51, h52⟩ := h5
              obtain ⟨c, hc⟩ := hw.ptr fe h51
              obtain ⟨d, hd⟩ := hw.ptr ae h52
              simp only [hc, hd]
              by_cases h6 : (T c).comp = .record ∧ (T d).comp = .record
              · rw [if_pos h6]
                have hcl := climb_eq hw c ((T d).extlev + 1) d h6.2 (by omega)
                constructor
                · intro h
                  have : (climb T c ((T d).extlev + 1) (some d)).isNone = false := by
                    cases hh : (climb T c ((T d).extlev + 1) (some d)).isNone with
                    | false => rfl
                    | true => rw [hh] at h; cases h
                  exact .inr ⟨h50, c, d, ⟨h51, hc, h6.1⟩, ⟨h52, hd, h6.2⟩, hcl.mp this⟩
                · rintro (h | ⟨_, c', d', g1, g2, g3⟩)
                  · exact absurd h.symm h4
                  · have e1 := g1.2.1
                    have e2 := g2.2.1
                    rw [hc] at e1
                    rw [hd] at e2
                    cases e1
                    cases e2
                    rw [hcl.mpr g3]
                    simp
              · rw [if_neg h6]
                refine ⟨fun h => (by cases h), ?_⟩
                rintro (h | ⟨_, c', d', g1, g2, g3⟩)
                · exact absurd h.symm h4
                · have e1 := g1.2.1
                  have e2 := g2.2.1
                  rw [hc] at e1
                  rw [hd] at e2
                  cases e1
                  cases e2
                  exact absurd ⟨g1.2.2, g2.2.2⟩ h6
            · rw [if_neg h5]
              refine ⟨fun h => (by cases h), ?_⟩
              rintro (h | ⟨g0, c', d', g1, g2, g3⟩)
              · exact absurd h.symm h4
              · exact absurd ⟨g0, g1.1, g2.1⟩ h5
          · rw [if_neg h4]
            exact ⟨fun _ => .inl (Classical.not_not.mp h4).symm, fun _ => rfl⟩
      · rw [if_neg h2]
        refine ⟨fun h => (by cases h), fun h => ?_⟩
        cases h with
        | elem _ _ g _ _ => exact absurd g h2
        | «open» _ _ g _ _ => exact absurd g h2
        | bytes g0 _ g1 => rw [hfe] at g1; cases g1; exact absurd ⟨g0, rfl⟩ h1
        | pointers _ _ _ g _ _ _ => exact absurd g h2

/-- **C53**, VAR parameters: nothing is reported exactly if the actual parameter is a variable that can be written and stands for
one of the type of the formal parameter. -/
theorem C53_var_param (hw : Wf T) (f : Nat) (e : Ex) : paramVar T f e = [] ↔ VarCompatible T f e := by
  have hk : (∃ g, e.kind = .var false g) ↔ ((if notVar e.kind then [122] else []) ++ (match e.kind with | .var true _ => [76] | _ => [])) = ([] : List Nat) := by
    cases e.kind with
    | var r g => cases r <;> simp [notVar]
    | _ => simp [notVar]
  have hbf : (T bytetyp).form = .byte := by rw [hw.byte]
  have hbc : (T bytetyp).comp = .basic := by rw [hw.byte]
  have hbs : (T bytetyp).size = 1 := by rw [hw.byte]
  have hpc : (T sysptrtyp).comp = .basic := comp_basic hw (by rw [hw.sysptr.1]; simp)
  simp only [paramVar, List.append_eq_nil_iff] at hk ⊢
  refine (and_congr hk.symm Iff.rfl).trans ?_
  have hv : VarCompatible T f e → ∃ g, e.kind = .var false g := by
    intro h
    cases h <;> exact ⟨_, by assumption⟩
  by_cases hkk : ∃ g, e.kind = .var false g
  swap
  · exact ⟨fun h => absurd h.1 hkk, fun h => absurd (hv h) hkk⟩
  obtain ⟨g, hg⟩ := hkk
  have hgg : ∀ {g'}, e.kind = .var false g' → g' = g := by
    intro g' h
    rw [hg] at h
    cases h
    rfl
  simp only [show (∃ g, e.kind = Kind.var false g) = True from eq_true ⟨g, hg⟩, true_and]
  by_cases h1 : (T f).comp = .dyn
  · rw [if_pos h1, dynCheck_eq hw true _ f e.typ h1 (by omega)]
    refine ⟨fun h => .array hg h, fun h => ?_⟩
    cases h with
    | same _ _ h _ => exact absurd h1 h
    | record _ h _ _ => rw [h1] at h; cases h
    | array _ h => exact h
    | sysptr _ h _ => rw [h, hpc] at h1; cases h1
    | byte _ h _ _ => rw [h, hbc] at h1; cases h1
  · rw [if_neg h1]
    by_cases h2 : (T f).comp = .record ∧ (T e.typ).comp = .record
    · rw [if_pos h2]
      have hcl := climb_eq hw f ((T e.typ).extlev + 1) e.typ h2.2 (by omega)
      constructor
      · intro h
        have : (climb T f ((T e.typ).extlev + 1) (some e.typ)).isNone = false := by
          cases hh : (climb T f ((T e.typ).extlev + 1) (some e.typ)).isNone with
          | false => rfl
          | true => rw [hh] at h; cases h
        exact .record hg h2.1 h2.2 (hcl.mp this)
      · intro h
        have : Ext T e.typ f := by
          cases h with
          | same _ h _ _ => rw [h]; exact .refl f
          | record _ _ _ h => exact h
          | array _ h => exact absurd h.dyn h1
          | sysptr _ h _ => rw [h, hpc] at h2; cases h2.1
          | byte _ h _ _ => rw [h, hbc] at h2; cases h2.1
        rw [hcl.mpr this]
        simp
    · rw [if_neg h2]
      by_cases h3 : f = sysptrtyp ∧ (T e.typ).form = .ptr
      · rw [if_pos h3]
        exact ⟨fun _ => .sysptr hg h3.1 h3.2, fun _ => rfl⟩
      · rw [if_neg h3]
        by_cases h4 : e.typ ≠ f ∧ ¬((T f).form = .byte ∧ ((T e.typ).form = .byte ∨ (T e.typ).form = .bool ∨ (T e.typ).form = .char ∨ (T e.typ).form = .int) ∧ (T e.typ).size = 1)
        · rw [if_pos h4]
          refine ⟨fun h => (by cases h), fun h => ?_⟩
          cases h with
          | same _ h _ _ => exact absurd h h4.1
          | record _ h h' _ => exact absurd ⟨h, h'⟩ h2
          | array _ h => exact absurd h.dyn h1
          | sysptr _ h h' => exact absurd ⟨h, h'⟩ h3
          | byte _ h h' h'' => exact absurd ⟨by rw [h]; exact hbf, h', h''⟩ h4.2
        · rw [if_neg h4]
          simp only [hg]
          by_cases h5 : (T f).form = .ptr ∧ g = true
          · rw [if_pos (by rw [h5.1, h5.2]; simp)]
            refine ⟨fun h => (by cases h), fun h => ?_⟩
            cases h with
            | same h0 h _ h' =>
              rcases h' (by rw [hgg h0]; exact h5.2) with h' | h'
              · exact absurd h5.1 h'
              · exact absurd ⟨h', by rw [h]; exact h5.1⟩ h3
            | record _ h h' _ => exact absurd ⟨h, h'⟩ h2
            | array _ h => exact absurd h.dyn h1
            | sysptr _ h h' => exact absurd ⟨h, h'⟩ h3
            | byte _ h _ _ => rw [h, hbf] at h5; cases h5.1
          · rw [if_neg (by cases g <;> simp_all)]
            refine ⟨fun _ => ?_, fun _ => rfl⟩
            by_cases h6 : e.typ = f
            · exact .same hg h6 h1 fun hgt => .inl fun hp => h5 ⟨hp, hgt⟩
            · have h7 : (T f).form = .byte ∧ ((T e.typ).form = .byte ∨ (T e.typ).form = .bool ∨ (T e.typ).form = .char ∨ (T e.typ).form = .int) ∧ (T e.typ).size = 1 := by
                by_contra h
                exact h4 ⟨h6, h⟩
              exact .byte hg (hw.byte' f h7.1) h7.2.1 h7.2.2

/-- **C53**, value parameters: if the check ends, nothing is reported exactly if the actual parameter is assignment compatible with
the type of the formal parameter or, for an open array, array compatible with it. -/
theorem C53_value_param (hw : Wf T) (n f : Nat) (e : Ex) (es : List Nat) (hf : VarType T f)
    (he : e.typ = stringtyp → ∃ len, e.kind = .const len) (h : paramVal T n f e = some es) : es = [] ↔ ValueCompatible T f e := by
  have hcf : (T chartyp).form = .char := by rw [hw.char]
  have hsf : (T stringtyp).form = .str := by rw [hw.str]
  simp only [paramVal] at h
  by_cases h1 : (T f).comp = .dyn
  · rw [if_pos h1] at h
    have h := Option.some.inj h
    subst h
    obtain ⟨fe, hfe, _⟩ := hw.dyn f h1
    cases hk : e.kind with
    | const len =>
      simp only [hfe, Option.map_some, Option.some.injEq]
      by_cases h2 : ((T e.typ).form = .char ∨ (T e.typ).form = .str) ∧ (T fe).form = .char
      · rw [if_pos h2]
        refine ⟨fun _ => .string h1 (by rw [hfe, hw.char' _ h2.2]) hk ?_, fun _ => rfl⟩
        rcases h2.1 with h | h
        · exact .inr (hw.char' _ h)
        · exact .inl (hw.str' _ h)
      · rw [if_neg h2]
        refine ⟨fun h => (by cases h), fun h => ?_⟩
        cases h with
        | assign h _ => exact absurd h1 h
        | string _ g1 _ g2 =>
          rw [hfe] at g1
          cases g1
          refine absurd ⟨?_, hcf⟩ h2
          rcases g2 with g2 | g2 <;> rw [g2]
          · exact .inr hsf
          · exact .inl hcf
        | array g _ => rw [hk] at g; cases g
    | var r g =>
      simp only
      rw [dynCheck_eq hw false _ f e.typ h1 (by omega)]
      refine ⟨fun h => .array hk h, fun h => ?_⟩
      cases h with
      | assign h _ => exact absurd h1 h
      | string _ _ g _ => rw [hk] at g; cases g
      | array _ g => exact g
    | _ =>
      simp only
      refine ⟨fun h => (by cases h), fun h => ?_⟩
      cases h with
      | assign h _ => exact absurd h1 h
      | string _ _ g _ => rw [hk] at g; cases g
      | array g _ => rw [hk] at g; cases g
  · rw [if_neg h1] at h
    rw [C53_assign hw n f e es hf he h]
    refine ⟨fun h => .assign h1 h, fun h => ?_⟩
    cases h with
    | assign _ h => exact h
    | string h _ _ _ => exact absurd h h1
    | array _ h => exact absurd h.dyn h1

/-! ### Types that go round -/

/-- `TYPE A = PROCEDURE (x: A); B = PROCEDURE (x: B)`, and `P` a procedure with a parameter of type `B`. -/
def rT : Tab := fun t =>
  match t with
  | 0 => { form := .undef }
  | 1 => { form := .no }
  | 2 => { form := .str }
  | 3 => { form := .nil }
  | 4 => { form := .byte }
  | 5 => { form := .ptr, size := 8, base := some 0 }
  | 6 => { form := .bool }
  | 7 => { form := .char }
  | 8 => { form := .real, size := 4 }
  | 9 => { form := .lreal, size := 8 }
  | 10 => { form := .proc, size := 8, base := some 1, params := [⟨false, 10, 0⟩] }
  | 11 => { form := .proc, size := 8, base := some 1, params := [⟨false, 11, 0⟩] }
  | 12 => { form := .comp, comp := .record, base := none }
  | 13 => { form := .comp, comp := .record, extlev := 1, base := some 12 }
  | 14 => { form := .ptr, size := 8, base := some 12 }
  | 15 => { form := .ptr, size := 8, base := some 13 }
  | 16 => { form := .comp, comp := .array, n := 4, base := some 7 }
  | 17 => { form := .comp, comp := .dyn, n := 1, base := some 18 }
  | 18 => { form := .comp, comp := .dyn, n := 0, base := some 14 }
  | 19 => { form := .comp, comp := .array, n := 4, base := some 20 }
  | 20 => { form := .comp, comp := .array, n := 2, base := some 15 }
  | 21 => { form := .comp, comp := .dyn, n := 0, base := some 7 }
  | 22 => { form := .proc, size := 8, base := some 1, params := [⟨true, 12, 0⟩, ⟨false, 21, 1⟩] }
  | 23 => { form := .set, size := 4 }
  | 24 => { form := .int, size := 2 }
  | 25 => { form := .comp, comp := .array, n := 3, base := some 12 }
  | 26 => { form := .ptr, base := some 25 }
  | 27 => { form := .comp, comp := .array, n := 3, base := some 28 }
  | 28 => { form := .ptr, base := some 27 }
  | _ => { form := .int, size := 4 }

theorem rT_wf : Wf rT := by
  have hc : ∀ t, t ≤ 28 ∨ rT t = { form := .int, size := 4 } := by
    intro t
    by_cases h : t ≤ 28
    · exact .inl h
    · refine .inr ?_
      simp only [rT]
      split <;> first | omega | rfl
  have go : ∀ P : Nat → Ty → Prop, (∀ t, t ≤ 28 → P t (rT t)) → (∀ t, P t { form := .int, size := 4 }) → ∀ t, P t (rT t) := by
    intro P h1 h2 t
    rcases hc t with h | h
    · exact h1 t h
    · rw [h]
      exact h2 t
  refine ⟨rfl, rfl, rfl, rfl, rfl, ⟨rfl, rfl⟩, rfl, rfl, rfl, rfl, ?_, ?_, ?_, ?_, ?_, ?_, ?_, ?_, ?_, ?_, ?_, ?_, ?_⟩
  · exact go (fun t y => y.form = .comp ↔ y.comp ≠ .basic) (by decide) (by intro; simp)
  · exact go (fun t y => y.form = .undef → t = undftyp) (by decide) (by intro; simp)
  · exact go (fun t y => y.form = .str → t = stringtyp) (by decide) (by intro; simp)
  · exact go (fun t y => y.form = .nil → t = niltyp) (by decide) (by intro; simp)
  · exact go (fun t y => y.form = .byte → t = bytetyp) (by decide) (by intro; simp)
  · exact go (fun t y => y.form = .bool → t = booltyp) (by decide) (by intro; simp)
  · exact go (fun t y => y.form = .char → t = chartyp) (by decide) (by intro; simp)
  · exact go (fun t y => y.form = .real → t = realtyp) (by decide) (by intro; simp)
  · exact go (fun t y => y.form = .lreal → t = lrltyp) (by decide) (by intro; simp)
  · intro t b
    refine go (fun t y => y.comp = .record → y.base = some b → (rT b).comp = .record ∧ y.extlev = (rT b).extlev + 1) ?_ (by intro; simp) t
    intro t ht h1 h2
    have ht' : t = 13 ∨ (rT t).comp ≠ .record ∨ (rT t).base = none := by
      clear h1 h2
      revert t; decide
    rcases ht' with rfl | h | h
    · cases h2; decide
    · exact absurd h1 h
    · rw [h] at h2; cases h2
  · refine go (fun t y => y.comp = .array → ∃ b, y.base = some b ∧ (rT b).comp ≠ .dyn) ?_ (by intro; simp)
    intro t ht h1
    have ht' : t = 16 ∨ t = 19 ∨ t = 20 ∨ t = 25 ∨ t = 27 ∨ (rT t).comp ≠ .array := by revert t; decide
    rcases ht' with rfl | rfl | rfl | rfl | rfl | h
    · exact ⟨7, rfl, by decide⟩
    · exact ⟨20, rfl, by decide⟩
    · exact ⟨15, rfl, by decide⟩
    · exact ⟨12, rfl, by decide⟩
    · exact ⟨28, rfl, by decide⟩
    · exact absurd h1 h
  · refine go (fun t y => y.comp = .dyn → ∃ b, y.base = some b ∧ ((rT b).comp = .dyn → y.n = (rT b).n + 1)) ?_ (by intro; simp)
    intro t ht h1
    have ht' : t = 17 ∨ t = 18 ∨ t = 21 ∨ (rT t).comp ≠ .dyn := by revert t; decide
    rcases ht' with rfl | rfl | rfl | h
    · exact ⟨18, rfl, by decide⟩
    · exact ⟨14, rfl, by decide⟩
    · exact ⟨7, rfl, by decide⟩
    · exact absurd h1 h
  · refine go (fun t y => y.form = .ptr → ∃ b, y.base = some b) ?_ (by intro; simp)
    intro t ht h1
    have ht' : t = 5 ∨ t = 14 ∨ t = 15 ∨ t = 26 ∨ t = 28 ∨ (rT t).form ≠ .ptr := by revert t; decide
    rcases ht' with rfl | rfl | rfl | rfl | rfl | h
    · exact ⟨_, rfl⟩
    · exact ⟨_, rfl⟩
    · exact ⟨_, rfl⟩
    · exact ⟨_, rfl⟩
    · exact ⟨_, rfl⟩
    · exact absurd h1 h

/-- **C53**, deviation: the check of a procedure against a procedure type need not end.  With
`TYPE A = PROCEDURE (x: A); B = PROCEDURE (x: B)`, a variable `a` of type `A` and a procedure `P (x: B)`, no number of steps is
enough for `a := P`. -/
theorem C53_endless : Wf rT ∧ ∀ f, checkAssign rT f 10 ⟨.proc true 1 [⟨false, 11, 0⟩], 1⟩ = none := by
  refine ⟨rT_wf, fun f => ?_⟩
  have h : ∀ f, checkPars rT f false [⟨false, 10, 0⟩] [⟨false, 11, 0⟩] = none := by
    intro f
    induction f with
    | zero => rfl
    | succ f ih =>
      have hs : strip rT ((rT 10).n + 1) 10 11 = (10, 11) := by decide
      simp only [checkPars, hs]
      rw [if_pos (by decide), if_pos (by decide), if_pos (by decide)]
      show (checkPars rT f false [⟨false, 10, 0⟩] [⟨false, 11, 0⟩]).bind _ = none
      rw [ih]
      rfl
  show (checkProc rT f 10 1 [⟨false, 11, 0⟩]).map _ = none
  simp only [checkProc]
  rw [if_pos (by decide)]
  show (checkPars rT f false [⟨false, 10, 0⟩] [⟨false, 11, 0⟩]).map _ = none
  rw [h f]
  rfl

/-! ### Cases -/

example : checkAssign rT 9 14 ⟨.var false false, 15⟩ = some [] ∧ checkAssign rT 9 15 ⟨.var false false, 14⟩ = some [113] := by decide
example : checkAssign rT 9 16 ⟨.const 4, 2⟩ = some [] ∧ checkAssign rT 9 16 ⟨.const 5, 2⟩ = some [114] := by decide
example : checkAssign rT 9 22 ⟨.proc true 1 [⟨true, 12, 5⟩, ⟨false, 21, 6⟩], 1⟩ = some [] ∧
    checkAssign rT 9 22 ⟨.proc true 1 [⟨false, 12, 5⟩, ⟨false, 21, 6⟩], 1⟩ = some [115] := by decide
example : Compatible rT 14 ⟨.var false false, 15⟩ := (C53_assign rT_wf 9 14 _ [] (by unfold VarType; decide) (fun h => (by cases h)) (by decide)).mp rfl
example : ¬Compatible rT 15 ⟨.var false false, 14⟩ := fun h =>
  absurd ((C53_assign rT_wf 9 15 _ [113] (by unfold VarType; decide) (fun h => (by cases h)) (by decide)).mpr h) (by decide)
example : paramVar rT 12 ⟨.var false false, 13⟩ = [] ∧ paramVar rT 13 ⟨.var false false, 12⟩ = [111] ∧ paramVar rT 14 ⟨.var false true, 14⟩ = [123] := by
  decide
example : paramVal rT 9 17 ⟨.var true false, 19⟩ = some [] ∧ paramVar rT 17 ⟨.var false false, 19⟩ = [66] := by decide
example : ∃ f es, checkPars rT f false [⟨true, 12, 0⟩, ⟨false, 21, 1⟩] [⟨true, 12, 0⟩, ⟨false, 7, 1⟩] = some es ∧ es ≠ [] := ⟨9, [115], by decide, by decide⟩

end Verif.Types
