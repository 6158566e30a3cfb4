import Verif.Dispatch.LemmasRun

/-!
C36: the run-time type test decides type extension.  C37: method calls run the most specific redefinition.

Both are about a whole program: `n` record types, numbered in the order of their initialisation, the numbering of
methods by the compiler in any order of traversal, and the initialisation of all descriptors.
-/
namespace Verif.Dispatch

/-- A program of `n` types ready to run: `s` is the compiler's numbering after a traversal that meets all types. -/
structure Ready (ws : Int) (p : Prog) (order : List Nat) (pl : Place) (m : Mem) (n f : Nat) : Prop where
  word : ws = 4 ∨ ws = 8
  wf : WF p
  all : ∀ i < n, i ∈ order
  static : Static ws p (traverse p order) pl m n
  depth : ∀ i < n, extlev p (i + 1) i < maxExt
  fuel : ∀ i < n, (traverse p order).n i < f

theorem Ready.pos {ws : Int} {p : Prog} {order : List Nat} {pl : Place} {m : Mem} {n f : Nat}
    (h : Ready ws p order pl m n f) : 0 ≤ 24 / ws := by
  rcases h.word with e | e <;> rw [e] <;> decide

theorem Ready.run {ws : Int} {p : Prog} {order : List Nat} {pl : Place} {m : Mem} {n f : Nat}
    (h : Ready ws p order pl m n f) : ∃ m', initAll ws f p (traverse p order) pl m n = some (.run m') ∧
      ∀ i < n, Table ws p (traverse p order) pl m' i := by
  obtain ⟨m', e, r⟩ := initAll_ok h.pos h.wf (traverse_good h.wf h.all) h.depth h.fuel h.static n (Nat.le_refl _)
  exact ⟨m', e, r.done⟩

/-! ### C36 -/

/-- C36.  All descriptors of a program whose types are at most 15 levels deep get initialised without a halt, and
then the run-time test of any dynamic type `d` against any type `j` (one load and one comparison) is true exactly when
`d` is `j` or extends it. -/
theorem C36_type_test {ws : Int} {p : Prog} {order : List Nat} {pl : Place} {m : Mem} {n f : Nat}
    (h : Ready ws p order pl m n f) :
    ∃ m', initAll ws f p (traverse p order) pl m n = some (.run m') ∧
      ∀ d < n, ∀ j < n, (isTest m' (pl.typ d) (pl.typ j) (extlev p (j + 1) j) = true ↔ Extends p d j) := by
  obtain ⟨m', e, t⟩ := h.run
  exact ⟨m', e, fun d hd j hj => isTest_ok h.pos h.wf h.static h.depth hd hj (t d hd)⟩

/-- C36: a type guard passes exactly when the dynamic type extends the type of the guard, and halts (-5) otherwise;
the guard of a record assignment passes exactly when the dynamic type is the static one, and halts (-6) otherwise. -/
theorem C36_guard {ws : Int} {p : Prog} {order : List Nat} {pl : Place} {m : Mem} {n f : Nat}
    (h : Ready ws p order pl m n f) :
    ∃ m', initAll ws f p (traverse p order) pl m n = some (.run m') ∧
      ∀ d < n, ∀ j < n,
        (guard m' (pl.typ d) (pl.typ j) (extlev p (j + 1) j) = some () ↔ Extends p d j) ∧
        (guardEq (pl.typ d) (pl.typ j) = some () ↔ d = j) := by
  obtain ⟨m', e, t⟩ := C36_type_test h
  refine ⟨m', e, fun d hd j hj => ⟨?_, ?_⟩⟩
  · rw [← t d hd j hj]
    simp only [guard]
    by_cases hh : isTest m' (pl.typ d) (pl.typ j) (extlev p (j + 1) j) = true <;> simp [hh]
  · simp only [guardEq]
    constructor
    · intro hh
      by_cases he : pl.typ d = pl.typ j
      · exact typ_inj h.pos h.static hd hj he
      · rw [if_pos he] at hh; cases hh
    · rintro rfl; simp

/-- C36, compile time: whatever `TypTest` makes of the test `x IS T1` on a variable of static type `t0`, a constant or a
run-time test, its value for every possible dynamic type `d` of the variable is whether `d` extends `t1`. -/
theorem C36_compiled_test {ws : Int} {p : Prog} {order : List Nat} {pl : Place} {m : Mem} {n f : Nat}
    (h : Ready ws p order pl m n f) :
    ∃ m', initAll ws f p (traverse p order) pl m n = some (.run m') ∧
      ∀ t0 < n, ∀ t1 < n, ∀ onGuard c, typTest p t0 t1 false onGuard = some c →
        ∀ d < n, Extends p d t0 → (evalTest p pl m' c d t1 = true ↔ Extends p d t1) := by
  obtain ⟨m', e, t⟩ := C36_type_test h
  refine ⟨m', e, fun t0 h0 t1 h1 og c hc d hd hext => ?_⟩
  have main : evalTest p pl m' .runtime d t1 = true ↔ Extends p d t1 := t d hd t1 h1
  simp only [typTest] at hc
  by_cases hw : walk p (t0 + 1) (some t0) t1 ≠ some t1
  · rw [if_pos hw] at hc
    by_cases hw2 : walk p (t1 + 1) (some t1) t0 = some t0
    · rw [if_pos hw2] at hc; cases hc; exact main
    · rw [if_neg hw2] at hc; cases hc
  · rw [if_neg hw] at hc
    by_cases he : t0 ≠ t1
    · rw [if_pos he] at hc; cases hc
    · rw [if_neg he] at hc
      have he' : t0 = t1 := by simpa using he
      cases og with
      | true => simp at hc; subst hc; exact main
      | false => simp at hc; subst hc; simp only [evalTest, true_iff]; rw [← he']; exact hext

/-- C36, compile time: a test or guard is accepted exactly when the tested type is the static type or extends it; a guard
is dropped only when the two are the same type, so that it could not fail. -/
theorem C36_accepted {p : Prog} (w : WF p) (t0 t1 : Nat) (g og : Bool) :
    ((∃ c, typTest p t0 t1 g og = some c) ↔ Extends p t1 t0) ∧
    (typTest p t0 t1 g og = some .same → t0 = t1) := by
  have a := walk_iff w t1 (t0 + 1) t0 (by omega)
  have b := walk_iff w t0 (t1 + 1) t1 (by omega)
  simp only [typTest]
  by_cases hw : Extends p t0 t1
  · rw [if_neg (by rw [not_not]; exact a.mpr hw)]
    by_cases he : t0 = t1
    · subst he
      simp only [ne_eq, not_true_eq_false, if_false]
      refine ⟨⟨fun _ => .refl _, fun _ => ?_⟩, fun _ => trivial⟩
      cases g <;> cases og <;> exact ⟨_, rfl⟩
    · rw [if_pos he]
      refine ⟨⟨(fun h => by obtain ⟨c, hc⟩ := h; cases hc), fun h => ?_⟩, fun hc => by cases hc⟩
      have := h.le w; have := hw.le w; omega
  · rw [if_pos (fun h => hw (a.mp h))]
    by_cases hw2 : Extends p t1 t0
    · rw [if_pos (b.mpr hw2)]
      exact ⟨⟨fun _ => hw2, fun _ => ⟨_, rfl⟩⟩, fun hc => by cases hc⟩
    · rw [if_neg (fun h => hw2 (b.mp h))]
      exact ⟨⟨(fun h => by obtain ⟨c, hc⟩ := h; cases hc), fun h => absurd h hw2⟩, fun hc => by cases hc⟩

/-- C36 fails for deep hierarchies: the compiler does not limit the depth of extension, and `__INITYP` for a type at
level 17 overwrites the size word of its own descriptor, so that the program halts with -15 while its module is
initialised. -/
theorem C36_too_deep (ws : Int) (f : Nat) (m : Mem) (t t0 modl next csize : Int) (hw : ws = 4 ∨ ws = 8)
    (h : t ≠ csize) : ∃ r, initTyp ws f m t t0 17 modl next csize = some r ∧ r = .halt (-15) := by
  refine ⟨.halt (-15), ?_, rfl⟩
  simp only [initTyp]
  rw [if_pos]
  have h0 : 0 ≤ 24 / ws := by rcases hw with e | e <;> rw [e] <;> decide
  rw [set_ne _ _ (by simp only [baseOff]; omega)]
  have e : t - baseOff + ((17 : Nat) : Int) = t := by simp only [baseOff]; omega
  rw [e, set_eq]
  exact h

/-! ### C37: numbers -/

/-- C37.  The methods available in a type `i` (its own and those of its bases) have numbers below `n i`, every number below
`n i` belongs to one of them, and two of them have the same number exactly when they go back to the same
declaration, that is when one redefines the other or both redefine a third. -/
theorem C37_numbers {p : Prog} (w : WF p) {order : List Nat} {i : Nat} (hi : i ∈ order) :
    (∀ a k, Extends p i a → Decl p a k → (traverse p order).num a k < (traverse p order).n i) ∧
    (∀ x < (traverse p order).n i, ∃ a k, Extends p i a ∧ Decl p a k ∧ (traverse p order).num a k = x) ∧
    (∀ a k a' k' j o j' o', Extends p i a → Extends p i a' → Origin p a k j o → Origin p a' k' j' o' →
      ((traverse p order).num a k = (traverse p order).num a' k' ↔ j = j' ∧ o = o')) := by
  obtain ⟨h1, h2, _⟩ := traverse_all w order CState.init (ninv_init p)
  have g : Good p (traverse p order) i := h1.good i (h2 i (.inl hi))
  exact ⟨g.lt, g.sur, g.inj⟩

/-- C37: a redefinition has the number of the method it redefines. -/
theorem C37_redefinition {p : Prog} (w : WF p) {order : List Nat} {i k b l : Nat} (hi : i ∈ order)
    (h : Redefines p i k b l) : (traverse p order).num i k = (traverse p order).num b l := by
  obtain ⟨h1, h2, _⟩ := traverse_all w order CState.init (ninv_init p)
  exact (h1.good i (h2 i (.inl hi))).redef k b l h

/-- C37: two methods of one type have different numbers. -/
theorem C37_distinct {p : Prog} (w : WF p) {order : List Nat} {i k k' : Nat} (hi : i ∈ order)
    (hk : Decl p i k) (hk' : Decl p i k') (h : (traverse p order).num i k = (traverse p order).num i k') : k = k' := by
  obtain ⟨j, o, ho⟩ := origin_total w i k hk
  obtain ⟨j', o', ho'⟩ := origin_total w i k' hk'
  obtain ⟨e1, e2⟩ := ((C37_numbers w hi).2.2 i k i k' j o j' o' (.refl _) (.refl _) ho ho').mp h
  subst e1 e2
  exact origin_inj w ho ho'

/-- C37: the numbers do not depend on the order in which the compiler meets the types. -/
theorem C37_order {p : Prog} (w : WF p) {o1 o2 : List Nat} {i : Nat} (h1 : i ∈ o1) (h2 : i ∈ o2) :
    (traverse p o1).n i = (traverse p o2).n i ∧
    ∀ k, Decl p i k → (traverse p o1).num i k = (traverse p o2).num i k := by
  obtain ⟨a1, a2, _⟩ := traverse_all w o1 CState.init (ninv_init p)
  obtain ⟨b1, b2, _⟩ := traverse_all w o2 CState.init (ninv_init p)
  apply good_unique w
  intro a ha
  exact ⟨a1.good a (a1.anc ha (a2 i (.inl h1))), b1.good a (b1.anc ha (b2 i (.inl h2)))⟩

/-! ### C37: calls -/

/-- C37.  After initialisation, a call of method `k` of type `t` on an object whose dynamic type `d` extends `t` runs the
procedure of the most specific redefinition for `d`: the declaration going back to the same introduction in the first
type, going from `d` to its bases, that has one. -/
theorem C37_dispatch {ws : Int} {p : Prog} {order : List Nat} {pl : Place} {m : Mem} {n f : Nat}
    (h : Ready ws p order pl m n f) :
    ∃ m', initAll ws f p (traverse p order) pl m n = some (.run m') ∧
      ∀ d < n, ∀ t k j o, Extends p d t → Origin p t k j o →
        ∃ c l, Impl p j o d c l ∧ Proc p c l (send ws m' (pl.typ d) ((traverse p order).num t k)) := by
  obtain ⟨m', e, t⟩ := h.run
  refine ⟨m', e, fun d hd a k j o ha ho => ?_⟩
  obtain ⟨c, l, x, h1, h2, h3⟩ := (t d hd).procs a k j o ha ho
  exact ⟨c, l, h1, x, h2, h3.symm⟩

theorem origin_self {p : Prog} {i k j o : Nat} (h : Origin p i k j o) : Origin p j o j o := by
  induction h with
  | new hd hn => exact .new hd hn
  | redef _ _ ih => exact ih

theorem means_exists {p : Prog} {mo name b t k : Nat} (h : Extends p b t) (hv : Visible p mo t k)
    (hn : Named p t k name) : ∃ c r, Means p mo name b c r ∧ Extends p c t ∧ Extends p b c := by
  induction h with
  | refl => exact ⟨_, _, .here hv hn, .refl _, .refl _⟩
  | @step a a' t hb ha' ih =>
    by_cases hh : ∃ r, Visible p mo a r ∧ Named p a r name
    · obtain ⟨r, hr1, hr2⟩ := hh
      exact ⟨a, r, .here hr1 hr2, .step hb ha', .refl _⟩
    · obtain ⟨c, r, h1, h2, h3⟩ := ih hv hn
      exact ⟨c, r, .up (fun l h1 h2 => hh ⟨l, h1, h2⟩) hb h1, h2, .step hb h3⟩

theorem climb_ok {p : Prog} (w : WF p) {s : CState} {i k j o : Nat} (ho : Origin p i k j o) :
    ∀ (f a : Nat), a < f → Extends p i a → Extends p a j → (∀ b, Extends p a b → Good p s b) → Good p s i →
    climb s p (s.num i k) f a = j := by
  intro f
  induction f with
  | zero => intro a h; omega
  | succ f ih =>
    intro a hf hia haj hg hgi
    have hoj := origin_self ho
    have enum : s.num i k = s.num j o :=
      (hgi.inj i k j o j o j o (.refl _) ho.facts.1 ho hoj).mpr ⟨rfl, rfl⟩
    simp only [climb]
    cases hb : (p a).base with
    | none =>
      rcases haj.cases' with e | ⟨b, hb', _⟩
      · exact e.symm
      · rw [hb] at hb'; cases hb'
    | some b =>
      have hlt := w.base_lt _ _ hb
      simp only []
      rcases haj.cases' with e | ⟨b', hb', hbj⟩
      · subst e
        have hn : New p j o := by
          cases hoj with
          | new hd hn => exact ⟨hd, hn⟩
          | redef hr ho' => have := hr.lt w; have := ho'.facts.1.le w; omega
        have := (hg j (.refl _)).intro_ o hn b hb
        rw [if_neg (by omega)]
      · rw [hb] at hb'; cases hb'
        have := (hg b (.step hb (.refl _))).lt j o hbj ho.facts.2.2.1
        rw [if_pos (by omega)]
        exact ih b (by omega) (hia.trans (.step hb (.refl _))) hbj (fun c hc => hg c (.step hb hc)) hgi

/-- C37, the call itself: in module `mo`, `x.name(…)` on a variable of static type `t` means method `k` of type `i`.  If the
declaration that introduced that method is visible in `mo` too, then the compiler names that declaration's macro, and
the call through it runs the most specific redefinition for every dynamic type `d` extending `t`. -/
theorem C37_call_partial {ws : Int} {p : Prog} {order : List Nat} {pl : Place} {m : Mem} {n f : Nat}
    (h : Ready ws p order pl m n f) :
    ∃ m', initAll ws f p (traverse p order) pl m n = some (.run m') ∧
      ∀ mo name t i k j o, t < n → Means p mo name t i k → Origin p i k j o → Visible p mo j o →
        baseTProc (traverse p order) p mo i k = some (j, o) ∧
        ∀ d < n, Extends p d t →
          ∃ c l, Impl p j o d c l ∧ Proc p c l (send ws m' (pl.typ d) ((traverse p order).num j o)) := by
  obtain ⟨m', e, dis⟩ := C37_dispatch h
  refine ⟨m', e, fun mo name t i k j o ht hm ho hv => ⟨?_, ?_⟩⟩
  · have hit := hm.ext.1.le h.wf
    have g := traverse_good h.wf h.all
    obtain ⟨x, hx, hxn⟩ := hm.ext.2.2
    have hcl := climb_ok h.wf ho (i + 1) i (by omega) (.refl _) ho.facts.1
      (fun b hb => g b (by have := hb.le h.wf; omega)) (g i (by omega))
    simp only [baseTProc, hx, hcl]
    rw [findField_iff h.wf _ _ _ _ _ _ (by omega)]
    exact .here hv ((ho.facts.2.2.2 x.name).mp ⟨x, hx, rfl⟩)
  · intro d hd hdt
    obtain ⟨c, l, h1, h2⟩ := dis d hd i k j o (hdt.trans hm.ext.1) ho
    refine ⟨c, l, h1, ?_⟩
    have hoj := origin_self ho
    have hit := hm.ext.1.le h.wf
    have en := ((traverse_good h.wf h.all i (by omega)).inj i k j o j o j o (.refl _) ho.facts.1 ho hoj).mpr ⟨rfl, rfl⟩
    rw [← en]; exact h2

/-- In a program that hides no method, a method of an extension with the same name goes back to the same declaration. -/
theorem origin_by_name {p : Prog} (w : WF p) (hall : ∀ m i k, Decl p i k → Visible p m i k) {t k j o name : Nat}
    (ho : Origin p t k j o) (hn : Named p t k name) : ∀ (d l : Nat), Extends p d t → Named p d l name →
    Origin p d l j o := by
  intro d
  induction d using Nat.strong_induction_on with
  | _ d ih =>
    intro l hd hl
    rcases hd.cases' with e | ⟨b, hb, hbt⟩
    · subst e; rw [named_unique w hl hn]; exact ho
    · -- the name means something for the base, at or below `t`
      obtain ⟨c, r, h1, h2, _⟩ := means_exists (mo := (p d).mod) hbt (hall _ _ _ hn.decl) hn
      obtain ⟨x, hx, hxn⟩ := hl
      have hr : Redefines p d l c r := ⟨x, b, hx, hb, by rw [hxn]; exact h1⟩
      exact .redef hr (ih c (hr.lt w) r h2 h1.ext.2.2)

/-- C37 in the simplest terms, for programs that hide no method: the procedure a call runs is that of the first type,
going from the dynamic type to its bases, which declares a method of that name. -/
theorem C37_by_name {ws : Int} {p : Prog} {order : List Nat} {pl : Place} {m : Mem} {n f : Nat}
    (h : Ready ws p order pl m n f) (hall : ∀ m i k, Decl p i k → Visible p m i k) :
    ∃ m', initAll ws f p (traverse p order) pl m n = some (.run m') ∧
      ∀ d < n, ∀ t k name, Extends p d t → Named p t k name → ∃ c l, Means p (p d).mod name d c l ∧
        Proc p c l (send ws m' (pl.typ d) ((traverse p order).num t k)) := by
  obtain ⟨m', e, dis⟩ := C37_dispatch h
  refine ⟨m', e, fun d hd t k name hdt hn => ?_⟩
  obtain ⟨j, o, ho⟩ := origin_total h.wf t k hn.decl
  obtain ⟨c, l, hI, hP⟩ := dis d hd t k j o hdt ho
  refine ⟨c, l, ?_, hP⟩
  have hname : ∀ {c l}, Origin p c l j o → Named p c l name := fun hc =>
    (hc.facts.2.2.2 name).mpr ((ho.facts.2.2.2 name).mp hn)
  generalize (p d).mod = mo
  clear hd hP
  induction hI with
  | here hc => exact .here (hall _ _ _ hc.facts.2.1) (hname hc)
  | @up i b c l hno hb hI ih =>
    rcases hdt.cases' with e | ⟨b', hb', hbt⟩
    · subst e; exact absurd ho (hno _)
    · rw [hb] at hb'; cases hb'
      refine .up (fun l _ hl => ?_) hb (ih hbt)
      exact hno l (origin_by_name h.wf hall ho hn i l hdt hl)

/-- Below a visible method every method of the same name is visible too, if no exported method is redefined by a hidden
one (errors 109) and bases come from modules initialised earlier. -/
theorem visible_below {p : Prog} (w : WF p) (hmod : ∀ i b, (p i).base = some b → (p b).mod ≤ (p i).mod)
    (h109 : ∀ i k b l x y, Redefines p i k b l → (p i).meths[k]? = some x → (p b).meths[l]? = some y →
      y.exported = true → x.exported = true)
    {mo b l name : Nat} (hv : Visible p mo b l) (hn : Named p b l name) :
    ∀ (c k : Nat), Extends p c b → (p c).mod ≤ mo → Named p c k name → Visible p mo c k := by
  have hmono : ∀ {c b}, Extends p c b → (p b).mod ≤ (p c).mod := by
    intro c b h
    induction h with
    | refl => exact Nat.le_refl _
    | step hb _ ih => have := hmod _ _ hb; omega
  intro c
  induction c using Nat.strong_induction_on with
  | _ c ih =>
    intro k hcb hc hk
    rcases hcb.cases' with e | ⟨b', hb', hbb⟩
    · subst e; rw [named_unique w hk hn]; exact hv
    · by_cases hcm : (p c).mod = mo
      · obtain ⟨x, hx, _⟩ := hk
        exact ⟨x, hx, .inl hcm⟩
      · obtain ⟨y, hy, hyv⟩ := hv
        have hbm := hmono hcb
        have hye : y.exported = true := by
          rcases hyv with h | h
          · omega
          · exact h
        -- lookup in the module of `c`
        obtain ⟨c2, r, h1, h2, h3⟩ := means_exists (mo := (p c).mod) hbb ⟨y, hy, .inr hye⟩ hn
        obtain ⟨x, hx, hxn⟩ := hk
        have hr : Redefines p c k c2 r := ⟨x, b', hx, hb', by rw [hxn]; exact h1⟩
        have hm2 : (p c2).mod ≤ (p c).mod := hmono (.step hb' h3)
        obtain ⟨z, hz, hzv⟩ := ih c2 (hr.lt w) r h2 (by omega) h1.ext.2.2
        have hze : z.exported = true := by
          rcases hzv with h | h
          · omega
          · exact h
        exact ⟨x, hx, .inr (h109 c k c2 r x z hr hx hz hze)⟩

/-- C37: a super call in a method of type `i` runs exactly the procedure which a call on an object of the base type
would run, provided no exported method is redefined by a hidden one (the compiler reports that as error 109) and
bases come from modules initialised no later. -/
theorem C37_super {p : Prog} (w : WF p) (hmod : ∀ i b, (p i).base = some b → (p b).mod ≤ (p i).mod)
    (h109 : ∀ i k b l x y, Redefines p i k b l → (p i).meths[k]? = some x → (p b).meths[l]? = some y →
      y.exported = true → x.exported = true)
    {i k c b l name j o : Nat} (hb : (p i).base = some c) (hn : Named p i k name)
    (hs : superProc p (p i).mod i name = some (b, l)) (ho : Origin p i k j o) : Impl p j o c b l := by
  obtain ⟨c', hc', hm⟩ := (findField_base w _ _ _ _ _).mp hs
  rw [hb] at hc'; cases hc'
  obtain ⟨x, hx, hxn⟩ := hn
  have hr : Redefines p i k b l := ⟨x, c, hx, hb, by rw [hxn]; exact hm⟩
  have hob : Origin p b l j o := by
    cases ho with
    | new _ hno => exact absurd hr (hno _ _)
    | redef hr' ho' =>
      obtain ⟨e1, e2⟩ := hr.unique w hr'
      subst e1 e2; exact ho'
  have hcm := hmod _ _ hb
  have hname : ∀ {a r}, Origin p a r j o → Named p a r name := fun ha =>
    (ha.facts.2.2.2 name).mpr ((hob.facts.2.2.2 name).mp hm.ext.2.2)
  have hmono : ∀ {c b}, (p c).base = some b → (p c).mod ≤ (p i).mod → (p b).mod ≤ (p i).mod := by
    intro c b h1 h2; have := hmod _ _ h1; omega
  clear hs hr hb
  generalize (p i).mod = mo at *
  induction hm with
  | here _ _ => exact .here hob
  | @up a a' b l hno hb' hm ih =>
    refine .up (fun r hor => ?_) hb' (ih hob (hmono hb' hcm))
    exact hno r (visible_below w hmod h109 hm.ext.2.1 hm.ext.2.2 a r (.step hb' hm.ext.1) hcm (hname hor)) (hname hor)

/-- A program in two modules: type 0 of module 0 has a hidden method, its extension 1 in the same module redefines and
exports it. -/
def hiddenProg : Prog
  | 0 => { base := none, mod := 0, meths := [⟨5, false, 100⟩] }
  | 1 => { base := some 0, mod := 0, meths := [⟨5, true, 101⟩] }
  | _ => { base := none, mod := 1, meths := [] }

/-- C37 fails where the introduction is hidden: module 1 can name method 0 of type 1, which is exported, but `BaseTProc`
returns no object for the call, because the declaration that introduced the method is not exported.  The compiler then
dereferences NIL. -/
theorem C37_hidden_introduction :
    Visible hiddenProg 1 1 0 ∧ Means hiddenProg 1 5 1 1 0 ∧
    baseTProc (traverse hiddenProg [0, 1]) hiddenProg 1 1 0 = none := by
  refine ⟨⟨⟨5, true, 101⟩, rfl, .inr rfl⟩, .here ⟨⟨5, true, 101⟩, rfl, .inr rfl⟩ ⟨⟨5, true, 101⟩, rfl, rfl⟩, by decide⟩

/-! ### Examples -/

/-- Figure (0) with `Draw`, `Move`; Circle (1) extends it and redefines `Draw`, adds `Radius`; Square (2) extends Figure
and redefines `Move`; Disc (3) extends Circle and redefines `Draw` and `Move`. -/
def figures : Prog
  | 0 => { base := none, mod := 0, meths := [⟨1, true, 1000⟩, ⟨2, true, 1001⟩], size := 16, csize := 16 }
  | 1 => { base := some 0, mod := 0, meths := [⟨1, true, 1002⟩, ⟨3, true, 1003⟩], size := 24, csize := 24 }
  | 2 => { base := some 0, mod := 1, meths := [⟨2, true, 1004⟩], size := 24, csize := 24 }
  | 3 => { base := some 1, mod := 1, meths := [⟨2, true, 1005⟩, ⟨1, true, 1006⟩], size := 24, csize := 24 }
  | _ => { base := none, mod := 1, meths := [] }

def figPlace : Place := ⟨fun i => 100 * i + 100, fun _ => 7, fun _ => 9⟩

/-- Static contents: `blksz` and the end mark of each descriptor. -/
def figMem : Mem := fun a =>
  if a = 100 then 16 else if a = 200 ∨ a = 300 ∨ a = 400 then 24
  else if a = 100 - 27 ∨ a = 200 - 28 ∨ a = 300 - 27 ∨ a = 400 - 28 then 1 else 0

theorem figures_wf : WF figures := by
  constructor
  · intro i b h
    match i with
    | 0 => simp [figures] at h
    | 1 => simp [figures] at h; omega
    | 2 => simp [figures] at h; omega
    | 3 => simp [figures] at h; omega
    | _ + 4 => simp [figures] at h
  · intro i
    match i with
    | 0 => decide
    | 1 => decide
    | 2 => decide
    | 3 => decide
    | _ + 4 => exact List.nodup_nil

theorem fig_static : Static 8 figures (traverse figures [3, 0, 2, 1]) figPlace figMem 4 := by
  have hn : (traverse figures [3, 0, 2, 1]).n 0 = 2 ∧ (traverse figures [3, 0, 2, 1]).n 1 = 3 ∧
      (traverse figures [3, 0, 2, 1]).n 2 = 2 ∧ (traverse figures [3, 0, 2, 1]).n 3 = 3 := by decide
  have hn' : ∀ i < 4, (traverse figures [3, 0, 2, 1]).n i ≤ 3 := by decide
  constructor
  · intro i hi j hj hij
    have a := hn' i hi
    have b := hn' j hj
    simp only [figPlace, show tproc0Off 8 = 25 from by decide]
    omega
  · intro i _; simp only [figPlace]; omega
  · decide
  · decide
  · decide
  · decide
  · decide
  · decide

/-- The hypotheses of the theorems are met by the program of the figures, whatever order the types are visited in. -/
theorem fig_ready : Ready 8 figures [3, 0, 2, 1] figPlace figMem 4 10 := by
  refine ⟨.inr rfl, figures_wf, by decide, fig_static, by decide, by decide⟩

/-- Disc's `Draw` runs for `Draw` called on a Figure that is a Disc; Circle's `Radius` is inherited. -/
example : (match initAll 8 10 figures (traverse figures [3, 0, 2, 1]) figPlace figMem 4 with
    | some (.run m) => [send 8 m 400 ((traverse figures [3, 0, 2, 1]).num 0 0),
        send 8 m 400 ((traverse figures [3, 0, 2, 1]).num 1 1), send 8 m 300 ((traverse figures [3, 0, 2, 1]).num 0 0)]
    | _ => []) = [1006, 1003, 1000] := by decide +kernel

/-- A Disc is a Figure; a Square is not a Circle. -/
example : (match initAll 8 10 figures (traverse figures [3, 0, 2, 1]) figPlace figMem 4 with
    | some (.run m) => [isTest m 400 100 (extlev figures 1 0), isTest m 300 200 (extlev figures 2 1)]
    | _ => []) = [true, false] := by decide +kernel

example : Origin figures 3 1 0 0 :=
  .redef (b := 1) (l := 0) ⟨⟨1, true, 1006⟩, 1, rfl, rfl, .here ⟨⟨1, true, 1002⟩, rfl, .inr rfl⟩ ⟨⟨1, true, 1002⟩, rfl, rfl⟩⟩
    (.redef (b := 0) (l := 0) ⟨⟨1, true, 1002⟩, 0, rfl, rfl, .here ⟨⟨1, true, 1000⟩, rfl, .inr rfl⟩ ⟨⟨1, true, 1000⟩, rfl, rfl⟩⟩
      (.new (by unfold Decl; decide) (by
        rintro b l ⟨x, c, _, h, _⟩
        simp [figures] at h)))

/-- The super call of Disc's `Draw` is Circle's. -/
example : superProc figures 1 3 1 = some (1, 0) := by decide

example : typTest figures 0 3 false false = some .runtime ∧ typTest figures 3 3 false false = some .true_ ∧
    typTest figures 3 0 true false = none ∧ typTest figures 1 2 false false = none := by decide

end Verif.Dispatch
