import Verif.Linkage.Lemmas

/-!
# C79: the C files of a program fit together
-/
namespace Verif.Linkage

variable {P : Program}

theorem HdrDecl.owner {h : Nat} {x : CName} (hd : HdrDecl P h x) : x.owner = h := by cases hd <;> rfl

theorem BodyDecl.owner {h : Nat} {x : CName} {l : Link} (hd : BodyDecl P h x l) : x.owner = h := by cases hd <;> rfl

theorem Defines.owner {h : Nat} {x : CName} {l : Link} (hd : Defines P h x l) : x.owner = h := by cases hd <;> rfl

theorem linkOf_vis {v : Vis} (h : v ≠ .readonly) : (if v ≠ .external then Link.stat else .ext) = linkOf v := by
  cases v <;> simp_all [linkOf]

theorem linkOf_ext {v : Vis} (h : v ≠ .internal) : linkOf v = .ext := by cases v <;> simp_all [linkOf]

/-- **C79 (declared).**  Whatever the statements of a module may use - its own and imported variables and procedures, types and type descriptors,
bound procedures, the start of imported modules - is declared in its C file before its procedures, or in a header file that is included,
directly or by others.  This is for programs in which other names are exported only for own exported types, exported open array types have
elements of own types, procedures are not marked with `-` and interrupt procedures not exported, and for modules without interrupt procedures
and without procedures that are assigned to variables and no longer exported. -/
theorem C79_declared_partial (hl : Legal P) (hp : Plain P) (a : Nat)
    (hf : ∀ m n p, P a = some m → m.procs n = some p → p.kind ≠ .I ∧ (p.kind = .X → p.removed = false)) (x : CName) (hu : MayUse P a x) :
    Declared P a x := by
  cases hu with
  | ownVar h1 h2 => exact .inl ⟨_, .var h1 h2⟩
  | var h1 h2 h3 h4 h5 =>
    obtain ⟨-, mb, h6, h7⟩ := hl.imports _ _ h1 _ h2
    rw [h3] at h6
    cases h6
    exact .inr ⟨_, .direct h1 h2, .var h3 h7 h4 h5⟩
  | @ownProc m n p h1 h2 h3 =>
    have hk := hf m n p h1 h2
    refine .inl ⟨_, .proc h1 (.inl h2) ?_ ?_⟩
    · revert h3 hk; cases p.kind <;> simp
    · revert h3 hk; cases p.kind <;> simp
  | @proc m mk k n p h1 h2 h3 h4 h5 h6 =>
    obtain ⟨-, mb, h7, h8⟩ := hl.imports _ _ h1 _ h2
    rw [h3] at h7
    cases h7
    have hk := hp.interrupts k mk n p h3 h4
    refine .inr ⟨_, .direct h1 h2, .proc h3 h8 (.inl h4) ?_ h5 (.inl ((hl.kinds k mk n p h3 h4).2 h5))⟩
    cases hkk : p.kind with
    | L => exact .inl rfl
    | X => exact .inr rfl
    | I => exact absurd (hk hkk) h5
    | C => exact absurd hkk h6
  | @typ q v d h1 h2 h3 =>
    rcases reach_good hl hp h1 q (.name h2 h3) with h4 | ⟨h4, h5⟩
    · subst h4
      exact .inl ⟨_, .typ h2⟩
    · obtain ⟨m, h6, h7⟩ := h4.lib hl
      exact .inr ⟨_, h4, .typ h6 h7 h5⟩
  | @desc q v b fs ms h1 h2 =>
    rcases reach_good hl hp h1 q (.name h2 record_not_open) with h4 | ⟨h4, h5⟩
    · subst h4
      exact .inl ⟨_, .desc h2⟩
    · obtain ⟨m, h6, h7⟩ := h4.lib hl
      exact .inr ⟨_, h4, .desc h6 h7 h5 h2⟩
  | @init m k h1 h2 =>
    obtain ⟨-, mb, h7, h8⟩ := hl.imports _ _ h1 _ h2
    exact .inr ⟨k, .direct h1 h2, .init h7 h8⟩
  | @bound q v b fs ms n w t h1 h2 h3 h3' =>
    rcases reach_good hl hp h1 q (.name h2 record_not_open) with h4 | ⟨h4, h5⟩
    · subst h4
      exact .inl ⟨_, .bound h2 h3⟩
    · by_cases ha : q.1 = a
      · subst ha
        exact .inl ⟨_, .bound h2 h3⟩
      · have h9 := hp.boundMarks q v b fs ms n w t h2 h3
        have hw : w = .external := by
          rcases h3' with h3' | h3'
          · exact absurd h3' ha
          · cases w <;> simp_all
        subst hw
        obtain ⟨m, h6, h7⟩ := h4.lib hl
        exact .inr ⟨_, h4, .bound h6 h7 h5 h2 h3⟩

/-- **C79 (headers).**  Every type that a header file mentions is declared in it or in a header file that it includes, directly or by others: a
header file can be included on its own. -/
theorem C79_headers_partial (hl : Legal P) (hp : Plain P) (a : Nat) (m : Module) (ha : P a = some m) (hmain : m.main = false) (x : Q)
    (hm : HdrMention P a x) : ∃ h, InHdr P a h ∧ HdrDecl P h (.typ x) := by
  have key : InHdr P a x.1 ∧ Needed P x.1 x.2 := by
    have fin : (x.1 = a ∧ (True → Needed P a x.2)) ∨ ((∃ m, P a = some m ∧ x.1 ∈ m.imports) ∧ Needed P x.1 x.2) → InHdr P a x.1 ∧ Needed P x.1 x.2 := by
      rintro (⟨h5, h6⟩ | ⟨⟨m, h5, h6⟩, h7⟩)
      · rw [h5]
        exact ⟨.self, h6 trivial⟩
      · exact ⟨.step .self ⟨m, h5, h6, x.2, hm⟩, h7⟩
    have back : ∀ r : Q, r.1 = a → ((a, r.2) : Q) = r := fun r he => by rw [← he]
    cases hm with
    | @var m k v t _ h1 h2 h3 h4 =>
      exact fin (mention_home hl hp h4 a True (fun r hr => ⟨hl.vars a m k v t h1 h2 r hr, fun _ he => .var h1 h2 h3 (by rw [back r he]; exact hr)⟩))
    | @proc m k p _ h1 h2 _ h3 _ h4 =>
      exact fin (mention_home hl hp h4 a True (fun r hr => ⟨hl.procs a m k p h1 h2 r hr, fun _ he => .proc h1 h2 h3 (by rw [back r he]; exact hr)⟩))
    | @base n v w _ fs ms d h1 h2 h3 h4 =>
      have hb : Part false (.record (some x) fs ms) x := .base
      obtain ⟨m, hm1, hm2⟩ := h2
      rcases (hl.types a m n v _ hm1 hm2 x hb.weaken).split hp with ⟨h5, h6⟩ | ⟨h5, h6⟩
      · exact fin (.inl ⟨h5, fun _ => h1.step ⟨m, hm1, hm2⟩ hb h5⟩)
      · exact fin (.inr ⟨h6, h5.needed hp⟩)
    | @field n t _ h1 h2 h3 => exact field_known hl hp h2 x h1 h3
    | @method n k v b fs ms t _ h1 h2 h3 h4 =>
      refine fin (mention_home hl hp h4 a True (fun r hr => ?_))
      have hs : Part false (.record b fs ms) r := .method h3 (.inr (by decide)) hr
      refine ⟨?_, fun _ he => h1.step h2 hs he⟩
      obtain ⟨m, hm1, hm2⟩ := h2
      exact hl.types a m n v _ hm1 hm2 r hs.weaken
    | @other n v t _ h1 h2 h4 =>
      refine fin (mention_home hl hp h4 a True (fun r hr => ?_))
      have hs : Part false (.other t) r := .other hr
      refine ⟨?_, fun _ he => h1.step h2 hs he⟩
      obtain ⟨m, hm1, hm2⟩ := h2
      exact hl.types a m n v _ hm1 hm2 r hs.weaken
  refine ⟨x.1, key.1, ?_⟩
  have : ∃ m, P x.1 = some m ∧ m.main = false := by
    generalize x.1 = y at key
    cases key.1 with
    | self => exact ⟨m, ha, hmain⟩
    | step _ h2 =>
      obtain ⟨m', h3, h4, -⟩ := h2
      exact (hl.imports _ _ h3 _ h4).2
  obtain ⟨m', h1, h2⟩ := this
  exact .typ h1 h2 key.2

/-- **C79 (linkage).**  In a C file with its header files no name is both `static` and `extern`. -/
theorem C79_linkage_partial (hl : Legal P) (hp : Plain P) (a : Nat) (x : CName) (l l' : Link) (h : Linkage P a x l) (h' : Linkage P a x l') : l = l' := by
  have uniq : ∀ {m m' : Module}, P a = some m → P a = some m' → m = m' := fun h1 h2 => by rw [h1] at h2; exact Option.some.inj h2
  have tree : ∀ {m : Module} {n : Nat} {p p' : Proc}, P a = some m → Tree m n p → Tree m n p' → p = p' := by
    intro m n p p' hm h1 h2
    rcases h1 with h1 | h1 <;> rcases h2 with h2 | h2
    · rw [h1] at h2; exact Option.some.inj h2
    · rw [(hl.old a m n p' hm h2).2.2] at h1; cases h1
    · rw [(hl.old a m n p hm h1).2.2] at h2; cases h2
    · rw [h1] at h2; exact Option.some.inj h2
  -- Every linkage is that which the export mark asks for.
  have want : ∃ w, ∀ l, Linkage P a x l → l = w := by
    cases x with
    | var q =>
      refine ⟨if q.1 = a then (match P a with | some m => (match m.vars q.2 with | some (v, _) => linkOf v | none => .none) | none => .none) else .ext, ?_⟩
      rintro l (h | h | ⟨h, k, h1, h2⟩)
      · cases h with | var h1 h2 => simp [h1, h2]
      · cases h with | var h1 h2 => simp [h1, h2]
      · cases h2 with
        | var h3 h4 h5 h6 =>
          rw [h]
          by_cases hk : k = a
          · subst hk; simp [h3, h5, linkOf_ext h6, hdrLink]
          · simp [hk, hdrLink]
    | proc q =>
      by_cases hq : q.1 = a ∧ ∃ m p, P a = some m ∧ Tree m q.2 p
      · obtain ⟨hq, m, p, hm, ht⟩ := hq
        refine ⟨linkOf p.vis, ?_⟩
        rintro l (g | g | ⟨g, k, h1, h2⟩)
        · cases g with | proc h1 h2 => cases uniq hm h1; rw [tree hm ht h2]
        · cases g with
          | proc h1 h2 =>
            cases uniq hm h1
            rw [tree hm ht (.inl h2)]
            exact linkOf_vis (hp.marks a m _ _ hm h2)
        · cases h2 with
          | proc h3 h4 h5 h6 h7 =>
            simp only at hq
            subst hq
            cases uniq hm h3
            rw [tree hm ht h5, g, linkOf_ext h7]
            rfl
      · refine ⟨.ext, ?_⟩
        rintro l (h | h | ⟨h, k, h1, h2⟩)
        · cases h with | proc h1 h2 => exact absurd ⟨rfl, _, _, h1, h2⟩ hq
        · cases h with | proc h1 h2 => exact absurd ⟨rfl, _, _, h1, .inl h2⟩ hq
        · exact h
    | typ q =>
      refine ⟨.none, ?_⟩
      rintro l (h | h | ⟨h, k, h1, h2⟩)
      · cases h; rfl
      · cases h; rfl
      · exact h
    | desc q =>
      refine ⟨.ext, ?_⟩
      rintro l (h | h | ⟨h, k, h1, h2⟩)
      · cases h; rfl
      · cases h; rfl
      · exact h
    | init q =>
      refine ⟨.ext, ?_⟩
      rintro l (h | h | ⟨h, k, h1, h2⟩)
      · cases h
      · cases h; rfl
      · exact h
    | bound q n =>
      by_cases hq : q.1 = a ∧ ∃ v b fs ms w t, Decl P q v (.record b fs ms) ∧ ms n = some (w, t)
      · obtain ⟨hq, v, b, fs, ms, w, t, hd, hm⟩ := hq
        have same : ∀ {v' b' fs' ms' w' t'}, Decl P q v' (.record b' fs' ms') → ms' n = some (w', t') → w' = w := by
          intro v' b' fs' ms' w' t' h1 h2
          have h3 := (hd.unique h1).2
          cases h3
          rw [hm] at h2
          cases h2
          rfl
        refine ⟨linkOf w, ?_⟩
        rintro l (h | h | ⟨h, k, h1, h2⟩)
        · cases h with | bound h1 h2 => rw [same h1 h2]
        · cases h with
          | bound h1 h2 =>
            rw [same h1 h2]
            exact linkOf_vis (hp.boundMarks _ _ _ _ _ _ _ _ hd hm)
        · cases h2 with
          | bound h3 h4 h5 h6 h7 =>
            rw [h, ← same h6 h7]
            rfl
      · refine ⟨.ext, ?_⟩
        rintro l (h | h | ⟨h, k, h1, h2⟩)
        · cases h with | bound h1 h2 => exact absurd ⟨rfl, _, _, _, _, _, _, h1, h2⟩ hq
        · cases h with | bound h1 h2 => exact absurd ⟨rfl, _, _, _, _, _, _, h1, h2⟩ hq
        · exact h
  obtain ⟨w, hw⟩ := want
  rw [hw l h, hw l' h']

/-- **C79 (defined).**  Whatever a module may use is defined in exactly one C file, that of its module, with one linkage, and if this is another
file, it is not `static` there: linking finds it. -/
theorem C79_defined_partial (hl : Legal P) (hp : Plain P) (a : Nat) (x : CName) (hu : MayUse P a x) :
    ∃ l, Defines P x.owner x l ∧ (x.owner = a ∨ l ≠ .stat) ∧ ∀ k l', Defines P k x l' → k = x.owner ∧ l' = l := by
  have fin : ∀ l, Defines P x.owner x l → (x.owner = a ∨ l ≠ .stat) →
      ∃ l, Defines P x.owner x l ∧ (x.owner = a ∨ l ≠ .stat) ∧ ∀ k l', Defines P k x l' → k = x.owner ∧ l' = l := by
    intro l h1 h2
    refine ⟨l, h1, h2, fun k l' h3 => ?_⟩
    have h4 := h3.owner
    subst h4
    exact ⟨rfl, C79_linkage_partial hl hp _ x l' l (.inr (.inl h3)) (.inr (.inl h1))⟩
  cases hu with
  | ownVar h1 h2 => exact fin _ (.var h1 h2) (.inl rfl)
  | var h1 h2 h3 h4 h5 => exact fin _ (.var h3 h4) (.inr (by rw [linkOf_ext h5]; decide))
  | ownProc h1 h2 h3 => exact fin _ (.proc h1 h2 h3) (.inl rfl)
  | proc h1 h2 h3 h4 h5 h6 =>
    exact fin _ (.proc h3 h4 h6) (.inr (by rw [linkOf_vis (hp.marks _ _ _ _ h3 h4), linkOf_ext h5]; decide))
  | typ h1 h2 h3 => exact fin _ (.typ h2) (.inr (by decide))
  | desc h1 h2 => exact fin _ (.desc h2) (.inr (by decide))
  | init h1 h2 =>
    obtain ⟨-, mb, h7, h8⟩ := hl.imports _ _ h1 _ h2
    exact fin _ (.init h7 h8) (.inr (by decide))
  | bound h1 h2 h3 h3' =>
    refine fin _ (.bound h2 h3) ?_
    rcases h3' with h | h
    · exact .inl h
    · exact .inr (by rw [linkOf_vis (hp.boundMarks _ _ _ _ _ _ _ _ h2 h3), linkOf_ext h]; decide)

/-- What a module exports: its variables and procedures with a mark. -/
def IsExported (m : Module) (a : Nat) (x : CName) : Prop :=
  (∃ n v t, x = .var (a, n) ∧ m.vars n = some (v, t) ∧ v ≠ .internal) ∨
    ∃ n p, x = .proc (a, n) ∧ m.procs n = some p ∧ p.kind ≠ .C ∧ p.vis ≠ .internal

/-- **C79 (interface).**  The header file of a module declares exactly the variables and procedures that are exported, and exactly these can be seen
by other files when the program is linked: those not exported are `static`, so that files do not clash. -/
theorem C79_interface_partial (hl : Legal P) (hp : Plain P) (a : Nat) (m : Module) (ha : P a = some m) (hm : m.main = false) (x : CName)
    (hx : (∃ q, x = .var q) ∨ ∃ q, x = .proc q) :
    (HdrDecl P a x ↔ IsExported m a x) ∧ (Defines P a x .ext ↔ IsExported m a x) := by
  have uniq : ∀ {m' : Module}, P a = some m' → m' = m := fun h => by rw [ha] at h; exact (Option.some.inj h).symm
  refine ⟨⟨fun h => ?_, fun h => ?_⟩, ⟨fun h => ?_, fun h => ?_⟩⟩
  · cases h with
    | var h1 h2 h3 h4 => cases uniq h1; exact .inl ⟨_, _, _, rfl, h3, h4⟩
    | proc h1 h2 h3 h4 h5 h6 =>
      cases uniq h1
      rcases h3 with h3 | h3
      · refine .inr ⟨_, _, rfl, h3, ?_, h5⟩
        rcases h4 with h4 | h4 <;> rw [h4] <;> decide
      · obtain ⟨o1, o2, -⟩ := hl.old a _ _ _ ha h3
        rcases h6 with h6 | h6
        · rw [o1] at h6; cases h6
        · exact absurd h6 o2
    | typ => rcases hx with ⟨q, hq⟩ | ⟨q, hq⟩ <;> cases hq
    | desc => rcases hx with ⟨q, hq⟩ | ⟨q, hq⟩ <;> cases hq
    | init => rcases hx with ⟨q, hq⟩ | ⟨q, hq⟩ <;> cases hq
    | bound => rcases hx with ⟨q, hq⟩ | ⟨q, hq⟩ <;> cases hq
  · rcases h with ⟨n, v, t, rfl, h2, h3⟩ | ⟨n, p, rfl, h2, h3, h4⟩
    · exact .var ha hm h2 h3
    · refine .proc ha hm (.inl h2) ?_ h4 (.inl ((hl.kinds a m n p ha h2).2 h4))
      have hk := hp.interrupts a m n p ha h2
      cases hkk : p.kind with
      | L => exact .inl rfl
      | X => exact .inr rfl
      | I => exact absurd (hk hkk) h4
      | C => exact absurd hkk h3
  · generalize hlk : Link.ext = l at h
    cases h with
    | @var _ _ v _ h1 h2 =>
      cases uniq h1
      exact .inl ⟨_, _, _, rfl, h2, fun h => (by rw [h] at hlk; cases hlk)⟩
    | proc h1 h2 h3 =>
      cases uniq h1
      refine .inr ⟨_, _, rfl, h2, h3, fun h => ?_⟩
      rw [h] at hlk
      cases hlk
    | typ => cases hlk
    | desc => rcases hx with ⟨q, hq⟩ | ⟨q, hq⟩ <;> cases hq
    | init => rcases hx with ⟨q, hq⟩ | ⟨q, hq⟩ <;> cases hq
    | bound => rcases hx with ⟨q, hq⟩ | ⟨q, hq⟩ <;> cases hq
  · rcases h with ⟨n, v, t, rfl, h2, h3⟩ | ⟨n, p, rfl, h2, h3, h4⟩
    · have := Defines.var ha h2
      rw [linkOf_ext h3] at this
      exact this
    · have := Defines.proc ha h2 h3
      rw [linkOf_vis (hp.marks _ _ _ _ ha h2), linkOf_ext h4] at this
      exact this

/-- **C79 (bound procedures).**  The header file declares the exported bound procedures of exactly the types that it declares, and exactly the exported
ones can be seen by other files. -/
theorem C79_bound_partial (hp : Plain P) (a : Nat) (m : Module) (ha : P a = some m) (hm : m.main = false) (n k : Nat) (v w : Vis) (b : Option Q)
    (fs : List (Vis × Ty)) (ms : Nat → Option (Vis × Ty)) (t : Ty) (hd : Decl P (a, n) v (.record b fs ms)) (hk : ms k = some (w, t)) :
    (HdrDecl P a (.bound (a, n) k) ↔ HdrDecl P a (.typ (a, n)) ∧ w ≠ .internal) ∧ (Defines P a (.bound (a, n) k) .ext ↔ w ≠ .internal) := by
  have same : ∀ {v' b' fs' ms' w' t'}, Decl P (a, n) v' (.record b' fs' ms') → ms' k = some (w', t') → w' = w := by
    intro v' b' fs' ms' w' t' h1 h2
    have h3 := (hd.unique h1).2
    cases h3
    rw [hk] at h2
    cases h2
    rfl
  have hw := hp.boundMarks (a, n) v b fs ms k w t hd hk
  refine ⟨⟨fun h => ?_, fun h => ?_⟩, ⟨fun h => ?_, fun h => ?_⟩⟩
  · cases h with
    | bound h1 h2 h3 h4 h5 => exact ⟨.typ h1 h2 h3, by rw [← same h4 h5]; decide⟩
  · obtain ⟨h1, h2⟩ := h
    have hw' : w = .external := by cases w <;> simp_all
    subst hw'
    cases h1 with
    | typ h3 h4 h5 => exact .bound h3 h4 h5 hd hk
  · generalize hlk : Link.ext = l at h
    cases h with
    | bound h1 h2 =>
      rw [same h1 h2] at hlk
      intro h
      rw [h] at hlk
      cases hlk
  · have := Defines.bound hd hk
    rw [linkOf_vis hw, linkOf_ext h] at this
    exact this

/-- **C79 (removed).**  Procedures that are only in the old symbol file leave no trace in the new files. -/
theorem C79_removed (hl : Legal P) (a : Nat) (m : Module) (ha : P a = some m) (n : Nat) (p : Proc) (ho : m.old n = some p) :
    ¬ HdrDecl P a (.proc (a, n)) ∧ (∀ l, ¬ BodyDecl P a (.proc (a, n)) l) ∧ ∀ l, ¬ Defines P a (.proc (a, n)) l := by
  obtain ⟨o1, o2, o3⟩ := hl.old a m n p ha ho
  have uniq : ∀ {m' : Module}, P a = some m' → m' = m := fun h => by rw [ha] at h; exact (Option.some.inj h).symm
  have gone : ∀ {q : Proc}, Tree m n q → ¬ (q.removed = false ∨ q.kind = .L) := by
    intro q h1 h2
    rcases h1 with h1 | h1
    · rw [o3] at h1; cases h1
    · rw [ho] at h1
      cases h1
      rcases h2 with h2 | h2
      · rw [o1] at h2; cases h2
      · exact o2 h2
  refine ⟨fun h => ?_, fun l h => ?_, fun l h => ?_⟩
  · cases h with | proc h1 h2 h3 h4 h5 h6 => cases uniq h1; exact gone h3 h6
  · cases h with | proc h1 h2 h3 h4 => cases uniq h1; exact gone h2 h4
  · cases h with | proc h1 h2 h3 => cases uniq h1; rw [o3] at h2; cases h2

/-! ## Deviations -/

/-- A module with nothing in it. -/
def blank : Module :=
  { main := false, imports := [], aliases := [], types := fun _ => none, vars := fun _ => none, procs := fun _ => none, old := fun _ => none }

/-- A table with one entry. -/
def only {α : Type} (x : α) : Nat → Option α := fun n => if n = 0 then some x else none

theorem only_some {α : Type} {x y : α} {n : Nat} (h : only x n = some y) : n = 0 ∧ y = x := by
  unfold only at h
  split at h
  · cases h; exact ⟨by assumption, rfl⟩
  · cases h

/-- A program of three modules. -/
def three (m0 m1 m2 : Module) : Program
  | 0 => some m0
  | 1 => some m1
  | 2 => some m2
  | _ => none

theorem three_some {m0 m1 m2 m : Module} {a : Nat} (h : three m0 m1 m2 a = some m) : (a = 0 ∧ m = m0) ∨ (a = 1 ∧ m = m1) ∨ (a = 2 ∧ m = m2) := by
  match a, h with
  | 0, h => cases h; exact .inl ⟨rfl, rfl⟩
  | 1, h => cases h; exact .inr (.inl ⟨rfl, rfl⟩)
  | 2, h => cases h; exact .inr (.inr ⟨rfl, rfl⟩)
  | n + 3, h => cases h

/-- An empty record. -/
def emptyRec : TyDef := .record none [] (fun _ => none)

/-- `MODULE B; TYPE T* = RECORD END; END B.` -/
def modB : Module := { blank with types := only (.external, emptyRec) }

/-- `MODULE A; IMPORT B; TYPE T* = B.T; END A.`  `MODULE M; IMPORT A; VAR t: A.T; END M.` -/
def aliasP : Program := three { blank with imports := [1], vars := only (.internal, .name (2, 0)) } { blank with imports := [2], aliases := [(2, 0)] } modB

theorem aliasP_exp : Exports aliasP 1 (2, 0) := .inr ⟨_, rfl, by simp⟩

theorem aliasP_expB : Exports aliasP 2 (2, 0) := .inl ⟨rfl, .external, emptyRec, ⟨_, rfl, rfl⟩, by decide⟩

theorem emptyRec_part {all : Bool} {q : Q} (h : Part all emptyRec q) : False := by
  generalize hd : emptyRec = d at h
  cases h with
  | base => cases hd
  | field h1 => cases hd; cases h1
  | method h1 => cases hd; cases h1
  | other => cases hd

theorem aliasP_legal : Legal aliasP where
  imports := by
    intro a m h b hb
    rcases three_some h with ⟨rfl, rfl⟩ | ⟨rfl, rfl⟩ | ⟨rfl, rfl⟩
    · simp at hb; subst hb; exact ⟨by decide, _, rfl, rfl⟩
    · simp at hb; subst hb; exact ⟨by decide, _, rfl, rfl⟩
    · simp [modB, blank] at hb
  vars := by
    intro a m n v t h hv q hq
    rcases three_some h with ⟨rfl, rfl⟩ | ⟨rfl, rfl⟩ | ⟨rfl, rfl⟩
    · obtain ⟨-, e⟩ := only_some hv
      cases e
      cases hq
      exact .inr ⟨_, rfl, 1, by simp, aliasP_exp⟩
    · cases hv
    · cases hv
  procs := by
    intro a m n p h hv q hq
    rcases three_some h with ⟨rfl, rfl⟩ | ⟨rfl, rfl⟩ | ⟨rfl, rfl⟩ <;> cases hv
  types := by
    intro a m n v d h hv q hq
    rcases three_some h with ⟨rfl, rfl⟩ | ⟨rfl, rfl⟩ | ⟨rfl, rfl⟩
    · cases hv
    · cases hv
    · obtain ⟨-, e⟩ := only_some hv
      cases e
      exact (emptyRec_part hq).elim
  aliases := by
    intro a m h q hq
    rcases three_some h with ⟨rfl, rfl⟩ | ⟨rfl, rfl⟩ | ⟨rfl, rfl⟩
    · simp [blank] at hq
    · simp at hq
      subst hq
      exact .inr ⟨_, rfl, 2, by simp, aliasP_expB⟩
    · simp [modB, blank] at hq
  bases := by
    intro a m n v b fs ms h hv
    rcases three_some h with ⟨rfl, rfl⟩ | ⟨rfl, rfl⟩ | ⟨rfl, rfl⟩
    · cases hv
    · cases hv
    · obtain ⟨-, e⟩ := only_some hv
      cases e
  kinds := by
    intro a m n p h hv
    rcases three_some h with ⟨rfl, rfl⟩ | ⟨rfl, rfl⟩ | ⟨rfl, rfl⟩ <;> cases hv
  old := by
    intro a m n p h hv
    rcases three_some h with ⟨rfl, rfl⟩ | ⟨rfl, rfl⟩ | ⟨rfl, rfl⟩ <;> cases hv

/-- **Deviation (C79, other names).**  `A` exports another name for a type of `B`, and `M` imports only `A` and uses this name.  The C file of `M`
mentions the type of `B`, and no header file with its declaration is included: `B` is not imported by `M`, and `A.h` mentions no name of `B`. -/
theorem C79_alias : Legal aliasP ∧ MayUse aliasP 0 (.typ (2, 0)) ∧ ¬ Declared aliasP 0 (.typ (2, 0)) := by
  refine ⟨aliasP_legal, .typ (v := .external) (d := emptyRec) (.named (.inr ⟨_, rfl, 1, by simp, aliasP_exp⟩)) ⟨_, rfl, rfl⟩ record_not_open, ?_⟩
  have nomention : ∀ x, ¬ HdrMention aliasP 1 x := by
    have notype : ∀ {n v d}, ¬ Decl aliasP (1, n) v d := by
      rintro n v d ⟨m, h1, h2⟩
      cases h1
      cases h2
    intro x h
    cases h with
    | var h1 h2 => cases h1; cases h2
    | proc h1 h2 => cases h1; cases h2
    | base _ h2 => exact notype h2
    | field _ h2 =>
      cases h2 with
      | own h3 => exact notype h3
      | inherited h3 => exact notype h3
    | method _ h2 => exact notype h2
    | other _ h2 => exact notype h2
  have incl : ∀ h, InUnit aliasP 0 h → h = 1 := by
    intro h hu
    induction hu with
    | direct h1 h2 => cases h1; simpa using h2
    | nested _ h2 ih =>
      obtain ⟨m, -, -, n, h3⟩ := h2
      rw [ih] at h3
      exact absurd h3 (nomention _)
  rintro (⟨l, h⟩ | ⟨h, hu, hd⟩)
  · exact absurd h.owner (by decide)
  · rw [incl h hu] at hd
    exact absurd hd.owner (by decide)

/-- `MODULE A; IMPORT B; TYPE O* = ARRAY OF B.T; END A.`  `MODULE M; IMPORT A; PROCEDURE P*(VAR a: A.O); END P; END M.` -/
def openP : Program := three { blank with imports := [1], procs := only ⟨.X, .external, .name (1, 0), false⟩ }
  { blank with imports := [2], types := only (.external, .other (.openArr (.name (2, 0)))) } modB

theorem openP_expB : Exports openP 2 (2, 0) := .inl ⟨rfl, .external, emptyRec, ⟨_, rfl, rfl⟩, by decide⟩

theorem openP_expA : Exports openP 1 (1, 0) := .inl ⟨rfl, .external, _, ⟨_, rfl, rfl⟩, by decide⟩

theorem openP_legal : Legal openP where
  imports := by
    intro a m h b hb
    rcases three_some h with ⟨rfl, rfl⟩ | ⟨rfl, rfl⟩ | ⟨rfl, rfl⟩
    · simp at hb; subst hb; exact ⟨by decide, _, rfl, rfl⟩
    · simp at hb; subst hb; exact ⟨by decide, _, rfl, rfl⟩
    · simp [modB, blank] at hb
  vars := by
    intro a m n v t h hv q hq
    rcases three_some h with ⟨rfl, rfl⟩ | ⟨rfl, rfl⟩ | ⟨rfl, rfl⟩ <;> cases hv
  procs := by
    intro a m n p h hv q hq
    rcases three_some h with ⟨rfl, rfl⟩ | ⟨rfl, rfl⟩ | ⟨rfl, rfl⟩
    · obtain ⟨-, e⟩ := only_some hv
      subst e
      cases hq
      exact .inr ⟨_, rfl, 1, by simp, openP_expA⟩
    · cases hv
    · cases hv
  types := by
    intro a m n v d h hv q hq
    rcases three_some h with ⟨rfl, rfl⟩ | ⟨rfl, rfl⟩ | ⟨rfl, rfl⟩
    · cases hv
    · obtain ⟨-, e⟩ := only_some hv
      cases e
      cases hq with
      | other hq =>
        cases hq with
        | openArr hq => cases hq; exact .inr ⟨_, rfl, 2, by simp, openP_expB⟩
    · obtain ⟨-, e⟩ := only_some hv
      cases e
      exact (emptyRec_part hq).elim
  aliases := by
    intro a m h q hq
    rcases three_some h with ⟨rfl, rfl⟩ | ⟨rfl, rfl⟩ | ⟨rfl, rfl⟩ <;> simp [modB, blank] at hq
  bases := by
    intro a m n v b fs ms h hv
    rcases three_some h with ⟨rfl, rfl⟩ | ⟨rfl, rfl⟩ | ⟨rfl, rfl⟩
    · cases hv
    · obtain ⟨-, e⟩ := only_some hv
      cases e
    · obtain ⟨-, e⟩ := only_some hv
      cases e
  kinds := by
    intro a m n p h hv
    rcases three_some h with ⟨rfl, rfl⟩ | ⟨rfl, rfl⟩ | ⟨rfl, rfl⟩
    · obtain ⟨-, e⟩ := only_some hv
      subst e
      exact ⟨fun h => (by cases h), fun _ => rfl⟩
    · cases hv
    · cases hv
  old := by
    intro a m n p h hv
    rcases three_some h with ⟨rfl, rfl⟩ | ⟨rfl, rfl⟩ | ⟨rfl, rfl⟩ <;> cases hv

/-- A header file that includes none mentions a type that is not declared. -/
theorem alone {P : Program} (h0 : ∀ n, ¬ HdrMention P 0 (1, n)) (m : Module) (hm : P 0 = some m) (hi : m.imports = [1]) :
    ¬ ∃ h, InHdr P 0 h ∧ HdrDecl P h (.typ (2, 0)) := by
  have incl : ∀ h, InHdr P 0 h → h = 0 := by
    intro h hu
    induction hu with
    | self => rfl
    | step _ h2 ih =>
      obtain ⟨m', h3, h4, n, h5⟩ := h2
      rw [ih] at h3 h5
      rw [hm] at h3
      cases h3
      rw [hi] at h4
      simp at h4
      rw [h4] at h5
      exact absurd h5 (h0 n)
  rintro ⟨h, hu, hd⟩
  rw [incl h hu] at hd
  exact absurd hd.owner (by decide)

/-- **Deviation (C79, open arrays).**  `M` exports a procedure with a parameter of an open array type of `A`, whose elements are of a type of `B`.  In C
the parameter is written with the type of the elements, so that `M.h` mentions a type of `B`; it includes neither `B.h`, as `B` is not imported by
`M`, nor `A.h`, as no name of `A` is mentioned. -/
theorem C79_open_array : Legal openP ∧ HdrMention openP 0 (2, 0) ∧ ¬ ∃ h, InHdr openP 0 h ∧ HdrDecl openP h (.typ (2, 0)) := by
  have declB : Decl openP (2, 0) .external emptyRec := ⟨_, rfl, rfl⟩
  have declA : Decl openP (1, 0) .external (.other (.openArr (.name (2, 0)))) := ⟨_, rfl, rfl⟩
  refine ⟨openP_legal, ?_, alone ?_ _ rfl rfl⟩
  · exact .proc (k := 0) rfl rfl (.inr rfl) (by decide) (.inl rfl) (.nameOpen declA (.name declB record_not_open))
  · intro n h
    have notype : ∀ {n v d}, ¬ Decl openP (0, n) v d := by
      rintro n v d ⟨m, h1, h2⟩
      cases h1
      cases h2
    cases h with
    | var h1 h2 => cases h1; cases h2
    | proc h1 h2 _ _ _ h3 =>
      cases h1
      obtain ⟨-, e⟩ := only_some h2
      subst e
      cases h3 with
      | name h4 h5 => exact h5 _ (h4.unique declA).2
      | nameOpen h4 h5 =>
        have e := (h4.unique declA).2
        cases e
        cases h5 with
        | nameOpen h6 _ => exact absurd (h6.unique declB).2.symm (record_not_open _)
    | base _ h2 => exact notype h2
    | field _ h2 =>
      cases h2 with
      | own h3 => exact notype h3
      | inherited h3 => exact notype h3
    | method _ h2 => exact notype h2
    | other _ h2 => exact notype h2

/-- `MODULE A; IMPORT B; TYPE H = RECORD x*: B.T END; T* = H; END A.`  `MODULE M; IMPORT A; TYPE R* = RECORD (A.T) END; END M.` -/
def baseP : Program := three { blank with imports := [1], types := only (.external, .record (some (1, 0)) [] (fun _ => none)) }
  { blank with imports := [2], aliases := [(1, 0)], types := only (.internal, .record none [(.external, .name (2, 0))] (fun _ => none)) } modB

theorem baseP_expB : Exports baseP 2 (2, 0) := .inl ⟨rfl, .external, emptyRec, ⟨_, rfl, rfl⟩, by decide⟩

theorem baseP_expA : Exports baseP 1 (1, 0) := .inr ⟨_, rfl, by simp⟩

theorem baseP_legal : Legal baseP where
  imports := by
    intro a m h b hb
    rcases three_some h with ⟨rfl, rfl⟩ | ⟨rfl, rfl⟩ | ⟨rfl, rfl⟩
    · simp at hb; subst hb; exact ⟨by decide, _, rfl, rfl⟩
    · simp at hb; subst hb; exact ⟨by decide, _, rfl, rfl⟩
    · simp [modB, blank] at hb
  vars := by
    intro a m n v t h hv q hq
    rcases three_some h with ⟨rfl, rfl⟩ | ⟨rfl, rfl⟩ | ⟨rfl, rfl⟩ <;> cases hv
  procs := by
    intro a m n p h hv q hq
    rcases three_some h with ⟨rfl, rfl⟩ | ⟨rfl, rfl⟩ | ⟨rfl, rfl⟩ <;> cases hv
  types := by
    intro a m n v d h hv q hq
    rcases three_some h with ⟨rfl, rfl⟩ | ⟨rfl, rfl⟩ | ⟨rfl, rfl⟩
    · obtain ⟨-, e⟩ := only_some hv
      cases e
      cases hq with
      | base => exact .inr ⟨_, rfl, 1, by simp, baseP_expA⟩
      | field h1 => cases h1
      | method h1 => cases h1
    · obtain ⟨-, e⟩ := only_some hv
      cases e
      cases hq with
      | field h1 _ h3 =>
        simp at h1
        subst h1
        cases h3
        exact .inr ⟨_, rfl, 2, by simp, baseP_expB⟩
      | method h1 => cases h1
    · obtain ⟨-, e⟩ := only_some hv
      cases e
      exact (emptyRec_part hq).elim
  aliases := by
    intro a m h q hq
    rcases three_some h with ⟨rfl, rfl⟩ | ⟨rfl, rfl⟩ | ⟨rfl, rfl⟩
    · simp [blank] at hq
    · simp at hq
      subst hq
      exact .inl ⟨rfl, _, _, _, rfl, rfl⟩
    · simp [modB, blank] at hq
  bases := by
    intro a m n v b fs ms h hv
    rcases three_some h with ⟨rfl, rfl⟩ | ⟨rfl, rfl⟩ | ⟨rfl, rfl⟩
    · obtain ⟨-, e⟩ := only_some hv
      cases e
      exact ⟨_, _, _, _, _, rfl, rfl⟩
    · obtain ⟨-, e⟩ := only_some hv
      cases e
    · obtain ⟨-, e⟩ := only_some hv
      cases e
  kinds := by
    intro a m n p h hv
    rcases three_some h with ⟨rfl, rfl⟩ | ⟨rfl, rfl⟩ | ⟨rfl, rfl⟩ <;> cases hv
  old := by
    intro a m n p h hv
    rcases three_some h with ⟨rfl, rfl⟩ | ⟨rfl, rfl⟩ | ⟨rfl, rfl⟩ <;> cases hv

/-- **Deviation (C79, hidden base types).**  `A` exports a name for a record type that is not exported itself, and `M` an extension of it.  The
inherited fields are written in `M.h`, with their types of `B`, but the base type is not mentioned as its own name is not exported: neither `A.h`
nor `B.h` is included. -/
theorem C79_hidden_base : Legal baseP ∧ HdrMention baseP 0 (2, 0) ∧ ¬ ∃ h, InHdr baseP 0 h ∧ HdrDecl baseP h (.typ (2, 0)) := by
  have declB : Decl baseP (2, 0) .external emptyRec := ⟨_, rfl, rfl⟩
  have declA : Decl baseP (1, 0) .internal (.record none [(.external, .name (2, 0))] (fun _ => none)) := ⟨_, rfl, rfl⟩
  have declM : Decl baseP (0, 0) .external (.record (some (1, 0)) [] (fun _ => none)) := ⟨_, rfl, rfl⟩
  have needed : Needed baseP 0 0 := .exported (.inl ⟨rfl, _, _, declM, by decide⟩)
  have own : ∀ {n v d}, Decl baseP (0, n) v d → n = 0 ∧ v = .external ∧ d = .record (some (1, 0)) [] (fun _ => none) := by
    rintro n v d ⟨m, h1, h2⟩
    cases h1
    obtain ⟨e1, e2⟩ := only_some h2
    cases e2
    exact ⟨e1, rfl, rfl⟩
  have notB : ∀ {n}, ¬ Mention baseP (.name (2, 0)) (1, n) := by
    intro n h
    cases h with
    | nameOpen h6 _ => exact absurd (h6.unique declB).2.symm (record_not_open _)
  refine ⟨baseP_legal, ?_, alone ?_ _ rfl rfl⟩
  · exact .field needed (.inherited declM (.own (f := (.external, .name (2, 0))) declA (by simp) (by decide))) (.name declB record_not_open)
  · intro n h
    cases h with
    | var h1 h2 => cases h1; cases h2
    | proc h1 h2 => cases h1; cases h2
    | base _ h2 h3 h4 =>
      obtain ⟨-, -, e⟩ := own h2
      cases e
      have e := (h3.unique declA).1
      rcases h4 with h4 | h4
      · exact h4 e
      · cases h4
    | field _ h2 h3 =>
      cases h2 with
      | own h4 h5 =>
        obtain ⟨-, -, e⟩ := own h4
        cases e
        cases h5
      | inherited h4 h5 =>
        obtain ⟨-, -, e⟩ := own h4
        cases e
        cases h5 with
        | own h6 h7 h8 =>
          have e := (h6.unique declA).2
          cases e
          simp at h7
          subst h7
          exact notB h3
        | inherited h6 =>
          have e := (h6.unique declA).2
          cases e
    | method _ h2 h3 =>
      obtain ⟨-, -, e⟩ := own h2
      cases e
      cases h3
    | other _ h2 =>
      obtain ⟨-, -, e⟩ := own h2
      cases e

/-- A module `M` that imports `A` with a single procedure. -/
def procP (p p' : Proc) : Program := three { blank with imports := [1], procs := only p } { blank with procs := only p' } blank

theorem procP_legal {p p' : Proc} (h1 : p.sig = .basic) (h1' : p'.sig = .basic)
    (h2 : (p.kind = .L → p.vis = .internal) ∧ (p.vis ≠ .internal → p.removed = false))
    (h2' : (p'.kind = .L → p'.vis = .internal) ∧ (p'.vis ≠ .internal → p'.removed = false)) : Legal (procP p p') where
  imports := by
    intro a m h b hb
    rcases three_some h with ⟨rfl, rfl⟩ | ⟨rfl, rfl⟩ | ⟨rfl, rfl⟩
    · simp at hb; subst hb; exact ⟨by decide, _, rfl, rfl⟩
    · simp [blank] at hb
    · simp [blank] at hb
  vars := by
    intro a m n v t h hv q hq
    rcases three_some h with ⟨rfl, rfl⟩ | ⟨rfl, rfl⟩ | ⟨rfl, rfl⟩ <;> cases hv
  procs := by
    intro a m n p h hv q hq
    rcases three_some h with ⟨rfl, rfl⟩ | ⟨rfl, rfl⟩ | ⟨rfl, rfl⟩
    · obtain ⟨-, e⟩ := only_some hv
      subst e
      rw [h1] at hq
      cases hq
    · obtain ⟨-, e⟩ := only_some hv
      subst e
      rw [h1'] at hq
      cases hq
    · cases hv
  types := by
    intro a m n v d h hv q hq
    rcases three_some h with ⟨rfl, rfl⟩ | ⟨rfl, rfl⟩ | ⟨rfl, rfl⟩ <;> cases hv
  aliases := by
    intro a m h q hq
    rcases three_some h with ⟨rfl, rfl⟩ | ⟨rfl, rfl⟩ | ⟨rfl, rfl⟩ <;> simp [blank] at hq
  bases := by
    intro a m n v b fs ms h hv
    rcases three_some h with ⟨rfl, rfl⟩ | ⟨rfl, rfl⟩ | ⟨rfl, rfl⟩ <;> cases hv
  kinds := by
    intro a m n p h hv
    rcases three_some h with ⟨rfl, rfl⟩ | ⟨rfl, rfl⟩ | ⟨rfl, rfl⟩
    · obtain ⟨-, e⟩ := only_some hv
      subst e
      exact h2
    · obtain ⟨-, e⟩ := only_some hv
      subst e
      exact h2'
    · cases hv
  old := by
    intro a m n p h hv
    rcases three_some h with ⟨rfl, rfl⟩ | ⟨rfl, rfl⟩ | ⟨rfl, rfl⟩ <;> cases hv

/-- **Deviation (C79, procedures marked with `-`).**  The compiler accepts `PROCEDURE P-`, and other modules can use it.  Its declarations are `extern`,
its definition is `static`: the C compiler rejects this, and nothing defines `P` for the linker. -/
theorem C79_readonly_procedure : ∃ P : Program, Legal P ∧ MayUse P 0 (.proc (1, 0)) ∧ Linkage P 1 (.proc (1, 0)) .ext ∧
    Linkage P 1 (.proc (1, 0)) .stat ∧ ∀ k, ¬ Defines P k (.proc (1, 0)) .ext := by
  refine ⟨procP ⟨.L, .internal, .basic, false⟩ ⟨.X, .readonly, .basic, false⟩, procP_legal rfl rfl (by decide) (by decide),
    .proc (m := _) (mk := _) (p := ⟨.X, .readonly, .basic, false⟩) rfl (by simp) rfl rfl (by decide) (by decide), ?_, ?_, ?_⟩
  · exact .inl (.proc (p := ⟨.X, .readonly, .basic, false⟩) rfl (.inl rfl) (.inr rfl) (.inl rfl))
  · exact .inr (.inl (.proc (p := ⟨.X, .readonly, .basic, false⟩) rfl rfl (by decide)))
  · intro k h
    have hk : 1 = k := h.owner
    subst hk
    generalize hl : Link.ext = l at h
    cases h with
    | proc h1 h2 =>
      cases h1
      obtain ⟨-, e⟩ := only_some (x := (⟨.X, .readonly, .basic, false⟩ : Proc)) (n := 0) h2
      subst e
      cases hl

/-- **Deviation (C79, interrupt procedures).**  An exported `PROCEDURE+` can be assigned to a procedure variable by other modules, but no header file
declares it. -/
theorem C79_interrupt : ∃ P : Program, Legal P ∧ MayUse P 0 (.proc (1, 0)) ∧ ¬ Declared P 0 (.proc (1, 0)) := by
  refine ⟨procP ⟨.L, .internal, .basic, false⟩ ⟨.I, .external, .basic, false⟩, procP_legal rfl rfl (by decide) (by decide),
    .proc (p := ⟨.I, .external, .basic, false⟩) rfl (by simp) rfl rfl (by decide) (by decide), ?_⟩
  rintro (⟨l, h⟩ | ⟨h, hu, hd⟩)
  · exact absurd h.owner (by decide)
  · have hk : 1 = h := hd.owner
    subst hk
    cases hd with
    | proc h1 h2 h3 h4 =>
      cases h1
      rcases h3 with h3 | h3
      · obtain ⟨-, e⟩ := only_some (x := (⟨.I, .external, .basic, false⟩ : Proc)) (n := 0) h3
        subst e
        rcases h4 with h4 | h4 <;> cases h4
      · cases h3

/-- **Deviation (C79, no longer exported).**  A procedure that was exported when the symbol file was written, is not any more, and is assigned to a
procedure variable, has no declaration before the procedures: if it is used in one before it, the C file does not compile. -/
theorem C79_unexported : ∃ P : Program, Legal P ∧ MayUse P 0 (.proc (0, 0)) ∧ ¬ Declared P 0 (.proc (0, 0)) := by
  refine ⟨procP ⟨.X, .internal, .basic, true⟩ ⟨.L, .internal, .basic, false⟩, procP_legal rfl rfl (by decide) (by decide),
    .ownProc (p := ⟨.X, .internal, .basic, true⟩) rfl rfl (by decide), ?_⟩
  have no : ∀ {m : Module} {p : Proc}, procP ⟨.X, .internal, .basic, true⟩ ⟨.L, .internal, .basic, false⟩ 0 = some m → Tree m 0 p →
      ¬ (p.removed = false ∨ p.kind = .L) := by
    intro m p h1 h2
    cases h1
    rcases h2 with h2 | h2
    · obtain ⟨-, e⟩ := only_some (x := (⟨.X, .internal, .basic, true⟩ : Proc)) (n := 0) h2
      subst e
      decide
    · cases h2
  rintro (⟨l, h⟩ | ⟨h, hu, hd⟩)
  · cases h with | proc h1 h2 _ h4 => exact no h1 h2 h4
  · have hk : 0 = h := hd.owner
    subst hk
    cases hd with | proc h1 _ h3 _ _ h6 => exact no h1 h3 h6

/-! ## Examples -/

/-- `MODULE B; TYPE T* = RECORD END; END B.`, `MODULE A; IMPORT B; TYPE H = RECORD x*: B.T END; VAR v*: H; END A.` and `MODULE M; IMPORT A; END M.`:
`M` can use `A.v.x`, of a type of `B`, which it does not import. -/
def goodP : Program := three { blank with imports := [1] }
  { blank with imports := [2], types := only (.internal, .record none [(.external, .name (2, 0))] (fun _ => none)), vars := only (.external, .name (1, 0)) } modB

theorem goodP_expB : Exports goodP 2 (2, 0) := .inl ⟨rfl, .external, emptyRec, ⟨_, rfl, rfl⟩, by decide⟩

theorem goodP_legal : Legal goodP where
  imports := by
    intro a m h b hb
    rcases three_some h with ⟨rfl, rfl⟩ | ⟨rfl, rfl⟩ | ⟨rfl, rfl⟩
    · simp at hb; subst hb; exact ⟨by decide, _, rfl, rfl⟩
    · simp at hb; subst hb; exact ⟨by decide, _, rfl, rfl⟩
    · simp [modB, blank] at hb
  vars := by
    intro a m n v t h hv q hq
    rcases three_some h with ⟨rfl, rfl⟩ | ⟨rfl, rfl⟩ | ⟨rfl, rfl⟩
    · cases hv
    · obtain ⟨-, e⟩ := only_some hv
      cases e
      cases hq
      exact .inl ⟨rfl, _, _, _, rfl, rfl⟩
    · cases hv
  procs := by
    intro a m n p h hv q hq
    rcases three_some h with ⟨rfl, rfl⟩ | ⟨rfl, rfl⟩ | ⟨rfl, rfl⟩ <;> cases hv
  types := by
    intro a m n v d h hv q hq
    rcases three_some h with ⟨rfl, rfl⟩ | ⟨rfl, rfl⟩ | ⟨rfl, rfl⟩
    · cases hv
    · obtain ⟨-, e⟩ := only_some hv
      cases e
      cases hq with
      | field h1 _ h3 =>
        simp at h1
        subst h1
        cases h3
        exact .inr ⟨_, rfl, 2, by simp, goodP_expB⟩
      | method h1 => cases h1
    · obtain ⟨-, e⟩ := only_some hv
      cases e
      exact (emptyRec_part hq).elim
  aliases := by
    intro a m h q hq
    rcases three_some h with ⟨rfl, rfl⟩ | ⟨rfl, rfl⟩ | ⟨rfl, rfl⟩ <;> simp [modB, blank] at hq
  bases := by
    intro a m n v b fs ms h hv
    rcases three_some h with ⟨rfl, rfl⟩ | ⟨rfl, rfl⟩ | ⟨rfl, rfl⟩
    · cases hv
    · obtain ⟨-, e⟩ := only_some hv
      cases e
    · obtain ⟨-, e⟩ := only_some hv
      cases e
  kinds := by
    intro a m n p h hv
    rcases three_some h with ⟨rfl, rfl⟩ | ⟨rfl, rfl⟩ | ⟨rfl, rfl⟩ <;> cases hv
  old := by
    intro a m n p h hv
    rcases three_some h with ⟨rfl, rfl⟩ | ⟨rfl, rfl⟩ | ⟨rfl, rfl⟩ <;> cases hv

theorem goodP_plain : Plain goodP where
  aliases := by
    intro a m h q hq
    rcases three_some h with ⟨rfl, rfl⟩ | ⟨rfl, rfl⟩ | ⟨rfl, rfl⟩ <;> simp [modB, blank] at hq
  opens := by
    rintro q v e ⟨m, h, hv⟩
    rcases three_some h with ⟨h1, rfl⟩ | ⟨h1, rfl⟩ | ⟨h1, rfl⟩
    · cases hv
    · obtain ⟨-, e⟩ := only_some hv
      cases e
    · obtain ⟨-, e⟩ := only_some hv
      cases e
  marks := by
    intro a m n p h hv
    rcases three_some h with ⟨rfl, rfl⟩ | ⟨rfl, rfl⟩ | ⟨rfl, rfl⟩ <;> cases hv
  boundMarks := by
    rintro q v b fs ms n w t ⟨m, h, hv⟩ hm
    rcases three_some h with ⟨h1, rfl⟩ | ⟨h1, rfl⟩ | ⟨h1, rfl⟩
    · cases hv
    · obtain ⟨-, e⟩ := only_some hv
      cases e
      cases hm
    · obtain ⟨-, e⟩ := only_some hv
      cases e
      cases hm
  interrupts := by
    intro a m n p h hv
    rcases three_some h with ⟨rfl, rfl⟩ | ⟨rfl, rfl⟩ | ⟨rfl, rfl⟩ <;> cases hv

/-- The hypotheses are met by `goodP`: `M` can use the type of `B`, and its C file has the declaration by way of `A.h`. -/
example : Declared goodP 0 (.typ (2, 0)) := by
  refine C79_declared_partial goodP_legal goodP_plain 0 (fun m n p h1 h2 => ?_) _ ?_
  · cases h1; cases h2
  · refine .typ (v := .external) (d := emptyRec) (.part (r := (1, 0)) (v := .internal) ?_ ⟨_, rfl, rfl⟩ ?_) ⟨_, rfl, rfl⟩ record_not_open
    · exact .var (m := { blank with imports := [1] }) (k := 1) (n := 0) (v := .external) (t := .name (1, 0)) rfl (by simp) rfl rfl (by decide) (.name _)
    · exact .field (f := (.external, .name (2, 0))) (by simp) (.inr (by decide)) (.name _)

/-- `A.h` mentions the type of `B`, and includes `B.h`. -/
example : ∃ h, InHdr goodP 1 h ∧ HdrDecl goodP h (.typ (2, 0)) := by
  refine C79_headers_partial goodP_legal goodP_plain 1 _ rfl rfl _ ?_
  refine .field (n := 0) (.var (k := 0) rfl rfl (by decide) (.name _)) (.own (f := (.external, .name (2, 0))) ⟨_, rfl, rfl⟩ (by simp) (by decide)) ?_
  exact .name (v := .external) (d := emptyRec) ⟨_, rfl, rfl⟩ record_not_open

/-- `A.v` is used by `M` and defined once. -/
example : ∃ l, Defines goodP 1 (.var (1, 0)) l ∧ l ≠ .stat := by
  obtain ⟨l, h1, h2, -⟩ := C79_defined_partial goodP_legal goodP_plain 0 (.var (1, 0)) (.var (m := { blank with imports := [1] })
    (v := .external) (t := .name (1, 0)) rfl (by simp) rfl rfl (by decide))
  exact ⟨l, h1, h2.resolve_left (by decide)⟩

/-- It is external in the file of `A`, and in its header file. -/
example : HdrDecl goodP 1 (.var (1, 0)) ∧ Defines goodP 1 (.var (1, 0)) .ext := by
  have h := C79_interface_partial goodP_legal goodP_plain 1 _ rfl rfl (.var (1, 0)) (.inl ⟨_, rfl⟩)
  exact ⟨h.1.2 (.inl ⟨0, .external, .name (1, 0), rfl, rfl, by decide⟩), h.2.2 (.inl ⟨0, .external, .name (1, 0), rfl, rfl, by decide⟩)⟩

/-- A procedure that is only in the old symbol file. -/
example : Legal (fun n => if n = 0 then some { blank with old := only ⟨.X, .external, .basic, true⟩ } else none) where
  imports := by intro a m h b hb; split at h <;> cases h; cases hb
  vars := by intro a m n v t h hv; split at h <;> cases h; cases hv
  procs := by intro a m n p h hv; split at h <;> cases h; cases hv
  types := by intro a m n v d h hv; split at h <;> cases h; cases hv
  aliases := by intro a m h q hq; split at h <;> cases h; cases hq
  bases := by intro a m n v b fs ms h hv; split at h <;> cases h; cases hv
  kinds := by intro a m n p h hv; split at h <;> cases h; cases hv
  old := by intro a m n p h hv; split at h <;> cases h; obtain ⟨-, e⟩ := only_some hv; subst e; exact ⟨rfl, by decide, rfl⟩

end Verif.Linkage
