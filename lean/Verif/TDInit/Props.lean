import Verif.TDInit.Block

/-!
# C83: type descriptors are initialised before they are used
-/
namespace Verif.TDInit
open Verif.Types Verif.Decls

/-! ### The records of an accepted block -/

theorem block_lev {s : St} {mx : Int} {ds : List Decl} (hi : Init s) (he : (block mx s ds).errs = []) : ∀ t b, ((block mx s ds).tab t).comp = .record →
    ((block mx s ds).tab t).base = some b → b < (block mx s ds).next ∧ ((block mx s ds).tab b).comp = .record ∧ ((block mx s ds).tab t).extlev = ((block mx s ds).tab b).extlev + 1 := by
  obtain ⟨hb, _⟩ := block_blk (pl := (False, False)) hi (fun d _ => ok_none d) he
  intro t b hr hbase
  by_cases c1 : t < s.next
  · have e := (hb.old t c1).1
    have hr' : ((declares mx ds (start s)).tab t).comp = .record := hr
    have hbase' : ((declares mx ds (start s)).tab t).base = some b := hbase
    rw [e] at hr' hbase'
    obtain ⟨k1, k2, k3⟩ := hi.lev t c1 hr' b hbase'
    have e2 := (hb.old b k1).1
    refine ⟨Nat.lt_of_lt_of_le k1 hb.le, ?_, ?_⟩
    · show ((declares mx ds (start s)).tab b).comp = _
      rw [e2]; exact k2
    · show ((declares mx ds (start s)).tab t).extlev = ((declares mx ds (start s)).tab b).extlev + 1
      rw [e, e2]; exact k3
  · by_cases c2 : t < (declares mx ds (start s)).next
    · have g := hb.good t (by omega) c2
      exact ⟨g.base b hbase, g.record b hr hbase⟩
    · have := (hb.beyond t (by omega)).1
      have hr' : ((declares mx ds (start s)).tab t).comp = .record := hr
      rw [this] at hr'
      cases hr'

/-- **C83, order.**  When the declarations of a block in which no record is extended within its own declaration (`NoInner`) have been accepted, the list of type descriptors
to initialise has each record declared in the block — also those without a name — exactly once and nothing else, and each stands after the record it extends. -/
theorem C83_order_partial {s : St} {mx : Int} {ds : List Decl} (hi : Init s) (hn : NoInner ds) (he : (block mx s ds).errs = []) :
    (∀ t, t ∈ inits mx s ds ↔ s.next ≤ t ∧ t < (block mx s ds).next ∧ ((block mx s ds).tab t).comp = .record) ∧
    (inits mx s ds).Nodup ∧ BaseFirst (block mx s ds).tab s.next (inits mx s ds) := by
  obtain ⟨L, _⟩ := block_lst hi hn he
  exact ⟨L.mem, L.nodup, L.ord⟩

/-! ### The start -/

/-- The descriptors of all records below `next` are set and list at each level the type of that level which the type extends; the others are empty. -/
structure Ready (T : Tab) (next : Nat) (d : Descs) : Prop where
  ok : ∀ t < next, (T t).comp = .record → d.set t = true ∧ ∀ k u, d.basep t k = some u ↔ Ext T t u ∧ (T u).extlev = k
  fresh : ∀ t, next ≤ t → ∀ k, d.basep t k = none

theorem ready_tests {T : Tab} {next : Nat} {d : Descs} (h : Ready T next d) : TestsRight T next (isTest T d) := by
  intro t u ht hr _ _
  unfold isTest
  rw [decide_eq_true_iff, (h.ok t ht hr).2]
  exact ⟨fun h => h.1, fun h => ⟨h, rfl⟩⟩

theorem ext_lev {T : Tab} (hl : ∀ t b, (T t).comp = .record → (T t).base = some b → (T b).comp = .record ∧ (T t).extlev = (T b).extlev + 1) {t u : Nat} (h : Ext T t u) :
    (T u).extlev ≤ (T t).extlev := by
  induction h with
  | refl t => exact Nat.le_refl _
  | step h1 h2 _ ih => have := (hl _ _ h1 h2).2; omega

theorem ext_cases {T : Tab} {t u : Nat} : Ext T t u ↔ t = u ∨ ∃ b, (T t).comp = .record ∧ (T t).base = some b ∧ Ext T b u := by
  constructor
  · intro h
    cases h with
    | refl => exact .inl rfl
    | step h1 h2 h3 => exact .inr ⟨_, h1, h2, h3⟩
  · rintro (rfl | ⟨b, h1, h2, h3⟩)
    · exact .refl _
    · exact .step h1 h2 h3

/-- The descriptors when those of the list `a` have been initialised. -/
structure Mid (T : Tab) (n0 : Nat) (a : List Nat) (d : Descs) : Prop where
  ok : ∀ t, (t < n0 ∨ t ∈ a) → (T t).comp = .record → d.set t = true ∧ ∀ k u, d.basep t k = some u ↔ Ext T t u ∧ (T u).extlev = k
  fresh : ∀ t, n0 ≤ t → t ∉ a → ∀ k, d.basep t k = none

theorem run_list {T : Tab} {n0 : Nat} {l : List Nat} (hrec : ∀ t ∈ l, n0 ≤ t ∧ (T t).comp = .record ∧ (T t).extlev < 16) (hnd : l.Nodup) (hord : BaseFirst T n0 l)
    (h0 : ∀ t ∈ l, (T t).base = none → (T t).extlev = 0)
    (hl : ∀ t b, (T t).comp = .record → (T t).base = some b → (T b).comp = .record ∧ (T t).extlev = (T b).extlev + 1) :
    ∀ (c a : List Nat) (d : Descs), l = a ++ c → Mid T n0 a d → ∃ d', initTDescs T c d = .run d' ∧ Mid T n0 l d'
  | [], a, d, e, h => by
    rw [List.append_nil] at e
    subst e
    exact ⟨d, rfl, h⟩
  | t :: c, a, d, e, h => by
    have htl : t ∈ l := by rw [e]; simp
    obtain ⟨hge, hr, hlt⟩ := hrec t htl
    have hta : t ∉ a := by
      intro hm
      rw [e, List.nodup_append] at hnd
      exact hnd.2.2 t hm t List.mem_cons_self rfl
    have hmem : ∀ v, (v < n0 ∨ v ∈ a ++ [t]) → v ≠ t → (v < n0 ∨ v ∈ a) := by
      intro v hv hne
      rcases hv with hv | hv
      · exact .inl hv
      · rcases List.mem_append.mp hv with k | k
        · exact .inr k
        · simp only [List.mem_singleton] at k
          exact absurd k hne
    -- one call
    have one : ∃ d1, initTDesc T d t = .run d1 ∧ Mid T n0 (a ++ [t]) d1 := by
      unfold initTDesc inityp
      cases hbase : (T t).base with
      | none =>
        have hz := h0 t htl hbase
        have hself : upd d.set t true t = true := upd_self _ _ _
        simp only [Option.getD_none, hself, hz]
        refine ⟨_, rfl, ⟨fun v hv hvr => ?_, fun v hv hvm k => ?_⟩⟩
        · by_cases c : v = t
          · subst c
            refine ⟨hself, fun k u => ?_⟩
            simp only [upd_self]
            rw [if_neg (Nat.not_lt_zero k), ext_cases]
            constructor
            · intro hk
              split at hk
              · rename_i hk0
                cases hk
                exact ⟨.inl rfl, by rw [hz]; exact hk0.symm⟩
              · rw [h.fresh v hge hta k] at hk
                cases hk
            · rintro ⟨rfl | ⟨b, _, hb, _⟩, hk⟩
              · rw [hz] at hk
                rw [if_pos hk.symm]
              · rw [hbase] at hb
                cases hb
          · obtain ⟨k1, k2⟩ := h.ok v (hmem v hv c) hvr
            refine ⟨by simp only [upd_ne _ _ c]; exact k1, fun k u => ?_⟩
            simp only [upd_ne _ _ c]
            exact k2 k u
        · have c : v ≠ t := fun h => hvm (by rw [h]; simp)
          simp only [upd_ne _ _ c]
          exact h.fresh v hv (fun hm => hvm (List.mem_append_left _ hm)) k
      | some b =>
        obtain ⟨hbr, hlev⟩ := hl t b hr hbase
        have hbt : b ≠ t := by
          intro hh
          rw [hh] at hlev
          omega
        have hb := hord a t c e b hbase
        obtain ⟨k1, k2⟩ := h.ok b hb hbr
        simp only [Option.getD_some]
        rw [if_neg (show ¬ upd d.set t true b = false by rw [upd_ne _ _ hbt, k1]; simp), if_neg (show ¬ 16 ≤ (T t).extlev by omega)]
        refine ⟨_, rfl, ⟨fun v hv hvr => ?_, fun v hv hvm k => ?_⟩⟩
        · by_cases c : v = t
          · subst c
            refine ⟨upd_self _ _ _, fun k u => ?_⟩
            simp only [upd_self]
            rw [ext_cases]
            by_cases ck : k < (T v).extlev
            · rw [if_pos ck, k2]
              constructor
              · rintro ⟨x, y⟩
                exact ⟨.inr ⟨b, hr, hbase, x⟩, y⟩
              · rintro ⟨rfl | ⟨b', _, hb', x⟩, y⟩
                · omega
                · rw [hbase] at hb'
                  cases hb'
                  exact ⟨x, y⟩
            · rw [if_neg ck]
              have hup : ∀ w, Ext T b w → (T w).extlev < (T v).extlev := fun w hw => by
                have := ext_lev hl hw
                omega
              by_cases ck2 : k = (T v).extlev
              · rw [if_pos ck2]
                constructor
                · intro hk
                  cases hk
                  exact ⟨.inl rfl, ck2.symm⟩
                · rintro ⟨rfl | ⟨b', _, hb', x⟩, y⟩
                  · rfl
                  · rw [hbase] at hb'
                    cases hb'
                    have := hup u x
                    omega
              · rw [if_neg ck2, h.fresh v hge hta k]
                constructor
                · intro hk
                  cases hk
                · rintro ⟨rfl | ⟨b', _, hb', x⟩, y⟩
                  · exact absurd y.symm ck2
                  · rw [hbase] at hb'
                    cases hb'
                    have := hup u x
                    omega
          · obtain ⟨k1, k2⟩ := h.ok v (hmem v hv c) hvr
            refine ⟨by simp only [upd_ne _ _ c]; exact k1, fun k u => ?_⟩
            simp only [upd_ne _ _ c]
            exact k2 k u
        · have c : v ≠ t := fun h => hvm (by rw [h]; simp)
          simp only [upd_ne _ _ c]
          exact h.fresh v hv (fun hm => hvm (List.mem_append_left _ hm)) k
    obtain ⟨d1, e1, m1⟩ := one
    obtain ⟨d', e2, m2⟩ := run_list hrec hnd hord h0 hl c (a ++ [t]) d1 (by rw [e, List.append_assoc]; rfl) m1
    refine ⟨d', ?_, m2⟩
    rw [initTDescs, e1]
    exact e2

/-! ### All blocks of a module -/

/-- The declarations of the blocks of a module, in the order of the text: the module itself, then its procedures.  `s` is the state before the first, `s'` that after the
last, and `l` the list of nodes that has come about.  Between blocks scopes are opened and closed. -/
inductive Blocks (mx : Int) (s : St) : List Nat → St → Prop
  | nil : Blocks mx s [] s
  | snoc {l : List Nat} {s1 s2 : St} {ds : List Decl} : Blocks mx s l s1 → s2.tab = s1.tab → s2.next = s1.next → Init s2 → NoInner ds → (block mx s2 ds).errs = [] →
      Blocks mx s (l ++ inits mx s2 ds) (block mx s2 ds)

theorem blocks_lst {mx : Int} {s s' : St} {l : List Nat} (h : Blocks mx s l s') (hi : Init s) : Lst s s' (fun b => b < s.next) l ∧ Kp s s' ∧
    (∀ t b, (s'.tab t).comp = .record → (s'.tab t).base = some b → b < s'.next ∧ (s'.tab b).comp = .record ∧ (s'.tab t).extlev = (s'.tab b).extlev + 1) := by
  induction h with
  | nil => exact ⟨.nil fun t h1 h2 => by omega, .refl _, fun t b h1 h2 => by
      have hlt : t < s.next := by
        by_contra c
        rw [(hi.beyond t (by omega)).1] at h1
        cases h1
      exact hi.lev t hlt h1 b h2⟩
  | @snoc l s1 s2 ds hb et en hi2 hn he ih =>
    obtain ⟨L1, k1, v1⟩ := ih
    obtain ⟨L2, k2⟩ := block_lst hi2 hn he
    have v2 := block_lev hi2 he
    have k12 : Kp s1 (block mx s2 ds) := ⟨by rw [← en]; exact k2.next, fun t ht => by rw [k2.comp t (by omega), et], fun t ht hr => by rw [k2.tab t (by omega) (by rw [et]; exact hr), et]⟩
    refine ⟨k12.append L1 ⟨fun t => by rw [← en]; exact L2.mem t, L2.nodup, fun a t c e v hv => ?_, L2.lev⟩ k1.next, k1.trans k12, v2⟩
    rcases L2.ord a t c e v hv with h | h
    · left
      have ht : t ∈ inits mx s2 ds := by rw [e]; simp
      obtain ⟨_, hvr, _⟩ := v2 t v ((L2.mem t).mp ht).2.2 hv
      by_cases c2 : v < s.next
      · exact .inl c2
      · right
        rw [L1.mem]
        exact ⟨by omega, by omega, by rw [← et, ← k2.comp v h]; exact hvr⟩
    · exact .inr h

theorem ext_old {s s' : St} (k : Kp s s') (hi : Init s) {t u : Nat} (ht : t < s.next) : Ext s'.tab t u ↔ Ext s.tab t u := by
  constructor
  · intro h
    induction h with
    | refl => exact .refl _
    | step h1 h2 _ ih =>
      rw [k.comp _ ht] at h1
      rw [k.tab _ ht h1] at h2
      exact .step h1 h2 (ih (hi.base _ _ ht h2))
  · intro h
    induction h with
    | refl => exact .refl _
    | step h1 h2 _ ih =>
      refine .step (by rw [k.comp _ ht]; exact h1) (by rw [k.tab _ ht h1]; exact h2) (ih (hi.base _ _ ht h2))

theorem ext_record {s : St} (hi : Init s) {t u : Nat} (h : Ext s.tab t u) (ht : t < s.next) (hr : (s.tab t).comp = .record) : u < s.next ∧ (s.tab u).comp = .record := by
  induction h with
  | refl => exact ⟨ht, hr⟩
  | step h1 h2 _ ih =>
    obtain ⟨k1, k2, _⟩ := hi.lev _ ht h1 _ h2
    exact ih k1 k2

/-- **C83, start.**  Let the blocks of a module be accepted, no record extended within its own declaration and none of a level above 15, and let the descriptors of the records
there were — those of imported modules — be ready.  Then the start of the module initialises all descriptors without using one that is not initialised, and afterwards every
type test on a record, of the module or imported, answers whether its type is an extension of the type of the test.  The descriptors are ready for modules that import it. -/
theorem C83_start_partial {mx : Int} {s s' : St} {l : List Nat} {d : Descs} (hi : Init s) (h : Blocks mx s l s') (hlev : ∀ t < s'.next, (s'.tab t).comp = .record → (s'.tab t).extlev < 16)
    (hd : Ready s.tab s.next d) : ∃ d', initTDescs s'.tab l d = .run d' ∧ TestsRight s'.tab s'.next (isTest s'.tab d') ∧ Ready s'.tab s'.next d' := by
  obtain ⟨L, k, v⟩ := blocks_lst h hi
  have m0 : Mid s'.tab s.next [] d := by
    refine ⟨fun t ht hr => ?_, fun t ht _ => hd.fresh t ht⟩
    have ht : t < s.next := ht.elim id (fun h => by cases h)
    have hr0 : (s.tab t).comp = .record := by rw [← k.comp t ht]; exact hr
    obtain ⟨k1, k2⟩ := hd.ok t ht hr0
    refine ⟨k1, fun j u => ?_⟩
    rw [k2, ext_old k hi ht]
    constructor
    · rintro ⟨x, y⟩
      obtain ⟨z1, z2⟩ := ext_record hi x ht hr0
      exact ⟨x, by rw [k.tab u z1 z2]; exact y⟩
    · rintro ⟨x, y⟩
      obtain ⟨z1, z2⟩ := ext_record hi x ht hr0
      exact ⟨x, by rw [k.tab u z1 z2] at y; exact y⟩
  obtain ⟨d', e, m⟩ := run_list (T := s'.tab) (n0 := s.next) (l := l)
    (fun t ht => ⟨((L.mem t).mp ht).1, ((L.mem t).mp ht).2.2, hlev t ((L.mem t).mp ht).2.1 ((L.mem t).mp ht).2.2⟩) L.nodup L.ord L.lev (fun t b h1 h2 => (v t b h1 h2).2) l [] d rfl m0
  have hR : Ready s'.tab s'.next d' := by
    refine ⟨fun t ht hr => m.ok t ?_ hr, fun t ht => m.fresh t (by have := k.next; omega) (fun hm => ?_)⟩
    · by_cases c : t < s.next
      · exact .inl c
      · exact .inr ((L.mem t).mpr ⟨by omega, ht, hr⟩)
    · have := ((L.mem t).mp hm).2.1
      omega
  exact ⟨d', e, ready_tests hR, hR⟩

/-! ### Examples -/

/-- `T = RECORD i: INTEGER END; U = RECORD (T) p: POINTER TO RECORD (T) j: INTEGER END END; VAR v: RECORD (U) END`, and in a procedure `L = RECORD (U) END`. -/
def exOuter : List Decl :=
  [.typ 1 (.recd none (.cons false [2] (.name (.id 100)) .nil)),
   .typ 3 (.recd (some (.id 1)) (.cons false [4] (.ptr (.recd (some (.id 1)) (.cons false [5] (.name (.id 100)) .nil))) .nil)),
   .var [6] (.recd (some (.id 3)) .nil)]
def exInner : List Decl := [.typ 7 (.recd (some (.id 3)) .nil)]

theorem exOuter_noInner : NoInner exOuter := by
  intro x e h
  simp only [exOuter, List.mem_cons, Decl.typ.injEq, reduceCtorEq, List.not_mem_nil, or_false] at h
  rcases h with ⟨rfl, rfl⟩ | ⟨rfl, rfl⟩ <;> rfl

theorem exInner_noInner : NoInner exInner := by
  intro x e h
  simp only [exInner, List.mem_cons, Decl.typ.injEq, List.not_mem_nil, or_false] at h
  obtain ⟨rfl, rfl⟩ := h
  rfl

theorem exOuter_plain : Plain exOuter := by
  intro x e h
  simp only [exOuter, List.mem_cons, Decl.typ.injEq, reduceCtorEq, List.not_mem_nil, or_false] at h
  rcases h with ⟨rfl, rfl⟩ | ⟨rfl, rfl⟩ <;> rfl

/-- The inner record of `U` is listed before `U`; both after `T`. -/
example : (block 100 st0 exOuter).errs = [] ∧ inits 100 st0 exOuter = [11, 14, 12, 15] ∧ ((block 100 st0 exOuter).tab 14).base = some 11 := by decide +kernel

theorem st0_ready : Ready st0.tab st0.next noDescs :=
  ⟨fun t ht hr => by
    exfalso
    have : ∀ t < st0.next, (st0.tab t).comp ≠ .record := by decide
    exact this t ht hr, fun _ _ _ => rfl⟩

/-- The two blocks. -/
theorem exBlocks : Blocks 100 st0 (inits 100 st0 exOuter ++ inits 100 (block 100 st0 exOuter) exInner) (block 100 (block 100 st0 exOuter) exInner) := by
  have h1 : (block 100 st0 exOuter).errs = [] := by decide +kernel
  have b1 : Blocks 100 st0 ([] ++ inits 100 st0 exOuter) (block 100 st0 exOuter) := .snoc .nil rfl rfl st0_init exOuter_noInner h1
  exact .snoc b1 rfl rfl (C64_wf_partial st0_init exOuter_plain h1) exInner_noInner (by decide +kernel)

/-- All tests on the five records are right after the start. -/
example : ∃ d', initTDescs (block 100 (block 100 st0 exOuter) exInner).tab (inits 100 st0 exOuter ++ inits 100 (block 100 st0 exOuter) exInner) noDescs = .run d' ∧
    isTest (block 100 (block 100 st0 exOuter) exInner).tab d' 16 11 = true ∧ isTest (block 100 (block 100 st0 exOuter) exInner).tab d' 14 12 = false := by
  obtain ⟨d', e, h, _⟩ := C83_start_partial st0_init exBlocks (by decide +kernel) st0_ready
  refine ⟨d', e, ?_, ?_⟩
  · rw [h 16 11 (by decide +kernel) (by decide +kernel) (by decide +kernel) (by decide +kernel)]
    exact .step (by decide +kernel) (b := 12) (by decide +kernel) (.step (by decide +kernel) (b := 11) (by decide +kernel) (.refl _))
  · rw [Bool.eq_false_iff]
    intro hc
    rw [h 14 12 (by decide +kernel) (by decide +kernel) (by decide +kernel) (by decide +kernel)] at hc
    have hb : ((block 100 (block 100 st0 exOuter) exInner).tab 14).base = some 11 := by decide +kernel
    have hb2 : ((block 100 (block 100 st0 exOuter) exInner).tab 11).base = none := by decide +kernel
    cases hc with
    | step h1 h2 h3 =>
      rw [hb] at h2
      cases h2
      cases h3 with
      | step k1 k2 k3 =>
        rw [hb2] at k2
        cases k2

/-! ### Where the code does not do what it should -/

/-- `T = RECORD p: POINTER TO RECORD (T) END END`. -/
def inner : List Decl := [.typ 1 (.recd none (.cons false [2] (.ptr (.recd (some (.id 1)) .nil)) .nil))]

/-- A record can be extended within its own declaration: the declaration is accepted, but the extension is listed before the record it extends, and the start of the module
uses the descriptor of that record before it is initialised. -/
theorem C83_inner : (block 100 st0 inner).errs = [] ∧ inits 100 st0 inner = [13, 11] ∧ ((block 100 st0 inner).tab 13).base = some 11 ∧
    initTDescs (block 100 st0 inner).tab (inits 100 st0 inner) noDescs = .null :=
  ⟨by decide +kernel, by decide +kernel, by decide +kernel, rfl⟩

def Out.kind : Out → Nat
  | .run _ => 0
  | .null => 1
  | .bounds => 2

theorem Out.bounds_of {o : Out} (h : o.kind = 2) : o = .bounds := by
  cases o with
  | bounds => rfl
  | _ => cases h

/-- Seventeen records, each an extension of the one before. -/
def deep : List Decl := (List.range 17).map fun i => .typ (i + 1) (.recd (if i = 0 then none else some (.id i)) .nil)

/-- Records of any level are accepted, but a descriptor has entries for sixteen levels only: the start of a module with a record of level 16 writes behind them. -/
theorem C83_depth : (block 100 st0 deep).errs = [] ∧ ((block 100 st0 deep).tab 27).extlev = 16 ∧
    initTDescs (block 100 st0 deep).tab (inits 100 st0 deep) noDescs = .bounds :=
  ⟨by decide +kernel, by decide +kernel, Out.bounds_of (by decide +kernel)⟩

end Verif.TDInit
