import Verif.Common
import Verif.Procs.Method

/-! # One heading -/
namespace Verif.Procs
open Verif.Types

theorem methodErrs_head (E : Env) {h : Head} (hp : ¬ h.plain) :
    (markErrs E 0 h = [] ∧ (insertAll [] (h.all.map (parObj (0 + 1)))).2 = []) ↔ HeadOk0 E 0 h := by
  rw [markErrs_nil, pars_errs]
  constructor
  · rintro ⟨⟨h1, h2⟩, h4⟩
    exact ⟨h1, h2, fun h => absurd h hp, h4⟩
  · rintro ⟨h1, h2, h3, h4⟩
    exact ⟨⟨h1, h2⟩, h4⟩

theorem again_nil (a b c d e rd : List Nat) : (a ++ (if 0 > 0 then [73] else []) ++ [] ++ b ++ c ++ (d ++ e) ++ rd = []) ↔
    (a = [] ∧ c = []) ∧ (b = [] ∧ d = [] ∧ e = []) ∧ rd = [] := by
  simp only [List.append_eq_nil_iff, gt_iff_lt, Nat.lt_irrefl, if_false]
  tauto

theorem new_nil (a c : List Nat) (b : Bool) (rd : List Nat) :
    (a ++ (if 0 > 0 then [73] else []) ++ [] ++ ((if b = true then [1] else []) ++ (if false = true then [1] else [])) ++ c ++ rd = []) ↔
    (a = [] ∧ c = []) ∧ b = false ∧ rd = [] := by
  cases b <;> simp
  tauto

theorem methodHead_ok {E : Env} (hE : E.Ok) {pre : List Head} {s : St} {h : Head} {rc : Recv}
    (hi : RInv E pre s.recs) (hr : h.recv = some rc) :
    ∃ es, (methodHead E 0 s rc h).st.errs = s.errs ++ es ∧
      (es = [] ↔ HeadOk0 E 0 h ∧ ∃ r, MethodOk E pre h r) ∧
      (es = [] → RInv E (pre ++ [h]) (methodHead E 0 s rc h).st.recs ∧ (methodHead E 0 s rc h).scope = h.all.map (parObj (0 + 1))) := by
  have hnp : ¬ h.plain := by
    intro hp
    rw [show h.recv = none from hp] at hr
    cases hr
  obtain ⟨hrec1, hrec2⟩ := receiver_ok hE.wf hr
  by_cases hb : ∃ r, Binds E h r
  · obtain ⟨r, hb⟩ := hb
    have hrec := hrec2 r hb
    obtain ⟨rc', hr', hrp⟩ := binds_recv hb
    rw [hr] at hr'
    cases hr'
    have hcr : (E.T r).comp = .record := hrp.1
    have hex : (∃ r, MethodOk E pre h r) ↔ MethodOk E pre h r := by
      constructor
      · rintro ⟨r', h1⟩
        obtain rfl := binds_unique hE.wf hb h1.binds
        exact h1
      · exact fun h1 => ⟨r, h1⟩
    rw [hex]
    have hmno : E.mno r = 0 := by
      obtain ⟨_, _, _, _, _, h1, _⟩ := hb
      exact h1
    obtain ⟨hb1, hb2⟩ := find_base hE hi h.name hcr
    have hself := fieldOf_self hE s.recs h.name hcr
    have hall : h.all = rc.par :: h.pars := method_all hr
    have hscope : (insertAll [] (h.all.map (parObj (0 + 1)))).1 = h.all.map (parObj (0 + 1)) := by
      rw [insertAll_eq, List.nil_append]
    cases hin : s.recs.find? (fun x => x.1 == r && x.2.name == h.name) with
    | some x =>
      rw [hin] at hself
      dsimp only at hself
      obtain ⟨hx, hx1, hx2⟩ := findr_mem hin
      -- the member found in the record itself is not the one found above
      have hne : ((fieldOf E.T s.recs h.name (E.T r).base).filter fun x => decide (x.2.mode = .tproc)).map Prod.fst ≠ some x.1 := by
        intro hh
        rw [Option.map_eq_some_iff] at hh
        obtain ⟨y, h1, h2⟩ := hh
        rw [Option.filter_eq_some_iff] at h1
        obtain ⟨_, _, h3, _⟩ := hb2 y h1.1
        rw [h2, hx1] at h3
        omega
      have hf1 : x.2.lev = ((0 : Nat) : Int) → ((some x).filter fun x => decide (((fieldOf E.T s.recs h.name (E.T r).base).filter fun x => decide (x.2.mode = .tproc)).map Prod.fst ≠ some x.1)).filter
          (fun x => decide (x.2.lev = ((0 : Nat) : Int))) = some x := by
        intro hl
        have : (some x).filter (fun x => decide (((fieldOf E.T s.recs h.name (E.T r).base).filter fun x => decide (x.2.mode = .tproc)).map Prod.fst ≠ some x.1)) = some x := by
          rw [Option.filter_eq_some_iff]
          exact ⟨rfl, by simpa using hne⟩
        rw [this, Option.filter_eq_some_iff]
        exact ⟨rfl, by simpa using hl⟩
      have hdup : s.recs.any (fun y => y.1 == r && y.2.name == h.name) = true := by
        rw [List.any_eq_true]
        exact ⟨x, hx, by simp [hx1, hx2]⟩
      rcases hi.src x hx with ⟨m, h1, h2⟩ | ⟨e, he⟩
      · -- a field
        cases m with
        | method sg =>
          rw [hx1] at h1
          exact absurd hmno (hE.own _ _ _ h1)
        | field =>
          have hlev : x.2.lev = ((0 : Nat) : Int) := by
            rw [h2]
            show E.mno x.1 = _
            rw [hx1]
            exact hmno
          have hmode : x.2.mode = .fld := by
            rw [h2]
            rfl
          have hf2 : (some x).filter (fun x => decide (x.2.mode = .tproc ∧ x.2.hasBody = false)) = none := by
            simp [hmode]
          unfold methodHead
          simp only [hrec, Option.bind_some, hself, hf1 hlev, hf2]
          refine ⟨_, rfl, ?_, ?_⟩
          · constructor
            · intro hes
              simp [hdup] at hes
            · rintro ⟨_, hk⟩
              rw [hx1, hx2] at h1
              exact absurd h1 hk.field
          · intro hes
            simp [hdup] at hes
      · rw [hx1] at he
        cases hbd : x.2.hasBody with
        | true =>
          have hf2 : (some x).filter (fun x => decide (x.2.mode = .tproc ∧ x.2.hasBody = false)) = none := by
            simp [hbd]
          unfold methodHead
          simp only [hrec, Option.bind_some, hself, hf1 he.lev, hf2]
          refine ⟨_, rfl, ?_, ?_⟩
          · constructor
            · intro hes
              simp [hdup] at hes
            · rintro ⟨_, hk⟩
              obtain ⟨e', h1, h2, h3, h4⟩ := he.body.mp hbd
              exact absurd (hk.fwd e' h1 h2 (h3.trans hx2)).1 h4
          · intro hes
            simp [hdup] at hes
        | false =>
          have hf2 : (some x).filter (fun x => decide (x.2.mode = .tproc ∧ x.2.hasBody = false)) = some x := by
            simp [hbd, he.mode]
          have hag : (if x.2.vis ≠ h.vis then [118] else ([] : List Nat)) = [] ∧ E.chk true h.all x.2.pars = [] ∧
              (if h.res ≠ x.2.res then [117] else ([] : List Nat)) = [] ↔ Agree E.T e h := by
            rw [ite_nil, ite_nil, chk_iff hE, he.vis, he.res, he.pars]
            unfold Agree
            simp only [ne_eq, not_not, forall_const]
            constructor
            · rintro ⟨h1, ⟨h2, h3⟩, h4⟩
              exact ⟨h1, h4.symm, match_symm h2, h3.symm⟩
            · rintro ⟨h1, h4, h2, h3⟩
              exact ⟨h1, ⟨match_symm h2, h3.symm⟩, h4.symm⟩
          have hmok : Agree E.T e h → ((∀ b sg, Base E pre h.name r b (.method sg) → Redefines E h r sg) ↔ MethodOk E pre h r) := by
            intro ha
            constructor
            · intro hrd
              refine ⟨hb, ?_, ?_, ?_, hrd⟩
              · intro hfl
                have h1 := hi.inits _ hfl
                have := nodup_key hi.nodup hx h1 hx1 hx2
                have hm := he.mode
                rw [this] at hm
                simp [memObj] at hm
              · intro b hbf
                exact hi.inh e he.mem r he.binds b (by rw [he.name, hx2]; exact hbf)
              · intro e' h1 h2 h3
                refine ⟨?_, (hi.agree e' h1 e he.mem r h2 he.binds (by rw [h3, he.name, hx2])).trans hE.wf ha⟩
                by_contra hnf
                have := he.body.mpr ⟨e', h1, h2, h3.trans hx2.symm, hnf⟩
                rw [hbd] at this
                cases this
            · exact fun hk => hk.redef
          have hag' : MethodOk E pre h r → Agree E.T e h := fun hk => (hk.fwd e he.mem he.binds (he.name.trans hx2)).2
          have htail : Agree E.T e h → Match E.T x.2.pars.tail h.pars ∧ x.2.res = h.res ∧ x.2.vis = h.vis := by
            rintro ⟨a1, a2, a3, _⟩
            rw [he.pars, he.res, he.vis]
            refine ⟨?_, a2, a1⟩
            rw [hall] at a3
            revert a3
            cases e.all with
            | nil => intro a3; cases a3
            | cons p ps => intro a3; cases a3 with | cons _ _ a4 => exact a4
          have hrd : ∀ base, ((fieldOf E.T s.recs h.name (E.T r).base).filter fun x => decide (x.2.mode = .tproc)) = base → Agree E.T e h →
              ((match base with | some b => redefErrs E rc (some r) x.2 b.2 | .none => []) = [] ↔
                ∀ b sg, Base E pre h.name r b (.method sg) → Redefines E h r sg) := by
            intro base hbase ha
            obtain ⟨t1, t2, t3⟩ := htail ha
            cases base with
            | some y =>
              rw [Option.filter_eq_some_iff] at hbase
              obtain ⟨g1, g2, g3, g4, g5⟩ := hb2 y hbase.1
              exact redef_ok hE hi hr hb t1 t2 t3 g1 g2 (by simpa using hbase.2) g5
            | none =>
              simp only [true_iff]
              intro b sg hbs
              cases hfo : fieldOf E.T s.recs h.name (E.T r).base with
              | none => exact absurd hbs (hb1 hfo _ _)
              | some y =>
                obtain ⟨g1, g2, g3, g4, g5⟩ := hb2 y hfo
                obtain ⟨rfl, g6⟩ := (g5 _ _).mp hbs
                have := ((has_kind hi g6 (o := y.2) g1 g2).2 sg rfl).1
                rw [hfo] at hbase
                simp [this] at hbase
          have hsome : ((fieldOf E.T s.recs h.name (E.T r).base).filter fun x => decide (x.2.mode = .tproc)).isSome = true ↔
              ∃ b sg, Base E pre h.name r b (.method sg) := by
            constructor
            · intro h1
              obtain ⟨y, hy⟩ := Option.isSome_iff_exists.mp h1
              rw [Option.filter_eq_some_iff] at hy
              obtain ⟨g1, g2, g3, g4, g5⟩ := hb2 y hy.1
              rcases has_of_mem hi g1 with ⟨h4, _⟩ | ⟨_, sg, h4⟩
              · exact absurd (by simpa using hy.2) h4
              · exact ⟨y.1, sg, (g5 _ _).mpr ⟨rfl, by rw [← g2]; exact h4⟩⟩
            · rintro ⟨b, sg, hbs⟩
              cases hfo : fieldOf E.T s.recs h.name (E.T r).base with
              | none => exact absurd hbs (hb1 hfo _ _)
              | some y =>
                obtain ⟨g1, g2, g3, g4, g5⟩ := hb2 y hfo
                obtain ⟨rfl, g6⟩ := (g5 _ _).mp hbs
                have := ((has_kind hi g6 (o := y.2) g1 g2).2 sg rfl).1
                simp [this]
          unfold methodHead
          simp only [hrec, Option.bind_some, hself, hf1 he.lev, hf2]
          have hes : ∀ rd : List Nat, (markErrs E 0 h ++ (if 0 > 0 then [73] else []) ++ [] ++ (if x.2.vis ≠ h.vis then [118] else []) ++
              (insertAll [] (h.all.map (parObj (0 + 1)))).2 ++ (E.chk true h.all x.2.pars ++ if h.res ≠ x.2.res then [117] else []) ++ rd = []) ↔
              HeadOk0 E 0 h ∧ Agree E.T e h ∧ rd = [] := by
            intro rd
            exact (again_nil _ _ _ _ _ rd).trans (and_congr (methodErrs_head E hnp) (and_congr hag Iff.rfl))
          refine ⟨_, rfl, ?_, ?_⟩
          · rw [hes]
            refine and_congr_right fun _ => ?_
            constructor
            · rintro ⟨ha, h1⟩
              exact (hmok ha).mp ((hrd _ rfl ha).mp h1)
            · intro hk
              exact ⟨hag' hk, (hrd _ rfl (hag' hk)).mpr hk.redef⟩
          · intro h0
            obtain ⟨_, ha, _⟩ := (hes _).mp h0
            constructor
            · rw [hx1]
              exact method_again hE hi hb (o := x.2) (by rw [← hx1]; exact hx) hx2 he hbd ha hsome
            · rw [insertAll_eq, List.nil_append, he.pars]
              exact parObj_eq ha.2.2.2
    | none =>
      rw [hin] at hself
      dsimp only at hself
      have hnew : ∀ x ∈ s.recs, x.1 = r → x.2.name ≠ h.name := findr_none hin
      have hdup : s.recs.any (fun y => y.1 == r && y.2.name == h.name) = false := by
        rw [List.any_eq_false]
        intro y hy hh
        simp only [Bool.and_eq_true, beq_iff_eq] at hh
        exact hnew y hy hh.1 hh.2
      have hfwd : ∀ e ∈ pre, Binds E e r → e.name ≠ h.name := by
        intro e he hbe hn
        obtain ⟨o, _, h1, h2, _⟩ := hi.pres e he r hbe
        exact hnew _ h1 rfl (h2.trans hn)
      have hfield : (r, h.name, .field) ∉ E.init := by
        intro hfl
        have h1 := hi.inits _ hfl
        obtain ⟨g1, g2⟩ := memObj_name E (r, h.name, .field)
        exact hnew _ h1 g2 g1
      have hmok : ((∀ b, Base E pre h.name r b .field → E.mno b ≠ 0) ∧ ∀ b sg, Base E pre h.name r b (.method sg) → Redefines E h r sg) ↔
          MethodOk E pre h r :=
        ⟨fun h1 => ⟨hb, hfield, h1.1, fun e h2 h3 h4 => absurd h4 (hfwd e h2 h3), h1.2⟩, fun h1 => ⟨h1.inherited, h1.redef⟩⟩
      have hes : ∀ (b : Bool) (rd : List Nat), (markErrs E 0 h ++ (if 0 > 0 then [73] else []) ++ [] ++ ((if b = true then [1] else []) ++ (if false = true then [1] else [])) ++
          (insertAll [] (h.all.map (parObj (0 + 1)))).2 ++ rd = []) ↔ HeadOk0 E 0 h ∧ b = false ∧ rd = [] := by
        intro b rd
        exact (new_nil _ _ b rd).trans (and_congr (methodErrs_head E hnp) Iff.rfl)
      cases hfo : fieldOf E.T s.recs h.name (E.T r).base with
      | none =>
        rw [hfo] at hself
        have hno := hb1 hfo
        unfold methodHead
        simp only [hrec, Option.bind_some, hself, hfo, Option.filter_none, hdup, Option.isSome_none]
        refine ⟨_, rfl, ?_, ?_⟩
        · rw [hes]
          refine and_congr_right fun _ => ?_
          rw [← hmok]
          simp only [and_self, true_iff]
          exact ⟨fun b hbf => absurd hbf (hno _ _), fun b sg hbs => absurd hbs (hno _ _)⟩
        · intro _
          refine ⟨method_new hE hi hb hnew ?_ ?_, hscope⟩
          · simp only [Bool.false_eq_true, false_iff]
            rintro ⟨b, sg, hbs⟩
            exact hno _ _ hbs
          · intro b hbf
            exact absurd hbf (hno _ _)
      | some y =>
        rw [hfo] at hself
        obtain ⟨g1, g2, g3, g4, g5⟩ := hb2 y hfo
        rcases has_of_mem hi g1 with ⟨h4, h5⟩ | ⟨h4, sg, h5⟩
        · -- a field of a base type
          rw [g2] at h5
          have hbase : (some y).filter (fun x => decide (x.2.mode = .tproc)) = none := by simp [h4]
          have hlev : y.2.lev = E.mno y.1 := by
            rcases hi.src y g1 with ⟨m, h6, h7⟩ | ⟨e, he⟩
            · rw [h7]
              cases m <;> rfl
            · exact absurd he.mode h4
          have hf2 : ((some y).filter fun x => decide ((none : Option (Nat × Obj)).map Prod.fst ≠ some x.1)).filter (fun x => decide (x.2.lev = ((0 : Nat) : Int))) =
              if E.mno y.1 = 0 then some y else none := by
            by_cases h6 : E.mno y.1 = 0 <;> simp [hlev, h6]
          have hf3 : (if E.mno y.1 = 0 then some y else none).filter (fun x => decide (x.2.mode = .tproc ∧ x.2.hasBody = false)) = none := by
            by_cases h6 : E.mno y.1 = 0 <;> simp [h4, h6]
          have hnom : ∀ b sg, ¬ Base E pre h.name r b (.method sg) := by
            intro b sg hbs
            obtain ⟨rfl, g6⟩ := (g5 _ _).mp hbs
            exact h4 ((has_kind hi g6 (o := y.2) g1 g2).2 sg rfl).1
          unfold methodHead
          simp only [hrec, Option.bind_some, hself, hfo, hbase, hf2, hf3, hdup]
          refine ⟨_, rfl, ?_, ?_⟩
          · rw [hes]
            refine and_congr_right fun _ => ?_
            rw [← hmok]
            constructor
            · rintro ⟨h6, _⟩
              refine ⟨?_, fun b sg hbs => absurd hbs (hnom b sg)⟩
              intro b hbf hm
              obtain ⟨rfl, _⟩ := (g5 _ _).mp hbf
              rw [if_pos hm] at h6
              cases h6
            · rintro ⟨h6, _⟩
              have := h6 y.1 ((g5 _ _).mpr ⟨rfl, h5⟩)
              rw [if_neg this]
              exact ⟨rfl, rfl⟩
          · intro h0
            obtain ⟨_, h6, _⟩ := (hes _ _).mp h0
            refine ⟨method_new hE hi hb hnew ?_ ?_, hscope⟩
            · simp only [Option.isSome_none, Bool.false_eq_true, false_iff]
              rintro ⟨b, sg, hbs⟩
              exact hnom _ _ hbs
            · intro b hbf hm
              obtain ⟨rfl, _⟩ := (g5 _ _).mp hbf
              rw [if_pos hm] at h6
              cases h6
        · -- a procedure of a base type
          rw [g2] at h5
          have hbase : (some y).filter (fun x => decide (x.2.mode = .tproc)) = some y := by simp [h4]
          have hf2 : ((some y).filter fun x => decide ((some y).map Prod.fst ≠ some x.1)) = none := by simp
          have hnof : ∀ b, ¬ Base E pre h.name r b .field := by
            intro b hbs
            obtain ⟨rfl, g6⟩ := (g5 _ _).mp hbs
            have := (has_kind hi g6 (o := y.2) g1 g2).1 rfl
            rw [h4] at this
            cases this
          unfold methodHead
          simp only [hrec, Option.bind_some, hself, hfo, hbase, hf2, Option.filter_none, hdup, Option.isSome_none, Option.isSome_some]
          have hrd := redef_ok hE hi hr hb (o := newMeth h true) (by rw [show (newMeth h true).pars = h.all from rfl, hall]; exact match_refl _) rfl rfl g1 g2 h4 g5
          refine ⟨_, rfl, ?_, ?_⟩
          · rw [hes]
            refine and_congr_right fun _ => ?_
            rw [← hmok]
            constructor
            · rintro ⟨_, h6⟩
              exact ⟨fun b hbf => absurd hbf (hnof b), hrd.mp h6⟩
            · rintro ⟨_, h6⟩
              exact ⟨rfl, hrd.mpr h6⟩
          · intro _
            refine ⟨method_new hE hi hb hnew ?_ (fun b hbf => absurd hbf (hnof b)), hscope⟩
            simp only [true_iff]
            exact ⟨y.1, sg, (g5 _ _).mpr ⟨rfl, h5⟩⟩
  · -- no receiver
    have hne : (receiver E 0 rc).1 ≠ [] := fun h0 => hb (hrec1 h0)
    have hno : ¬ ∃ r, MethodOk E pre h r := by
      rintro ⟨r, h1⟩
      exact hb ⟨r, h1.binds⟩
    unfold methodHead
    dsimp only
    generalize hfw : Option.filter (fun x : Nat × Obj => decide (x.2.mode = .tproc ∧ x.2.hasBody = false)) _ = fwd
    cases fwd with
    | none =>
      refine ⟨_, rfl, ?_, ?_⟩
      · constructor
        · intro hes
          simp only [List.append_eq_nil_iff] at hes
          exact absurd hes.1.1.1.2 hne
        · rintro ⟨_, hk⟩
          exact absurd hk hno
      · intro hes
        simp only [List.append_eq_nil_iff] at hes
        exact absurd hes.1.1.1.2 hne
    | some x =>
      refine ⟨_, rfl, ?_, ?_⟩
      · constructor
        · intro hes
          simp only [List.append_eq_nil_iff] at hes
          exact absurd hes.1.1.1.1.2 hne
        · rintro ⟨_, hk⟩
          exact absurd hk hno
      · intro hes
        simp only [List.append_eq_nil_iff] at hes
        exact absurd hes.1.1.1.1.2 hne

/-- In an inner block there are no procedures bound to types. -/
theorem methodHead_inner (E : Env) {lev : Nat} (hl : 0 < lev) (s : St) (rc : Recv) (h : Head) :
    ∃ es, (methodHead E lev s rc h).st.errs = s.errs ++ es ∧ es ≠ [] := by
  unfold methodHead
  dsimp only
  generalize hfw : Option.filter (fun x : Nat × Obj => decide (x.2.mode = .tproc ∧ x.2.hasBody = false)) _ = fwd
  cases fwd with
  | none => exact ⟨_, rfl, by simp [hl]⟩
  | some x => exact ⟨_, rfl, by simp [hl]⟩

theorem methodHead_frame (E : Env) (lev : Nat) (s : St) (rc : Recv) (h : Head) :
    (methodHead E lev s rc h).st.top = s.top ∧ (methodHead E lev s rc h).st.errs2 = s.errs2 := by
  unfold methodHead
  dsimp only
  generalize hfw : Option.filter (fun x : Nat × Obj => decide (x.2.mode = .tproc ∧ x.2.hasBody = false)) _ = fwd
  cases fwd <;> exact ⟨rfl, rfl⟩

theorem plainHead_frame (E : Env) (lev : Nat) (outer : List (List Obj)) (s : St) (h : Head) :
    (plainHead E lev outer s h).st.recs = s.recs ∧ (plainHead E lev outer s h).st.errs2 = s.errs2 := by
  unfold plainHead
  dsimp only
  generalize hfw : Option.filter waiting _ = fwd
  cases fwd <;> exact ⟨rfl, rfl⟩

/-- What a heading may look like, at its place. -/
def StepOk (E : Env) (lev : Nat) (names : List Nat) (pre : List Head) (h : Head) : Prop :=
  HeadOk0 E lev h ∧ (h.plain → PlainOk E lev names pre h) ∧ (¬ h.plain → lev = 0 ∧ ∃ r, MethodOk E pre h r)

theorem heading_ok {E : Env} (hE : E.Ok) {lev : Nat} {outer : List (List Obj)} {names : List Nat} {pre : List Head} {s : St} {h : Head}
    (hi : TInv E lev names pre s.top) (hri : lev = 0 → RInv E pre s.recs) (ho : Outer E lev outer) :
    (heading E lev outer s h).st.errs2 = s.errs2 ∧
    ∃ es, (heading E lev outer s h).st.errs = s.errs ++ es ∧
      (es = [] ↔ StepOk E lev names pre h) ∧
      (es = [] → TInv E lev names (pre ++ [h]) (heading E lev outer s h).st.top ∧
        (lev = 0 → RInv E (pre ++ [h]) (heading E lev outer s h).st.recs) ∧
        (0 < lev → (heading E lev outer s h).st.recs = s.recs) ∧
        (heading E lev outer s h).scope = h.all.map (parObj (lev + 1))) := by
  unfold heading
  cases hr : h.recv with
  | none =>
    have hp : h.plain := hr
    obtain ⟨f1, f2⟩ := plainHead_frame E lev outer s h
    obtain ⟨es, h1, h2, h3⟩ := plainHead_ok hE hi ho hp
    refine ⟨f2, es, h1, ?_, ?_⟩
    · rw [h2]
      constructor
      · rintro ⟨g1, g2⟩
        exact ⟨g1, fun _ => g2, fun hn => absurd hp hn⟩
      · rintro ⟨g1, g2, _⟩
        exact ⟨g1, g2 hp⟩
    · intro h0
      have := h3 h0
      refine ⟨this.inv, ?_, ?_, this.scope⟩
      · intro hl
        dsimp only
        rw [f1]
        exact (hri hl).plain hp
      · intro _
        exact f1
  | some rc =>
    have hnp : ¬ h.plain := by
      intro hp
      rw [show h.recv = none from hp] at hr
      cases hr
    obtain ⟨f1, f2⟩ := methodHead_frame E lev s rc h
    by_cases hl : lev = 0
    · subst hl
      obtain ⟨es, h1, h2, h3⟩ := methodHead_ok hE (hri rfl) hr
      refine ⟨f2, es, h1, ?_, ?_⟩
      · rw [h2]
        constructor
        · rintro ⟨g1, g2⟩
          exact ⟨g1, fun hp => absurd hp hnp, fun _ => ⟨rfl, g2⟩⟩
        · rintro ⟨g1, _, g2⟩
          exact ⟨g1, (g2 hnp).2⟩
      · intro h0
        obtain ⟨g1, g2⟩ := h3 h0
        dsimp only
        rw [f1]
        exact ⟨hi.method hnp, fun _ => g1, fun hl => absurd hl (by omega), g2⟩
    · obtain ⟨es, h1, h2⟩ := methodHead_inner E (by omega : 0 < lev) s rc h
      refine ⟨f2, es, h1, ?_, fun h0 => absurd h0 h2⟩
      constructor
      · exact fun h0 => absurd h0 h2
      · rintro ⟨_, _, g⟩
        exact absurd (g hnp).1 hl
end Verif.Procs
