import Verif.Common
import Verif.Procs.Lemmas

/-! # Ordinary procedures: what the scope contains after some headings -/
namespace Verif.Procs
open Verif.Types

def ProcMode (m : Mode) : Prop := m = .lproc ∨ m = .xproc ∨ m = .iproc ∨ m = .cproc

/-- An object stands for the procedure of some of the headings. -/
structure From (lev : Nat) (pre : List Head) (o : Obj) (e : Head) : Prop where
  mem : e ∈ pre
  plain : e.plain
  name : e.name = o.name
  pars : o.pars = e.pars
  res : o.res = e.res
  vis : o.vis = e.vis
  lev : o.lev = lev
  mode : ProcMode o.mode
  body : o.hasBody = true ↔ ∃ e' ∈ pre, e'.plain ∧ e'.name = o.name ∧ ¬ e'.forward
  wait : o.hasBody = false → o.mode = .lproc ∨ o.mode = .xproc
  redef : o.isRedef = false

/-- The scope of a block with `names` after the headings `pre`. -/
structure TInv (E : Env) (lev : Nat) (names : List Nat) (pre : List Head) (top : List Obj) : Prop where
  nodup : (top.map Obj.name).Nodup
  levs : ∀ o ∈ top, o.lev ≤ lev
  src : ∀ o ∈ top, (o.name ∈ names ∧ o.mode = .other) ∨ ∃ e, From lev pre o e
  has : ∀ n ∈ names, ∃ o ∈ top, o.name = n ∧ o.mode = .other
  pres : ∀ e ∈ pre, e.plain → ∃ o ∈ top, o.name = e.name ∧ o.mode ≠ .other
  pred : lev = 0 → ∀ e ∈ pre, e.plain → (e.name, false) ∉ E.univ
  agree : ∀ e ∈ pre, ∀ e' ∈ pre, e.plain → e'.plain → e.name = e'.name → Agree E.T e e'

/-- The scopes around a block. -/
def Outer (E : Env) (lev : Nat) (outer : List (List Obj)) : Prop :=
  lev = 0 ∧ outer = [E.univ.map univObj] ∨ 0 < lev ∧ ∀ s ∈ outer, ∀ o ∈ s, o.lev < lev

theorem find_outer {n : Nat} : ∀ {outer : List (List Obj)} {o : Obj}, find n outer = some o → ∃ s ∈ outer, o ∈ s ∧ o.name = n
  | [], _, h => by simp [find] at h
  | s :: ss, o, h => by
    simp only [find] at h
    cases hf : s.find? (fun o => o.name == n) with
    | some p =>
      rw [hf] at h
      cases h
      exact ⟨s, .head _, find_mem hf⟩
    | none =>
      rw [hf] at h
      obtain ⟨t, ht, h⟩ := find_outer h
      exact ⟨t, .tail _ ht, h⟩

theorem outer_filter {E : Env} (hE : E.Ok) {lev : Nat} {outer : List (List Obj)} (ho : Outer E lev outer) (n : Nat) :
    (((find n outer).filter fun o => o.lev = (lev : Int) ∧ o.mode ≠ .sproc).isSome = true ↔ lev = 0 ∧ (n, false) ∈ E.univ) ∧
    ((find n outer).filter fun o => o.lev = (lev : Int) ∧ o.mode ≠ .sproc).filter waiting = none := by
  rcases ho with ⟨rfl, rfl⟩ | ⟨hl, ho⟩
  · simp only [find]
    cases hf : (E.univ.map univObj).find? (fun o => o.name == n) with
    | none =>
      have := find_none hf
      simp only [Option.filter_none, Option.isSome_none, Bool.false_eq_true, true_and, false_iff, and_true]
      intro hm
      exact this (univObj (n, false)) (List.mem_map_of_mem hm) rfl
    | some o =>
      obtain ⟨h1, h2⟩ := find_mem hf
      obtain ⟨⟨m, b⟩, hx, rfl⟩ := List.mem_map.mp h1
      obtain rfl : m = n := h2
      cases b with
      | true =>
        constructor
        · simp only [univObj, if_true, ne_eq, not_true_eq_false, and_false, decide_false, Option.filter_some, Bool.false_eq_true,
            if_false, Option.isSome_none, true_and, false_iff]
          intro hm
          have := List.inj_on_of_nodup_map hE.univ hx hm rfl
          cases this
        · simp [univObj]
      | false =>
        constructor
        · simp [univObj, hx]
        · simp [univObj, waiting]
  · have hn : (find n outer).filter (fun o => o.lev = (lev : Int) ∧ o.mode ≠ .sproc) = none := by
      rw [Option.filter_eq_none_iff]
      intro o hof
      obtain ⟨s, hs, h1, _⟩ := find_outer hof
      have := ho s hs o h1
      simp only [decide_eq_true_eq, not_and]
      omega
    rw [hn]
    refine ⟨?_, rfl⟩
    simp only [Option.isSome_none, Bool.false_eq_true, false_iff, not_and]
    omega

theorem ite_nil {p : Prop} [Decidable p] {a : Nat} : (if p then [a] else []) = [] ↔ ¬ p := by
  by_cases h : p <;> simp [h]

/-- The rules for a heading that are checked before its block. -/
structure HeadOk0 (E : Env) (lev : Nat) (h : Head) : Prop where
  sys : h.mark = .plus ∨ h.mark = .minus → E.sys = true
  exported : h.vis ≠ .internal → lev = 0
  marks : h.plain → h.mark = .plus ∨ h.mark = .minus → lev = 0
  params : (h.all.map Par.name).Nodup

theorem parObj_names (lev : Nat) (ps : List Par) : (ps.map (parObj lev)).map Obj.name = ps.map Par.name := by
  rw [List.map_map]
  rfl

theorem pars_errs (lev : Nat) (ps : List Par) : (insertAll [] (ps.map (parObj lev))).2 = [] ↔ (ps.map Par.name).Nodup := by
  rw [insertAll_errs _ _ (by simp), List.nil_append, parObj_names]

theorem parObj_eq {lev : Nat} {ps qs : List Par} (h : ps.map Par.name = qs.map Par.name) : ps.map (parObj lev) = qs.map (parObj lev) := by
  have : ∀ l : List Par, l.map (parObj lev) = (l.map Par.name).map (fun n => ({ name := n, mode := .other, lev := lev } : Obj)) := by
    intro l
    rw [List.map_map]
    rfl
  rw [this, this, h]

theorem markErrs_nil (E : Env) (lev : Nat) (h : Head) : markErrs E lev h = [] ↔
    (h.mark = .plus ∨ h.mark = .minus → E.sys = true) ∧ (h.vis ≠ .internal → lev = 0) := by
  simp only [markErrs, List.append_eq_nil_iff, ite_nil]
  constructor
  · rintro ⟨h1, h2⟩
    refine ⟨fun hm => ?_, fun hv => ?_⟩
    · cases hs : E.sys with
      | true => rfl
      | false => exact absurd ⟨hm, hs⟩ h1
    · by_contra hl
      exact h2 ⟨hv, by omega⟩
  · rintro ⟨h1, h2⟩
    refine ⟨?_, ?_⟩
    · rintro ⟨hm, hs⟩
      rw [h1 hm] at hs
      cases hs
    · rintro ⟨hv, hl⟩
      have := h2 hv
      omega

theorem plain_all {h : Head} (hp : h.plain) : h.all = h.pars := by
  unfold Head.all
  rw [show h.recv = none from hp]

theorem plainErrs_nil (E : Env) (lev : Nat) {h : Head} (hp : h.plain) :
    (markErrs E lev h = [] ∧ (if modeOf h ≠ .lproc ∧ lev > 0 then [73] else []) = [] ∧ (insertAll [] (h.pars.map (parObj (lev + 1)))).2 = []) ↔
    HeadOk0 E lev h := by
  rw [markErrs_nil, ite_nil, pars_errs]
  constructor
  · rintro ⟨⟨h1, h2⟩, h3, h4⟩
    refine ⟨h1, h2, fun _ hm => ?_, by rw [plain_all hp]; exact h4⟩
    by_contra hl
    exact h3 ⟨by rcases hm with hm | hm <;> simp [modeOf, hm], by omega⟩
  · rintro ⟨h1, h2, h3, h4⟩
    rw [plain_all hp] at h4
    refine ⟨⟨h1, h2⟩, ?_, h4⟩
    rintro ⟨hm, hl⟩
    unfold modeOf at hm
    cases hk : h.mark with
    | plus => have := h3 hp (Or.inl hk); omega
    | minus => have := h3 hp (Or.inr hk); omega
    | none =>
      rw [hk] at hm
      by_cases hv : h.vis ≠ .internal
      · have := h2 hv; omega
      · simp [hv] at hm
    | star =>
      rw [hk] at hm
      by_cases hv : h.vis ≠ .internal
      · have := h2 hv; omega
      · simp [hv] at hm
    | arrow =>
      rw [hk] at hm
      by_cases hv : h.vis ≠ .internal
      · have := h2 hv; omega
      · simp [hv] at hm

theorem modeOf_proc (h : Head) : ProcMode (modeOf h) := by
  unfold modeOf ProcMode
  split
  · simp
  · simp
  · split <;> simp

theorem modeOf_arrow {h : Head} (hm : h.mark = .arrow) : modeOf h = .lproc ∨ modeOf h = .xproc := by
  unfold modeOf
  rw [hm]
  dsimp only
  split <;> simp

/-- What remains of a step that reports no error. -/
structure PStep (E : Env) (lev : Nat) (names : List Nat) (pre : List Head) (s : St) (h : Head) (p : Headed) : Prop where
  inv : TInv E lev names (pre ++ [h]) p.st.top
  scope : p.scope = h.all.map (parObj (lev + 1))

theorem From.snoc {lev : Nat} {pre : List Head} {o : Obj} {e h : Head} (hf : From lev pre o e) (hn : ¬ (h.plain ∧ h.name = o.name)) :
    From lev (pre ++ [h]) o e where
  mem := List.mem_append_left _ hf.mem
  plain := hf.plain
  name := hf.name
  pars := hf.pars
  res := hf.res
  vis := hf.vis
  lev := hf.lev
  mode := hf.mode
  body := by
    rw [hf.body]
    constructor
    · rintro ⟨e', h1, h2⟩
      exact ⟨e', List.mem_append_left _ h1, h2⟩
    · rintro ⟨e', h1, h2, h3, h4⟩
      rcases List.mem_append.mp h1 with h1 | h1
      · exact ⟨e', h1, h2, h3, h4⟩
      · rw [List.mem_singleton] at h1
        subst h1
        exact absurd ⟨h2, h3⟩ hn
  wait := hf.wait
  redef := hf.redef

theorem other_not_proc {m : Mode} (h : m = .other) : ¬ ProcMode m := by
  subst h
  simp [ProcMode]

/-- The object entered for a procedure. -/
abbrev newObj (lev : Nat) (h : Head) : Obj :=
  { name := h.name, mode := modeOf h, lev := (lev : Int), vis := h.vis, pars := h.pars, res := h.res, hasBody := decide (h.mark ≠ .arrow) }

/-- A new name. -/
theorem plain_new {E : Env} {lev : Nat} {names : List Nat} {pre : List Head} {s : St} {h : Head} (hi : TInv E lev names pre s.top)
    (hp : h.plain) (hnew : h.name ∉ s.top.map Obj.name) (hpred : lev = 0 → (h.name, false) ∉ E.univ) :
    TInv E lev names (pre ++ [h]) (s.top ++ [newObj lev h]) where
  nodup := by
    rw [List.map_append, List.nodup_append]
    refine ⟨hi.nodup, by simp, ?_⟩
    intro a ha b hb
    simp only [List.map_cons, List.map_nil, List.mem_singleton] at hb
    rw [hb]
    rintro rfl
    exact hnew ha
  levs := by
    intro o ho
    rcases List.mem_append.mp ho with ho | ho
    · exact hi.levs o ho
    · rw [List.mem_singleton] at ho
      subst ho
      simp
  src := by
    intro o ho
    rcases List.mem_append.mp ho with ho | ho
    · rcases hi.src o ho with h1 | ⟨e, he⟩
      · exact Or.inl h1
      · refine Or.inr ⟨e, he.snoc ?_⟩
        rintro ⟨_, hn⟩
        exact hnew (by rw [hn]; exact List.mem_map_of_mem ho)
    · rw [List.mem_singleton] at ho
      subst ho
      refine Or.inr ⟨h, ⟨by simp, hp, rfl, rfl, rfl, rfl, rfl, modeOf_proc h, ?_, ?_, rfl⟩⟩
      · simp only [ne_eq, decide_not, Bool.not_eq_true', decide_eq_false_iff_not]
        constructor
        · intro hm
          exact ⟨h, by simp, hp, rfl, hm⟩
        · rintro ⟨e', h1, h2, h3, h4⟩
          rcases List.mem_append.mp h1 with h1 | h1
          · obtain ⟨o, ho, hn, _⟩ := hi.pres e' h1 h2
            exact absurd (by rw [← h3, ← hn]; exact List.mem_map_of_mem ho) hnew
          · rw [List.mem_singleton] at h1
            subst h1
            exact h4
      · intro hb
        exact modeOf_arrow (by simpa using hb)
  has := by
    intro n hn
    obtain ⟨o, ho, h1⟩ := hi.has n hn
    exact ⟨o, List.mem_append_left _ ho, h1⟩
  pres := by
    intro e he hpe
    rcases List.mem_append.mp he with he | he
    · obtain ⟨o, ho, h1⟩ := hi.pres e he hpe
      exact ⟨o, List.mem_append_left _ ho, h1⟩
    · rw [List.mem_singleton] at he
      subst he
      refine ⟨_, List.mem_append_right _ (.head _), rfl, ?_⟩
      intro hm
      exact other_not_proc hm (modeOf_proc e)
  pred := by
    intro hl e he hpe
    rcases List.mem_append.mp he with he | he
    · exact hi.pred hl e he hpe
    · rw [List.mem_singleton] at he
      subst he
      exact hpred hl
  agree := by
    intro e he e' he' hpe hpe' hn
    rcases List.mem_append.mp he with h1 | h1 <;> rcases List.mem_append.mp he' with h2 | h2
    · exact hi.agree e h1 e' h2 hpe hpe' hn
    · rw [List.mem_singleton] at h2
      subst h2
      obtain ⟨o, ho, hx, _⟩ := hi.pres e h1 hpe
      exact absurd (by rw [← hn, ← hx]; exact List.mem_map_of_mem ho) hnew
    · rw [List.mem_singleton] at h1
      subst h1
      obtain ⟨o, ho, hx, _⟩ := hi.pres e' h2 hpe'
      exact absurd (by rw [hn, ← hx]; exact List.mem_map_of_mem ho) hnew
    · rw [List.mem_singleton] at h1 h2
      subst h1
      subst h2
      exact Agree.refl _

/-- The body of a forward declaration (or another forward declaration). -/
theorem plain_again {E : Env} (hE : E.Ok) {lev : Nat} {names : List Nat} {pre : List Head} {s : St} {h e : Head} {o : Obj}
    (hi : TInv E lev names pre s.top) (hp : h.plain) (ho : o ∈ s.top) (hn : o.name = h.name) (hf : From lev pre o e)
    (hb : o.hasBody = false) (ha : Agree E.T e h) :
    TInv E lev names (pre ++ [h]) (modify h.name (fun o => { o with
          mode := if h.mark = .plus then .iproc else o.mode
          hasBody := o.hasBody || h.mark ≠ .arrow }) s.top) := by
  have hg : ∀ o : Obj, ({ o with mode := if h.mark = .plus then .iproc else o.mode, hasBody := o.hasBody || h.mark ≠ .arrow } : Obj).name = o.name :=
    fun _ => rfl
  have huniq : ∀ o' ∈ s.top, o'.name = h.name → o' = o := fun o' h1 h2 => nodup_eq hi.nodup h1 ho (h2.trans hn.symm)
  have hag : ∀ e' ∈ pre, e'.plain → e'.name = h.name → Agree E.T e' h := fun e' h1 h2 h3 =>
    (hi.agree e' h1 e hf.mem h2 hf.plain (by rw [h3, hf.name, hn])).trans hE.wf ha
  refine ⟨?_, ?_, ?_, ?_, ?_, ?_, ?_⟩
  · rw [modify_names _ _ hg]
    exact hi.nodup
  · intro x hx
    rcases (mem_modify hg hi.nodup x).mp hx with ⟨h1, _⟩ | ⟨o', h1, _, rfl⟩
    · exact hi.levs x h1
    · exact hi.levs o' h1
  · intro x hx
    rcases (mem_modify hg hi.nodup x).mp hx with ⟨h1, h2⟩ | ⟨o', h1, h2, rfl⟩
    · rcases hi.src x h1 with h3 | ⟨e', he⟩
      · exact Or.inl h3
      · exact Or.inr ⟨e', he.snoc (fun h3 => h2 h3.2.symm)⟩
    · obtain rfl := huniq o' h1 h2
      refine Or.inr ⟨e, List.mem_append_left _ hf.mem, hf.plain, hf.name, hf.pars, hf.res, hf.vis, hf.lev, ?_, ?_, ?_, hf.redef⟩
      · dsimp only
        split
        · exact Or.inr (Or.inr (Or.inl rfl))
        · exact hf.mode
      · simp only [hb, Bool.false_or, ne_eq, decide_not, Bool.not_eq_true', decide_eq_false_iff_not]
        constructor
        · intro hm
          exact ⟨h, by simp, hp, hn.symm, hm⟩
        · rintro ⟨e', h3, h4, h5, h6⟩
          rcases List.mem_append.mp h3 with h3 | h3
          · have := hf.body.mpr ⟨e', h3, h4, h5, h6⟩
            rw [hb] at this
            cases this
          · rw [List.mem_singleton] at h3
            subst h3
            exact h6
      · intro h3
        simp only [hb, Bool.false_or, ne_eq, decide_not, Bool.not_eq_false', decide_eq_true_eq] at h3
        simp only [h3, reduceCtorEq, if_false]
        exact hf.wait hb
  · intro n hnn
    obtain ⟨x, hx, h1, h2⟩ := hi.has n hnn
    by_cases hxn : x.name = h.name
    · obtain rfl := huniq x hx hxn
      exact absurd hf.mode (other_not_proc h2)
    · exact ⟨x, (mem_modify hg hi.nodup x).mpr (Or.inl ⟨hx, hxn⟩), h1, h2⟩
  · intro e' he' hpe
    have : ∃ o' ∈ s.top, o'.name = e'.name ∧ o'.mode ≠ .other := by
      rcases List.mem_append.mp he' with h1 | h1
      · exact hi.pres e' h1 hpe
      · rw [List.mem_singleton] at h1
        subst h1
        exact ⟨o, ho, hn, fun h2 => other_not_proc h2 hf.mode⟩
    obtain ⟨o', h1, h2, h3⟩ := this
    by_cases hxn : o'.name = h.name
    · refine ⟨_, (mem_modify hg hi.nodup _).mpr (Or.inr ⟨o', h1, hxn, rfl⟩), h2, ?_⟩
      dsimp only
      split
      · simp
      · exact h3
    · exact ⟨o', (mem_modify hg hi.nodup o').mpr (Or.inl ⟨h1, hxn⟩), h2, h3⟩
  · intro hl e' he' hpe
    rcases List.mem_append.mp he' with h1 | h1
    · exact hi.pred hl e' h1 hpe
    · rw [List.mem_singleton] at h1
      subst h1
      have := hi.pred hl e hf.mem hf.plain
      rwa [hf.name, hn] at this
  · intro e1 he1 e2 he2 hp1 hp2 hnn
    rcases List.mem_append.mp he1 with h1 | h1 <;> rcases List.mem_append.mp he2 with h2 | h2
    · exact hi.agree e1 h1 e2 h2 hp1 hp2 hnn
    · rw [List.mem_singleton] at h2
      subst h2
      exact hag e1 h1 hp1 hnn
    · rw [List.mem_singleton] at h1
      subst h1
      exact (hag e2 h2 hp2 hnn.symm).symm
    · rw [List.mem_singleton] at h1 h2
      subst h1
      subst h2
      exact Agree.refl _

/-- The heading of an ordinary procedure. -/
theorem plainHead_ok {E : Env} (hE : E.Ok) {lev : Nat} {outer : List (List Obj)} {names : List Nat} {pre : List Head} {s : St} {h : Head}
    (hi : TInv E lev names pre s.top) (ho : Outer E lev outer) (hp : h.plain) :
    ∃ es, (plainHead E lev outer s h).st.errs = s.errs ++ es ∧
      (es = [] ↔ HeadOk0 E lev h ∧ PlainOk E lev names pre h) ∧
      (es = [] → PStep E lev names pre s h (plainHead E lev outer s h)) := by
  have hnames : ∀ n, n ∈ names → n ∈ s.top.map Obj.name := fun n hn => by
    obtain ⟨o, h1, h2, _⟩ := hi.has n hn
    rw [← h2]
    exact List.mem_map_of_mem h1
  have hpre : ∀ e ∈ pre, e.plain → e.name ∈ s.top.map Obj.name := fun e he hpe => by
    obtain ⟨o, h1, h2, _⟩ := hi.pres e he hpe
    rw [← h2]
    exact List.mem_map_of_mem h1
  have hscope : (insertAll [] (h.pars.map (parObj (lev + 1)))).1 = h.all.map (parObj (lev + 1)) := by
    rw [insertAll_eq, plain_all hp, List.nil_append]
  by_cases hin : h.name ∈ s.top.map Obj.name
  · -- the name is known in this scope
    have hf : ∃ o, s.top.find? (fun o => o.name == h.name) = some o := by
      cases hf : s.top.find? (fun o => o.name == h.name) with
      | some o => exact ⟨o, rfl⟩
      | none =>
        obtain ⟨o, h1, h2⟩ := List.mem_map.mp hin
        exact absurd h2 (find_none hf o h1)
    obtain ⟨o, hf⟩ := hf
    obtain ⟨hot, hon⟩ := find_mem hf
    have hfind : find h.name (s.top :: outer) = some o := by simp [find, hf]
    have hins : ∀ o' : Obj, o'.name = h.name → (insert s.top o').2 ≠ [] := by
      intro o' h1 h2
      rw [insert_errs, h1] at h2
      exact h2 hin
    rcases hi.src o hot with ⟨h1, h2⟩ | ⟨e, he⟩
    · -- taken
      have hw : waiting o = false := by simp [waiting, h2]
      have hnone : ((some o).filter (fun o => decide (o.lev = (lev : Int) ∧ o.mode ≠ .sproc))).filter waiting = none := by
        rw [Option.filter_eq_none_iff]
        intro x hx
        rw [Option.filter_eq_some_iff] at hx
        cases hx.1
        simp [hw]
      unfold plainHead
      rw [hfind]
      simp only [hnone]
      refine ⟨_, rfl, ?_, ?_⟩
      · constructor
        · intro hes
          simp only [List.append_eq_nil_iff] at hes
          exact absurd hes.1.1.2.2 (hins _ rfl)
        · rintro ⟨_, hk⟩
          exact absurd (by rw [← hon]; exact h1) hk.new
      · intro hes
        simp only [List.append_eq_nil_iff] at hes
        exact absurd hes.1.1.2.2 (hins _ rfl)
    · have hfil : (some o).filter (fun o => decide (o.lev = (lev : Int) ∧ o.mode ≠ .sproc)) = some o := by
        rw [Option.filter_eq_some_iff]
        refine ⟨rfl, ?_⟩
        simp only [decide_eq_true_eq]
        refine ⟨he.lev, ?_⟩
        intro hm
        have := he.mode
        rw [hm] at this
        simp [ProcMode] at this
      cases hb : o.hasBody with
      | true =>
        have hw : waiting o = false := by simp [waiting, hb]
        have hnone : (some o).filter waiting = none := by simp [hw]
        unfold plainHead
        rw [hfind]
        simp only [hfil, hnone]
        refine ⟨_, rfl, ?_, ?_⟩
        · constructor
          · intro hes
            simp only [List.append_eq_nil_iff] at hes
            exact absurd hes.1.1.2.2 (hins _ rfl)
          · rintro ⟨_, hk⟩
            obtain ⟨e', h1, h2, h3, h4⟩ := he.body.mp hb
            exact absurd (hk.fwd e' h1 h2 (h3.trans hon)).1 h4
        · intro hes
          simp only [List.append_eq_nil_iff] at hes
          exact absurd hes.1.1.2.2 (hins _ rfl)
      | false =>
        have hw : waiting o = true := by simp [waiting, hb, he.wait hb]
        have hsome : (some o).filter waiting = some o := by simp [hw]
        unfold plainHead
        rw [hfind]
        simp only [hfil, hsome]
        have hag : (if o.vis ≠ h.vis then [118] else ([] : List Nat)) = [] ∧ E.chk true h.pars o.pars = [] ∧
            (if h.res ≠ o.res then [117] else ([] : List Nat)) = [] ↔ Agree E.T e h := by
          rw [ite_nil, ite_nil, chk_iff hE, he.vis, he.res, he.pars]
          unfold Agree
          rw [plain_all hp, plain_all he.plain]
          simp only [ne_eq, not_not, forall_const]
          constructor
          · rintro ⟨h1, ⟨h2, h3⟩, h4⟩
            exact ⟨h1, h4.symm, match_symm h2, h3.symm⟩
          · rintro ⟨h1, h4, h2, h3⟩
            exact ⟨h1, ⟨match_symm h2, h3.symm⟩, h4.symm⟩
        have hes : (markErrs E lev h ++ (if o.vis ≠ h.vis then [118] else []) ++ (if modeOf h ≠ .lproc ∧ lev > 0 then [73] else []) ++
            (insertAll [] (h.pars.map (parObj (lev + 1)))).2 ++ (E.chk true h.pars o.pars ++ if h.res ≠ o.res then [117] else []) = []) ↔
            HeadOk0 E lev h ∧ Agree E.T e h := by
          rw [← plainErrs_nil E lev hp, ← hag]
          simp only [List.append_eq_nil_iff]
          tauto
        refine ⟨_, rfl, ?_, ?_⟩
        · rw [hes]
          refine and_congr_right fun _ => ?_
          constructor
          · intro ha
            refine ⟨?_, ?_, ?_⟩
            · intro hn
              obtain ⟨o', h1, h2, h3⟩ := hi.has _ hn
              obtain rfl := nodup_eq hi.nodup h1 hot (h2.trans hon.symm)
              exact other_not_proc h3 he.mode
            · intro hl
              have := hi.pred hl e he.mem he.plain
              rwa [he.name, hon] at this
            · intro e' h1 h2 h3
              refine ⟨?_, (hi.agree e' h1 e he.mem h2 he.plain (by rw [h3, he.name, hon])).trans hE.wf ha⟩
              by_contra hnf
              have := he.body.mpr ⟨e', h1, h2, h3.trans hon.symm, hnf⟩
              rw [hb] at this
              cases this
          · intro hk
            exact (hk.fwd e he.mem he.plain (he.name.trans hon)).2
        · intro h0
          have hagr := (hes.mp h0).2
          refine ⟨plain_again hE hi hp hot hon he hb hagr, ?_⟩
          rw [insertAll_eq, List.nil_append, plain_all hp, he.pars]
          apply parObj_eq
          have := hagr.2.2.2
          rwa [plain_all hp, plain_all he.plain] at this
  · -- a new name
    have hf : s.top.find? (fun o => o.name == h.name) = none := by
      cases hf : s.top.find? (fun o => o.name == h.name) with
      | none => rfl
      | some o =>
        obtain ⟨h1, h2⟩ := find_mem hf
        exact absurd (by rw [← h2]; exact List.mem_map_of_mem h1) hin
    have hfind : find h.name (s.top :: outer) = find h.name outer := by simp [find, hf]
    obtain ⟨h1, h2⟩ := outer_filter hE ho h.name
    unfold plainHead
    rw [hfind]
    simp only [h2]
    have hes : (markErrs E lev h ++ ((if ((find h.name outer).filter fun o => o.lev = (lev : Int) ∧ o.mode ≠ .sproc).isSome = true then [1] else []) ++
        (insert s.top { name := h.name, mode := modeOf h, lev := (lev : Int), vis := h.vis, pars := h.pars, res := h.res, hasBody := decide (h.mark ≠ .arrow) }).2) ++
        (if modeOf h ≠ .lproc ∧ lev > 0 then [73] else []) ++ (insertAll [] (h.pars.map (parObj (lev + 1)))).2 = []) ↔
        HeadOk0 E lev h ∧ (lev = 0 → (h.name, false) ∉ E.univ) := by
      rw [← plainErrs_nil E lev hp]
      simp only [List.append_eq_nil_iff]
      rw [ite_nil (a := 1), insert_errs]
      simp only [h1, hin, not_and, not_false_eq_true, and_true]
      tauto
    refine ⟨_, rfl, ?_, ?_⟩
    · rw [hes]
      refine and_congr_right fun _ => ?_
      constructor
      · intro hu
        exact ⟨fun hn => hin (hnames _ hn), hu, fun e he hpe hen => absurd (by rw [← hen]; exact hpre e he hpe) hin⟩
      · intro hk
        exact hk.predeclared
    · intro h0
      exact ⟨plain_new hi hp hin (hes.mp h0).2, hscope⟩
end Verif.Procs
