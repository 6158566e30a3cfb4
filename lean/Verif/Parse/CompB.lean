import Verif.Parse.CompS

/-! # Every module is read -/
namespace Verif.Parse
open Verif.Scanner (Tok)

theorem def_first {d : Def} {i k : List T} {l : List Y} (hr : Rd (yDef d ++ l) i k) : cur i = 38 := by
  obtain ⟨x, m⟩ := d
  cases m with
  | none => exact (Rd_idn.mp hr).1
  | some m => exact (Rd_idn.mp hr).1

theorem consts_go : ∀ {ds : List (Def × Ex)}, (∀ d ∈ ds, okDef d.1 ∧ okEx d.2) → ∀ {i k : List T},
    Rd (ds.map fun d => yDef d.1 ++ sm 9 :: yEx d.2 ++ [sm 39]).flatten i k → cur k ≠ 38 → Go consts i ds k
  | [], _, i, k, hr, hk => by
    simp only [List.map_nil, List.flatten_nil] at hr
    obtain rfl := Rd_nil.mp hr
    refine Go.succ ?_
    simp only [consts]
    gst [hk]
  | (d, e) :: ds, hw, i, k, hr, hk => by
    simp only [List.map_cons, List.flatten_cons, List.append_assoc, List.cons_append, List.nil_append] at hr
    have hc := def_first hr
    obtain ⟨j, hrd, hr⟩ := Rd_app.mp hr
    obtain ⟨h9, hr⟩ := (Rd_sm (by decide)).mp hr
    obtain ⟨j1, hre, hr⟩ := Rd_app.mp hr
    obtain ⟨h39, hr⟩ := (Rd_sm (by decide)).mp hr
    obtain ⟨hwd, hwe⟩ := hw (d, e) (by simp)
    refine Go.succ ?_
    simp only [consts]
    gst [hc]
    refine Go.bind (defn_go hwd hrd (by omega) (by omega)).2 ?_
    gst [h9]
    refine Go.bind ((good e hwe).ce _ _ hre (F0.of (by omega) (by omega) (by omega))) ?_
    gst [h39]
    refine Go.bind (consts_go (fun d hd => hw d (List.mem_cons_of_mem _ hd)) (by simpa only [List.append_assoc, List.cons_append, List.nil_append] using hr) hk) ?_
    gst []

theorem types_go : ∀ {ds : List (Def × Ty)}, (∀ d ∈ ds, okDef d.1 ∧ okTy d.2) → ∀ {i k : List T},
    Rd (ds.map fun d => yDef d.1 ++ sm 9 :: yTy d.2 ++ [sm 39]).flatten i k → cur k ≠ 38 → Go types i ds k
  | [], _, i, k, hr, hk => by
    simp only [List.map_nil, List.flatten_nil] at hr
    obtain rfl := Rd_nil.mp hr
    refine Go.succ ?_
    simp only [types]
    gst [hk]
  | (d, e) :: ds, hw, i, k, hr, hk => by
    simp only [List.map_cons, List.flatten_cons, List.append_assoc, List.cons_append, List.nil_append] at hr
    have hc := def_first hr
    obtain ⟨j, hrd, hr⟩ := Rd_app.mp hr
    obtain ⟨h9, hr⟩ := (Rd_sm (by decide)).mp hr
    obtain ⟨j1, hre, hr⟩ := Rd_app.mp hr
    obtain ⟨h39, hr⟩ := (Rd_sm (by decide)).mp hr
    obtain ⟨hwd, hwe⟩ := hw (d, e) (by simp)
    refine Go.succ ?_
    simp only [types]
    gst [hc]
    refine Go.bind (defn_go hwd hrd (by omega) (by omega)).2 ?_
    gst [h9]
    refine Go.bind (goodTy e hwe _ _ hre (by unfold FT; omega)) ?_
    gst [h39]
    refine Go.bind (types_go (fun d hd => hw d (List.mem_cons_of_mem _ hd)) (by simpa only [List.append_assoc, List.cons_append, List.nil_append] using hr) hk) ?_
    gst []

theorem vars_go : ∀ {ds : List (List Def × Ty)}, (∀ d ∈ ds, d.1 ≠ [] ∧ (∀ x ∈ d.1, okDef x) ∧ okTy d.2) → ∀ {i k : List T},
    Rd (ds.map fun d => sep (sm 19) (d.1.map yDef) ++ sm 20 :: yTy d.2 ++ [sm 39]).flatten i k → cur k ≠ 38 → Go vars i ds k
  | [], _, i, k, hr, hk => by
    simp only [List.map_nil, List.flatten_nil] at hr
    obtain rfl := Rd_nil.mp hr
    refine Go.succ ?_
    simp only [vars]
    gst [hk]
  | (d, e) :: ds, hw, i, k, hr, hk => by
    obtain ⟨hn, hwd, hwe⟩ := hw (d, e) (by simp)
    simp only [List.map_cons, List.flatten_cons, List.append_assoc, List.cons_append, List.nil_append] at hr
    have hc := defs_first hn hr
    obtain ⟨j, hrd, hr⟩ := Rd_app.mp hr
    obtain ⟨h20, hr⟩ := (Rd_sm (by decide)).mp hr
    obtain ⟨j1, hre, hr⟩ := Rd_app.mp hr
    obtain ⟨h39, hr⟩ := (Rd_sm (by decide)).mp hr
    refine Go.succ ?_
    simp only [vars]
    gst [hc]
    refine Go.bind (defs_go hn hwd hrd h20) ?_
    gst [h20]
    refine Go.bind (goodTy e hwe _ _ hre (by unfold FT; omega)) ?_
    gst [h39]
    refine Go.bind (vars_go (fun d hd => hw d (List.mem_cons_of_mem _ hd)) (by simpa only [List.append_assoc, List.cons_append, List.nil_append] using hr) hk) ?_
    gst []

theorem group_none {α : Type} {n : Nat} {p : Nat → P α} {c : α → Sect} {i : List T} (h : cur i ≠ n) :
    Go (fun f => group n (p f) c) i [] i := by
  simp only [group]
  gst [h]

theorem group_some {α : Type} {n : Nat} {p : Nat → P α} {c : α → Sect} {i k : List T} {a : α} (h : cur i = n)
    (hp : Go p i.tail a k) : Go (fun f => group n (p f) c) i [c a] k := by
  simp only [group]
  gst [h]
  refine Go.bind hp ?_
  gst []

theorem sects_first {ds : List Sect} {i k : List T} (hr : Rd (ds.map ySect).flatten i k) (hk : cur k ≠ 38) : cur i ≠ 38 := by
  cases ds with
  | nil =>
    simp only [List.map_nil, List.flatten_nil] at hr
    obtain rfl := Rd_nil.mp hr
    exact hk
  | cons d ds =>
    simp only [List.map_cons, List.flatten_cons] at hr
    cases d <;>
    · simp only [ySect, List.cons_append] at hr
      have := ((Rd_sm (by decide)).mp hr).1
      omega

/-- The groups of one pass of the loop. -/
def Heads (n : Nat) (ds : List Sect) : Prop := ∀ d ∈ ds.head?, match d with
  | .const _ => 58 ≥ n
  | .type _ => 59 ≥ n
  | .var _ => 60 ≥ n

theorem sects_loop {c t v ss : List Sect} {i j k : List T}
    (h : Go (fun f => group 58 (consts f) .const) i c j) {j' j2 : List T} (h' : Go (fun f => group 59 (types f) .type) j t j')
    (h2 : Go (fun f => group 60 (vars f) .var) j' v j2)
    (h3 : (ss = [] ∧ k = j2 ∧ ¬ (58 ≤ cur j2 ∧ cur j2 ≤ 60)) ∨ (58 ≤ cur j2 ∧ cur j2 ≤ 60) ∧ Go sects j2 ss k) :
    Go sects i (c ++ t ++ v ++ ss) k := by
  refine Go.succ ?_
  simp only [sects]
  refine Go.bind h (Go.bind h' (Go.bind h2 ?_))
  rcases h3 with ⟨rfl, rfl, hn⟩ | ⟨hn, hg⟩
  · have : cur k < 58 ∨ cur k > 60 := by omega
    gst [this, List.append_nil]
  · have : ¬ (cur j2 < 58 ∨ cur j2 > 60) := by omega
    gst [this]
    refine Go.bind hg ?_
    gst []

theorem sects_go : ∀ (n : Nat) {ds : List Sect}, ds.length ≤ n → (∀ d ∈ ds, okSect d) → ∀ {i k : List T},
    Rd (ds.map ySect).flatten i k → cur k ≠ 38 → ¬ (58 ≤ cur k ∧ cur k ≤ 60) → Go sects i ds k := by
  intro n
  induction n with
  | zero =>
    intro ds hl hw i k hr hk hk'
    obtain rfl : ds = [] := List.length_eq_zero_iff.mp (by omega)
    simp only [List.map_nil, List.flatten_nil] at hr
    obtain rfl := Rd_nil.mp hr
    exact sects_loop (c := []) (t := []) (v := []) (ss := []) (group_none (by omega)) (group_none (by omega)) (group_none (by omega))
      (.inl ⟨rfl, rfl, hk'⟩)
  | succ n ih =>
    intro ds hl hw i k hr hk hk'
    -- the rest of the list after the groups of this pass
    have last : ∀ {ds' : List Sect} {j : List T}, ds'.length ≤ n → (∀ d ∈ ds', okSect d) → Rd (ds'.map ySect).flatten j k →
        (ds' = [] ∧ k = j ∧ ¬ (58 ≤ cur j ∧ cur j ≤ 60)) ∨ (58 ≤ cur j ∧ cur j ≤ 60) ∧ Go sects j ds' k := by
      intro ds' j hl hw hr
      cases ds' with
      | nil =>
        simp only [List.map_nil, List.flatten_nil] at hr
        obtain rfl := Rd_nil.mp hr
        exact .inl ⟨rfl, rfl, hk'⟩
      | cons d ds' =>
        refine .inr ⟨?_, ih hl hw hr hk hk'⟩
        simp only [List.map_cons, List.flatten_cons] at hr
        cases d <;>
        · simp only [ySect, List.cons_append] at hr
          have := ((Rd_sm (by decide)).mp hr).1
          omega
    -- from VAR on
    have third : ∀ {ds' : List Sect} {j : List T}, ds'.length ≤ n + 1 → (∀ d ∈ ds', okSect d) → Rd (ds'.map ySect).flatten j k →
        (ds'.length ≤ n ∨ ∃ x r, ds' = .var x :: r) →
        ∃ v ss j', ds' = v ++ ss ∧ Go (fun f => group 60 (vars f) .var) j v j' ∧
        ((ss = [] ∧ k = j' ∧ ¬ (58 ≤ cur j' ∧ cur j' ≤ 60)) ∨ (58 ≤ cur j' ∧ cur j' ≤ 60) ∧ Go sects j' ss k) := by
      intro ds' j hl hw hr hd
      rcases ds' with _ | ⟨d, ds'⟩
      · have hr' := hr
        simp only [List.map_nil, List.flatten_nil] at hr'
        have := Rd_nil.mp hr'
        exact ⟨[], [], j, rfl, group_none (by rw [this]; omega), last (by simp) (by simp) hr⟩
      · cases d with
        | var x =>
          simp only [List.map_cons, List.flatten_cons, ySect, List.cons_append] at hr
          obtain ⟨h60, hr⟩ := (Rd_sm (by decide)).mp hr
          obtain ⟨j', hrx, hr⟩ := Rd_app.mp hr
          refine ⟨[.var x], ds', j', rfl, group_some h60 (vars_go (hw (.var x) (by simp)) hrx (sects_first hr hk)), ?_⟩
          exact last (by simp at hl; omega) (fun d hd => hw d (List.mem_cons_of_mem _ hd)) hr
        | const x =>
          have hl : (Sect.const x :: ds').length ≤ n := by
            rcases hd with hd | ⟨_, _, hd⟩
            · exact hd
            · cases hd
          refine ⟨[], _, j, rfl, group_none ?_, last hl hw hr⟩
          simp only [List.map_cons, List.flatten_cons, ySect, List.cons_append] at hr
          have := ((Rd_sm (by decide)).mp hr).1
          omega
        | type x =>
          have hl : (Sect.type x :: ds').length ≤ n := by
            rcases hd with hd | ⟨_, _, hd⟩
            · exact hd
            · cases hd
          refine ⟨[], _, j, rfl, group_none ?_, last hl hw hr⟩
          simp only [List.map_cons, List.flatten_cons, ySect, List.cons_append] at hr
          have := ((Rd_sm (by decide)).mp hr).1
          omega
    -- from TYPE on
    have second : ∀ {ds' : List Sect} {j : List T}, ds'.length ≤ n + 1 → (∀ d ∈ ds', okSect d) → Rd (ds'.map ySect).flatten j k →
        (ds'.length ≤ n ∨ ∃ d r, ds' = d :: r ∧ ∀ x, d ≠ .const x) →
        ∃ t v ss j' j2, ds' = t ++ v ++ ss ∧ Go (fun f => group 59 (types f) .type) j t j' ∧
        Go (fun f => group 60 (vars f) .var) j' v j2 ∧
        ((ss = [] ∧ k = j2 ∧ ¬ (58 ≤ cur j2 ∧ cur j2 ≤ 60)) ∨ (58 ≤ cur j2 ∧ cur j2 ≤ 60) ∧ Go sects j2 ss k) := by
      intro ds' j hl hw hr hd
      have none59 : cur j ≠ 59 → (ds'.length ≤ n ∨ ∃ x r, ds' = .var x :: r) → ∃ t v ss j' j2, ds' = t ++ v ++ ss ∧
          Go (fun f => group 59 (types f) .type) j t j' ∧ Go (fun f => group 60 (vars f) .var) j' v j2 ∧
          ((ss = [] ∧ k = j2 ∧ ¬ (58 ≤ cur j2 ∧ cur j2 ≤ 60)) ∨ (58 ≤ cur j2 ∧ cur j2 ≤ 60) ∧ Go sects j2 ss k) := by
        intro hc hd
        obtain ⟨v, ss, j', h1, h2, h3⟩ := third hl hw hr hd
        exact ⟨[], v, ss, j, j', by simpa using h1, group_none hc, h2, h3⟩
      rcases ds' with _ | ⟨d, ds'⟩
      · have hr' := hr
        simp only [List.map_nil, List.flatten_nil] at hr'
        have := Rd_nil.mp hr'
        exact none59 (by rw [this]; omega) (.inl (by simp))
      · cases d with
        | var x =>
          have hc : cur j = 60 := by
            simp only [List.map_cons, List.flatten_cons, ySect, List.cons_append] at hr
            exact ((Rd_sm (by decide)).mp hr).1
          exact none59 (by omega) (.inr ⟨_, _, rfl⟩)
        | const x =>
          have hc : cur j = 58 := by
            simp only [List.map_cons, List.flatten_cons, ySect, List.cons_append] at hr
            exact ((Rd_sm (by decide)).mp hr).1
          refine none59 (by omega) (.inl ?_)
          rcases hd with hd | ⟨_, _, hd, hx⟩
          · exact hd
          · cases hd; exact absurd rfl (hx x)
        | type x =>
          simp only [List.map_cons, List.flatten_cons, ySect, List.cons_append] at hr
          obtain ⟨h59, hr⟩ := (Rd_sm (by decide)).mp hr
          obtain ⟨j', hrx, hr⟩ := Rd_app.mp hr
          have hl' : ds'.length ≤ n := by simp at hl; omega
          obtain ⟨v, ss, j2, h1, h2, h3⟩ := third (by omega) (fun d hd => hw d (List.mem_cons_of_mem _ hd)) hr (.inl hl')
          refine ⟨[.type x], v, ss, j', j2, by simp [h1], ?_, h2, h3⟩
          exact group_some h59 (types_go (hw (.type x) (by simp)) hrx (sects_first hr hk))
    rcases ds with _ | ⟨d, ds⟩
    · have hr' := hr
      simp only [List.map_nil, List.flatten_nil] at hr'
      obtain rfl := Rd_nil.mp hr'
      exact sects_loop (c := []) (t := []) (v := []) (ss := []) (group_none (by omega)) (group_none (by omega))
        (group_none (by omega)) (.inl ⟨rfl, rfl, hk'⟩)
    · by_cases hd : ∃ x, d = .const x
      · obtain ⟨x, rfl⟩ := hd
        simp only [List.map_cons, List.flatten_cons, ySect, List.cons_append] at hr
        obtain ⟨h58, hr⟩ := (Rd_sm (by decide)).mp hr
        obtain ⟨j', hrx, hr⟩ := Rd_app.mp hr
        have hl' : ds.length ≤ n := by simp at hl; omega
        obtain ⟨t, v, ss, j1, j2, h1, h2, h3, h4⟩ := second (by omega) (fun d hd => hw d (List.mem_cons_of_mem _ hd)) hr (.inl hl')
        have := sects_loop (c := [.const x])
          (group_some h58 (consts_go (hw (.const x) (by simp)) hrx (sects_first hr hk))) h2 h3 h4
        simpa [h1] using this
      · obtain ⟨t, v, ss, j1, j2, h1, h2, h3, h4⟩ := second hl hw hr (.inr ⟨d, ds, rfl, fun x hx => hd ⟨x, hx⟩⟩)
        have hc : cur i ≠ 58 := by
          cases d with
          | const x => exact absurd ⟨x, rfl⟩ hd
          | _ =>
            simp only [List.map_cons, List.flatten_cons, ySect, List.cons_append] at hr
            have := ((Rd_sm (by decide)).mp hr).1
            omega
        have := sects_loop (c := []) (group_none hc) h2 h3 h4
        simpa [h1] using this

theorem receiver_go {r : Rcv} {i k : List T} {l : List Y} (hr : Rd (yRcv (some r) ++ l) i k) :
    cur i = 30 ∧ ∃ j, Go (fun _ => receiver) i.tail r j ∧ Rd l j k := by
  obtain ⟨v, x, t⟩ := r
  simp only [yRcv, List.append_assoc, List.cons_append, List.nil_append] at hr
  obtain ⟨h30, hr⟩ := (Rd_sm (by decide)).mp hr
  obtain ⟨j, hrv, hr⟩ := Rd_app.mp hr
  obtain ⟨h38, hx, hr⟩ := Rd_idn.mp hr
  obtain ⟨h20, hr⟩ := (Rd_sm (by decide)).mp hr
  obtain ⟨h38', ht, hr⟩ := Rd_idn.mp hr
  obtain ⟨h22, hr⟩ := (Rd_sm (by decide)).mp hr
  refine ⟨h30, _, ?_, hr⟩
  simp only [receiver]
  refine Go.bind (varMark_go hrv (by omega)) ?_
  gst [h38, hx, h20, h38', ht, h22]

theorem cur_isNum {t : Tok} (ht : isNum t = true) {b : List Y} {i k : List T} (h : Rd ((t, none) :: b) i k) :
    cur i = 35 ∧ (i.head?.map (·.1)).getD .eof = t ∧ Rd b i.tail k := by
  obtain ⟨t', v, j, rfl, rfl, -, h⟩ := Rd_cons.mp h
  refine ⟨?_, rfl, h⟩
  simp only [cur, List.head?_cons, Option.map_some, Option.getD_some]
  cases t <;> simp [isNum, isLit, isStr] at ht <;> simp [code]

theorem cur_isStr {t : Tok} (ht : isStr t = true) {b : List Y} {i k : List T} (h : Rd ((t, none) :: b) i k) :
    cur i = 37 ∧ (i.head?.map (·.1)).getD .eof = t ∧ Rd b i.tail k := by
  obtain ⟨t', v, j, rfl, rfl, -, h⟩ := Rd_cons.mp h
  refine ⟨?_, rfl, h⟩
  simp only [cur, List.head?_cons, Option.map_some, Option.getD_some]
  cases t <;> simp [isStr] at ht <;> simp [code]

theorem codes_go : ∀ {ns : List (Option Tok)}, ns ≠ [] → (∀ t, some t ∈ ns → isNum t = true) → ∀ {i k : List T},
    Rd (sep (sm 19) (ns.map yNum)) i k → cur k = 39 → (cur i = 35 ∨ cur i = 19 ∨ cur i = 39) ∧ Go codes i ns k
  | [], hn, _, _, _, _, _ => absurd rfl hn
  | [none], _, _, i, k, hr, hk => by
    simp only [List.map_cons, List.map_nil, sep, yNum] at hr
    obtain rfl := Rd_nil.mp hr
    refine ⟨by omega, Go.succ ?_⟩
    simp only [codes]
    gst [hk]
  | [some t], _, hw, i, k, hr, hk => by
    simp only [List.map_cons, List.map_nil, sep, yNum] at hr
    obtain ⟨hc, ht, hr⟩ := cur_isNum (hw t (by simp)) hr
    obtain rfl := Rd_nil.mp hr
    refine ⟨by omega, Go.succ ?_⟩
    simp only [codes]
    gst [hc, ht, hk]
  | none :: n :: ns, _, hw, i, k, hr, hk => by
    rw [List.map_cons, sep_cons (by simp)] at hr
    simp only [yNum, List.nil_append] at hr
    obtain ⟨hc, hr⟩ := (Rd_sm (by decide)).mp hr
    refine ⟨by omega, Go.succ ?_⟩
    simp only [codes]
    gst [hc]
    refine Go.bind (codes_go (ns := n :: ns) (by simp) (fun t ht => hw t (List.mem_cons_of_mem _ ht)) hr hk).2 ?_
    gst []
  | some t :: n :: ns, _, hw, i, k, hr, hk => by
    rw [List.map_cons, sep_cons (by simp)] at hr
    simp only [yNum, List.nil_append, List.cons_append] at hr
    obtain ⟨hc, ht, hr⟩ := cur_isNum (hw t (by simp)) hr
    obtain ⟨h19, hr⟩ := (Rd_sm (by decide)).mp hr
    refine ⟨by omega, Go.succ ?_⟩
    simp only [codes]
    gst [hc, ht, h19]
    refine Go.bind (codes_go (ns := n :: ns) (by simp) (fun t ht => hw t (List.mem_cons_of_mem _ ht)) hr hk).2 ?_
    gst []

theorem getParams_go {p : Option Pars} (hw : okParsO p) {i k : List T} (hr : Rd (yParsO p) i k) (hk : cur k ≠ 20) (hk' : cur k ≠ 30) :
    Go getParams i p k := by
  cases p with
  | none =>
    obtain rfl := Rd_nil.mp hr
    unfold getParams
    gst [hk']
  | some p =>
    obtain ⟨hc, hg⟩ := goodPars p hw _ _ hr hk
    unfold getParams
    gst [hc]
    refine Go.bind hg ?_
    gst []

theorem procMark_go {m : Option Nat} (hm : m = none ∨ m = some 1 ∨ m = some 6 ∨ m = some 7 ∨ m = some 17) {i k : List T}
    (hr : Rd (yMark m) i k) (hk : cur k = 38 ∨ cur k = 30) : Go (fun _ => procMark) i m k := by
  rcases hm with rfl | rfl | rfl | rfl | rfl
  · obtain rfl := Rd_nil.mp hr
    simp only [procMark]
    gst [hk]
  all_goals
    simp only [yMark] at hr
    obtain ⟨hc, hr⟩ := (Rd_sm (by decide)).mp hr
    obtain rfl := Rd_nil.mp hr
    simp only [procMark]
    gst [hc]

/-- How a body begins. -/
theorem body_first {n : Name} {b : Body} (hw : okBody n b) {i k : List T} {l : List Y} (hr : Rd (yBody b ++ sm 39 :: l) i k) :
    cur i = 39 ∨ cur i = 37 ∨ cur i = 35 ∨ cur i = 19 := by
  cases b with
  | none => simp only [yBody, List.nil_append] at hr; exact .inl ((Rd_sm (by decide)).mp hr).1
  | text t =>
    simp only [okBody] at hw; simp only [yBody, List.cons_append] at hr
    exact .inr (.inl (cur_isStr hw hr).1)
  | code ns =>
    simp only [okBody] at hw; simp only [yBody] at hr
    obtain ⟨j, hr, hr'⟩ := Rd_app.mp hr
    have := (codes_go hw.1 hw.2 hr ((Rd_sm (by decide)).mp hr').1).1
    omega
  | block b x => simp only [yBody, List.cons_append] at hr; exact .inl ((Rd_sm (by decide)).mp hr).1

theorem parsO_first {p : Option Pars} {i k : List T} {l : List Y} (hr : Rd (yParsO p ++ l) i k) :
    cur i = 30 ∨ Rd l i k := by
  cases p with
  | none => exact .inr hr
  | some p =>
    obtain ⟨ps, r⟩ := p
    simp only [yParsO, yPars, List.cons_append] at hr
    exact .inl ((Rd_sm (by decide)).mp hr).1

theorem procs_first {ps : List Proc} (hw : okProcs ps) {b : Option (List St)} {i k : List T} {l : List Y}
    (hr : Rd ((yProcs ps).flatten ++ (yBegin b ++ sm 41 :: l)) i k) : cur i = 61 ∨ cur i = 57 ∨ cur i = 41 := by
  cases ps with
  | nil =>
    simp only [yProcs, List.flatten_nil, List.nil_append] at hr
    cases b with
    | none => simp only [yBegin, List.nil_append] at hr; exact .inr (.inr ((Rd_sm (by decide)).mp hr).1)
    | some b => simp only [yBegin, List.cons_append] at hr; exact .inr (.inl ((Rd_sm (by decide)).mp hr).1)
  | cons p ps =>
    cases p with
    | mk m r d p b =>
      simp only [yProcs, yProc, List.flatten_cons, List.cons_append] at hr
      exact .inl ((Rd_sm (by decide)).mp hr).1
    | bad => simp only [okProcs, okProc] at hw; exact absurd hw.1 id

theorem begin_first {b : Option (List St)} {i k : List T} {l : List Y} (hr : Rd (yBegin b ++ sm 41 :: l) i k) :
    cur i = 57 ∨ cur i = 41 := by
  cases b with
  | none => simp only [yBegin, List.nil_append] at hr; exact .inr ((Rd_sm (by decide)).mp hr).1
  | some b => simp only [yBegin, List.cons_append] at hr; exact .inl ((Rd_sm (by decide)).mp hr).1

mutual
theorem goodBlock : ∀ b : Block, okBlock b → ∀ i k, Rd (yBlock b) i k → Go block i b k
  | .mk ds ps b, hw => fun i k hr => by
    simp only [okBlock] at hw; simp only [yBlock, List.append_assoc] at hr
    obtain ⟨j, hrd, hr⟩ := Rd_app.mp hr
    have h1 := procs_first hw.2.1 hr
    obtain ⟨j1, hrp, hr⟩ := Rd_app.mp hr
    have h2 := begin_first hr
    obtain ⟨j2, hrb, hr⟩ := Rd_app.mp hr
    obtain ⟨h41, hr⟩ := (Rd_sm (by decide)).mp hr
    obtain rfl := Rd_nil.mp hr
    refine Go.succ ?_
    simp only [block]
    refine Go.bind (sects_go _ (Nat.le_refl _) hw.1 hrd (by omega) (by omega)) ?_
    refine Go.bind (goodProcs ps hw.2.1 _ _ hrp (by omega)) ?_
    cases b with
    | none =>
      simp only [yBegin] at hrb
      obtain rfl := Rd_nil.mp hrb
      gst [h41]
    | some b =>
      simp only [yBegin] at hrb
      obtain ⟨h57, hrb⟩ := (Rd_sm (by decide)).mp hrb
      gst [h57]
      refine Go.bind (goodSts b hw.2.2.1 hw.2.2.2 _ _ hrb (by unfold FSt; omega) (by omega)) ?_
      gst [h41]
theorem goodProcs : ∀ ps : List Proc, okProcs ps → ∀ i k, Rd (yProcs ps).flatten i k → cur k ≠ 61 → Go procs i ps k
  | [], _ => fun i k hr hk => by
    simp only [yProcs, List.flatten_nil] at hr
    obtain rfl := Rd_nil.mp hr
    refine Go.succ ?_
    simp only [procs]
    gst [hk]
  | p :: ps, hw => fun i k hr hk => by
    simp only [okProcs] at hw; simp only [yProcs, List.flatten_cons] at hr
    obtain ⟨j, hrp, hr⟩ := Rd_app.mp hr
    obtain ⟨hc, j', hj, h39, hg⟩ := goodProc p hw.1 _ _ hrp
    refine Go.succ ?_
    simp only [procs]
    gst [hc]
    refine Go.bind hg ?_
    gst [h39]
    rw [hj]
    refine Go.bind (goodProcs ps hw.2 _ _ hr hk) ?_
    gst []
theorem goodProc : ∀ p : Proc, okProc p → ∀ i k, Rd (yProc p) i k → cur i = 61 ∧ ∃ j, j.tail = k ∧ cur j = 39 ∧ Go proc i.tail p j
  | .mk m r d p b, hw => fun i k hr => by
    simp only [okProc] at hw
    obtain ⟨hm, hd, hp, hk, hb⟩ := hw
    simp only [yProc, List.append_assoc, List.cons_append] at hr
    obtain ⟨hc, hr⟩ := (Rd_sm (by decide)).mp hr
    obtain ⟨j, hrm, hr⟩ := Rd_app.mp hr
    -- what follows the receiver
    have tail : ∀ {j : List T}, Rd (yDef d ++ (yParsO p ++ (yBody b ++ [sm 39]))) j k → cur j = 38 ∧ ∃ j1 j2,
        Go (fun _ => defn) j d j1 ∧ Go getParams j1 p j2 ∧ Rd (yBody b ++ [sm 39]) j2 k := by
      intro j hr
      have h38 := def_first hr
      obtain ⟨j1, hrd, hr⟩ := Rd_app.mp hr
      have h1 := parsO_first hr
      obtain ⟨j2, hrp, hr⟩ := Rd_app.mp hr
      have h2 := body_first hb hr
      have h3 : cur j1 = 30 ∨ cur j1 = 39 ∨ cur j1 = 37 ∨ cur j1 = 35 ∨ cur j1 = 19 := h1.imp id fun h => body_first hb h
      exact ⟨h38, j1, j2, (defn_go hd hrd (by omega) (by omega)).2, getParams_go hp hrp (by omega) (by omega), hr⟩
    cases r with
    | none =>
      simp only [yRcv, List.nil_append] at hr
      obtain ⟨h38, j1, j2, hg1, hg2, hr⟩ := tail hr
      obtain ⟨j3, hrb, hr⟩ := Rd_app.mp hr
      obtain ⟨h39, hr⟩ := (Rd_sm (by decide)).mp hr
      obtain rfl := Rd_nil.mp hr
      refine ⟨hc, j3, rfl, h39, Go.succ ?_⟩
      simp only [proc]
      refine Go.bind (procMark_go hm hrm (.inl h38)) ?_
      gst [h38]
      refine Go.bind hg1 (Go.bind hg2 ?_)
      cases b with
      | none =>
        simp only [kindOk] at hk
        subst hk
        simp only [yBody] at hrb
        obtain rfl := Rd_nil.mp hrb
        have h7 : ¬ (some 17 : Option Nat) = some 7 := by decide
        gst [h7]
      | text t =>
        simp only [kindOk] at hk
        obtain ⟨rfl, -⟩ := hk
        simp only [okBody] at hb; simp only [yBody] at hrb
        obtain ⟨h37, ht, hrb⟩ := cur_isStr hb hrb
        obtain rfl := Rd_nil.mp hrb
        gst []
        simp only [getCode]
        gst [h37, ht]
      | code ns =>
        simp only [kindOk] at hk
        obtain ⟨rfl, -⟩ := hk
        simp only [okBody] at hb; simp only [yBody] at hrb
        obtain ⟨h1, hg⟩ := codes_go hb.1 hb.2 hrb h39
        have h37 : cur j2 ≠ 37 := by omega
        gst []
        simp only [getCode]
        gst [h37]
        refine Go.bind hg ?_
        gst []
      | block b x =>
        simp only [kindOk] at hk
        have h7 : ¬ m = some 7 := fun h => hk.2 ⟨h, rfl⟩
        have h17 : ¬ m = some 17 := hk.1
        gst [h7, h17]
        refine Go.bind (goodBody b x d.name hb _ _ hrb) ?_
        gst []
    | some r =>
      obtain ⟨h30, j0, hgr, hr⟩ := receiver_go hr
      obtain ⟨h38, j1, j2, hg1, hg2, hr⟩ := tail hr
      obtain ⟨j3, hrb, hr⟩ := Rd_app.mp hr
      obtain ⟨h39, hr⟩ := (Rd_sm (by decide)).mp hr
      obtain rfl := Rd_nil.mp hr
      refine ⟨hc, j3, rfl, h39, Go.succ ?_⟩
      simp only [proc]
      refine Go.bind (procMark_go hm hrm (.inr h30)) ?_
      gst [h30]
      refine Go.bind hgr ?_
      gst [h38]
      refine Go.bind hg1 (Go.bind hg2 ?_)
      cases b with
      | none =>
        simp only [kindOk] at hk
        subst hk
        simp only [yBody] at hrb
        obtain rfl := Rd_nil.mp hrb
        gst []
      | text t => simp only [kindOk] at hk; simp at hk
      | code ns => simp only [kindOk] at hk; simp at hk
      | block b x =>
        simp only [kindOk] at hk
        have h17 : ¬ m = some 17 := hk.1
        gst [h17]
        refine Go.bind (goodBody b x d.name hb _ _ hrb) ?_
        gst []
  | .bad, hw => by simp only [okProc] at hw
theorem goodBody : ∀ (b : Block) (x n : Name), okBody n (.block b x) → ∀ i k, Rd (yBody (.block b x)) i k →
    Go (fun f => body f n) i (.block b x) k
  | b, x, n, hw => fun i k hr => by
    simp only [okBody] at hw; simp only [yBody, List.cons_append] at hr
    obtain ⟨hwb, rfl⟩ := hw
    obtain ⟨h39, hr⟩ := (Rd_sm (by decide)).mp hr
    obtain ⟨j, hrb, hr⟩ := Rd_app.mp hr
    obtain ⟨h38, hx, hr⟩ := Rd_idn.mp hr
    obtain rfl := Rd_nil.mp hr
    refine Go.succ ?_
    simp only [body]
    gst [h39]
    refine Go.bind (goodBlock b hwb _ _ hrb) ?_
    gst [h38, hx]
end

theorem importItem_go {x : Name × Option Name} {i k : List T} (hr : Rd (yImport x) i k) (hk : cur k ≠ 34) :
    Go (fun _ => importItem) i x k := by
  obtain ⟨x, m⟩ := x
  cases m with
  | none =>
    simp only [yImport] at hr
    obtain ⟨h38, hx, hr⟩ := Rd_idn.mp hr
    obtain rfl := Rd_nil.mp hr
    simp only [importItem]
    gst [h38, hx, hk]
  | some m =>
    simp only [yImport] at hr
    obtain ⟨h38, hx, hr⟩ := Rd_idn.mp hr
    obtain ⟨h34, hr⟩ := (Rd_sm (by decide)).mp hr
    obtain ⟨h38', hm, hr⟩ := Rd_idn.mp hr
    obtain rfl := Rd_nil.mp hr
    simp only [importItem]
    gst [h38, hx, h34, h38', hm]

theorem importList_go {is : List (Name × Option Name)} {i k : List T} (hr : Rd (yImports is) i k) (hk : cur k ≠ 62) :
    Go importList i is k := by
  by_cases h : is = []
  · subst h
    rw [yImports, if_pos rfl] at hr
    obtain rfl := Rd_nil.mp hr
    unfold importList
    gst [hk]
  · rw [yImports, if_neg h] at hr
    simp only [List.cons_append] at hr
    obtain ⟨h62, hr⟩ := (Rd_sm (by decide)).mp hr
    obtain ⟨j, hrs, hr⟩ := Rd_app.mp hr
    obtain ⟨h39, hr⟩ := (Rd_sm (by decide)).mp hr
    obtain rfl := Rd_nil.mp hr
    unfold importList
    gst [h62]
    refine Go.bind (commas_go (item := fun _ => importItem) (Q := fun k => cur k ≠ 34) (fun k hk => by omega)
      (fun a _ i k hr hq => importItem_go hr hq) h hrs (by omega) (by omega) (by rw [h39]; rfl)) ?_
    gst [h39]

theorem block_first {b : Block} (hw : okBlock b) {i k : List T} {l : List Y} (hr : Rd (yBlock b ++ l) i k) : cur i ≠ 62 := by
  obtain ⟨ds, ps, b⟩ := b
  simp only [okBlock] at hw; simp only [yBlock, List.append_assoc, List.cons_append] at hr
  cases ds with
  | nil =>
    simp only [List.map_nil, List.flatten_nil, List.nil_append] at hr
    have := procs_first hw.2.1 hr; omega
  | cons d ds =>
    simp only [List.map_cons, List.flatten_cons] at hr
    cases d <;>
    · simp only [ySect, List.cons_append] at hr
      have := ((Rd_sm (by decide)).mp hr).1; omega

/-- A module is read up to its period. -/
theorem parse_go {m : Mod} (hw : okMod m) {i k : List T} (hr : Rd (yMod m) i k) :
    ∃ j, j.tail = k ∧ cur j = 18 ∧ Go parse i (some m) j := by
  obtain ⟨x, is, b, y⟩ := m
  obtain ⟨hwb, hy⟩ := hw
  simp only at hwb hy
  subst hy
  simp only [yMod, List.append_assoc, List.cons_append, List.nil_append] at hr
  obtain ⟨h63, hr⟩ := (Rd_sm (by decide)).mp hr
  obtain ⟨h38, hx, hr⟩ := Rd_idn.mp hr
  obtain ⟨h39, hr⟩ := (Rd_sm (by decide)).mp hr
  obtain ⟨j, hri, hr⟩ := Rd_app.mp hr
  have h62 := block_first hwb hr
  obtain ⟨j1, hrb, hr⟩ := Rd_app.mp hr
  obtain ⟨h38', hy, hr⟩ := Rd_idn.mp hr
  obtain ⟨h18, hr⟩ := (Rd_sm (by decide)).mp hr
  obtain rfl := Rd_nil.mp hr
  refine ⟨j1.tail, rfl, h18, ?_⟩
  have hh : Go header i (some (y, is)) j := by
    unfold header
    gst [h63, h38, hx, h39]
    refine Go.bind (importList_go hri h62) ?_
    gst []
  have hg : Go (fun f => rest f y is) j (some ⟨y, is, b, y⟩) j1.tail := by
    simp only [rest]
    refine Go.bind (goodBlock b hwb _ _ hrb) ?_
    gst [h38', hy, h18]
  obtain ⟨F, hF⟩ := hh
  obtain ⟨G, hG⟩ := hg
  refine ⟨max F G, fun f hf => ?_⟩
  unfold parse
  rw [hF f (by omega)]
  simp only [if_true]
  exact hG f (by omega)

end Verif.Parse
