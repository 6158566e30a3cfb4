import Verif.Parse.CompT

/-! # Every statement is read -/
namespace Verif.Parse
open Verif.Scanner (Tok)

/-- What may follow a statement. -/
def FSt (k : List T) : Prop := 39 ≤ cur k ∧ ¬ (45 ≤ cur k ∧ cur k ≤ 53)

theorem FSt.f0 {k : List T} (h : FSt k) : F0 k := by
  unfold FSt at h; exact F0.of (by omega) (by omega) (by omega)

theorem step_go {y : Option Ex} (hw : okFlag y) {i k : List T} (hr : Rd (yBy y) i k) (hk : cur k = 27) : Go step i y k := by
  cases y with
  | none =>
    obtain rfl := Rd_nil.mp hr
    unfold step
    gst [hk]
  | some e =>
    simp only [yBy] at hr
    obtain ⟨hc, hr⟩ := (Rd_sm (by decide)).mp hr
    unfold step
    gst [hc]
    refine Go.bind ((good e hw).ce _ _ hr (F0.of (by omega) (by omega) (by omega))) ?_
    gst []

theorem by_first {y : Option Ex} {i k : List T} {l : List Y} (hr : Rd (yBy y ++ sm 27 :: l) i k) : cur i = 27 ∨ cur i = 29 := by
  cases y with
  | none => exact .inl ((Rd_sm (by decide)).mp hr).1
  | some e => exact .inr ((Rd_sm (by decide)).mp (by simpa only [yBy, List.cons_append] using hr)).1

theorem label_go {e : El} (hw : okEl e) {i k : List T} (hr : Rd (yEl e) i k) (hf : F0 k) (hk : cur k ≠ 21) : Go label i e k := by
  cases e with
  | one e =>
    simp only [okEl] at hw; simp only [yEl] at hr
    unfold label
    refine Go.bind ((good e hw).ce _ _ hr hf) ?_
    gst [hk]
  | range a b =>
    simp only [okEl] at hw; simp only [yEl] at hr
    obtain ⟨j, hr1, hr2⟩ := Rd_app.mp hr
    obtain ⟨hc, hr2⟩ := (Rd_sm (by decide)).mp hr2
    unfold label
    refine Go.bind ((good a hw.1).ce _ _ hr1 (F0.of (by omega) (by omega) (by omega))) ?_
    gst [hc]
    refine Go.bind ((good b hw.2).ce _ _ hr2 hf) ?_
    gst []

theorem labels_go {ls : List El} (hn : ls ≠ []) (hw : okEls ls) {i k : List T} (hr : Rd (sep (sm 19) (yEls ls)) i k)
    (hk : cur k = 20) : Go (fun f => commas (label f) (fun s => s == 35 || s == 38) f) i ls k := by
  rw [yEls_map] at hr
  refine commas_go (Q := fun k => F0 k ∧ cur k ≠ 21) (fun k hk => ⟨F0.of (by omega) (by omega) (by omega), by omega⟩) ?_ hn hr
    ⟨F0.of (by omega) (by omega) (by omega), by omega⟩ (by omega) (by rw [hk]; rfl)
  intro a ha i k hr hq
  exact label_go ((okEls_all _).mp hw a ha) hr hq.1 hq.2

theorem el_first {e : El} (hw : okEl e) {i k : List T} (hr : Rd (yEl e) i k) : cur i < 39 := by
  cases e with
  | one e =>
    have := first e (by simpa only [okEl] using hw) (by simpa only [yEl] using hr)
    omega
  | range a b =>
    simp only [yEl] at hr
    obtain ⟨j', hr, -⟩ := Rd_app.mp hr
    simp only [okEl] at hw
    have := first a hw.1 hr
    omega

theorem labels_first {ls : List El} (hn : ls ≠ []) (hw : okEls ls) {i k : List T} {y : List Y}
    (hr : Rd (sep (sm 19) (yEls ls) ++ y) i k) : cur i < 40 := by
  obtain ⟨d, ds, rfl⟩ := List.exists_cons_of_ne_nil hn
  simp only [okEls] at hw
  have : ∃ l, sep (sm 19) (yEls (d :: ds)) ++ y = yEl d ++ l := by
    cases ds with
    | nil => exact ⟨y, rfl⟩
    | cons b ds => exact ⟨_, by simp only [yEls, sep, List.append_assoc]; rfl⟩
  obtain ⟨l, hl⟩ := this
  rw [hl] at hr
  obtain ⟨j, hr, -⟩ := Rd_app.mp hr
  have := el_first hw.1 hr
  omega

theorem guard_go {v t : Qual} {i k : List T} (hr : Rd (yQual v ++ sm 20 :: yQual t) i k) : Go (fun _ => guard) i (v, t) k := by
  obtain ⟨j, h1, h2⟩ := Rd_app.mp hr
  obtain ⟨h20, h2⟩ := (Rd_sm (by decide)).mp h2
  obtain ⟨hc, hq⟩ := Rd_qual h1
  obtain ⟨hc', hq'⟩ := Rd_qual h2
  simp only [guard]
  gst [hc]
  refine Go.bind (Go.const hq) ?_
  gst [h20, hc']
  refine Go.bind (Go.const hq') ?_
  gst []

/-- How a statement begins. -/
theorem firstS {s : St} {i k : List T} (hr : Rd (ySt s) i k) (hf : FSt k) : 38 ≤ cur i := by
  unfold FSt at hf
  cases s with
  | empty => simp only [ySt] at hr; obtain rfl := Rd_nil.mp hr; omega
  | assign q ss e =>
    simp only [ySt, List.append_assoc] at hr
    obtain ⟨j, hr, -⟩ := Rd_app.mp hr
    have := (Rd_qual hr).1; omega
  | call q ss as =>
    simp only [ySt, List.append_assoc] at hr
    obtain ⟨j, hr, -⟩ := Rd_app.mp hr
    have := (Rd_qual hr).1; omega
  | _ =>
    simp only [ySt, List.cons_append] at hr
    have := ((Rd_sm (by decide)).mp hr).1; omega

theorem rest_first {es : List Elsif} {el : Els} {i k : List T} {l : List Y}
    (hr : Rd ((yElsifs es).flatten ++ (yElse el ++ sm 41 :: l)) i k) : cur i = 41 ∨ cur i = 42 ∨ cur i = 43 := by
  cases es with
  | nil =>
    simp only [yElsifs, List.flatten_nil, List.nil_append] at hr
    cases el with
    | none => simp only [yElse, List.nil_append] at hr; exact .inl ((Rd_sm (by decide)).mp hr).1
    | some b => simp only [yElse, List.cons_append] at hr; exact .inr (.inl ((Rd_sm (by decide)).mp hr).1)
  | cons e es =>
    obtain ⟨e, b⟩ := e
    simp only [yElsifs, yElsif, List.flatten_cons, List.cons_append] at hr
    exact .inr (.inr ((Rd_sm (by decide)).mp hr).1)

theorem else_first {el : Els} {i k : List T} {l : List Y} (hr : Rd (yElse el ++ sm 41 :: l) i k) : cur i = 41 ∨ cur i = 42 := by
  cases el with
  | none => simp only [yElse, List.nil_append] at hr; exact .inl ((Rd_sm (by decide)).mp hr).1
  | some b => simp only [yElse, List.cons_append] at hr; exact .inr ((Rd_sm (by decide)).mp hr).1

mutual
theorem goodSt : ∀ s : St, okSt s → ∀ i k, Rd (ySt s) i k → FSt k → Go stat i s k
  | .empty, hw => fun i k hr hf => by
    simp only [ySt] at hr
    obtain rfl := Rd_nil.mp hr
    unfold FSt at hf
    refine Go.succ ?_
    simp only [stat]
    have h1 : cur i ≠ 38 := by omega
    have h2 : cur i ≠ 45 := by omega
    have h3 : cur i ≠ 46 := by omega
    have h4 : cur i ≠ 47 := by omega
    have h5 : cur i ≠ 48 := by omega
    have h6 : cur i ≠ 49 := by omega
    have h7 : cur i ≠ 50 := by omega
    have h8 : cur i ≠ 51 := by omega
    have h9 : cur i ≠ 52 := by omega
    have h10 : cur i ≠ 53 := by omega
    gst [h1, h2, h3, h4, h5, h6, h7, h8, h9, h10]
  | .assign q ss e, hw => fun i k hr hf => by
    simp only [okSt] at hw; simp only [ySt, List.append_assoc] at hr
    obtain ⟨j, hq, hr⟩ := Rd_app.mp hr
    obtain ⟨j', hs, hr⟩ := Rd_app.mp hr
    obtain ⟨h34, hr⟩ := (Rd_sm (by decide)).mp hr
    obtain ⟨hc, hq⟩ := Rd_qual hq
    refine Go.succ ?_
    simp only [stat]
    gst [hc]
    refine Go.bind (Go.const hq) (Go.bind (goodSels ss hw.1 _ _ hs (by unfold FS; omega)) ?_)
    gst [h34]
    refine Go.bind ((good e hw.2).ce _ _ hr hf.f0) ?_
    gst []
  | .call q ss none, hw => fun i k hr hf => by
    simp only [okSt] at hw; simp only [ySt, yArgs, List.append_nil] at hr
    obtain ⟨j, hq, hr⟩ := Rd_app.mp hr
    obtain ⟨hc, hq⟩ := Rd_qual hq
    unfold FSt at hf
    refine Go.succ ?_
    simp only [stat]
    gst [hc]
    refine Go.bind (Go.const hq) (Go.bind (goodSels ss hw.1 _ _ hr (by unfold FS; omega)) ?_)
    have h1 : cur k ≠ 34 := by omega
    have h2 : cur k ≠ 9 := by omega
    have h3 : cur k ≠ 30 := by omega
    gst [h1, h2, h3]
  | .call q ss (some as), hw => fun i k hr hf => by
    simp only [okSt] at hw; simp only [ySt, yArgs, List.append_assoc, List.cons_append] at hr
    obtain ⟨j, hq, hr⟩ := Rd_app.mp hr
    obtain ⟨hc, hq⟩ := Rd_qual hq
    obtain ⟨j', hs, hr⟩ := Rd_app.mp hr
    obtain ⟨h30, hb, hr⟩ := (Rd_smv (by decide)).mp hr
    obtain ⟨j2, ha, hr⟩ := Rd_app.mp hr
    obtain ⟨h22, hr⟩ := (Rd_sm (by decide)).mp hr
    obtain rfl := Rd_nil.mp hr
    refine Go.succ ?_
    simp only [stat]
    gst [hc]
    refine Go.bind (Go.const hq) (Go.bind (goodSels ss hw.1 _ _ hs ⟨by omega, by omega, by omega, fun _ => hb⟩) ?_)
    gst [h30]
    refine Go.bind (actuals_go hw.2 (goodExs as hw.2) ha h22) ?_
    gst [h22]
  | .ifs e b es el, hw => fun i k hr hf => by
    simp only [okSt] at hw; simp only [ySt, List.append_assoc, List.cons_append] at hr
    obtain ⟨hc, hr⟩ := (Rd_sm (by decide)).mp hr
    obtain ⟨j, hre, hr⟩ := Rd_app.mp hr
    obtain ⟨h26, hr⟩ := (Rd_sm (by decide)).mp hr
    obtain ⟨j1, hrb, hr⟩ := Rd_app.mp hr
    have h1 := rest_first hr
    obtain ⟨j2, hri, hr⟩ := Rd_app.mp hr
    have h2 := else_first hr
    obtain ⟨j3, hrl, hr⟩ := Rd_app.mp hr
    obtain ⟨h41, hr⟩ := (Rd_sm (by decide)).mp hr
    obtain rfl := Rd_nil.mp hr
    refine Go.succ ?_
    simp only [stat]
    gst [hc]
    refine Go.bind ((good e hw.1).ce _ _ hre (F0.of (by omega) (by omega) (by omega))) ?_
    gst [h26]
    refine Go.bind (goodSts b hw.2.1 hw.2.2.1 _ _ hrb (by unfold FSt; omega) (by omega)) ?_
    refine Go.bind (goodElsifs es hw.2.2.2.1 _ _ hri (by unfold FSt; omega) (by omega) (by omega)) ?_
    refine Go.bind (goodElse el hw.2.2.2.2 _ _ hrl h41) ?_
    gst [h41]
  | .cases e cs el, hw => fun i k hr hf => by
    simp only [okSt] at hw; simp only [ySt, List.append_assoc, List.cons_append] at hr
    obtain ⟨hc, hr⟩ := (Rd_sm (by decide)).mp hr
    obtain ⟨j, hre, hr⟩ := Rd_app.mp hr
    obtain ⟨h25, hr⟩ := (Rd_sm (by decide)).mp hr
    obtain ⟨j1, hrb, hr⟩ := Rd_app.mp hr
    have h2 := else_first hr
    obtain ⟨j3, hrl, hr⟩ := Rd_app.mp hr
    obtain ⟨h41, hr⟩ := (Rd_sm (by decide)).mp hr
    obtain rfl := Rd_nil.mp hr
    refine Go.succ ?_
    simp only [stat]
    gst [hc]
    refine Go.bind ((good e hw.1).ce _ _ hre (F0.of (by omega) (by omega) (by omega))) ?_
    gst [h25]
    refine Go.bind (goodCases cs hw.2.1 hw.2.2.1 _ _ hrb h2) ?_
    refine Go.bind (goodElse el hw.2.2.2 _ _ hrl h41) ?_
    gst [h41]
  | .whiles e b, hw => fun i k hr hf => by
    simp only [okSt] at hw; simp only [ySt, List.append_assoc, List.cons_append] at hr
    obtain ⟨hc, hr⟩ := (Rd_sm (by decide)).mp hr
    obtain ⟨j, hre, hr⟩ := Rd_app.mp hr
    obtain ⟨h27, hr⟩ := (Rd_sm (by decide)).mp hr
    obtain ⟨j1, hrb, hr⟩ := Rd_app.mp hr
    obtain ⟨h41, hr⟩ := (Rd_sm (by decide)).mp hr
    obtain rfl := Rd_nil.mp hr
    refine Go.succ ?_
    simp only [stat]
    gst [hc]
    refine Go.bind ((good e hw.1).ce _ _ hre (F0.of (by omega) (by omega) (by omega))) ?_
    gst [h27]
    refine Go.bind (goodSts b hw.2.1 hw.2.2 _ _ hrb (by unfold FSt; omega) (by omega)) ?_
    gst [h41]
  | .repeats b e, hw => fun i k hr hf => by
    simp only [okSt] at hw; simp only [ySt, List.append_assoc, List.cons_append] at hr
    obtain ⟨hc, hr⟩ := (Rd_sm (by decide)).mp hr
    obtain ⟨j, hrb, hr⟩ := Rd_app.mp hr
    obtain ⟨h44, hr⟩ := (Rd_sm (by decide)).mp hr
    refine Go.succ ?_
    simp only [stat]
    gst [hc]
    refine Go.bind (goodSts b hw.1 hw.2.1 _ _ hrb (by unfold FSt; omega) (by omega)) ?_
    gst [h44]
    refine Go.bind ((good e hw.2.2).ce _ _ hr hf.f0) ?_
    gst []
  | .fors q a b y ss, hw => fun i k hr hf => by
    simp only [okSt] at hw; simp only [ySt, List.append_assoc, List.cons_append] at hr
    obtain ⟨hc, hr⟩ := (Rd_sm (by decide)).mp hr
    obtain ⟨j, hq, hr⟩ := Rd_app.mp hr
    obtain ⟨hcq, hq⟩ := Rd_qual hq
    obtain ⟨h34, hr⟩ := (Rd_sm (by decide)).mp hr
    obtain ⟨j1, hra, hr⟩ := Rd_app.mp hr
    obtain ⟨h28, hr⟩ := (Rd_sm (by decide)).mp hr
    obtain ⟨j2, hrb, hr⟩ := Rd_app.mp hr
    have h1 := by_first hr
    obtain ⟨j3, hry, hr⟩ := Rd_app.mp hr
    obtain ⟨h27, hr⟩ := (Rd_sm (by decide)).mp hr
    obtain ⟨j4, hrs, hr⟩ := Rd_app.mp hr
    obtain ⟨h41, hr⟩ := (Rd_sm (by decide)).mp hr
    obtain rfl := Rd_nil.mp hr
    refine Go.succ ?_
    simp only [stat]
    gst [hc, hcq]
    refine Go.bind (Go.const hq) ?_
    gst [h34]
    refine Go.bind ((good a hw.1).ce _ _ hra (F0.of (by omega) (by omega) (by omega))) ?_
    gst [h28]
    refine Go.bind ((good b hw.2.1).ce _ _ hrb (F0.of (by omega) (by omega) (by omega))) ?_
    refine Go.bind (step_go hw.2.2.1 hry h27) ?_
    gst [h27]
    refine Go.bind (goodSts ss hw.2.2.2.1 hw.2.2.2.2 _ _ hrs (by unfold FSt; omega) (by omega)) ?_
    gst [h41]
  | .loop b, hw => fun i k hr hf => by
    simp only [okSt] at hw; simp only [ySt, List.append_assoc, List.cons_append] at hr
    obtain ⟨hc, hr⟩ := (Rd_sm (by decide)).mp hr
    obtain ⟨j, hrb, hr⟩ := Rd_app.mp hr
    obtain ⟨h41, hr⟩ := (Rd_sm (by decide)).mp hr
    obtain rfl := Rd_nil.mp hr
    refine Go.succ ?_
    simp only [stat]
    gst [hc]
    refine Go.bind (goodSts b hw.1 hw.2 _ _ hrb (by unfold FSt; omega) (by omega)) ?_
    gst [h41]
  | .withs gs el, hw => fun i k hr hf => by
    simp only [okSt] at hw; simp only [ySt, List.append_assoc, List.cons_append] at hr
    obtain ⟨hc, hr⟩ := (Rd_sm (by decide)).mp hr
    obtain ⟨j1, hrb, hr⟩ := Rd_app.mp hr
    have h2 := else_first hr
    obtain ⟨j3, hrl, hr⟩ := Rd_app.mp hr
    obtain ⟨h41, hr⟩ := (Rd_sm (by decide)).mp hr
    obtain rfl := Rd_nil.mp hr
    refine Go.succ ?_
    simp only [stat]
    gst [hc]
    refine Go.bind (goodGuards gs hw.1 hw.2.1 _ _ hrb h2) ?_
    refine Go.bind (goodElse el hw.2.2 _ _ hrl h41) ?_
    gst [h41]
  | .exit, hw => fun i k hr hf => by
    simp only [ySt] at hr
    obtain ⟨hc, hr⟩ := (Rd_sm (by decide)).mp hr
    obtain rfl := Rd_nil.mp hr
    refine Go.succ ?_
    simp only [stat]
    gst [hc]
  | .ret none, hw => fun i k hr hf => by
    simp only [ySt, yOpt] at hr
    obtain ⟨hc, hr⟩ := (Rd_sm (by decide)).mp hr
    obtain rfl := Rd_nil.mp hr
    have h1 : ¬ cur i.tail < 39 := by unfold FSt at hf; omega
    refine Go.succ ?_
    simp only [stat]
    gst [hc, h1]
  | .ret (some e), hw => fun i k hr hf => by
    simp only [okSt, okFlag] at hw; simp only [ySt, yOpt] at hr
    obtain ⟨hc, hr⟩ := (Rd_sm (by decide)).mp hr
    have h1 := first e hw hr
    have h1 : cur i.tail < 39 := by omega
    refine Go.succ ?_
    simp only [stat]
    gst [hc, h1]
    refine Go.bind ((good e hw).ce _ _ hr hf.f0) ?_
    gst []
theorem goodSts : ∀ b : List St, b ≠ [] → okSts b → ∀ i k, Rd (sep (sm 39) (ySts b)) i k → FSt k → cur k ≠ 39 → Go statSeq i b k
  | [], hn, _ => absurd rfl hn
  | [s], _, hw => fun i k hr hf hk => by
    simp only [okSts] at hw; simp only [ySts, sep] at hr
    have h1 := firstS hr hf
    refine Go.succ ?_
    simp only [statSeq]
    gst [h1]
    refine Go.bind (goodSt s hw.1 _ _ hr hf) ?_
    have h2 : ¬ (cur k ≤ 38 ∨ 45 ≤ cur k ∧ cur k ≤ 53) := by unfold FSt at hf; omega
    gst [hk, h2]
  | s :: s' :: b, _, hw => fun i k hr hf hk => by
    rw [okSts] at hw; rw [ySts, sep_cons (by simp [ySts])] at hr
    obtain ⟨j, hrs, hr⟩ := Rd_app.mp hr
    obtain ⟨h39, hr⟩ := (Rd_sm (by decide)).mp hr
    have hfj : FSt j := by unfold FSt; omega
    have h1 := firstS hrs hfj
    refine Go.succ ?_
    simp only [statSeq]
    gst [h1]
    refine Go.bind (goodSt s hw.1 _ _ hrs hfj) ?_
    gst [h39]
    refine Go.bind (goodSts (s' :: b) (by simp) hw.2 _ _ hr hf hk) ?_
    gst []
theorem goodElsifs : ∀ es : List Elsif, okElsifs es → ∀ i k, Rd (yElsifs es).flatten i k → FSt k → cur k ≠ 39 → cur k ≠ 43 →
    Go elsifs i es k
  | [], _ => fun i k hr hf hk hk' => by
    simp only [yElsifs, List.flatten_nil] at hr
    obtain rfl := Rd_nil.mp hr
    refine Go.succ ?_
    simp only [elsifs]
    gst [hk']
  | .mk e b :: es, hw => fun i k hr hf hk hk' => by
    simp only [okElsifs, okElsif] at hw; simp only [yElsifs, yElsif, List.flatten_cons, List.append_assoc, List.cons_append] at hr
    obtain ⟨hc, hr⟩ := (Rd_sm (by decide)).mp hr
    obtain ⟨j, hre, hr⟩ := Rd_app.mp hr
    obtain ⟨h26, hr⟩ := (Rd_sm (by decide)).mp hr
    obtain ⟨j1, hrb, hr⟩ := Rd_app.mp hr
    have h1 : FSt j1 ∧ cur j1 ≠ 39 := by
      cases es with
      | nil =>
        simp only [yElsifs, List.flatten_nil] at hr
        obtain rfl := Rd_nil.mp hr
        exact ⟨hf, hk⟩
      | cons e' es =>
        obtain ⟨e', b'⟩ := e'
        simp only [yElsifs, yElsif, List.flatten_cons, List.cons_append] at hr
        have := ((Rd_sm (by decide)).mp hr).1
        exact ⟨by unfold FSt; omega, by omega⟩
    refine Go.succ ?_
    simp only [elsifs]
    gst [hc]
    refine Go.bind ((good e hw.1.1).ce _ _ hre (F0.of (by omega) (by omega) (by omega))) ?_
    gst [h26]
    refine Go.bind (goodSts b hw.1.2.1 hw.1.2.2 _ _ hrb h1.1 h1.2) ?_
    refine Go.bind (goodElsifs es hw.2 _ _ hr hf hk hk') ?_
    gst []
theorem goodElse : ∀ el : Els, okElse el → ∀ i k, Rd (yElse el) i k → cur k = 41 → Go els i el k
  | .none, _ => fun i k hr hk => by
    simp only [yElse] at hr
    obtain rfl := Rd_nil.mp hr
    refine Go.succ ?_
    simp only [els]
    gst [hk]
  | .some b, hw => fun i k hr hk => by
    simp only [okElse] at hw; simp only [yElse] at hr
    obtain ⟨hc, hr⟩ := (Rd_sm (by decide)).mp hr
    refine Go.succ ?_
    simp only [els]
    gst [hc]
    refine Go.bind (goodSts b hw.1 hw.2 _ _ hr (by unfold FSt; omega) (by omega)) ?_
    gst []
theorem goodCases : ∀ cs : List Case, cs ≠ [] → okCases cs → ∀ i k, Rd (sep (sm 40) (yCases cs)) i k → cur k = 41 ∨ cur k = 42 →
    Go cases i cs k
  | [], hn, _ => absurd rfl hn
  | [.none], _, _ => fun i k hr hk => by
    simp only [yCases, yCase, sep] at hr
    obtain rfl := Rd_nil.mp hr
    have h1 : ¬ cur i < 40 := by omega
    have h2 : cur i ≠ 40 := by omega
    refine Go.succ ?_
    simp only [cases]
    gst [h1, h2]
  | [.some ls b], _, hw => fun i k hr hk => by
    simp only [okCases, okCase] at hw; simp only [yCases, yCase, sep] at hr
    have h1 := labels_first hw.1.1 hw.1.2.1 hr
    obtain ⟨j, hrl, hr⟩ := Rd_app.mp hr
    obtain ⟨h20, hr⟩ := (Rd_sm (by decide)).mp hr
    have h2 : cur k ≠ 40 := by omega
    refine Go.succ ?_
    simp only [cases]
    gst [h1]
    refine Go.bind (labels_go hw.1.1 hw.1.2.1 hrl h20) ?_
    gst [h20]
    refine Go.bind (goodSts b hw.1.2.2.1 hw.1.2.2.2 _ _ hr (by unfold FSt; omega) (by omega)) ?_
    gst [h2]
  | .none :: c :: cs, _, hw => fun i k hr hk => by
    rw [okCases] at hw; rw [yCases, sep_cons (by simp [yCases])] at hr
    simp only [yCase, List.nil_append] at hr
    obtain ⟨h40, hr⟩ := (Rd_sm (by decide)).mp hr
    refine Go.succ ?_
    simp only [cases]
    gst [h40]
    refine Go.bind (goodCases (c :: cs) (by simp) hw.2 _ _ hr hk) ?_
    gst []
  | .some ls b :: c :: cs, _, hw => fun i k hr hk => by
    rw [okCases, okCase] at hw; rw [yCases, sep_cons (by simp [yCases])] at hr
    simp only [yCase, List.append_assoc, List.cons_append] at hr
    have h1 := labels_first hw.1.1 hw.1.2.1 hr
    obtain ⟨j, hrl, hr⟩ := Rd_app.mp hr
    obtain ⟨h20, hr⟩ := (Rd_sm (by decide)).mp hr
    obtain ⟨j', hrb, hr⟩ := Rd_app.mp hr
    obtain ⟨h40, hr⟩ := (Rd_sm (by decide)).mp hr
    refine Go.succ ?_
    simp only [cases]
    gst [h1]
    refine Go.bind (labels_go hw.1.1 hw.1.2.1 hrl h20) ?_
    gst [h20]
    refine Go.bind (goodSts b hw.1.2.2.1 hw.1.2.2.2 _ _ hrb (by unfold FSt; omega) (by omega)) ?_
    gst [h40]
    refine Go.bind (goodCases (c :: cs) (by simp) hw.2 _ _ hr hk) ?_
    gst []
theorem goodGuards : ∀ gs : List Guard, gs ≠ [] → okGuards gs → ∀ i k, Rd (sep (sm 40) (yGuards gs)) i k → cur k = 41 ∨ cur k = 42 →
    Go guards i gs k
  | [], hn, _ => absurd rfl hn
  | [.mk v t b], _, hw => fun i k hr hk => by
    simp only [okGuards, okGuard] at hw; simp only [yGuards, yGuard, sep] at hr
    obtain ⟨j, hrg, hr⟩ := Rd_app.mp hr
    obtain ⟨h27, hr⟩ := (Rd_sm (by decide)).mp hr
    have h2 : cur k ≠ 40 := by omega
    refine Go.succ ?_
    simp only [guards]
    refine Go.bind (guard_go hrg) ?_
    gst [h27]
    refine Go.bind (goodSts b hw.1.1 hw.1.2 _ _ hr (by unfold FSt; omega) (by omega)) ?_
    gst [h2]
  | .mk v t b :: g :: gs, _, hw => fun i k hr hk => by
    rw [okGuards, okGuard] at hw; rw [yGuards, sep_cons (by simp [yGuards])] at hr
    simp only [yGuard] at hr
    rw [List.append_assoc] at hr
    obtain ⟨j, hrg, hr⟩ := Rd_app.mp hr
    simp only [List.cons_append] at hr
    obtain ⟨h27, hr⟩ := (Rd_sm (by decide)).mp hr
    obtain ⟨j', hrb, hr⟩ := Rd_app.mp hr
    obtain ⟨h40, hr⟩ := (Rd_sm (by decide)).mp hr
    refine Go.succ ?_
    simp only [guards]
    refine Go.bind (guard_go hrg) ?_
    gst [h27]
    refine Go.bind (goodSts b hw.1.1 hw.1.2 _ _ hrb (by unfold FSt; omega) (by omega)) ?_
    gst [h40]
    refine Go.bind (goodGuards (g :: gs) (by simp) hw.2 _ _ hr hk) ?_
    gst []
end

end Verif.Parse
