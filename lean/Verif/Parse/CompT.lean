import Verif.Parse.CompE

/-! # Every type is read -/
namespace Verif.Parse
open Verif.Scanner (Tok)

/-- What may follow a type. -/
def FT (k : List T) : Prop := 39 ≤ cur k ∧ cur k ≤ 42 ∨ cur k = 22 ∨ cur k = 64

theorem FT.f0 {k : List T} (h : FT k) : F0 k := by unfold FT at h; exact F0.of (by omega) (by omega) (by omega)

theorem flag_go {fl : Option Ex} (hw : okFlag fl) {i k : List T} (hr : Rd (yFlag fl) i k) (hk : cur k ≠ 31) :
    Go sysFlag i fl k := by
  cases fl with
  | none =>
    simp only [yFlag] at hr
    obtain rfl := Rd_nil.mp hr
    unfold sysFlag
    gst [hk]
  | some e =>
    simp only [yFlag, List.cons_append] at hr
    obtain ⟨hc, hr⟩ := (Rd_sm (by decide)).mp hr
    obtain ⟨j, hr1, hr⟩ := Rd_app.mp hr
    obtain ⟨hc', hr⟩ := (Rd_sm (by decide)).mp hr
    obtain rfl := Rd_nil.mp hr
    unfold sysFlag
    gst [hc]
    refine Go.bind ((good e hw).ce _ _ hr1 (F0.of (by omega) (by omega) (by omega))) ?_
    gst [hc']

theorem defn_go {d : Def} (hw : okDef d) {i k : List T} (hr : Rd (yDef d) i k) (hk : cur k ≠ 1) (hk' : cur k ≠ 7) :
    cur i = 38 ∧ Go (fun _ => defn) i d k := by
  obtain ⟨x, m⟩ := d
  cases m with
  | none =>
    simp only [yDef] at hr
    obtain ⟨hc, hx, hr⟩ := Rd_idn.mp hr
    obtain rfl := Rd_nil.mp hr
    refine ⟨hc, ?_⟩
    simp only [defn]
    gst [hx, hk, hk']
  | some m =>
    have hm : m = 1 ∨ m = 7 := by simpa [okDef] using hw
    simp only [yDef] at hr
    obtain ⟨hc, hx, hr⟩ := Rd_idn.mp hr
    obtain ⟨hm', hr⟩ := (Rd_sm (by unfold plainSym; omega)).mp hr
    obtain rfl := Rd_nil.mp hr
    refine ⟨hc, ?_⟩
    simp only [defn]
    gst [hx, hm', hm]

theorem defs_go {ds : List Def} (hn : ds ≠ []) (hw : ∀ d ∈ ds, okDef d) {i k : List T} (hr : Rd (sep (sm 19) (ds.map yDef)) i k)
    (hk : cur k = 20) : Go (fun f => commas defItem (fun s => s == 38) f) i ds k := by
  refine commas_go (item := fun _ => defItem) (Q := fun k => cur k ≠ 1 ∧ cur k ≠ 7) (fun k hk => by omega) ?_ hn hr (by omega) (by omega)
    (by rw [hk]; rfl)
  intro d hd i k hr hq
  obtain ⟨h38, h⟩ := defn_go (hw d hd) hr hq.1 hq.2
  simp only [defItem]
  gst [h38]
  exact h

theorem defs_first {ds : List Def} (hn : ds ≠ []) {i k : List T} {y : List Y} (hr : Rd (sep (sm 19) (ds.map yDef) ++ y) i k) :
    cur i = 38 := by
  obtain ⟨d, ds, rfl⟩ := List.exists_cons_of_ne_nil hn
  have : ∃ l, sep (sm 19) ((d :: ds).map yDef) ++ y = yDef d ++ l := by
    cases ds with
    | nil => exact ⟨y, rfl⟩
    | cons b ds => exact ⟨_, by simp only [List.map_cons, sep, List.append_assoc]; rfl⟩
  obtain ⟨l, hl⟩ := this
  rw [hl] at hr
  obtain ⟨j, hr, -⟩ := Rd_app.mp hr
  obtain ⟨x, m⟩ := d
  cases m with
  | none => exact (Rd_idn.mp hr).1
  | some m => exact (Rd_idn.mp hr).1

theorem parNames_go : ∀ {ns : List Name}, ns ≠ [] → ∀ {i k : List T}, Rd (sep (sm 19) (ns.map fun n => [idn n])) i k → cur k = 20 →
    Go parNames i ns k
  | [], hn, _, _, _, _ => absurd rfl hn
  | [x], _, i, k, hr, hk => by
    obtain ⟨hc, hx, hr⟩ := Rd_idn.mp hr
    obtain rfl := Rd_nil.mp hr
    refine Go.succ ?_
    simp only [parNames, nameItem]
    gst [hc, hx, hk]
  | x :: y :: ns, _, i, k, hr, hk => by
    simp only [List.map_cons, sep, List.cons_append, List.nil_append] at hr
    obtain ⟨hc, hx, hr⟩ := Rd_idn.mp hr
    obtain ⟨h19, hr⟩ := (Rd_sm (by decide)).mp hr
    refine Go.succ ?_
    simp only [parNames, nameItem]
    gst [hc, hx, h19]
    refine Go.bind (parNames_go (ns := y :: ns) (by simp) hr hk) ?_
    gst []

theorem resync_go {k : List T} (h : FT k) : Go resync k () k := by
  refine Go.succ ?_
  have h : (39 ≤ cur k ∧ cur k ≤ 42 ∨ cur k = 22 ∨ cur k = 64) := h
  simp only [resync]
  gst [h]

theorem result_go {r : Option Qual} {i k : List T} (hr : Rd (yRes r) i k) (hk : cur k ≠ 20) : Go (fun _ => result) i r k := by
  cases r with
  | none =>
    obtain rfl := Rd_nil.mp hr
    simp only [result]
    gst [hk]
  | some q =>
    simp only [yRes] at hr
    obtain ⟨hc, hr⟩ := (Rd_sm (by decide)).mp hr
    obtain ⟨h38, hq⟩ := Rd_qual hr
    simp only [result]
    gst [hc, h38]
    refine Go.bind (Go.const hq) ?_
    gst []

theorem varMark_go {v : Bool} {i k : List T} (hr : Rd (if v then [sm 60] else []) i k) (hk : cur k ≠ 60) :
    Go (fun _ => varMark) i v k := by
  cases v with
  | false =>
    obtain rfl := Rd_nil.mp hr
    simp only [varMark]
    gst [hk]
  | true =>
    obtain ⟨hc, hr⟩ := (Rd_sm (by decide)).mp hr
    obtain rfl := Rd_nil.mp hr
    simp only [varMark]
    gst [hc]

theorem names_first {ns : List Name} (hn : ns ≠ []) {i k : List T} {y : List Y}
    (hr : Rd (sep (sm 19) (ns.map fun n => [idn n]) ++ y) i k) : cur i = 38 := by
  obtain ⟨d, ns, rfl⟩ := List.exists_cons_of_ne_nil hn
  cases ns with
  | nil => exact (Rd_idn.mp hr).1
  | cons b ns => exact (Rd_idn.mp hr).1

/-- How a type begins. -/
theorem firstT {t : Ty} (hw : okTy t) {i k : List T} (hr : Rd (yTy t) i k) :
    cur i = 38 ∧ (∃ q, t = .name q) ∨ cur i = 54 ∨ cur i = 55 ∨ cur i = 56 ∨ cur i = 61 := by
  cases t with
  | name q => exact .inl ⟨(Rd_qual (by simpa only [yTy] using hr)).1, q, rfl⟩
  | array a =>
    simp only [yTy] at hr
    have := ((Rd_sm (by decide)).mp hr).1; omega
  | record fl b fs =>
    simp only [yTy, List.cons_append] at hr
    have := ((Rd_sm (by decide)).mp hr).1; omega
  | pointer fl t =>
    simp only [yTy, List.cons_append] at hr
    have := ((Rd_sm (by decide)).mp hr).1; omega
  | proc fl p =>
    cases p <;>
    · simp only [yTy, List.cons_append] at hr
      have := ((Rd_sm (by decide)).mp hr).1; omega
  | bad => simp only [okTy] at hw

theorem arr_first {a : Arr} (hw : okArr a) (ho : a.isOpen = false) {i k : List T} (hr : Rd (yArr a) i k) : cur i ≠ 25 := by
  have key : ∀ (fl : Option Ex) (n : Ex) (y : List Y), okFlag fl → okEx n → Rd (yFlag fl ++ yEx n ++ y) i k → cur i ≠ 25 := by
    intro fl n y hwf hwn hr
    rw [List.append_assoc] at hr
    cases fl with
    | none =>
      simp only [yFlag, List.nil_append] at hr
      obtain ⟨j, hr, -⟩ := Rd_app.mp hr
      have := first n hwn hr; omega
    | some e =>
      simp only [yFlag, List.cons_append] at hr
      have := ((Rd_sm (by decide)).mp hr).1; omega
  cases a with
  | opn fl t => cases ho
  | last fl n t =>
    simp only [okArr] at hw
    simp only [yArr] at hr
    exact key fl n _ hw.1 hw.2.1 hr
  | dim fl n a =>
    simp only [yArr] at hr
    cases a with
    | opn _ _ => simp only [okArr] at hw
    | bad => simp only [okArr] at hw; exact absurd hw.2.2 id
    | last _ _ _ =>
      rw [okArr] at hw
      exact key fl n _ hw.1 hw.2.1 hr
      simp
    | dim _ _ _ =>
      rw [okArr] at hw
      exact key fl n _ hw.1 hw.2.1 hr
      simp
  | bad => simp only [okArr] at hw

theorem okArr_dim_iff {fl : Option Ex} {n : Ex} {a : Arr} (h : okArr (.dim fl n a)) :
    a.isOpen = false ∧ okFlag fl ∧ okEx n ∧ okArr a := by
  cases a with
  | opn _ _ => simp only [okArr] at h
  | bad => simp only [okArr] at h; exact absurd h.2.2 id
  | last _ _ _ => rw [okArr] at h; exact ⟨rfl, h⟩; simp
  | dim _ _ _ => rw [okArr] at h; exact ⟨rfl, h⟩; simp

theorem fls_first {fs : List Fl} (hn : fs ≠ []) (hw : okFls fs) {i k : List T} {y : List Y}
    (hr : Rd (sep (sm 39) (yFls fs) ++ sm 41 :: y) i k) : cur i = 38 ∨ cur i = 39 ∨ cur i = 41 := by
  obtain ⟨g, fs, rfl⟩ := List.exists_cons_of_ne_nil hn
  simp only [okFls] at hw
  have : ∃ l, sep (sm 39) (yFls (g :: fs)) ++ sm 41 :: y = yFl g ++ l ∧ ∀ {j}, Rd l j k → cur j = 39 ∨ cur j = 41 := by
    cases fs with
    | nil => exact ⟨sm 41 :: y, rfl, fun h => .inr ((Rd_sm (by decide)).mp h).1⟩
    | cons b ds =>
      refine ⟨_, by simp only [yFls, sep, List.append_assoc]; rfl, fun h => .inl ?_⟩
      exact ((Rd_sm (by decide)).mp h).1
  obtain ⟨l, hl, hl'⟩ := this
  rw [hl] at hr
  cases g with
  | none =>
    simp only [yFl, List.nil_append] at hr
    have := hl' hr; omega
  | some ds t =>
    simp only [okFl] at hw
    simp only [yFl, List.append_assoc] at hr
    have := defs_first hw.1.1 hr; omega

mutual
theorem goodTy : ∀ t : Ty, okTy t → ∀ i k, Rd (yTy t) i k → FT k → Go type i t k
  | .name q, hw => fun i k hr hf => by
    simp only [yTy] at hr
    obtain ⟨hc, hq⟩ := Rd_qual hr
    refine Go.succ ?_
    simp only [type]
    gst [hc]
    refine Go.bind (Go.const hq) ?_
    gst []
    refine Go.bind (resync_go hf) ?_
    gst []
  | .array a, hw => fun i k hr hf => by
    simp only [okTy] at hw; simp only [yTy] at hr
    obtain ⟨hc, hr⟩ := (Rd_sm (by decide)).mp hr
    refine Go.succ ?_
    simp only [type]
    gst [hc]
    refine Go.bind (goodArr a hw _ _ hr hf) ?_
    gst []
    refine Go.bind (resync_go hf) ?_
    gst []
  | .record fl b fs, hw => fun i k hr hf => by
    simp only [okTy] at hw; simp only [yTy, List.cons_append, List.append_assoc] at hr
    obtain ⟨hc, hr⟩ := (Rd_sm (by decide)).mp hr
    obtain ⟨j, hrf, hr⟩ := Rd_app.mp hr
    obtain ⟨j1, hrb, hr⟩ := Rd_app.mp hr
    have h1 := fls_first hw.2.1 hw.2.2 hr
    obtain ⟨j2, hrs, hr⟩ := Rd_app.mp hr
    obtain ⟨h41, hr⟩ := (Rd_sm (by decide)).mp hr
    obtain rfl := Rd_nil.mp hr
    refine Go.succ ?_
    simp only [type]
    gst [hc]
    refine Go.bind (a := Ty.record fl b fs) (j := j2) ?_ ?_
    · refine Go.succ ?_
      simp only [record]
      cases b with
      | none =>
        obtain rfl := Rd_nil.mp hrb
        have h30 : cur j ≠ 30 := by omega
        refine Go.bind (flag_go hw.1 hrf (by omega)) ?_
        gst [h30]
        refine Go.bind (goodFls fs hw.2.1 hw.2.2 _ _ hrs h41) ?_
        gst []
      | some q =>
        simp only [yBase, List.cons_append] at hrb
        obtain ⟨h30, hrb⟩ := (Rd_sm (by decide)).mp hrb
        obtain ⟨j3, hq, hrb⟩ := Rd_app.mp hrb
        obtain ⟨h22, hrb⟩ := (Rd_sm (by decide)).mp hrb
        obtain rfl := Rd_nil.mp hrb
        obtain ⟨h38, hq⟩ := Rd_qual hq
        refine Go.bind (flag_go hw.1 hrf (by omega)) ?_
        gst [h30, h38]
        refine Go.bind (Go.const hq) ?_
        gst [h22]
        refine Go.bind (goodFls fs hw.2.1 hw.2.2 _ _ hrs h41) ?_
        gst []
    · gst [h41]
      refine Go.bind (resync_go hf) ?_
      gst []
  | .pointer fl t, hw => fun i k hr hf => by
    simp only [okTy] at hw; simp only [yTy, List.cons_append, List.append_assoc] at hr
    obtain ⟨hc, hr⟩ := (Rd_sm (by decide)).mp hr
    obtain ⟨j, hrf, hr⟩ := Rd_app.mp hr
    obtain ⟨h28, hr⟩ := (Rd_sm (by decide)).mp hr
    refine Go.succ ?_
    simp only [type]
    gst [hc]
    refine Go.bind (a := Ty.pointer fl t) (j := k) ?_ ?_
    · refine Go.succ ?_
      simp only [pointer]
      refine Go.bind (flag_go hw.1 hrf (by omega)) ?_
      by_cases ht : ∃ q, t = .name q
      · obtain ⟨q, rfl⟩ := ht
        simp only [yTy] at hr
        obtain ⟨h38, hq⟩ := Rd_qual hr
        gst [h28, h38]
        refine Go.bind (Go.const hq) ?_
        gst []
      · have h1 := firstT hw.2 hr
        have h38 : cur j.tail ≠ 38 := by
          rcases h1 with h1 | h1
          · exact absurd h1.2 ht
          · omega
        gst [h28, h38]
        refine Go.bind (goodTy t hw.2 _ _ hr hf) ?_
        gst []
    · refine Go.bind (resync_go hf) ?_
      gst []
  | .proc fl none, hw => fun i k hr hf => by
    simp only [okTy] at hw; simp only [yTy] at hr
    obtain ⟨hc, hr⟩ := (Rd_sm (by decide)).mp hr
    refine Go.succ ?_
    simp only [type]
    gst [hc]
    refine Go.bind (flag_go hw hr (by unfold FT at hf; omega)) ?_
    have h30 : cur k ≠ 30 := by unfold FT at hf; omega
    gst [h30]
    refine Go.bind (resync_go hf) ?_
    gst []
  | .proc fl (some p), hw => fun i k hr hf => by
    simp only [okTy] at hw; simp only [yTy, List.cons_append] at hr
    obtain ⟨hc, hr⟩ := (Rd_sm (by decide)).mp hr
    obtain ⟨j, hrf, hr⟩ := Rd_app.mp hr
    obtain ⟨h30, hp⟩ := goodPars p hw.2 _ _ hr (by unfold FT at hf; omega)
    refine Go.succ ?_
    simp only [type]
    gst [hc]
    refine Go.bind (flag_go hw.1 hrf (by omega)) ?_
    gst [h30]
    refine Go.bind hp ?_
    gst []
    refine Go.bind (resync_go hf) ?_
    gst []
  | .bad, hw => by simp only [okTy] at hw
theorem goodArr : ∀ a : Arr, okArr a → ∀ i k, Rd (yArr a) i k → FT k → Go array i a k
  | .opn fl t, hw => fun i k hr hf => by
    simp only [okArr] at hw; simp only [yArr] at hr
    obtain ⟨j, hrf, hr⟩ := Rd_app.mp hr
    obtain ⟨h25, hr⟩ := (Rd_sm (by decide)).mp hr
    refine Go.succ ?_
    simp only [array]
    refine Go.bind (flag_go hw.1 hrf (by omega)) ?_
    gst [h25]
    refine Go.bind (goodTy t hw.2 _ _ hr hf) ?_
    gst []
  | .last fl n t, hw => fun i k hr hf => by
    simp only [okArr] at hw; simp only [yArr, List.append_assoc] at hr
    obtain ⟨j, hrf, hr⟩ := Rd_app.mp hr
    obtain ⟨j', hrn, hr⟩ := Rd_app.mp hr
    obtain ⟨h25, hr⟩ := (Rd_sm (by decide)).mp hr
    have h1 := first n hw.2.1 hrn
    have h2 : cur j ≠ 25 := by omega
    refine Go.succ ?_
    simp only [array]
    refine Go.bind (flag_go hw.1 hrf (by omega)) ?_
    gst [h2]
    refine Go.bind ((good n hw.2.1).ce _ _ hrn (F0.of (by omega) (by omega) (by omega))) ?_
    gst [h25]
    refine Go.bind (goodTy t hw.2.2 _ _ hr hf) ?_
    gst []
  | .dim fl n a, hw => fun i k hr hf => by
    obtain ⟨ho, hwf, hwn, hwa⟩ := okArr_dim_iff hw
    simp only [yArr, List.append_assoc] at hr
    obtain ⟨j, hrf, hr⟩ := Rd_app.mp hr
    obtain ⟨j', hrn, hr⟩ := Rd_app.mp hr
    obtain ⟨h19, hr⟩ := (Rd_sm (by decide)).mp hr
    have h1 := first n hwn hrn
    have h2 : cur j ≠ 25 := by omega
    have h3 := arr_first hwa ho hr
    refine Go.succ ?_
    simp only [array]
    refine Go.bind (flag_go hwf hrf (by omega)) ?_
    gst [h2]
    refine Go.bind ((good n hwn).ce _ _ hrn (F0.of (by omega) (by omega) (by omega))) ?_
    gst [h19, h3]
    refine Go.bind (goodArr a hwa _ _ hr hf) ?_
    gst [ho, Bool.false_eq_true]
  | .bad, hw => by simp only [okArr] at hw
theorem goodFls : ∀ fs : List Fl, fs ≠ [] → okFls fs → ∀ i k, Rd (sep (sm 39) (yFls fs)) i k → cur k = 41 → Go fields i fs k
  | [], hn, _ => absurd rfl hn
  | [g], _, hw => fun i k hr hk => by
    simp only [okFls] at hw; simp only [yFls, sep] at hr
    refine Go.succ ?_
    simp only [fields]
    cases g with
    | none =>
      simp only [yFl] at hr
      obtain rfl := Rd_nil.mp hr
      gst [hk]
    | some ds t =>
      simp only [okFl] at hw; simp only [yFl] at hr
      have h38 := defs_first hw.1.1 hr
      obtain ⟨j, hrd, hr⟩ := Rd_app.mp hr
      obtain ⟨h20, hr⟩ := (Rd_sm (by decide)).mp hr
      gst [h38]
      refine Go.bind (defs_go hw.1.1 hw.1.2.1 hrd h20) ?_
      gst [h20]
      refine Go.bind (goodTy t hw.1.2.2 _ _ hr (by unfold FT; omega)) ?_
      gst [hk]
  | g :: g' :: fs, _, hw => fun i k hr hk => by
    rw [okFls] at hw; rw [yFls, sep_cons (by simp [yFls])] at hr
    refine Go.succ ?_
    simp only [fields]
    cases g with
    | none =>
      simp only [yFl, List.nil_append] at hr
      obtain ⟨h39, hr⟩ := (Rd_sm (by decide)).mp hr
      gst [h39]
      refine Go.bind (goodFls (g' :: fs) (by simp) hw.2 _ _ hr hk) ?_
      gst []
    | some ds t =>
      simp only [okFl] at hw; simp only [yFl, List.append_assoc, List.cons_append] at hr
      have h38 := defs_first hw.1.1 hr
      obtain ⟨j, hrd, hr⟩ := Rd_app.mp hr
      obtain ⟨h20, hr⟩ := (Rd_sm (by decide)).mp hr
      obtain ⟨j', hrt, hr⟩ := Rd_app.mp hr
      obtain ⟨h39, hr⟩ := (Rd_sm (by decide)).mp hr
      gst [h38]
      refine Go.bind (defs_go hw.1.1 hw.1.2.1 hrd h20) ?_
      gst [h20]
      refine Go.bind (goodTy t hw.1.2.2 _ _ hrt (by unfold FT; omega)) ?_
      gst [h39]
      refine Go.bind (goodFls (g' :: fs) (by simp) hw.2 _ _ hr hk) ?_
      gst []
theorem goodPars : ∀ p : Pars, okPars p → ∀ i k, Rd (yPars p) i k → cur k ≠ 20 → cur i = 30 ∧ Go pars i.tail p k
  | .mk ps r, hw => fun i k hr hk => by
    simp only [okPars] at hw; simp only [yPars, List.cons_append] at hr
    obtain ⟨h30, hr⟩ := (Rd_sm (by decide)).mp hr
    obtain ⟨j, hrs, hr⟩ := Rd_app.mp hr
    obtain ⟨h22, hr2⟩ := (Rd_sm (by decide)).mp hr
    refine ⟨h30, Go.succ ?_⟩
    simp only [pars]
    by_cases hn : ps = []
    · subst hn
      simp only [ySecs, sep] at hrs
      have hj := Rd_nil.mp hrs
      rw [hj]
      gst [h22]
      refine Go.bind (result_go hr2 hk) ?_
      gst []
    · obtain ⟨h1, h2⟩ := goodSecs ps hn hw _ _ hrs h22
      have h1 : (cur i.tail = 38 ∨ cur i.tail = 60) := h1
      gst [h1]
      refine Go.bind h2 ?_
      gst [h22]
      refine Go.bind (result_go hr2 hk) ?_
      gst []
theorem goodSecs : ∀ ps : List Sec, ps ≠ [] → okSecs ps → ∀ i k, Rd (sep (sm 39) (ySecs ps)) i k → cur k = 22 →
    (cur i = 38 ∨ cur i = 60) ∧ Go secs i ps k
  | [], hn, _ => absurd rfl hn
  | [.mk v ns t], _, hw => fun i k hr hk => by
    simp only [okSecs, okSec] at hw; simp only [ySecs, ySec, sep, List.append_assoc] at hr
    obtain ⟨j, hrv, hr⟩ := Rd_app.mp hr
    have h38 := names_first hw.1.1 hr
    obtain ⟨j', hrn, hr⟩ := Rd_app.mp hr
    obtain ⟨h20, hr⟩ := (Rd_sm (by decide)).mp hr
    refine ⟨?_, Go.succ ?_⟩
    · cases v with
      | false => obtain rfl := Rd_nil.mp hrv; exact .inl h38
      | true => exact .inr ((Rd_sm (by decide)).mp hrv).1
    · simp only [secs]
      refine Go.bind (varMark_go hrv (by omega)) (Go.bind (parNames_go hw.1.1 hrn h20) ?_)
      gst [h20]
      refine Go.bind (goodTy t hw.1.2 _ _ hr (by unfold FT; omega)) ?_
      gst [hk]
  | .mk v ns t :: q :: ps, _, hw => fun i k hr hk => by
    rw [okSecs, okSec] at hw; rw [ySecs, sep_cons (by simp [ySecs])] at hr
    simp only [ySec, List.append_assoc, List.cons_append] at hr
    obtain ⟨j, hrv, hr⟩ := Rd_app.mp hr
    have h38 := names_first hw.1.1 hr
    obtain ⟨j', hrn, hr⟩ := Rd_app.mp hr
    obtain ⟨h20, hr⟩ := (Rd_sm (by decide)).mp hr
    obtain ⟨j2, hrt, hr⟩ := Rd_app.mp hr
    obtain ⟨h39, hr⟩ := (Rd_sm (by decide)).mp hr
    refine ⟨?_, Go.succ ?_⟩
    · cases v with
      | false => obtain rfl := Rd_nil.mp hrv; exact .inl h38
      | true => exact .inr ((Rd_sm (by decide)).mp hrv).1
    · simp only [secs]
      refine Go.bind (varMark_go hrv (by omega)) (Go.bind (parNames_go hw.1.1 hrn h20) ?_)
      gst [h20]
      refine Go.bind (goodTy t hw.1.2 _ _ hrt (by unfold FT; omega)) ?_
      gst [h39]
      refine Go.bind (goodSecs (q :: ps) (by simp) hw.2 _ _ hr hk).2 ?_
      gst []
end

end Verif.Parse
