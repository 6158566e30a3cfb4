import Verif.Parse.Go

/-! # Every expression is read -/
namespace Verif.Parse
open Verif.Scanner (Tok)

/-- What may follow a factor, a term, a simple expression and an expression. -/
def F3 (k : List T) : Prop := cur k ≠ 17 ∧ cur k ≠ 18 ∧ cur k ≠ 30 ∧ cur k ≠ 31
@[inherit_doc F3]
def F2 (k : List T) : Prop := F3 k ∧ ¬ (1 ≤ cur k ∧ cur k ≤ 5)
@[inherit_doc F3]
def F0 (k : List T) : Prop := F2 k ∧ ¬ (6 ≤ cur k ∧ cur k ≤ 16)
/-- What may follow the parts of a designator. -/
def FS (k : List T) : Prop := cur k ≠ 17 ∧ cur k ≠ 18 ∧ cur k ≠ 31 ∧ (cur k = 30 → bit k = false)

theorem F0.of {k : List T} (h : 19 ≤ cur k) (h' : cur k ≠ 30) (h'' : cur k ≠ 31) : F0 k := by
  unfold F0 F2 F3; omega

theorem F3.fs {k : List T} (h : F3 k) : FS k := ⟨h.1, h.2.1, h.2.2.2, fun hk => absurd hk h.2.2.1⟩

/-- How an expression begins. -/
theorem first : ∀ (e : Ex) {i k : List T}, okEx e → Rd (yEx e) i k →
    (cur i = 30 ∨ cur i = 32 ∨ cur i = 33 ∨ 35 ≤ cur i ∧ cur i ≤ 38) ∨ lev e ≤ 1 ∧ (cur i = 6 ∨ cur i = 7)
  | .lit t, i, k, hw, h => by
    simp only [okEx] at hw; simp only [yEx] at h
    have := (Rd_lit hw h).1; omega
  | .nil, i, k, hw, h => by
    simp only [yEx] at h
    have := ((Rd_sm (by decide)).mp h).1; omega
  | .set es, i, k, hw, h => by
    simp only [yEx, List.cons_append] at h
    have := ((Rd_sm (by decide)).mp h).1; omega
  | .des q ss, i, k, hw, h => by
    simp only [yEx, Rd_app] at h
    obtain ⟨j, h, -⟩ := h
    have := (Rd_qual h).1; omega
  | .call q ss as, i, k, hw, h => by
    simp only [yEx, List.append_assoc] at h
    obtain ⟨j, h, -⟩ := Rd_app.mp h
    have := (Rd_qual h).1; omega
  | .paren e, i, k, hw, h => by
    simp only [yEx, List.cons_append] at h
    have := ((Rd_sm (by decide)).mp h).1; omega
  | .not e, i, k, hw, h => by
    simp only [yEx] at h
    have := ((Rd_sm (by decide)).mp h).1; omega
  | .sign o e, i, k, hw, h => by
    simp only [okEx] at hw
    simp only [yEx] at h
    have := ((Rd_sm (by unfold plainSym; omega)).mp h).1
    exact .inr ⟨by simp [lev], by omega⟩
  | .bin o l r, i, k, hw, h => by
    simp only [okEx] at hw
    simp only [yEx] at h
    obtain ⟨j, h, -⟩ := Rd_app.mp h
    have := first l hw.1 h
    simp only [lev]
    split
    · omega
    · split
      · omega
      · omega
  | .isT e q, i, k, hw, h => by
    simp only [okEx] at hw
    simp only [yEx] at h
    obtain ⟨j, h, -⟩ := Rd_app.mp h
    have := first e hw.1 h
    simp only [lev]
    omega
  | .bad, i, k, hw, h => by simp only [okEx] at hw

/-- What is proved of an expression. -/
def CE (e : Ex) : Prop := ∀ i k, Rd (yEx e) i k → F0 k → Go expression i e k
@[inherit_doc CE]
def CS (e : Ex) : Prop := ∀ i j, Rd (yEx e) i j → F2 j → ∀ a k, Go (fun f => adds f e) j a k → Go simple i a k
@[inherit_doc CE]
def CT (e : Ex) : Prop := ∀ i j, Rd (yEx e) i j → F3 j → ∀ a k, Go (fun f => muls f e) j a k → Go term i a k
@[inherit_doc CE]
def CF (e : Ex) : Prop := ∀ i k, Rd (yEx e) i k → F3 k → Go factor i e k

theorem ct_of_cf {e : Ex} (h : CF e) : CT e := by
  intro i j hr hf a k hm
  refine Go.succ ?_
  simp only [term]
  exact Go.bind (h i j hr hf) hm

theorem muls_end {e : Ex} {k : List T} (h : ¬ (1 ≤ cur k ∧ cur k ≤ 5)) : Go (fun f => muls f e) k e k := by
  refine Go.succ ?_
  simp only [muls]
  gst [h]

theorem adds_end {e : Ex} {k : List T} (h : ¬ (6 ≤ cur k ∧ cur k ≤ 8)) : Go (fun f => adds f e) k e k := by
  refine Go.succ ?_
  simp only [adds]
  gst [h]

theorem cs_of_ct {e : Ex} (hw : okEx e) (hl : 2 ≤ lev e) (h : CT e) : CS e := by
  intro i j hr hf a k hm
  refine Go.succ ?_
  have h1 := first e hw hr
  have h2 : ¬ (cur i = 7 ∨ cur i = 6) := by omega
  simp only [simple]
  gst [h2]
  exact Go.bind (h i j hr hf.1 e j (muls_end hf.2)) hm

theorem ce_of_cs {e : Ex} (h : CS e) : CE e := by
  intro i k hr hf
  refine Go.succ ?_
  simp only [expression]
  refine Go.bind (h i k hr hf.1 e k (adds_end ?_)) ?_
  · have := hf.2; omega
  · have h1 : ¬ (9 ≤ cur k ∧ cur k ≤ 15) := by have := hf.2; omega
    have h2 : cur k ≠ 16 := by have := hf.2; omega
    gst [h1, h2]

structure Good (e : Ex) : Prop where
  ce : CE e
  cs : 1 ≤ lev e → CS e
  ct : 2 ≤ lev e → CT e
  cf : lev e = 3 → CF e

theorem good3 {e : Ex} (hw : okEx e) (hl : lev e = 3) (h : CF e) : Good e :=
  have ct := ct_of_cf h
  have cs := cs_of_ct hw (by omega) ct
  ⟨ce_of_cs cs, fun _ => cs, fun _ => ct, fun _ => h⟩

theorem good2 {e : Ex} (hw : okEx e) (hl : lev e = 2) (h : CT e) : Good e :=
  have cs := cs_of_ct hw (by omega) h
  ⟨ce_of_cs cs, fun _ => cs, fun _ => h, fun h => by omega⟩

theorem good1 {e : Ex} (hl : lev e = 1) (h : CS e) : Good e :=
  ⟨ce_of_cs h, fun _ => h, fun h => by omega, fun h => by omega⟩

theorem good0 {e : Ex} (hl : lev e = 0) (h : CE e) : Good e := ⟨h, fun h => by omega, fun h => by omega, fun h => by omega⟩

theorem Good.simple {e : Ex} (h : Good e) (hl : 1 ≤ lev e) {i k : List T} (hr : Rd (yEx e) i k) (hf : F2 k)
    (hk : ¬ (6 ≤ cur k ∧ cur k ≤ 8)) : Go simple i e k := h.cs hl i k hr hf e k (adds_end hk)

theorem Good.term {e : Ex} (h : Good e) (hl : 2 ≤ lev e) {i k : List T} (hr : Rd (yEx e) i k) (hf : F2 k) : Go term i e k :=
  h.ct hl i k hr hf.1 e k (muls_end hf.2)

/-- Lists. -/
theorem commas_go {α : Type} {item : Nat → P α} {again : Nat → Bool} {y : α → List Y} {Q : List T → Prop}
    (hQ : ∀ k, cur k = 19 → Q k) : ∀ {as : List α}, (∀ a ∈ as, ∀ i k, Rd (y a) i k → Q k → Go item i a k) → as ≠ [] →
    ∀ {i k : List T}, Rd (sep (sm 19) (as.map y)) i k → Q k → cur k ≠ 19 → again (cur k) = false →
    Go (fun f => commas (item f) again f) i as k := by
  intro as hi hn i k hr hq h19 hag
  suffices H : ∃ F, ∀ f, F ≤ f → ∀ g, F ≤ g → commas (item f) again g i = some (as, k, []) by
    obtain ⟨F, hF⟩ := H
    exact ⟨F, fun f hf => hF f hf f hf⟩
  induction as generalizing i with
  | nil => exact absurd rfl hn
  | cons a as ih =>
    by_cases has : as = []
    · subst has
      obtain ⟨F, hF⟩ := hi a (by simp) i k hr hq
      refine ⟨F + 1, fun f hf g hg => ?_⟩
      obtain ⟨g, rfl⟩ : ∃ g', g = g' + 1 := ⟨g - 1, by omega⟩
      simp only [commas]
      refine bind_ok.mpr ⟨a, k, hF f (by omega), ?_⟩
      simp only [sy_b, h19, hag, if_false, pure_ok]
      simp [pure_ok]
    · rw [List.map_cons, sep_cons (by simpa using has)] at hr
      obtain ⟨j, hr1, hr2⟩ := Rd_app.mp hr
      obtain ⟨hc, hr2⟩ := (Rd_sm (by decide)).mp hr2
      obtain ⟨F, hF⟩ := hi a (by simp) i j hr1 (hQ j hc)
      obtain ⟨G, hG⟩ := ih (fun b hb => hi b (List.mem_cons_of_mem _ hb)) has hr2
      refine ⟨max F G + 1, fun f hf g hg => ?_⟩
      obtain ⟨g, rfl⟩ : ∃ g', g = g' + 1 := ⟨g - 1, by omega⟩
      simp only [commas]
      refine bind_ok.mpr ⟨a, j, hF f (by omega), ?_⟩
      simp only [sy_b, hc, if_true, get_b]
      refine bind_ok.mpr ⟨as, k, hG f (by omega) g (by omega), ?_⟩
      simp [pure_ok]

/-- What is proved of the parts of expressions. -/
def GoodEl (e : El) : Prop := ∀ i k, Rd (yEl e) i k → F0 k → cur k ≠ 21 → Go element i e k
@[inherit_doc GoodEl]
def GoodSels (ss : List Sel) : Prop := ∀ i k, Rd (ySels ss).flatten i k → FS k → Go selector i ss k

theorem actuals_go {as : List Ex} (hw : okExs as) (h : ∀ e ∈ as, Good e) {i k : List T} (hr : Rd (sep (sm 19) (yExs as)) i k)
    (hk : cur k = 22) : Go actuals i as k := by
  refine Go.succ ?_
  simp only [actuals]
  by_cases has : as = []
  · subst has
    simp only [yExs, sep] at hr
    obtain rfl := Rd_nil.mp hr
    gst [hk]
  · have h1 : cur i ≠ 22 := by
      obtain ⟨a, as, rfl⟩ := List.exists_cons_of_ne_nil has
      simp only [okExs] at hw
      have : ∃ j, Rd (yEx a) i j := by
        cases as with
        | nil => exact ⟨_, hr⟩
        | cons b as =>
          simp only [yExs, sep] at hr
          obtain ⟨j, hr, -⟩ := Rd_app.mp hr
          exact ⟨j, hr⟩
      obtain ⟨j, hj⟩ := this
      have := first a hw.1 hj
      omega
    gst [h1]
    rw [yExs_map] at hr
    refine commas_go (Q := F0) ?_ (fun a ha => (h a ha).ce) has hr ?_ ?_ ?_
    · intro k hk; exact F0.of (by omega) (by omega) (by omega)
    · exact F0.of (by omega) (by omega) (by omega)
    · omega
    · rw [hk]; rfl

theorem sets_go {as : List El} (hw : okEls as) (h : ∀ e ∈ as, GoodEl e) {i k : List T} (hr : Rd (sep (sm 19) (yEls as)) i k)
    (hk : cur k = 24) : Go sets i as k := by
  refine Go.succ ?_
  simp only [sets]
  by_cases has : as = []
  · subst has
    simp only [yEls, sep] at hr
    obtain rfl := Rd_nil.mp hr
    gst [hk]
  · have h1 : cur i ≠ 24 := by
      obtain ⟨a, as, rfl⟩ := List.exists_cons_of_ne_nil has
      simp only [okEls] at hw
      have : ∃ j, Rd (yEl a) i j := by
        cases as with
        | nil => exact ⟨_, hr⟩
        | cons b as =>
          simp only [yEls, sep] at hr
          obtain ⟨j, hr, -⟩ := Rd_app.mp hr
          exact ⟨j, hr⟩
      obtain ⟨j, hj⟩ := this
      cases a with
      | one e =>
        have := first e (by simpa only [okEl] using hw.1) (by simpa only [yEl] using hj)
        omega
      | range a b =>
        simp only [yEl] at hj
        obtain ⟨j', hj, -⟩ := Rd_app.mp hj
        simp only [okEl] at hw
        have := first a hw.1.1 hj
        omega
    gst [h1]
    rw [yEls_map] at hr
    refine commas_go (Q := fun k => F0 k ∧ cur k ≠ 21) ?_ (fun a ha i k hr hq => h a ha i k hr hq.1 hq.2) has hr ?_ ?_ ?_
    · intro k hk; exact ⟨F0.of (by omega) (by omega) (by omega), by omega⟩
    · exact ⟨F0.of (by omega) (by omega) (by omega), by omega⟩
    · omega
    · rw [hk]; rfl

theorem sel_nil {k : List T} (h : FS k) : Go selector k [] k := by
  refine Go.succ ?_
  simp only [selector]
  obtain ⟨h1, h2, h3, h4⟩ := h
  have h5 : ¬ (cur k = 30 ∧ bit k = true) := fun ⟨h, h'⟩ => by rw [h4 h] at h'; cases h'
  gst [h1, h2, h3, h5]

mutual
theorem good : ∀ e : Ex, okEx e → Good e
  | .lit t, hw => good3 hw rfl fun i k hr hf => by
    simp only [okEx] at hw; simp only [yEx] at hr
    obtain ⟨hc, ht, hr⟩ := Rd_lit hw hr
    obtain rfl := Rd_nil.mp hr
    refine Go.succ ?_
    simp only [factor]
    rcases hc with hc | hc <;> gst [hc, ht]
  | .nil, hw => good3 hw rfl fun i k hr hf => by
    simp only [yEx] at hr
    obtain ⟨hc, hr⟩ := (Rd_sm (by decide)).mp hr
    obtain rfl := Rd_nil.mp hr
    refine Go.succ ?_
    simp only [factor]
    gst [hc]
  | .set es, hw => good3 hw rfl fun i k hr hf => by
    simp only [okEx] at hw; simp only [yEx, List.cons_append] at hr
    obtain ⟨hc, hr⟩ := (Rd_sm (by decide)).mp hr
    obtain ⟨j, hr1, hr'⟩ := Rd_app.mp hr
    obtain ⟨hc', hr'⟩ := (Rd_sm (by decide)).mp hr'
    obtain rfl := Rd_nil.mp hr'
    refine Go.succ ?_
    simp only [factor]
    gst [hc]
    refine Go.bind (sets_go hw (goodEls es hw) hr1 hc') ?_
    gst [hc']
  | .des q ss, hw => good3 hw rfl fun i k hr hf => by
    simp only [okEx] at hw; simp only [yEx] at hr
    obtain ⟨j, hq, hr⟩ := Rd_app.mp hr
    obtain ⟨hc, hq⟩ := Rd_qual hq
    refine Go.succ ?_
    simp only [factor]
    gst [hc]
    refine Go.bind (Go.const hq) (Go.bind (goodSels ss hw _ _ hr hf.fs) ?_)
    have := hf.2.2.1
    gst [this]
  | .call q ss as, hw => good3 hw rfl fun i k hr hf => by
    simp only [okEx] at hw; simp only [yEx, List.append_assoc, List.cons_append] at hr
    obtain ⟨j, hq, hr⟩ := Rd_app.mp hr
    obtain ⟨hc, hq⟩ := Rd_qual hq
    obtain ⟨j', hs, hr⟩ := Rd_app.mp hr
    obtain ⟨h30, hb, hr⟩ := (Rd_smv (by decide)).mp hr
    obtain ⟨j2, ha, hr⟩ := Rd_app.mp hr
    obtain ⟨h22, hr⟩ := (Rd_sm (by decide)).mp hr
    obtain rfl := Rd_nil.mp hr
    refine Go.succ ?_
    simp only [factor]
    gst [hc]
    refine Go.bind (Go.const hq) (Go.bind (goodSels ss hw.1 _ _ hs ⟨by omega, by omega, by omega, fun _ => hb⟩) ?_)
    gst [h30]
    refine Go.bind (actuals_go hw.2 (goodExs as hw.2) ha h22) ?_
    gst [h22]
  | .paren e, hw => good3 hw rfl fun i k hr hf => by
    simp only [okEx] at hw; simp only [yEx, List.cons_append] at hr
    obtain ⟨hc, hr⟩ := (Rd_sm (by decide)).mp hr
    obtain ⟨j, hr1, hr'⟩ := Rd_app.mp hr
    obtain ⟨hc', hr'⟩ := (Rd_sm (by decide)).mp hr'
    obtain rfl := Rd_nil.mp hr'
    refine Go.succ ?_
    simp only [factor]
    gst [hc]
    refine Go.bind ((good e hw).ce _ _ hr1 (F0.of (by omega) (by omega) (by omega))) ?_
    gst [hc']
  | .not e, hw => good3 hw rfl fun i k hr hf => by
    simp only [okEx] at hw; simp only [yEx] at hr
    obtain ⟨hc, hr⟩ := (Rd_sm (by decide)).mp hr
    refine Go.succ ?_
    simp only [factor]
    gst [hc]
    refine Go.bind ((good e hw.1).cf hw.2 _ _ hr hf) ?_
    gst []
  | .sign o e, hw => good1 rfl fun i j hr hf a k hm => by
    simp only [okEx] at hw; simp only [yEx] at hr
    obtain ⟨ho, hwe, hl⟩ := hw
    obtain ⟨hc, hr⟩ := (Rd_sm (by unfold plainSym; omega)).mp hr
    refine Go.succ ?_
    simp only [simple]
    have h1 : (o = 7 ∨ o = 6) := by omega
    gst [hc, h1]
    exact Go.bind ((good e hwe).term hl hr hf) hm
  | .bin o l r, hw => by
    simp only [okEx] at hw
    obtain ⟨hwl, hwr, h | h | h⟩ := hw
    · obtain ⟨h9, h15, hl, hr⟩ := h
      refine good0 (by simp only [lev]; rw [if_pos h9]) fun i k hrd hf => ?_
      simp only [yEx] at hrd
      obtain ⟨j, hr1, hr2⟩ := Rd_app.mp hrd
      obtain ⟨hc, hr2⟩ := (Rd_sm (by unfold plainSym; omega)).mp hr2
      refine Go.succ ?_
      simp only [expression]
      refine Go.bind ((good l hwl).simple hl hr1 (by unfold F2 F3; omega) (by omega)) ?_
      gst [hc, h9, h15]
      refine Go.bind ((good r hwr).simple hr hr2 hf.1 ?_) ?_
      · have := hf.2; omega
      · gst []
    · obtain ⟨h6, h8, hl, hr⟩ := h
      refine good1 (by simp only [lev]; rw [if_neg (by omega), if_pos h6]) fun i k hrd hf a m hm => ?_
      simp only [yEx] at hrd
      obtain ⟨j, hr1, hr2⟩ := Rd_app.mp hrd
      obtain ⟨hc, hr2⟩ := (Rd_sm (by unfold plainSym; omega)).mp hr2
      refine (good l hwl).cs hl _ _ hr1 (by unfold F2 F3; omega) _ _ ?_
      refine Go.succ ?_
      simp only [adds]
      gst [hc, h6, h8]
      exact Go.bind ((good r hwr).term hr hr2 hf) hm
    · obtain ⟨h1, h5, hl, hr⟩ := h
      refine good2 (by simp only [okEx]; exact ⟨hwl, hwr, by omega⟩)
        (by simp only [lev]; rw [if_neg (by omega), if_neg (by omega)]) fun i k hrd hf a m hm => ?_
      simp only [yEx] at hrd
      obtain ⟨j, hr1, hr2⟩ := Rd_app.mp hrd
      obtain ⟨hc, hr2⟩ := (Rd_sm (by unfold plainSym; omega)).mp hr2
      refine (good l hwl).ct hl _ _ hr1 (by unfold F3; omega) _ _ ?_
      refine Go.succ ?_
      simp only [muls]
      gst [hc, h1, h5]
      exact Go.bind ((good r hwr).cf (by have := lev_le r; omega) _ _ hr2 hf) hm
  | .isT e q, hw => good0 rfl fun i k hr hf => by
    simp only [okEx] at hw; simp only [yEx] at hr
    obtain ⟨j, hr1, hr2⟩ := Rd_app.mp hr
    obtain ⟨hc, hr2⟩ := (Rd_sm (by decide)).mp hr2
    obtain ⟨hc', hq⟩ := Rd_qual hr2
    refine Go.succ ?_
    simp only [expression]
    refine Go.bind ((good e hw.1).simple hw.2 hr1 (by unfold F2 F3; omega) (by omega)) ?_
    gst [hc, hc']
    refine Go.bind (Go.const hq) ?_
    gst []
  | .bad, hw => by simp only [okEx] at hw
theorem goodEl : ∀ e : El, okEl e → GoodEl e
  | .one e, hw => fun i k hr hf hk => by
    simp only [okEl] at hw; simp only [yEl] at hr
    refine Go.succ ?_
    simp only [element]
    refine Go.bind ((good e hw).ce _ _ hr hf) ?_
    gst [hk]
  | .range a b, hw => fun i k hr hf hk => by
    simp only [okEl] at hw; simp only [yEl] at hr
    obtain ⟨j, hr1, hr2⟩ := Rd_app.mp hr
    obtain ⟨hc, hr2⟩ := (Rd_sm (by decide)).mp hr2
    refine Go.succ ?_
    simp only [element]
    refine Go.bind ((good a hw.1).ce _ _ hr1 (F0.of (by omega) (by omega) (by omega))) ?_
    gst [hc]
    refine Go.bind ((good b hw.2).ce _ _ hr2 hf) ?_
    gst []
theorem goodSels : ∀ ss : List Sel, okSels ss → GoodSels ss
  | [], _ => fun i k hr hf => by
    simp only [ySels, List.flatten_nil] at hr
    obtain rfl := Rd_nil.mp hr
    exact sel_nil hf
  | .dot x :: ss, hw => fun i k hr hf => by
    simp only [okSels] at hw; simp only [ySels, ySel, List.flatten_cons, List.cons_append, List.nil_append] at hr
    obtain ⟨hc, hr⟩ := (Rd_sm (by decide)).mp hr
    obtain ⟨hc', hx, hr⟩ := Rd_idn.mp hr
    refine Go.succ ?_
    simp only [selector]
    gst [hc, hc', hx]
    refine Go.bind (goodSels ss hw.2 _ _ hr hf) ?_
    gst []
  | .idx es :: ss, hw => fun i k hr hf => by
    simp only [okSels, okSel] at hw
    simp only [ySels, ySel, List.flatten_cons, List.cons_append, List.nil_append, List.append_assoc] at hr
    obtain ⟨hc, hr⟩ := (Rd_sm (by decide)).mp hr
    obtain ⟨j, hr1, hr⟩ := Rd_app.mp hr
    obtain ⟨hc', hr⟩ := (Rd_sm (by decide)).mp hr
    refine Go.succ ?_
    simp only [selector]
    gst [hc]
    rw [yExs_map] at hr1
    refine Go.bind (commas_go (Q := F0) ?_ (fun a ha => (goodExs es hw.1.2 a ha).ce) hw.1.1 hr1 ?_ ?_ ?_) ?_
    · intro k hk; exact F0.of (by omega) (by omega) (by omega)
    · exact F0.of (by omega) (by omega) (by omega)
    · omega
    · rfl
    · gst [hc']
      refine Go.bind (goodSels ss hw.2 _ _ hr hf) ?_
      gst []
  | .deref :: ss, hw => fun i k hr hf => by
    simp only [okSels] at hw; simp only [ySels, ySel, List.flatten_cons, List.cons_append, List.nil_append] at hr
    obtain ⟨hc, hr⟩ := (Rd_sm (by decide)).mp hr
    refine Go.succ ?_
    simp only [selector]
    gst [hc]
    refine Go.bind (goodSels ss hw.2 _ _ hr hf) ?_
    gst []
  | .guard q :: ss, hw => fun i k hr hf => by
    simp only [okSels] at hw
    simp only [ySels, ySel, List.flatten_cons, List.cons_append, List.nil_append, List.append_assoc] at hr
    obtain ⟨hc, hb, hr⟩ := (Rd_smv (by decide)).mp hr
    obtain ⟨j, hq, hr⟩ := Rd_app.mp hr
    obtain ⟨hcq, hq⟩ := Rd_qual hq
    obtain ⟨hc', hr⟩ := (Rd_sm (by decide)).mp hr
    refine Go.succ ?_
    simp only [selector]
    gst [hc, hb, hcq]
    refine Go.bind (Go.const hq) ?_
    gst [hc']
    refine Go.bind (goodSels ss hw.2 _ _ hr hf) ?_
    gst []
theorem goodExs : ∀ es : List Ex, okExs es → ∀ e ∈ es, Good e
  | [], _ => fun e he => by cases he
  | a :: es, hw => fun e he => by
    simp only [okExs] at hw
    rcases List.mem_cons.mp he with he | he
    · rw [he]; exact good a hw.1
    · exact goodExs es hw.2 e he
theorem goodEls : ∀ es : List El, okEls es → ∀ e ∈ es, GoodEl e
  | [], _ => fun e he => by cases he
  | a :: es, hw => fun e he => by
    simp only [okEls] at hw
    rcases List.mem_cons.mp he with he | he
    · rw [he]; exact goodEl a hw.1
    · exact goodEls es hw.2 e he
end

end Verif.Parse
