import Verif.Common
import Verif.Horner.Spec

/-! C38: indexing of multi-dimensional open arrays. -/
namespace Verif.Horner

theorem count_pos {lens : List Int} (h : ∀ l ∈ lens, 1 ≤ l) : 1 ≤ count lens := by
  induction lens with
  | nil => simp [count]
  | cons l ls ih =>
    have h1 := h l (by simp)
    have h2 := ih (fun x hx => h x (by simp [hx]))
    simp only [count]; nlinarith

theorem position_bounds {lens is : List Int} (hl : ∀ l ∈ lens, 1 ≤ l) (h : Inside lens is) :
    0 ≤ position lens is ∧ position lens is + count (lens.drop is.length) ≤ count lens := by
  induction lens generalizing is with
  | nil => cases is with
    | nil => simp [position, count]
    | cons => simp [Inside] at h
  | cons l ls ih =>
    cases is with
    | nil => simp [position]
    | cons i is =>
      obtain ⟨h1, h2, h3⟩ := h
      obtain ⟨a, b⟩ := ih (fun x hx => hl x (by simp [hx])) h3
      have c := count_pos (lens := ls) (fun x hx => hl x (by simp [hx]))
      simp only [position, count, List.length_cons, List.drop_succ_cons]
      constructor
      · nlinarith
      · nlinarith

theorem position_append {lens a b : List Int} (h : a.length ≤ lens.length) :
    position lens (a ++ b) = position lens a + position (lens.drop a.length) b := by
  induction a generalizing lens with
  | nil => simp [position]
  | cons i is ih =>
    cases lens with
    | nil => simp at h
    | cons l ls =>
      simp only [List.cons_append, position, List.length_cons, List.drop_succ_cons]
      rw [ih (by simpa using h)]; ring

/-- The sum with the last index: one more index multiplies the position by the length and adds the index, when the
position is counted in parts. -/
def partPos : List Int → List Int → Int
  | l :: ls, i :: is => i * count (ls.take is.length) + partPos ls is
  | _, _ => 0

theorem count_append (a b : List Int) : count (a ++ b) = count a * count b := by
  induction a with
  | nil => simp [count]
  | cons l ls ih => simp only [List.cons_append, count, ih]; ring

theorem position_part {lens is : List Int} (h : is.length ≤ lens.length) :
    position lens is = partPos lens is * count (lens.drop is.length) := by
  induction is generalizing lens with
  | nil => cases lens <;> simp [position, partPos]
  | cons i is ih =>
    cases lens with
    | nil => simp at h
    | cons l ls =>
      simp only [position, partPos, List.length_cons, List.drop_succ_cons]
      rw [ih (by simpa using h)]
      have : count ls = count (ls.take is.length) * count (ls.drop is.length) := by
        rw [← count_append, List.take_append_drop]
      rw [this]; ring

theorem partPos_snoc {lens is : List Int} {i l : Int} (hl : lens[is.length]? = some l) :
    partPos lens (is ++ [i]) = i + l * partPos lens is := by
  induction is generalizing lens with
  | nil => cases lens <;> simp [partPos, count] at hl ⊢
  | cons j js ih =>
    cases lens with
    | nil => simp at hl
    | cons l' ls =>
      simp only [List.length_cons, List.getElem?_cons_succ] at hl
      simp only [List.cons_append, partPos]
      rw [ih hl]
      have ht : ls.take (js ++ [i]).length = ls.take js.length ++ [l] := by
        rw [List.length_append, List.length_singleton, List.take_add_one, hl]; rfl
      rw [ht, count_append]
      simp only [count]; ring

theorem partPos_bounds {lens is : List Int} (hl : ∀ l ∈ lens, 1 ≤ l) (h : Inside lens is) :
    0 ≤ partPos lens is ∧ partPos lens is + 1 ≤ count (lens.take is.length) := by
  induction lens generalizing is with
  | nil => cases is with
    | nil => simp [partPos, count]
    | cons => simp [Inside] at h
  | cons l ls ih =>
    cases is with
    | nil => simp [partPos, count]
    | cons i is =>
      obtain ⟨h1, h2, h3⟩ := h
      obtain ⟨a, b⟩ := ih (fun x hx => hl x (by simp [hx])) h3
      have c := count_pos (lens := ls.take is.length)
        (fun x hx => hl x (by simp [List.mem_of_mem_take hx]))
      simp only [partPos, count, List.length_cons, List.take_succ_cons]
      constructor
      · nlinarith
      · nlinarith

theorem inside_append {lens a b : List Int} : Inside lens (a ++ b) ↔ Inside lens a ∧ Inside (lens.drop a.length) b := by
  induction a generalizing lens with
  | nil => cases lens <;> simp [Inside]
  | cons i is ih =>
    cases lens with
    | nil => simp [Inside]
    | cons l ls =>
      simp only [List.cons_append, Inside, List.length_cons, List.drop_succ_cons]
      rw [ih]; tauto

theorem Inside.length_le {lens is : List Int} (h : Inside lens is) : is.length ≤ lens.length := by
  induction lens generalizing is with
  | nil => cases is with
    | nil => simp
    | cons => simp [Inside] at h
  | cons l ls ih =>
    cases is with
    | nil => simp
    | cons i is => have := ih h.2.2; simp; omega

theorem count_take_le {lens : List Int} (hl : ∀ l ∈ lens, 1 ≤ l) (k : Nat) : count (lens.take k) ≤ count lens := by
  have h : count lens = count (lens.take k) * count (lens.drop k) := by
    rw [← count_append, List.take_append_drop]
  have a := count_pos (lens := lens.take k) (fun x hx => hl x (List.mem_of_mem_take hx))
  have b := count_pos (lens := lens.drop k) (fun x hx => hl x (List.mem_of_mem_drop hx))
  nlinarith

theorem ck_of {x : Int} (h : -(2 ^ 63) ≤ x) (h' : x < 2 ^ 63) : ck x = some x := by
  simp only [ck]; rw [if_pos ⟨h, h'⟩]

/-- One index: the check passes exactly for an index inside. -/
theorem idx_eval {xf : Bool} {lens : List Int} {x : Ix} {i : Nat} {l : Int} (hl : lens[i]? = some l) (hl1 : 1 ≤ l)
    (hx : 0 ≤ x.val) : eval true xf lens (.idx x i) = if x.val < l then some x.val else none := by
  simp only [eval, Bool.not_true, Bool.false_or, hl]
  by_cases hc : (x.const && x.val == 0) = true
  · rw [if_pos hc]
    simp only [Bool.and_eq_true, beq_iff_eq] at hc
    rw [if_pos (by omega)]
  · rw [if_neg hc]
    simp only [hx, implies_true, and_true]

theorem horner_eval {xf : Bool} {lens : List Int} (hl : ∀ l ∈ lens, 1 ≤ l) (hcnt : count lens < 2 ^ 63) :
    ∀ (ix : List Ix), ix ≠ [] → ix.length ≤ lens.length → (∀ x ∈ ix, 0 ≤ x.val) →
    (Inside lens (ix.map (·.val)) → eval true xf lens (hornerLoop (ix.length - 1) ix.reverse) =
      some (partPos lens (ix.map (·.val)))) ∧
    (¬ Inside lens (ix.map (·.val)) → eval true xf lens (hornerLoop (ix.length - 1) ix.reverse) = none) := by
  intro ix
  induction ix using List.reverseRecOn with
  | nil => intro h; exact absurd rfl h
  | append_singleton ix x ih =>
    intro _ hlen hpos
    rw [List.length_append, List.length_singleton] at hlen
    obtain ⟨l, hgl⟩ : ∃ l, lens[ix.length]? = some l := ⟨_, List.getElem?_eq_getElem (by omega)⟩
    have hl1 : 1 ≤ l := hl l (List.mem_of_getElem? hgl)
    have hx := hpos x (by simp)
    have hxe := idx_eval (xf := xf) hgl hl1 hx
    have hin : Inside lens ((ix ++ [x]).map (·.val)) ↔ Inside lens (ix.map (·.val)) ∧ x.val < l := by
      rw [List.map_append, inside_append]
      have hd : lens.drop (ix.map (·.val)).length = l :: lens.drop (ix.length + 1) := by
        rw [List.length_map]
        rw [List.getElem?_eq_some_iff] at hgl
        obtain ⟨h1, h2⟩ := hgl
        rw [List.drop_eq_getElem_cons h1, h2]
      rw [hd]
      simp only [List.map_cons, List.map_nil, Inside, and_true]
      exact and_congr_right (fun _ => ⟨fun h => h.2, fun h => ⟨hx, h⟩⟩)
    rw [List.length_append, List.length_singleton, List.reverse_append]
    simp only [List.reverse_cons, List.reverse_nil, List.nil_append, List.cons_append, Nat.add_sub_cancel]
    by_cases hne : ix = []
    · subst hne
      simp only [List.length_nil, List.reverse_nil, hornerLoop] at *
      rw [hxe]
      constructor
      · intro h
        rw [if_pos (hin.mp h).2]
        rw [show List.map (·.val) ([] ++ [x]) = [] ++ [x.val] by simp,
          partPos_snoc (l := l) (by simpa using hgl)]
        cases lens <;> simp [partPos]
      · intro h
        rw [if_neg]
        intro hlt
        exact h (hin.mpr ⟨by cases lens <;> simp [Inside], hlt⟩)
    · obtain ⟨i1, i2⟩ := ih hne (by omega) (fun y hy => hpos y (by simp [hy]))
      have hstep : hornerLoop ix.length (x :: ix.reverse) =
          .add (.idx x ix.length) (.mul (.len ix.length) (hornerLoop (ix.length - 1) ix.reverse)) := by
        cases hr : ix.reverse with
        | nil => simp at hr; exact absurd hr hne
        | cons y ys => rfl
      rw [hstep]
      simp only [eval] at hxe ⊢
      rw [hxe]
      by_cases hlt : x.val < l
      · rw [if_pos hlt]
        by_cases hI : Inside lens (ix.map (·.val))
        · rw [i1 hI, hgl]
          have hfull := hin.mpr ⟨hI, hlt⟩
          refine ⟨fun _ => ?_, fun h => absurd hfull h⟩
          have b1 := partPos_bounds hl hI
          have b2 := partPos_bounds hl hfull
          have b3 := count_take_le hl ((ix ++ [x]).map (·.val)).length
          have b4 := count_take_le hl (ix.map (·.val)).length
          have e : partPos lens ((ix ++ [x]).map (·.val)) = x.val + l * partPos lens (ix.map (·.val)) := by
            rw [List.map_append]
            exact partPos_snoc (by rw [List.length_map]; exact hgl)
          rw [e] at b2 ⊢
          have hm : 0 ≤ l * partPos lens (ix.map (·.val)) := by nlinarith
          simp only [Option.bind_some]
          rw [ck_of (by omega) (by omega)]
          simp only [Option.bind_some]
          rw [ck_of (by omega) (by omega)]
        · rw [i2 hI, hgl]
          refine ⟨fun h => absurd (hin.mp h).1 hI, fun _ => ?_⟩
          rfl
      · rw [if_neg hlt]
        refine ⟨fun h => absurd (hin.mp h).2 hlt, fun _ => ?_⟩
        rfl

theorem remaining_eval {xf : Bool} {lens : List Int} (hl : ∀ l ∈ lens, 1 ≤ l) :
    ∀ (f i : Nat) (e : IExp), i ≤ lens.length → lens.length ≤ i + f →
    (eval true xf lens e = none → eval true xf lens (remaining lens.length f i e) = none) ∧
    (∀ v, 0 ≤ v → eval true xf lens e = some v → v * count (lens.drop i) < 2 ^ 63 →
      eval true xf lens (remaining lens.length f i e) = some (v * count (lens.drop i))) := by
  intro f
  induction f with
  | zero =>
    intro i e h1 h2
    have : i = lens.length := by omega
    subst this
    simp only [remaining, List.drop_length, count, Int.mul_one]
    exact ⟨fun h => h, fun v _ h _ => h⟩
  | succ f ih =>
    intro i e h1 h2
    simp only [remaining]
    by_cases hi : i < lens.length
    · rw [if_pos hi]
      have hg : lens[i]? = some lens[i] := List.getElem?_eq_getElem hi
      obtain ⟨j1, j2⟩ := ih (i + 1) (.mul e (.len i)) (by omega) (by omega)
      have hd : count (lens.drop i) = lens[i] * count (lens.drop (i + 1)) := by
        rw [List.drop_eq_getElem_cons hi]; rfl
      have p1 := hl lens[i] (List.getElem_mem hi)
      have p2 := count_pos (lens := lens.drop (i + 1)) (fun x hx => hl x (List.mem_of_mem_drop hx))
      constructor
      · intro h
        apply j1
        simp only [eval, h]; rfl
      · intro v hv h hb
        rw [hd] at hb ⊢
        have hvl : 0 ≤ v * lens[i] := by nlinarith
        have hle : v * lens[i] ≤ v * lens[i] * count (lens.drop (i + 1)) := by nlinarith
        have e1 : eval true xf lens (.mul e (.len i)) = some (v * lens[i]) := by
          simp only [eval, h, hg, Option.bind_some]
          rw [← Int.mul_assoc] at hb
          exact ck_of (by omega) (by omega)
        rw [← Int.mul_assoc] at hb ⊢
        exact j2 _ hvl e1 hb
    · rw [if_neg hi]
      have : i = lens.length := by omega
      subst this
      simp only [List.drop_length, count, Int.mul_one]
      exact ⟨fun h => h, fun v _ h _ => h⟩

/-- C38.  For an array with any number of open dimensions and any lengths, and any number of indices that are not negative,
the index expression of the generated C program halts exactly if one of the indices is not below its length; otherwise its
value is the position of the selected element, or of the first element of the selected part, in row-major order. -/
theorem C38_index_partial (xf : Bool) (lens : List Int) (hl : ∀ l ∈ lens, 1 ≤ l) (hcnt : count lens < 2 ^ 63)
    (ix : List Ix) (hne : ix ≠ []) (hlen : ix.length ≤ lens.length) (hpos : ∀ x ∈ ix, 0 ≤ x.val) :
    (Inside lens (ix.map (·.val)) →
      eval true xf lens (indexExp lens.length ix) = some (position lens (ix.map (·.val)))) ∧
    (¬ Inside lens (ix.map (·.val)) → eval true xf lens (indexExp lens.length ix) = none) := by
  obtain ⟨h1, h2⟩ := horner_eval (xf := xf) hl hcnt ix hne hlen hpos
  have hn : 0 < ix.length := List.length_pos_iff.mpr hne
  have hpp := position_part (lens := lens) (is := ix.map (·.val)) (by simpa using hlen)
  rw [List.length_map] at hpp
  simp only [indexExp]
  by_cases hlt : ix.length < lens.length
  · rw [if_pos hlt]
    obtain ⟨r1, r2⟩ := remaining_eval (xf := xf) hl lens.length (ix.length - 1 + 1)
      (hornerLoop (ix.length - 1) ix.reverse) (by omega) (by omega)
    rw [show ix.length - 1 + 1 = ix.length by omega] at *
    constructor
    · intro h
      have b := partPos_bounds hl h
      have c := position_bounds hl h
      rw [List.length_map] at c
      have p2 := count_pos (lens := lens.drop ix.length) (fun x hx => hl x (List.mem_of_mem_drop hx))
      rw [hpp] at c ⊢
      exact r2 _ b.1 (h1 h) (by omega)
    · intro h; exact r1 (h2 h)
  · rw [if_neg hlt]
    have : ix.length = lens.length := by omega
    have hone : count (lens.drop ix.length) = 1 := by rw [this, List.drop_length]; rfl
    rw [hpp, hone, Int.mul_one]
    exact ⟨h1, h2⟩

/-- C38: the selected element, or the selected part, lies inside the array. -/
theorem C38_inside (lens is : List Int) (hl : ∀ l ∈ lens, 1 ≤ l) (h : Inside lens is) :
    0 ≤ position lens is ∧ position lens is + count (lens.drop is.length) ≤ count lens :=
  position_bounds hl h

theorem position_inj (lens : List Int) (hl : ∀ l ∈ lens, 1 ≤ l) : ∀ (is js : List Int),
    is.length = js.length → Inside lens is → Inside lens js → position lens is = position lens js → is = js := by
  induction lens with
  | nil =>
    intro is js h1 h2 h3 _
    cases is with
    | nil => cases js with
      | nil => rfl
      | cons => simp at h1
    | cons => simp [Inside] at h2
  | cons l ls ih =>
    intro is js h1 h2 h3 h4
    cases is with
    | nil => cases js with
      | nil => rfl
      | cons => simp at h1
    | cons i is =>
      cases js with
      | nil => simp at h1
      | cons j js =>
        have hls : ∀ l ∈ ls, 1 ≤ l := fun x hx => hl x (by simp [hx])
        obtain ⟨a1, a2⟩ := position_bounds hls h2.2.2
        obtain ⟨b1, b2⟩ := position_bounds hls h3.2.2
        have c1 := count_pos (lens := ls.drop is.length) (fun x hx => hls x (List.mem_of_mem_drop hx))
        have c2 := count_pos (lens := ls.drop js.length) (fun x hx => hls x (List.mem_of_mem_drop hx))
        simp only [position] at h4
        have hij : i = j := by
          rcases lt_trichotomy i j with h | h | h
          · exfalso; nlinarith
          · exact h
          · exfalso; nlinarith
        subst hij
        have := ih hls is js (by simpa using h1) h2.2.2 h3.2.2 (by omega)
        rw [this]

/-- C38: different index tuples select different elements: if the C expressions for two tuples, checks included, have the same
value, the tuples are the same. -/
theorem C38_distinct_partial (xf : Bool) (lens : List Int) (hl : ∀ l ∈ lens, 1 ≤ l) (hcnt : count lens < 2 ^ 63)
    (ix jx : List Ix) (hne : ix ≠ []) (hlen : ix.length ≤ lens.length) (hlen' : jx.length = ix.length)
    (hpos : ∀ x ∈ ix, 0 ≤ x.val) (hpos' : ∀ x ∈ jx, 0 ≤ x.val) (v : Int)
    (h1 : eval true xf lens (indexExp lens.length ix) = some v)
    (h2 : eval true xf lens (indexExp lens.length jx) = some v) : ix.map (·.val) = jx.map (·.val) := by
  obtain ⟨a1, a2⟩ := C38_index_partial xf lens hl hcnt ix hne hlen hpos
  have hne' : jx ≠ [] := by
    intro h; rw [h] at hlen'; simp at hlen'; exact hne (List.length_eq_zero_iff.mp hlen'.symm)
  obtain ⟨b1, b2⟩ := C38_index_partial xf lens hl hcnt jx hne' (by omega) hpos'
  by_cases hi : Inside lens (ix.map (·.val))
  · by_cases hj : Inside lens (jx.map (·.val))
    · apply position_inj lens hl _ _ (by simp [hlen']) hi hj
      rw [a1 hi] at h1
      rw [b1 hj] at h2
      exact Option.some.inj (h1.trans h2.symm)
    · rw [b2 hj] at h2; cases h2
  · rw [a2 hi] at h1; cases h1

/-- C38: a part of an array passed as a parameter: the element the called procedure selects with indices `b` in the part
selected by `a` is the one all indices together select in the whole array. -/
theorem C38_part (lens a b : List Int) (h : a.length ≤ lens.length) :
    position lens (a ++ b) = position lens a + position (lens.drop a.length) b ∧
    (Inside lens (a ++ b) ↔ Inside lens a ∧ Inside (lens.drop a.length) b) :=
  ⟨position_append h, inside_append⟩

theorem horner_nonneg (lens : List Int) : ∀ (r : List Ix) (i : Nat) (v : Int),
    eval true true lens (hornerLoop i r) = some v → ∀ x ∈ r, 0 ≤ x.val := by
  have hidx : ∀ (x : Ix) (i : Nat) (v : Int), eval true true lens (.idx x i) = some v → 0 ≤ x.val := by
    intro x i v h
    simp only [eval] at h
    by_cases hc : (!true || (x.const && x.val == 0)) = true
    · simp only [Bool.not_true, Bool.false_or, Bool.and_eq_true, beq_iff_eq] at hc
      omega
    · rw [if_neg hc] at h
      cases hl : lens[i]? with
      | none => rw [hl] at h; simp at h
      | some l =>
        rw [hl] at h
        simp only [Option.ite_none_right_eq_some] at h
        exact h.1.2 trivial
  intro r
  induction r with
  | nil => simp
  | cons x r ih =>
    intro i v h
    cases r with
    | nil =>
      intro y hy
      rw [List.mem_singleton.1 hy]
      exact hidx x i v h
    | cons z r =>
      rw [hornerLoop, eval] at h
      · obtain ⟨a, ha, h⟩ := Option.bind_eq_some_iff.1 h
        obtain ⟨b, hb, h⟩ := Option.bind_eq_some_iff.1 h
        rw [eval] at hb
        obtain ⟨c, hc, hb⟩ := Option.bind_eq_some_iff.1 hb
        obtain ⟨d, hd, hb⟩ := Option.bind_eq_some_iff.1 hb
        intro y hy
        rcases List.mem_cons.1 hy with rfl | hy
        · exact hidx _ i a ha
        · exact ih _ _ hd y hy
      · simp

theorem remaining_some (xf : Bool) (lens : List Int) (k : Nat) : ∀ (f i : Nat) (e : IExp) (v : Int),
    eval true xf lens (remaining k f i e) = some v → ∃ w, eval true xf lens e = some w := by
  intro f
  induction f with
  | zero => intro i e v h; exact ⟨v, h⟩
  | succ f ih =>
    intro i e v h
    simp only [remaining] at h
    by_cases hi : i < k
    · rw [if_pos hi] at h
      obtain ⟨w, hw⟩ := ih _ _ _ h
      simp only [eval] at hw
      obtain ⟨a, ha, _⟩ := Option.bind_eq_some_iff.1 hw
      exact ⟨a, ha⟩
    · rw [if_neg hi] at h; exact ⟨v, h⟩

/-- C38 for indices that call functions (`__XF`): an expression that is evaluated selects the element the indices say, and
all of them are within their dimensions. -/
theorem C38_function_index (lens : List Int) (hl : ∀ l ∈ lens, 1 ≤ l) (hcnt : count lens < 2 ^ 63)
    (ix : List Ix) (hne : ix ≠ []) (hlen : ix.length ≤ lens.length) (v : Int)
    (h : eval true true lens (indexExp lens.length ix) = some v) :
    Inside lens (ix.map (·.val)) ∧ v = position lens (ix.map (·.val)) := by
  have hpos : ∀ x ∈ ix, 0 ≤ x.val := by
    have h' := h
    simp only [indexExp] at h'
    by_cases hlt : ix.length < lens.length
    · rw [if_pos hlt] at h'
      obtain ⟨w, hw⟩ := remaining_some _ _ _ _ _ _ _ h'
      intro x hx
      exact horner_nonneg lens _ _ _ hw x (by simpa using hx)
    · rw [if_neg hlt] at h'
      intro x hx
      exact horner_nonneg lens _ _ _ h' x (by simpa using hx)
  obtain ⟨h1, h2⟩ := C38_index_partial true lens hl hcnt ix hne hlen hpos
  by_cases hin : Inside lens (ix.map (·.val))
  · rw [h1 hin] at h
    exact ⟨hin, (Option.some.inj h).symm⟩
  · rw [h2 hin] at h; simp at h

/-- C38 fails for negative indices: `__X`, used for an index without function call, compares only with the length, so that
`a[1][-1]` selects, without a halt, the element `a[0][3]` of an array of lengths 3 and 4. -/
theorem C38_negative_index :
    eval true false [3, 4] (indexExp 2 [⟨1, false⟩, ⟨-1, false⟩]) = some 3 ∧
    eval true false [3, 4] (indexExp 2 [⟨0, false⟩, ⟨3, false⟩]) = some 3 ∧
    eval true false [3, 4] (indexExp 2 [⟨0, false⟩, ⟨-1, false⟩]) = some (-1) := by
  decide

/-- `a[2][1][3]` in an array of lengths 3, 4, 5. -/
example : eval true false [3, 4, 5] (indexExp 3 [⟨2, false⟩, ⟨1, false⟩, ⟨3, false⟩]) = some 48 ∧
    position [3, 4, 5] [2, 1, 3] = 48 ∧ Inside [3, 4, 5] [2, 1, 3] := by
  refine ⟨by decide, by decide, by simp [Inside]⟩

/-- `a[2]` in the same array begins at element 40; an index out of range halts. -/
example : eval true false [3, 4, 5] (indexExp 3 [⟨2, false⟩]) = some 40 ∧
    eval true false [3, 4, 5] (indexExp 3 [⟨2, false⟩, ⟨4, false⟩, ⟨3, false⟩]) = none := by decide

end Verif.Horner
