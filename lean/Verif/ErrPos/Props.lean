import Verif.Common
import Verif.ErrPos.Model

/-! # C73: error messages show the line with the error -/
namespace Verif.ErrPos

theorem byte_cons (c : Nat) (t : List Nat) (i : Nat) : byte (c :: t) (i + 1) = byte t i := by simp [byte]

theorem drop_cons {bs : List Nat} {p : Nat} (h : p < bs.length) : bs.drop p = byte bs p :: bs.drop (p + 1) := by
  rw [List.drop_eq_getElem_cons h]
  simp [byte, h]

theorem byte_end {bs : List Nat} {i : Nat} (h : bs.length ≤ i) : byte bs i = 0 := by
  simp [byte, h]

/-- Scanning to the end of the line. -/
theorem skip_spec (bs : List Nat) (p : Nat) (hp : p < bs.length) :
    ∃ q, p ≤ q ∧ q ≤ bs.length ∧ (∀ i, p ≤ i → i < q → eol (byte bs i) = false) ∧ (q < bs.length → eol (byte bs q) = true) ∧
      skip false (byte bs p) (bs.drop (p + 1)) p = (⟨byte bs q, bs.drop (q + 1), decide (q = bs.length)⟩, q) := by
  induction h : bs.length - p generalizing p with
  | zero => omega
  | succ n ih =>
    rw [skip.eq_def]
    by_cases he : eol (byte bs p) = true
    · refine ⟨p, Nat.le_refl _, by omega, fun i h1 h2 => by omega, fun _ => he, ?_⟩
      rw [if_pos he]
      simp [show p ≠ bs.length from by omega]
    · rw [if_neg he]
      have he' : eol (byte bs p) = false := by simpa using he
      by_cases hl : p + 1 < bs.length
      · obtain ⟨q, h1, h2, h3, h4, h5⟩ := ih (p + 1) hl (by omega)
        rw [drop_cons hl]
        refine ⟨q, by omega, h2, fun i a b => ?_, h4, h5⟩
        by_cases hi : i = p
        · rw [hi]; exact he'
        · exact h3 i (by omega) b
      · have e : p + 1 = bs.length := by omega
        rw [List.drop_eq_nil_of_le (by omega)]
        refine ⟨bs.length, by omega, Nat.le_refl _, fun i a b => ?_, fun h => absurd h (by omega), ?_⟩
        · rw [show i = p from by omega]; exact he'
        · dsimp only
          rw [byte_end (Nat.le_refl _), List.drop_eq_nil_of_le (by omega), e]
          simp

/-- The reader stands before position `p`: its byte has been read. -/
def AtPos (bs : List Nat) (r : Rd) (p : Nat) : Prop := r = ⟨byte bs p, bs.drop (p + 1), decide (bs.length ≤ p)⟩

theorem next_at {bs : List Nat} {r : Rd} {p : Nat} (h : AtPos bs r p) (hp : p < bs.length) : AtPos bs r.next (p + 1) := by
  unfold AtPos at *
  subst h
  unfold Rd.next
  dsimp only
  by_cases h : p + 1 < bs.length
  · rw [drop_cons h]
    simp [show ¬bs.length ≤ p from by omega, show ¬bs.length ≤ p + 1 from by omega]
  · rw [List.drop_eq_nil_of_le (by omega), byte_end (by omega), List.drop_eq_nil_of_le (by omega)]
    simp; omega

/-- The line that follows begins at `l`; behind the last line `l` is one more than the length. -/
def NextOf (bs : List Nat) (s l : Nat) : Prop :=
  s < l ∧ (∀ i, s < i → i < l → isStart bs i = false) ∧ (l ≤ bs.length → isStart bs l = true) ∧ l ≤ bs.length + 1

theorem line_spec (bs : List Nat) (r : Rd) (p : Nat) (hr : AtPos bs r p) (hp : p < bs.length) :
    ∃ r' l, line r p = (r', l) ∧ NextOf bs p l ∧ (if l ≤ bs.length then AtPos bs r' l else r'.eof = true) := by
  unfold AtPos at hr
  subst hr
  obtain ⟨q, h1, h2, h3, h4, h5⟩ := skip_spec bs p hp
  have hd : decide (bs.length ≤ p) = false := by simp; omega
  unfold line
  dsimp only
  rw [hd, h5]
  dsimp only
  have hno : ∀ i, p < i → i ≤ q → isStart bs i = false := by
    intro i a b
    have := h3 (i - 1) (by omega) (by omega)
    unfold eol at this
    unfold isStart
    simp only [Bool.or_eq_false_iff, decide_eq_false_iff_not] at this
    simp [this.1.1, this.1.2, this.2, show i ≠ 0 from by omega]
  rcases Nat.lt_or_ge q bs.length with hq | hq
  · have he := h4 hq
    have hat : AtPos bs ⟨byte bs q, bs.drop (q + 1), decide (q = bs.length)⟩ q := by
      unfold AtPos
      simp [show q ≠ bs.length from by omega, show ¬bs.length ≤ q from by omega]
    have hn := next_at hat hq
    unfold eol at he
    simp only [Bool.or_eq_true, decide_eq_true_eq] at he
    have hch : (Rd.next ⟨byte bs q, bs.drop (q + 1), decide (q = bs.length)⟩).ch = byte bs (q + 1) := by
      rw [hn]
    rw [hch]
    by_cases hc : byte bs q = 13 ∧ byte bs (q + 1) = 10
    · rw [if_pos hc]
      have hc2 := hc.2
      have hq1 : q + 1 < bs.length := by
        by_contra h
        rw [byte_end (by omega)] at hc2
        omega
      refine ⟨_, _, rfl, ⟨by omega, fun i a b => ?_, fun _ => ?_, by omega⟩, ?_⟩
      · by_cases hi : i ≤ q
        · exact hno i a hi
        · rw [show i = q + 1 from by omega]
          unfold isStart
          simp [hc.1, hc.2]
      · unfold isStart
        simp [hc.2]
      · rw [if_pos (by omega)]
        exact next_at hn hq1
    · rw [if_neg hc]
      refine ⟨_, _, rfl, ⟨by omega, fun i a b => hno i a (by omega), fun _ => ?_, by omega⟩, ?_⟩
      · unfold isStart
        rw [Nat.add_sub_cancel]
        rcases he with (he | he) | he
        · simp [he]
        · have : byte bs (q + 1) ≠ 10 := fun h => hc ⟨he, h⟩
          simp [he, this]
        · simp [he]
      · rw [if_pos (by omega)]
        exact hn
  · obtain rfl : q = bs.length := by omega
    rw [byte_end (Nat.le_refl _), if_neg (by omega)]
    refine ⟨_, _, rfl, ⟨by omega, fun i a b => hno i a (by omega), fun h => absurd h (by omega), by omega⟩, ?_⟩
    rw [if_neg (by omega)]
    unfold Rd.next
    rw [List.drop_eq_nil_of_le (by omega)]

theorem lineOf_same (bs : List Nat) (s p : Nat) (h : s ≤ p) (hn : ∀ i, s < i → i ≤ p → isStart bs i = false) : lineOf bs p = lineOf bs s := by
  induction p with
  | zero => obtain rfl : s = 0 := by omega
            rfl
  | succ p ih =>
    by_cases hs : s = p + 1
    · rw [hs]
    · rw [← ih (by omega) fun i a b => hn i a (by omega)]
      unfold lineOf
      rw [List.range_succ, List.countP_append]
      simp [hn (p + 1) (by omega) (Nat.le_refl _)]

theorem lineOf_next (bs : List Nat) (s l : Nat) (h : NextOf bs s l) (hl : l ≤ bs.length) : lineOf bs l = lineOf bs s + 1 := by
  obtain ⟨h1, h2, h3, _⟩ := h
  obtain ⟨k, rfl⟩ : ∃ k, l = k + 1 := ⟨l - 1, by omega⟩
  rw [← lineOf_same bs s k (by omega) fun i a b => h2 i a (by omega)]
  unfold lineOf
  rw [List.range_succ, List.countP_append]
  simp [h3 hl]

/-- The saved line is one of the text, or nothing has been searched yet. -/
def Inv (bs : List Nat) (st : St) : Prop :=
  st = St.init ∨ (st.start ≤ bs.length ∧ isStart bs st.start = true ∧ NextOf bs st.start st.limit ∧ st.num = lineOf bs st.start)

theorem lineOf_zero (bs : List Nat) : lineOf bs 0 = 1 := by simp [lineOf, isStart]

theorem lines_spec (bs : List Nat) (pos : Nat) (hpos : pos ≤ bs.length) (f : Nat) (r : Rd) (st : St) (hf : bs.length + 1 ≤ f + st.limit)
    (hi : Inv bs st) (hs : st.start ≤ pos) (hr : if st.limit ≤ bs.length then AtPos bs r st.limit else r.eof = true) :
    Inv bs (lines pos f r st) ∧ pos ≤ (lines pos f r st).limit ∧ (lines pos f r st).start ≤ pos ∧
      (st.limit < pos → (lines pos f r st).start < pos) ∧ (pos ≤ st.limit → lines pos f r st = st) := by
  induction f generalizing r st with
  | zero =>
    rw [lines]
    exact ⟨hi, by omega, hs, fun h => by omega, fun _ => rfl⟩
  | succ f ih =>
    rw [lines]
    by_cases hc : st.limit < pos ∧ r.eof = false
    · rw [if_pos hc]
      rw [if_pos (by omega)] at hr
      obtain ⟨r', l, h1, h2, h3⟩ := line_spec bs r st.limit hr (by omega)
      rw [h1]
      dsimp only
      have hstart : isStart bs st.limit = true ∧ st.num + 1 = lineOf bs st.limit := by
        rcases hi with rfl | ⟨a, b, c, d⟩
        · exact ⟨by simp [St.init, isStart], (lineOf_zero bs).symm⟩
        · exact ⟨c.2.2.1 (by omega), by rw [d, lineOf_next bs _ _ c (by omega)]⟩
      obtain ⟨e1, e2, e3, e4, e5⟩ := ih r' ⟨st.limit, l, st.num + 1⟩ (by have := h2.1; dsimp only; omega)
        (.inr ⟨by dsimp only; omega, hstart.1, h2, hstart.2⟩) (by dsimp only; omega) h3
      refine ⟨e1, e2, e3, fun _ => ?_, fun h => by omega⟩
      dsimp only at e4 e5
      rcases Nat.lt_or_ge l pos with hl | hl
      · exact e4 hl
      · rw [e5 hl]; exact hc.1
    · rw [if_neg hc]
      have hlim : pos ≤ st.limit := by
        by_contra hlt
        apply hc
        refine ⟨by omega, ?_⟩
        rw [if_pos (by omega)] at hr
        rw [hr]
        simp; omega
      exact ⟨hi, hlim, hs, fun h => by omega, fun _ => rfl⟩

/-- What `FindLine` finds. -/
theorem findLine_spec (bs : List Nat) (st : St) (hi : Inv bs st) (pos : Nat) (hpos : pos ≤ bs.length) :
    Inv bs (findLine bs st pos) ∧ pos ≤ (findLine bs st pos).limit ∧ (findLine bs st pos).start ≤ pos ∧
      (0 < pos → findLine bs st pos ≠ St.init) ∧ (st = St.init → 0 < pos → (findLine bs st pos).start < pos) := by
  unfold findLine
  have key : ∀ st : St, Inv bs st → st.start ≤ pos →
      Inv bs (if pos < st.limit then st else lines pos (bs.length + 1) (Rd.next ⟨0, bs.drop st.limit, false⟩) st) ∧
      pos ≤ (if pos < st.limit then st else lines pos (bs.length + 1) (Rd.next ⟨0, bs.drop st.limit, false⟩) st).limit ∧
      (if pos < st.limit then st else lines pos (bs.length + 1) (Rd.next ⟨0, bs.drop st.limit, false⟩) st).start ≤ pos ∧
      (0 < pos → (if pos < st.limit then st else lines pos (bs.length + 1) (Rd.next ⟨0, bs.drop st.limit, false⟩) st) ≠ St.init) ∧
      (st = St.init → 0 < pos → (if pos < st.limit then st else lines pos (bs.length + 1) (Rd.next ⟨0, bs.drop st.limit, false⟩) st).start < pos) := by
    intro st hi hs
    by_cases hl : pos < st.limit
    · rw [if_pos hl]
      have hne : st ≠ St.init := by
        intro e
        rw [e] at hl
        simp [St.init] at hl
      exact ⟨hi, by omega, hs, fun _ => hne, fun e => absurd e hne⟩
    · rw [if_neg hl]
      have hr : AtPos bs (Rd.next ⟨0, bs.drop st.limit, false⟩) st.limit := by
        unfold AtPos Rd.next
        by_cases h : st.limit < bs.length
        · rw [drop_cons h]
          simp [h]
        · rw [List.drop_eq_nil_of_le (by omega), byte_end (by omega), List.drop_eq_nil_of_le (by omega)]
          simp; omega
      have := lines_spec bs pos hpos (bs.length + 1) _ st (by omega) hi hs (by rw [if_pos (by omega)]; exact hr)
      refine ⟨this.1, this.2.1, this.2.2.1, fun h e => ?_, fun e h => this.2.2.2.1 (by rw [e]; exact h)⟩
      have := this.2.1
      rw [e] at this
      simp [St.init] at this
      omega
  by_cases h : pos < st.start
  · rw [if_pos h]
    have := key _ (.inl rfl) (Nat.zero_le _)
    exact ⟨this.1, this.2.1, this.2.2.1, this.2.2.2.1, fun e => by rw [e] at h; simp [St.init] at h⟩
  · rw [if_neg h]
    exact key _ hi (by omega)

theorem text_eq (bs : List Nat) : (bs.takeWhile fun c => !eol c) = text bs := by
  unfold text eol
  congr 1
  funext c
  by_cases h1 : c = 0 <;> by_cases h2 : c = 10 <;> by_cases h3 : c = 13 <;> simp [h1, h2, h3]

/-- **C73**, the line: whatever errors were reported before, for every text and every position in it that is not the first of a line, the line shown is
the one with this position: its number, its text (the first 1022 characters), with the arrow under the position.  For the first position of a line
see `C73_first_column`. -/
theorem C73_line_partial (bs : List Nat) (st : St) (hi : Inv bs st) (pos : Nat) (hpos : pos ≤ bs.length) (hns : isStart bs pos = false) :
    ∃ s, StartOf bs pos s ∧ (showLine bs st pos).2 = ⟨lineOf bs pos, (text (bs.drop s)).take 1022, pos - s⟩ := by
  obtain ⟨h1, h2, h3, h4, _⟩ := findLine_spec bs st hi pos hpos
  have hp : 0 < pos := by
    rcases Nat.eq_zero_or_pos pos with rfl | h
    · simp [isStart] at hns
    · exact h
  rcases h1 with h1 | ⟨a, b, c, d⟩
  · exact absurd h1 (h4 hp)
  have hlt : pos < (findLine bs st pos).limit := by
    rcases Nat.lt_or_ge pos (findLine bs st pos).limit with h | h
    · exact h
    · have e : (findLine bs st pos).limit = pos := by omega
      have := c.2.2.1 (by omega)
      rw [e, hns] at this
      exact absurd this (by simp)
  have hno : ∀ i, (findLine bs st pos).start < i → i ≤ pos → isStart bs i = false := fun i x y => c.2.1 i x (by omega)
  refine ⟨(findLine bs st pos).start, ⟨h3, b, hno⟩, ?_⟩
  unfold showLine
  dsimp only
  rw [if_neg (by omega), text_eq, d, lineOf_same bs _ pos h3 hno]
  congr 1
  omega

theorem showLine_inv (bs : List Nat) (st : St) (hi : Inv bs st) (pos : Nat) (hpos : pos ≤ bs.length) : Inv bs (showLine bs st pos).1 :=
  (findLine_spec bs st hi pos hpos).1

theorem mark_inv (bs : List Nat) (m : MSt) (hi : Inv bs m.st) (r : Report) (hr : r.pos ≤ bs.length) : Inv bs (mark bs m r).1.st := by
  have := showLine_inv bs m.st hi r.pos hr
  unfold mark
  split
  · split
    · exact this
    · exact hi
  · exact this

theorem marks_spec (bs : List Nat) (rs : List Report) (h : ∀ r ∈ rs, r.pos ≤ bs.length) (m : MSt) (hi : Inv bs m.st) :
    ((marks bs m rs).1.noerr = true ↔ m.noerr = true ∧ ∀ r ∈ rs, r.n < 0) ∧ (marks bs m rs).2.length = rs.length ∧
    ∀ (i : Nat) (r : Report), rs[i]? = some r →
      ((marks bs m rs).2[i]? = some none → 0 ≤ r.n ∧ (m.last ≤ r.pos ∧ (r.pos : Int) ≤ m.last + 9 ∨
        ∃ (j : Nat) (r' : Report) (sh : Shown), j < i ∧ rs[j]? = some r' ∧ (marks bs m rs).2[j]? = some (some sh) ∧ 0 ≤ r'.n ∧ r'.pos ≤ r.pos ∧ r.pos ≤ r'.pos + 9)) ∧
      ∀ sh, (marks bs m rs).2[i]? = some (some sh) → isStart bs r.pos = false →
        ∃ s, StartOf bs r.pos s ∧ sh = ⟨lineOf bs r.pos, (text (bs.drop s)).take 1022, r.pos - s⟩ := by
  induction rs generalizing m with
  | nil => simp [marks]
  | cons r0 t ih =>
    have hr0 := h r0 (by simp)
    obtain ⟨i1, i2, i3⟩ := ih (fun r hr => h r (by simp [hr])) (mark bs m r0).1 (mark_inv bs m hi r0 hr0)
    have e1 : (marks bs m (r0 :: t)).1 = (marks bs (mark bs m r0).1 t).1 := rfl
    have e2 : (marks bs m (r0 :: t)).2 = (mark bs m r0).2 :: (marks bs (mark bs m r0).1 t).2 := rfl
    rw [e1, e2]
    have hne : (mark bs m r0).1.noerr = true ↔ m.noerr = true ∧ r0.n < 0 := by
      unfold mark
      split
      · split <;> simp <;> omega
      · simp; omega
    refine ⟨?_, by simp [i2], ?_⟩
    · rw [i1, hne]
      simp only [List.mem_cons, forall_eq_or_imp]
      exact and_assoc
    · intro i r hir
      cases i with
      | zero =>
        simp only [List.getElem?_cons_zero, Option.some.injEq] at hir ⊢
        subst hir
        constructor
        · intro hnone
          unfold mark at hnone
          split at hnone
          · split at hnone
            · simp at hnone
            · exact ⟨by omega, .inl ⟨by omega, by omega⟩⟩
          · simp at hnone
        · intro sh hsh hst
          obtain ⟨s, hs, e⟩ := C73_line_partial bs m.st hi r0.pos hr0 hst
          have hsh' : (showLine bs m.st r0.pos).2 = sh := by
            unfold mark at hsh
            split at hsh
            · split at hsh
              · exact Option.some.inj hsh
              · simp at hsh
            · exact Option.some.inj hsh
          exact ⟨s, hs, by rw [← hsh', e]⟩
      | succ i =>
        simp only [List.getElem?_cons_succ] at hir ⊢
        obtain ⟨j1, j2⟩ := i3 i r hir
        refine ⟨fun hnone => ?_, j2⟩
        obtain ⟨k1, k2⟩ := j1 hnone
        refine ⟨k1, ?_⟩
        rcases k2 with ⟨k2, k3⟩ | ⟨j, r', sh, a, b, c, d, e, f⟩
        · by_cases hch : 0 ≤ r0.n ∧ ((r0.pos : Int) < m.last ∨ m.last + 9 < r0.pos)
          · have hm : mark bs m r0 = (⟨false, r0.pos, (showLine bs m.st r0.pos).1⟩, some (showLine bs m.st r0.pos).2) := by
              unfold mark
              rw [if_pos hch.1, if_pos hch.2]
            rw [hm] at k2 k3 ⊢
            dsimp only at k2 k3
            exact .inr ⟨0, r0, (showLine bs m.st r0.pos).2, by omega, rfl, rfl, hch.1, by omega, by omega⟩
          · have hm : (mark bs m r0).1.last = m.last := by
              unfold mark
              split
              · rename_i h0
                rw [if_neg fun h => hch ⟨h0, h⟩]
              · rfl
            rw [hm] at k2 k3
            exact .inl ⟨k2, k3⟩
        · exact .inr ⟨j + 1, r', sh, by omega, by simpa using b, by simpa using c, d, e, f⟩

/-- **C73**, all reports of a compilation, in any number and order: the compilation counts as free of errors exactly if all reports were warnings;
every warning is shown, and every error too, unless a shown error lies at most 9 positions before it; what is shown is the line with the
position, if this is not the first position of the line. -/
theorem C73_reports_partial (bs : List Nat) (rs : List Report) (h : ∀ r ∈ rs, r.pos ≤ bs.length) :
    ((marks bs MSt.init rs).1.noerr = true ↔ ∀ r ∈ rs, r.n < 0) ∧ (marks bs MSt.init rs).2.length = rs.length ∧
    ∀ (i : Nat) (r : Report), rs[i]? = some r →
      ((marks bs MSt.init rs).2[i]? = some none → 0 ≤ r.n ∧ ∃ (j : Nat) (r' : Report) (sh : Shown), j < i ∧ rs[j]? = some r' ∧
        (marks bs MSt.init rs).2[j]? = some (some sh) ∧ 0 ≤ r'.n ∧ r'.pos ≤ r.pos ∧ r.pos ≤ r'.pos + 9) ∧
      ∀ sh, (marks bs MSt.init rs).2[i]? = some (some sh) → isStart bs r.pos = false →
        ∃ s, StartOf bs r.pos s ∧ sh = ⟨lineOf bs r.pos, (text (bs.drop s)).take 1022, r.pos - s⟩ := by
  obtain ⟨h1, h2, h3⟩ := marks_spec bs rs h MSt.init (.inl rfl)
  refine ⟨by rw [h1]; simp [MSt.init], h2, fun i r hi => ?_⟩
  obtain ⟨a, b⟩ := h3 i r hi
  refine ⟨fun hn => ?_, b⟩
  obtain ⟨c, d⟩ := a hn
  refine ⟨c, ?_⟩
  rcases d with ⟨d, e⟩ | d
  · simp only [MSt.init] at d e
    omega
  · exact d

/-- **C73**: a compilation with an error shows at least one. -/
theorem C73_some_error (bs : List Nat) (rs : List Report) (h : ∀ r ∈ rs, r.pos ≤ bs.length) (he : ∃ r ∈ rs, 0 ≤ r.n) :
    ∃ (i : Nat) (r : Report) (sh : Shown), rs[i]? = some r ∧ 0 ≤ r.n ∧ (marks bs MSt.init rs).2[i]? = some (some sh) := by
  obtain ⟨_, hl, hs⟩ := C73_reports_partial bs rs h
  obtain ⟨r, hr, hn⟩ := he
  obtain ⟨i, hi, e⟩ := List.getElem_of_mem hr
  have hir : rs[i]? = some r := by rw [List.getElem?_eq_getElem hi, e]
  have hlt : i < (marks bs MSt.init rs).2.length := by omega
  cases ho : (marks bs MSt.init rs).2[i] with
  | some sh => exact ⟨i, r, sh, hir, hn, by rw [List.getElem?_eq_getElem hlt, ho]⟩
  | none =>
    obtain ⟨_, j, r', sh, _, b, c, d, _⟩ := (hs i r hir).1 (by rw [List.getElem?_eq_getElem hlt, ho])
    exact ⟨j, r', sh, b, d, c⟩

/-! ### The hypotheses can be met -/

/-- `a b`, LF, `cd`, CR LF, `ef`: lines begin at 0, 4 and 8. -/
def exText : List Nat := [97, 32, 98, 10, 99, 100, 13, 10, 101, 102]

example : (List.range 11).filter (isStart exText) = [0, 4, 8] := by decide
example : lineOf exText 5 = 2 ∧ lineOf exText 9 = 3 := by decide
example : Inv exText St.init := .inl rfl
example : isStart exText 9 = false ∧ (showLine exText St.init 9).2 = ⟨3, [101, 102], 1⟩ ∧ (showLine exText ⟨8, 11, 3⟩ 5).2 = ⟨2, [99, 100], 1⟩ := by
  decide
/-- The second error lies too close behind the first and is not shown, the warning and the last error are. -/
example : (marks exText MSt.init [⟨120, 1⟩, ⟨113, 5⟩, ⟨-301, 9⟩]).2 = [some ⟨1, [97, 32, 98], 1⟩, none, some ⟨3, [101, 102], 1⟩] := by decide

/-! ### Deviations -/

/-- Of an error at the first position of a line the line before is shown, for every text and every line: the number is too small by one, and the arrow
stands behind the end of that line. -/
theorem C73_first_column (bs : List Nat) (pos : Nat) (h0 : 0 < pos) (hpos : pos ≤ bs.length) (hs : isStart bs pos = true) :
    ∃ s, StartOf bs (pos - 1) s ∧ (showLine bs St.init pos).2.num = lineOf bs (pos - 1) ∧ lineOf bs (pos - 1) + 1 = lineOf bs pos ∧
      (showLine bs St.init pos).2.line = (text (bs.drop s)).take 1022 ∧ (showLine bs St.init pos).2.column = pos - 1 - s := by
  obtain ⟨h1, h2, h3, h4, h5⟩ := findLine_spec bs St.init (.inl rfl) pos hpos
  rcases h1 with h1 | ⟨a, b, c, d⟩
  · exact absurd h1 (h4 h0)
  have hlt := h5 rfl h0
  have hlim : (findLine bs St.init pos).limit = pos := by
    by_contra hne
    have := c.2.1 pos hlt (by omega)
    rw [hs] at this
    exact absurd this (by simp)
  have hno : ∀ i, (findLine bs St.init pos).start < i → i ≤ pos - 1 → isStart bs i = false := fun i x y => c.2.1 i x (by omega)
  have e := lineOf_same bs _ (pos - 1) (by omega) hno
  refine ⟨(findLine bs St.init pos).start, ⟨by omega, b, hno⟩, ?_, ?_, ?_, ?_⟩
  · show (findLine bs St.init pos).num = _
    rw [d, e]
  · rw [e]
    have := lineOf_next bs _ _ c (by omega)
    rw [hlim] at this
    exact this.symm
  · show ((bs.drop (findLine bs St.init pos).start).takeWhile fun c => !eol c).take 1022 = _
    rw [text_eq]
  · unfold showLine
    dsimp only
    rw [if_pos (by omega), hlim]
    omega

/-- An error at the very beginning of the text is shown in a line 0. -/
theorem C73_line_zero (bs : List Nat) : (showLine bs St.init 0).2.num = 0 := by
  have : findLine bs St.init 0 = St.init := by
    unfold findLine
    rw [if_neg (by simp [St.init]), if_neg (by simp [St.init])]
    rw [lines, if_neg (by simp [St.init])]
  show (findLine bs St.init 0).num = 0
  rw [this]
  rfl

/-- The line shown for a position depends on what was shown before: 4 is in line 1 or in line 2. -/
theorem C73_depends : (marks exText MSt.init [⟨-301, 4⟩, ⟨-301, 5⟩, ⟨-301, 4⟩]).2 =
    [some ⟨1, [97, 32, 98], 3⟩, some ⟨2, [99, 100], 1⟩, some ⟨2, [99, 100], 0⟩] := by decide

end Verif.ErrPos
