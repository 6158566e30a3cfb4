import Verif.Texts.Bufs

/-!
# Readers
-/
namespace Verif.Texts

variable {fs : Nat → List Nat} {fx : Nat → Bool} {base : Option Nat}

/-- The reader stands before item number `p`. -/
def At (h : Hp) (hd : Nat) (l : List Nat) (R : Reader) (p : Nat) : Prop :=
  (∃ l1 u l2, l = l1 ++ u :: l2 ∧ R.run = u ∧ R.org = sum h l1 ∧ R.off < (h.run u).len ∧
    (∀ f o a, (h.run u).kind = .piece f o a → R.file = f ∧ R.fpos = o + R.off) ∧ p = sum h l1 + R.off) ∨
  (R.run = hd ∧ R.org = sum h l ∧ R.off < maxLen ∧ p = sum h l + R.off)

/-- The element just read. -/
def LastEl (h : Hp) (l : List Nat) (R : Reader) (i : Nat) : Prop :=
  ∃ l1 u l2 g b, l = l1 ++ u :: l2 ∧ R.elem = some u ∧ sum h l1 = i ∧ (h.run u).kind = .elem g b

/-- A reader and its abstraction. -/
structure RdOk (h : Hp) (hd : Nat) (l : List Nat) (R : Reader) (d : Rd) : Prop where
  eot : R.eot = d.eot
  at_ : At h hd l R d.pos
  last : ∀ i, d.last = some i → LastEl h l R i

theorem RdOk.keep {h h' : Hp} {hd : Nat} {l : List Nat} {R : Reader} {d : Rd} (hr : RdOk h hd l R d) (he : ∀ c ∈ l, h'.run c = h.run c) : RdOk h' hd l R d := by
  refine ⟨hr.eot, ?_, fun i hi => ?_⟩
  · rcases hr.at_ with ⟨l1, u, l2, rfl, h1, h2, h3, h4, h5⟩ | ⟨h1, h2, h3, h4⟩
    · have e1 : sum h' l1 = sum h l1 := sum_congr fun c hc => he c (by simp [hc])
      have e2 : h'.run u = h.run u := he u (by simp)
      exact .inl ⟨l1, u, l2, rfl, h1, h2.trans e1.symm, by rw [e2]; exact h3, by rw [e2]; exact h4, by rw [e1]; exact h5⟩
    · have e1 : sum h' l = sum h l := sum_congr he
      exact .inr ⟨h1, h2.trans e1.symm, h3, by rw [e1]; exact h4⟩
  · obtain ⟨l1, u, l2, g, b, rfl, h1, h2, h3⟩ := hr.last i hi
    have e1 : sum h' l1 = sum h l1 := sum_congr fun c hc => he c (by simp [hc])
    exact ⟨l1, u, l2, g, b, rfl, h1, e1.trans h2, by rw [he u (by simp)]; exact h3⟩

theorem seek_at {h : Hp} {hd : Nat} {l l1 l2 : List Nat} {R : Reader} {d : Nat} (hl : l = l1 ++ l2) (hr : Ring h fs fx base hd l)
    (h1 : R.run = fst l2 hd) (h2 : R.org = sum h l1) (h3 : R.off = 0) (h4 : ∀ f o a, (h.run (fst l2 hd)).kind = .piece f o a → R.file = f ∧ R.fpos = o) (hd' : d = sum h l1) :
    At h hd l R d := by
  subst hl
  cases l2 with
  | nil =>
    right
    refine ⟨h1, by simpa using h2, by rw [h3]; simp [maxLen], by rw [h3, hd']; simp⟩
  | cons u l2 =>
    left
    refine ⟨l1, u, l2, rfl, h1, h2, by rw [h3]; exact (hr.ok u (by simp)).pos, fun f o a hk => ?_, by rw [h3, hd']; simp⟩
    rw [h3]; exact h4 f o a hk

theorem readNext_at {h : Hp} {hd u : Nat} {l l1 l2 : List Nat} {R : Reader} (hr : Ring h fs fx base hd l) (hl : l = l1 ++ u :: l2)
    (h1 : R.run = u) (h2 : R.org = sum h l1) (h3 : R.off ≤ (h.run u).len) (h4 : ∀ f o a, (h.run u).kind = .piece f o a → R.file = f ∧ R.fpos = o + R.off) :
    At h hd l (readNext h R) (sum h l1 + R.off) ∧ (readNext h R).look = R.look ∧ (readNext h R).elem = R.elem ∧ (readNext h R).eot = R.eot := by
  unfold readNext
  simp only [h1]
  by_cases h5 : R.off = (h.run u).len
  · rw [if_pos h5]
    have hn : h.nxt u = fst l2 hd := by
      have := hr.linked
      rw [hl] at this
      have := (ring_mid (l1 := l1 ++ [u]) (l2 := l2) (by simpa using this)).1
      simpa using this
    rw [hn]
    obtain ⟨S, hS⟩ : ∃ S, S = seek h R (fst l2 hd) 0 := ⟨_, rfl⟩
    have hse : S.look = R.look ∧ S.elem = R.elem ∧ S.eot = R.eot ∧ (∀ f o a, (h.run (fst l2 hd)).kind = .piece f o a → S.file = f ∧ S.fpos = o) := by
      rw [hS]; unfold seek
      cases (h.run (fst l2 hd)).kind with
      | head => exact ⟨rfl, rfl, rfl, fun _ _ _ h6 => by simp at h6⟩
      | elem g b => exact ⟨rfl, rfl, rfl, fun _ _ _ h6 => by simp at h6⟩
      | piece f o a => exact ⟨rfl, rfl, rfl, fun _ _ _ h6 => by cases h6; exact ⟨rfl, rfl⟩⟩
    rw [← hS]
    refine ⟨seek_at (l1 := l1 ++ [u]) (l2 := l2) (by rw [hl]; simp) hr rfl (by rw [h2]; simp) rfl hse.2.2.2 (by rw [h5]; simp), hse.1, hse.2.1, hse.2.2.1⟩
  · rw [if_neg h5]
    exact ⟨.inl ⟨l1, u, l2, hl, h1, h2, by omega, h4, rfl⟩, rfl, rfl, rfl⟩

theorem noCRLF_getD : ∀ {b : List Nat} {p : Nat}, noCRLF b = true → b.getD p 0 = 13 → b.getD (p + 1) 0 ≠ 10
  | [], _, _, h2 => by simp at h2
  | [_], p, _, h2 => by simp
  | a :: c :: r, 0, h1, h2 => by
    simp only [noCRLF, Bool.and_eq_true, Bool.not_eq_true', Bool.and_eq_false_iff, beq_eq_false_iff_ne] at h1
    simp at h2 ⊢
    rcases h1.1 with h3 | h3
    · exact absurd h2 h3
    · exact h3
  | a :: c :: r, p + 1, h1, h2 => by
    simp only [noCRLF, Bool.and_eq_true] at h1
    have := noCRLF_getD (b := c :: r) (p := p) h1.2 (by simpa using h2)
    simpa using this

theorem items_get {h : Hp} {l1 l2 : List Nat} {u off : Nat} (hok : ∀ a ∈ l1 ++ u :: l2, RunOk fs fx base (h.run a)) (ho : off < (h.run u).len) :
    (items h fs (l1 ++ u :: l2))[sum h l1 + off]? = (runItems fs (h.run u))[off]? := by
  have e1 : (items h fs l1).length = sum h l1 := items_length fun c hc => hok c (by simp [hc])
  rw [items_append, items_cons, List.getElem?_append_right (by omega), e1, Nat.add_sub_cancel_left,
    List.getElem?_append_left (by rw [runItems_length (hok u (by simp))]; exact ho)]

/-- `Read`. -/
theorem read_spec {h : Hp} {hd : Nat} {l : List Nat} {R : Reader} {d : Rd} (hr : Ring h fs fx base hd l) (hfx : ∀ f, fx f = true → noCRLF (fs f) = true)
    (hs : (h.run hd).len = maxLen) (hd' : RdOk h hd l R d) :
    (∃ c L, (items h fs l)[d.pos]? = some (.ch c L) ∧ (read h fs R).2 = c ∧ (read h fs R).1.look = L ∧ (h.run R.run).kind ≠ .head ∧
      (read h fs R).1.elem = none ∧ (read h fs R).1.eot = d.eot ∧ RdOk h hd l (read h fs R).1 { d with pos := d.pos + 1, last := none }) ∨
    (∃ g L, (items h fs l)[d.pos]? = some (.el g L) ∧ (read h fs R).2 = 28 ∧ (read h fs R).1.look = L ∧ (h.run R.run).kind ≠ .head ∧
      (read h fs R).1.elem.bind (tagOf h) = some g ∧ (read h fs R).1.eot = d.eot ∧ RdOk h hd l (read h fs R).1 { d with pos := d.pos + 1, last := some d.pos }) ∨
    ((items h fs l)[d.pos]? = none ∧ (h.run R.run).kind = .head ∧ (read h fs R).2 = 0 ∧ (d.pos + 1 < (items h fs l).length + maxLen →
      (read h fs R).1.elem = none ∧ (read h fs R).1.eot = true ∧ RdOk h hd l (read h fs R).1 { d with pos := d.pos + 1, eot := true, last := none })) := by
  rcases hd'.at_ with ⟨l1, u, l2, rfl, h1, h2, h3, h4, h5⟩ | ⟨h1, h2, h3, h4⟩
  · have hu := hr.ok u (by simp)
    have hget := items_get (fs := fs) (off := R.off) hr.ok h3
    rw [← h5] at hget
    have hid : ∀ (R' : Reader), At h hd (l1 ++ u :: l2) R' (sum h l1 + (R.off + 1)) → At h hd (l1 ++ u :: l2) R' (d.pos + 1) := fun R' h6 => by
      have : d.pos + 1 = sum h l1 + (R.off + 1) := by omega
      rw [this]; exact h6
    rcases hk : (h.run u).kind with _ | ⟨f, o, a⟩ | ⟨g, b⟩
    · exact absurd hk hu.head
    · left
      obtain ⟨hfile, hpos⟩ := h4 f o a hk
      have hlt : o + R.off < (fs f).length := by have := (hu.piece f o a hk).1; omega
      have hb : fread (fs f) (o + R.off) = (fs f)[o + R.off] := by unfold fread; rw [List.getD_eq_getElem?_getD, List.getElem?_eq_getElem hlt]; rfl
      have hit : (runItems fs (h.run u))[R.off]? = some (.ch (trch a (fs f)[o + R.off]) (h.run u).look) := by
        unfold runItems
        simp only [hk]
        rw [List.getElem?_map, List.getElem?_take, if_pos h3, List.getElem?_drop, List.getElem?_eq_getElem hlt]; rfl
      rw [hit] at hget
      obtain ⟨R1, hR1⟩ : ∃ R1 : Reader, R1 = { R with look := (h.run u).look, off := R.off + 1, fpos := R.fpos + 1, elem := none } := ⟨_, rfl⟩
      have hrd : read h fs R = (readNext h R1, trch a (fs f)[o + R.off]) := by
        unfold read
        simp only [h1, hk, hfile, hpos, hb]
        have e1 : ({ eot := R.eot, look := (h.run u).look, elem := none, file := f, fpos := o + R.off + 1, run := u, org := R.org, off := R.off + 1 } : Reader) = R1 := by
          rw [hR1]; simp only [h1, hfile, hpos]
        by_cases c10 : (fs f)[o + R.off] = 10 ∧ a = true
        · rw [if_pos c10, e1]; unfold trch; rw [if_pos c10]
        · rw [if_neg c10]
          have ht : trch a (fs f)[o + R.off] = (fs f)[o + R.off] := by unfold trch; rw [if_neg c10]
          by_cases c13 : (fs f)[o + R.off] = 13 ∧ a = true
          · rw [if_pos c13, if_neg, e1, ht]
            have := noCRLF_getD (p := o + R.off) (hfx f ((hu.piece f o a hk).2 c13.2)) (by rw [List.getD_eq_getElem?_getD, List.getElem?_eq_getElem hlt]; exact c13.1)
            exact this
          · rw [if_neg c13, e1, ht]
      obtain ⟨n1, n2, n3, n4⟩ := readNext_at (R := R1) hr rfl (by rw [hR1]; exact h1) (by rw [hR1]; exact h2) (by rw [hR1]; show R.off + 1 ≤ _; omega)
        (fun f' o' a' hk' => by rw [hk] at hk'; cases hk'; rw [hR1]; exact ⟨hfile, by show R.fpos + 1 = o + (R.off + 1); omega⟩)
      have ho : R1.off = R.off + 1 := by rw [hR1]
      rw [ho] at n1
      refine ⟨_, _, hget, by rw [hrd], by rw [hrd, n2, hR1], by rw [h1, hk]; simp, by rw [hrd, n3, hR1], by rw [hrd, n4, hR1]; exact hd'.eot, ?_⟩
      rw [hrd]
      exact ⟨by rw [n4, hR1]; exact hd'.eot, hid _ n1, fun i hi => by simp at hi⟩
    · right; left
      have hlen := (hu.elem g b hk).1
      have hoff : R.off = 0 := by omega
      have hit : (runItems fs (h.run u))[R.off]? = some (.el g (h.run u).look) := by
        unfold runItems; simp only [hk, hoff]; rfl
      rw [hit] at hget
      obtain ⟨R1, hR1⟩ : ∃ R1 : Reader, R1 = { R with look := (h.run u).look, off := R.off + 1, elem := some u } := ⟨_, rfl⟩
      have hrd : read h fs R = (readNext h R1, 28) := by
        unfold read
        simp only [h1, hk]
        rw [hR1]; simp only [h1]
      obtain ⟨n1, n2, n3, n4⟩ := readNext_at (R := R1) hr rfl (by rw [hR1]; exact h1) (by rw [hR1]; exact h2) (by rw [hR1]; show R.off + 1 ≤ _; omega)
        (fun f' o' a' hk' => by rw [hk] at hk'; cases hk')
      have ho : R1.off = R.off + 1 := by rw [hR1]
      rw [ho] at n1
      have hel : R1.elem = some u := by rw [hR1]
      refine ⟨_, _, hget, by rw [hrd], by rw [hrd, n2, hR1], by rw [h1, hk]; simp, ?_, by rw [hrd, n4, hR1]; exact hd'.eot, ?_⟩
      · rw [hrd, n3, hel]; simp [tagOf, hk]
      · rw [hrd]
        refine ⟨by rw [n4, hR1]; exact hd'.eot, hid _ n1, fun i hi => ?_⟩
        have hi : some d.pos = some i := hi
        cases hi
        exact ⟨l1, u, l2, g, b, rfl, by rw [n3, hel], by omega, hk⟩
  · right; right
    have hlen := items_length hr.ok
    refine ⟨List.getElem?_eq_none (by omega), by rw [h1]; exact hr.head, ?_, fun h5 => ?_⟩
    · unfold read
      simp only [h1, hr.head]
    · have hrd : (read h fs R).1 = { R with look := (h.run hd).look, off := R.off + 1, elem := none, eot := true } := by
        unfold read
        simp only [h1, hr.head]
        unfold readNext
        simp only []
        rw [if_neg (by rw [hs]; omega)]
      rw [hrd]
      exact ⟨rfl, rfl, rfl, .inr ⟨h1, h2, by show R.off + 1 < _; omega, by show d.pos + 1 = _ + (R.off + 1); omega⟩, fun i hi => by simp at hi⟩

theorem openReader_spec {h : Hp} {T : Text} {self : Nat} {l : List Nat} {t : Nat} (R : Reader) (pos : Nat) (hT : TOk h fs fx self T l) :
    ∃ R' T', openReader h T R pos = some (R', T') ∧ T'.head = T.head ∧ T'.len = T.len ∧ CacheIn h T' T.head l ∧
      RdOk h T.head l R' ⟨t, min pos T.len, false, none⟩ := by
  have hmin : (if pos ≥ T.len then T.len else pos) = min pos T.len := by split_ifs <;> omega
  unfold openReader
  rw [hmin]
  have hsk : ∀ (R : Reader) u d, (seek h R u d).eot = R.eot ∧ (seek h R u d).run = R.run ∧ (seek h R u d).org = R.org ∧ (seek h R u d).off = R.off ∧
      (∀ f o a, (h.run u).kind = .piece f o a → (seek h R u d).file = f ∧ (seek h R u d).fpos = o + d) := by
    intro R u d
    unfold seek
    cases (h.run u).kind with
    | head => exact ⟨rfl, rfl, rfl, rfl, fun _ _ _ h6 => by simp at h6⟩
    | elem g b => exact ⟨rfl, rfl, rfl, rfl, fun _ _ _ h6 => by simp at h6⟩
    | piece f o a => exact ⟨rfl, rfl, rfl, rfl, fun _ _ _ h6 => by cases h6; exact ⟨rfl, rfl⟩⟩
  rcases find_spec (min pos T.len) hT.ring hT.len hT.cache with ⟨b1, hf⟩ | ⟨b1, a, u, b, hab, b2, b3, hf⟩
  · rw [hf]
    refine ⟨_, _, rfl, rfl, rfl, ⟨[], l, rfl, rfl, rfl⟩, ?_, .inr ⟨?_, ?_, ?_, ?_⟩, fun i hi => by simp at hi⟩
    · exact (hsk _ _ _).1
    · exact (hsk _ _ _).2.1
    · rw [(hsk _ _ _).2.2.1]; exact hT.len
    · rw [(hsk _ _ _).2.2.2.1]; simp [maxLen]
    · rw [(hsk _ _ _).2.2.2.1]; show min pos T.len = _ + 0; rw [← hT.len]; omega
  · rw [hf]
    refine ⟨_, _, rfl, rfl, rfl, ⟨a, u :: b, hab, rfl, rfl⟩, ?_, .inl ⟨a, u, b, hab, ?_, ?_, ?_, ?_, ?_⟩, fun i hi => by simp at hi⟩
    · exact (hsk _ _ _).1
    · exact (hsk _ _ _).2.1
    · rw [(hsk _ _ _).2.2.1]
    · rw [(hsk _ _ _).2.2.2.1]; exact b3
    · intro f o as hk
      obtain ⟨g1, g2⟩ := (hsk { R with run := u, org := sum h a, off := min pos T.len - sum h a, eot := false } u (min pos T.len - sum h a)).2.2.2.2 f o as hk
      exact ⟨g1, by rw [(hsk _ _ _).2.2.2.1]; exact g2⟩
    · rw [(hsk _ _ _).2.2.2.1]; show min pos T.len = sum h a + (min pos T.len - sum h a); omega

/-! ### Elements -/

theorem zipIdx_drop_cons {x : List Item} {p : Nat} (hp : p < x.length) : x.zipIdx.drop p = (x[p], p) :: x.zipIdx.drop (p + 1) := by
  rw [List.drop_eq_getElem_cons (by simpa using hp)]
  simp

theorem nextEl_hit {x : List Item} {p g : Nat} {L : Look} (h : x[p]? = some (.el g L)) : nextEl x p = some (p, g, L) := by
  obtain ⟨h1, h2⟩ := List.getElem?_eq_some_iff.mp h
  unfold nextEl
  rw [zipIdx_drop_cons h1, List.findSome?_cons, h2]
  rfl

theorem nextEl_ch {x : List Item} {p c : Nat} {L : Look} (h : x[p]? = some (.ch c L)) : nextEl x p = nextEl x (p + 1) := by
  obtain ⟨h1, h2⟩ := List.getElem?_eq_some_iff.mp h
  unfold nextEl
  rw [zipIdx_drop_cons h1, List.findSome?_cons, h2]
  rfl

theorem nextEl_end {x : List Item} {p : Nat} (h : x.length ≤ p) : nextEl x p = none := by
  unfold nextEl
  rw [List.drop_of_length_le (by simpa using h)]; rfl

theorem nextEl_skip {x : List Item} {p : Nat} : ∀ {n : Nat}, (∀ i, i < n → ∃ c L, x[p + i]? = some (.ch c L)) → nextEl x p = nextEl x (p + n)
  | 0, _ => rfl
  | n + 1, h => by
    obtain ⟨c, L, h1⟩ := h n (by omega)
    rw [nextEl_skip (n := n) fun i hi => h i (by omega), nextEl_ch h1]; rfl

theorem zipIdx_take_snoc {x : List Item} {p : Nat} (hp : p < x.length) : (x.zipIdx.take (p + 1)).reverse = (x[p], p) :: (x.zipIdx.take p).reverse := by
  rw [List.take_succ_eq_append_getElem (by simpa using hp), List.reverse_append]
  simp

theorem prevEl_hit {x : List Item} {p g : Nat} {L : Look} (h : x[p]? = some (.el g L)) : prevEl x (p + 1) = some (p, g, L) := by
  obtain ⟨h1, h2⟩ := List.getElem?_eq_some_iff.mp h
  unfold prevEl
  rw [zipIdx_take_snoc h1, List.findSome?_cons, h2]
  rfl

theorem prevEl_ch {x : List Item} {p c : Nat} {L : Look} (h : x[p]? = some (.ch c L)) : prevEl x (p + 1) = prevEl x p := by
  obtain ⟨h1, h2⟩ := List.getElem?_eq_some_iff.mp h
  unfold prevEl
  rw [zipIdx_take_snoc h1, List.findSome?_cons, h2]
  rfl

theorem prevEl_zero (x : List Item) : prevEl x 0 = none := rfl

theorem prevEl_end {x : List Item} {p : Nat} (h : x.length ≤ p) : prevEl x p = prevEl x x.length := by
  unfold prevEl
  rw [List.take_of_length_le (by simpa using h), List.take_of_length_le (by simp)]

theorem prevEl_skip {x : List Item} {p : Nat} : ∀ {n : Nat}, (∀ i, i < n → ∃ c L, x[p + i]? = some (.ch c L)) → prevEl x (p + n) = prevEl x p
  | 0, _ => rfl
  | n + 1, h => by
    obtain ⟨c, L, h1⟩ := h n (by omega)
    have := prevEl_ch h1
    rw [← Nat.add_assoc, this, prevEl_skip (n := n) fun i hi => h i (by omega)]

theorem piece_get {r : Run} {f o : Nat} {a : Bool} (hr : RunOk fs fx base r) (hk : r.kind = .piece f o a) {i : Nat} (hi : i < r.len) :
    ∃ c L, (runItems fs r)[i]? = some (.ch c L) := by
  have hl := (hr.piece f o a hk).1
  refine ⟨trch a ((fs f)[o + i]'(by omega)), r.look, ?_⟩
  unfold runItems
  simp only [hk]
  rw [List.getElem?_map, List.getElem?_take, if_pos hi, List.getElem?_drop, List.getElem?_eq_getElem (by omega)]; rfl

theorem piece_ch {h : Hp} {l1 l2 : List Nat} {u f o : Nat} {a : Bool} (hok : ∀ a ∈ l1 ++ u :: l2, RunOk fs fx base (h.run a)) (hk : (h.run u).kind = .piece f o a) {i : Nat} (hi : i < (h.run u).len) :
    ∃ c L, (items h fs (l1 ++ u :: l2))[sum h l1 + i]? = some (.ch c L) := by
  rw [items_get hok hi]
  exact piece_get (hok u (by simp)) hk hi

theorem elem_get {h : Hp} {l1 l2 : List Nat} {u g : Nat} {b : Option Nat} (hok : ∀ a ∈ l1 ++ u :: l2, RunOk fs fx base (h.run a)) (hk : (h.run u).kind = .elem g b) :
    (items h fs (l1 ++ u :: l2))[sum h l1]? = some (.el g (h.run u).look) := by
  have := items_get (fs := fs) (off := 0) hok (by have := (hok u (by simp)).pos; omega)
  rw [Nat.add_zero] at this
  rw [this]
  unfold runItems
  simp only [hk]; rfl

/-- The loop of `ReadElem`. -/
theorem skip_spec {h : Hp} {hd : Nat} : ∀ {r l1 : List Nat} {f : Nat}, Linked h (r ++ [hd]) → (h.run hd).kind = .head →
    (∀ a ∈ l1 ++ r, RunOk fs fx base (h.run a)) → r.length < f →
    (skip h f (fst r hd) (sum h l1) = some (hd, sum h (l1 ++ r)) ∧ nextEl (items h fs (l1 ++ r)) (sum h l1) = none) ∨
    (∃ p v q g b, r = p ++ v :: q ∧ (h.run v).kind = .elem g b ∧ skip h f (fst r hd) (sum h l1) = some (v, sum h (l1 ++ p)) ∧
      nextEl (items h fs (l1 ++ r)) (sum h l1) = some (sum h (l1 ++ p), g, (h.run v).look))
  | r, l1, 0, _, _, _, hf => by omega
  | [], l1, f + 1, hl, hh, hok, hf => by
    left
    refine ⟨by rw [skip, fst_nil, hh]; simp, nextEl_end ?_⟩
    rw [items_length hok]; simp
  | v :: r, l1, f + 1, hl, hh, hok, hf => by
    rcases hk : (h.run v).kind with _ | ⟨fl, o, a⟩ | ⟨g, b⟩
    · exact absurd hk (hok v (by simp)).head
    · have hn : h.nxt v = fst r hd := (ring_first (by simpa using hl)).1
      have hstep : skip h (f + 1) (fst (v :: r) hd) (sum h l1) = skip h f (fst r hd) (sum h (l1 ++ [v])) := by
        rw [skip, fst_cons]; simp only [hk, hn]; simp
      have hne : nextEl (items h fs (l1 ++ v :: r)) (sum h l1) = nextEl (items h fs (l1 ++ v :: r)) (sum h (l1 ++ [v])) := by
        have := nextEl_skip (x := items h fs (l1 ++ v :: r)) (p := sum h l1) (n := (h.run v).len) fun i hi => piece_ch hok hk hi
        rw [this]; simp
      rw [hstep, hne]
      have e : l1 ++ v :: r = (l1 ++ [v]) ++ r := by simp
      rcases skip_spec (r := r) (l1 := l1 ++ [v]) (f := f) (linked_right (l1 := [v]) hl) hh (by rw [← e]; exact hok) (by simp at hf; omega) with h1 | ⟨p, w, q, g, b, h1, h2, h3, h4⟩
      · left; rw [e]; exact h1
      · right
        refine ⟨v :: p, w, q, g, b, by rw [h1]; rfl, h2, ?_, ?_⟩
        · rw [h3]; simp
        · rw [e, h4]; simp
    · right
      refine ⟨[], v, r, g, b, rfl, hk, ?_, ?_⟩
      · rw [skip, fst_cons]; simp only [hk]; simp
      · rw [nextEl_hit (elem_get hok hk)]; simp

/-- The loop of `ReadPrevElem`. -/
theorem skipBack_spec {h : Hp} {hd : Nat} {x : List Item} : ∀ (n : Nat) {l1 : List Nat} {f : Nat}, l1.length = n → Linked h (hd :: l1) → (h.run hd).kind = .head →
    (∀ a ∈ l1, RunOk fs fx base (h.run a)) → (∃ y, x = items h fs l1 ++ y) → n < f →
    (skipBack h f (lst hd l1) (sum h l1) = some (hd, 0) ∧ prevEl x (sum h l1) = none) ∨
    (∃ p v q g b, l1 = p ++ v :: q ∧ (h.run v).kind = .elem g b ∧ skipBack h f (lst hd l1) (sum h l1) = some (v, sum h p + 1) ∧
      prevEl x (sum h l1) = some (sum h p, g, (h.run v).look))
  | n, l1, 0, _, _, _, _, _, hf => by omega
  | 0, l1, f + 1, hn, hl, hh, hok, hx, hf => by
    obtain rfl : l1 = [] := List.length_eq_zero_iff.mp hn
    left
    exact ⟨by rw [skipBack, lst_nil, hh]; simp, prevEl_zero _⟩
  | n + 1, l1, f + 1, hn, hl, hh, hok, ⟨y, hx⟩, hf => by
    rcases snoc_cases l1 with rfl | ⟨l1, v, rfl⟩
    · simp at hn
    have hx' : x = items h fs l1 ++ (runItems fs (h.run v) ++ y) := by rw [hx]; simp
    have hI : (items h fs l1).length = sum h l1 := items_length fun c hc => hok c (by simp [hc])
    have hV : (runItems fs (h.run v)).length = (h.run v).len := runItems_length (hok v (by simp))
    have hget : ∀ i, i < (h.run v).len → x[sum h l1 + i]? = (runItems fs (h.run v))[i]? := fun i hi => by
      rw [hx', List.getElem?_append_right (by omega), hI, Nat.add_sub_cancel_left, List.getElem?_append_left (by omega)]
    rw [lst_snoc]
    rcases hk : (h.run v).kind with _ | ⟨fl, o, a⟩ | ⟨g, b⟩
    · exact absurd hk (hok v (by simp)).head
    · have hp : h.prv v = lst hd l1 := by
        have := (ring_mid (a := hd) (b := v) (l1 := l1) (l2 := []) (by simpa using hl)).2
        simpa using this
      have hstep : skipBack h (f + 1) v (sum h (l1 ++ [v])) = skipBack h f (lst hd l1) (sum h l1) := by
        rw [skipBack]; simp only [hk, hp]; simp
      have hne : prevEl x (sum h (l1 ++ [v])) = prevEl x (sum h l1) := by
        have := prevEl_skip (x := x) (p := sum h l1) (n := (h.run v).len) fun i hi => by
          rw [hget i hi]; exact piece_get (hok v (by simp)) hk hi
        rw [← this]; simp
      rw [hstep, hne]
      rcases skipBack_spec n (l1 := l1) (f := f) (by simpa using hn) (linked_left (l2 := [v]) (by simpa using hl)) hh (fun a ha => hok a (by simp [ha])) ⟨_, hx'⟩ (by omega) with h1 | ⟨p, w, q, g, b, h1, h2, h3, h4⟩
      · exact .inl h1
      · exact .inr ⟨p, w, q ++ [v], g, b, by rw [h1]; simp, h2, h3, h4⟩
    · right
      have hlen := ((hok v (by simp)).elem g b hk).1
      refine ⟨l1, v, [], g, b, rfl, hk, ?_, ?_⟩
      · rw [skipBack]; simp only [hk]; simp [hlen]
      · have h1 : x[sum h l1]? = some (.el g (h.run v).look) := by
          have := hget 0 (by omega)
          rw [Nat.add_zero] at this
          rw [this]; unfold runItems; simp only [hk]; rfl
        rw [← prevEl_hit h1]; simp [hlen]

theorem readElem_spec {h : Hp} {hd : Nat} {l : List Nat} {R : Reader} {d : Rd} (hr : Ring h fs fx base hd l) (hd' : RdOk h hd l R d) :
    (∃ R', readElem h R = some R' ∧ nextEl (items h fs l) d.pos = none ∧ elemOut h R' = none) ∨
    (∃ R' i g L, readElem h R = some R' ∧ nextEl (items h fs l) d.pos = some (i, g, L) ∧ elemOut h R' = some (g, L) ∧
      RdOk h hd l R' { d with pos := i + 1, last := some i }) := by
  have hlen := hr.length
  -- from the beginning of a run
  have key : ∀ l1 r, l = l1 ++ r → R.run = fst r hd → R.org = sum h l1 → nextEl (items h fs l) d.pos = nextEl (items h fs l) (sum h l1) →
      (∃ R', readElem h R = some R' ∧ nextEl (items h fs l) d.pos = none ∧ elemOut h R' = none) ∨
      (∃ R' i g L, readElem h R = some R' ∧ nextEl (items h fs l) d.pos = some (i, g, L) ∧ elemOut h R' = some (g, L) ∧
      RdOk h hd l R' { d with pos := i + 1, last := some i }) := by
    intro l1 r hl h1 h2 h3
    have hlk : Linked h (r ++ [hd]) := by
      have := hr.linked; rw [hl] at this
      exact linked_right (l1 := hd :: l1) (by simpa using this)
    have hrl : r.length < h.free + 1 := by rw [hl] at hlen; simp at hlen; omega
    rw [h3]
    rcases skip_spec (base := base) (fs := fs) (fx := fx) (r := r) (l1 := l1) hlk hr.head (by rw [← hl]; exact hr.ok) hrl with ⟨s1, s2⟩ | ⟨p, v, q, g, b, s1, s2, s3, s4⟩
    · left
      rw [← hl] at s1 s2
      refine ⟨{ R with org := sum h l, eot := true, elem := none }, ?_, s2, rfl⟩
      unfold readElem
      rw [h1, h2, s1, Option.map_some]
      simp only [hr.head]
    · right
      have hl' : l = (l1 ++ p) ++ v :: q := by rw [hl, s1]; simp
      have hv : h.nxt v = fst q hd := by
        have := hr.linked; rw [hl'] at this
        have := (ring_mid (l1 := l1 ++ p ++ [v]) (l2 := q) (by simpa using this)).1
        rwa [lst_snoc] at this
      have hvl : (h.run v).len = 1 := ((hr.ok v (by rw [hl']; simp)).elem g b s2).1
      obtain ⟨R0, hR0⟩ : ∃ R0 : Reader, R0 = { R with org := sum h (l1 ++ p) + 1, run := fst q hd, off := 0, look := (h.run v).look, elem := some v } := ⟨_, rfl⟩
      obtain ⟨R1, hR1⟩ : ∃ R1, R1 = seek h R0 (fst q hd) 0 := ⟨_, rfl⟩
      have hse : R1.look = R0.look ∧ R1.elem = R0.elem ∧ R1.eot = R0.eot ∧ R1.run = R0.run ∧ R1.org = R0.org ∧ R1.off = R0.off ∧
          (∀ f o a, (h.run (fst q hd)).kind = .piece f o a → R1.file = f ∧ R1.fpos = o) := by
        rw [hR1]; unfold seek
        cases (h.run (fst q hd)).kind with
        | head => exact ⟨rfl, rfl, rfl, rfl, rfl, rfl, fun _ _ _ h6 => by simp at h6⟩
        | elem g b => exact ⟨rfl, rfl, rfl, rfl, rfl, rfl, fun _ _ _ h6 => by simp at h6⟩
        | piece f o a => exact ⟨rfl, rfl, rfl, rfl, rfl, rfl, fun _ _ _ h6 => by cases h6; exact ⟨rfl, rfl⟩⟩
      obtain ⟨e1, e2, e3, e4, e5, e6, e7⟩ := hse
      refine ⟨R1, sum h (l1 ++ p), g, (h.run v).look, ?_, by rw [hl]; exact s4, ?_, ?_, ?_, ?_⟩
      · unfold readElem
        rw [h1, h2, s3, Option.map_some]
        simp only [s2, hv, ← hR0, hR1]
      · unfold elemOut
        rw [e2, e1, hR0]
        simp [tagOf, s2]
      · rw [e3, hR0]; exact hd'.eot
      · exact seek_at (l1 := l1 ++ p ++ [v]) (l2 := q) (by rw [hl']; simp) hr (by rw [e4, hR0]) (by rw [e5, hR0]; simp [hvl]; omega) (by rw [e6, hR0]) e7 (by simp [hvl]; omega)
      · intro i hi
        have hi : some (sum h (l1 ++ p)) = some i := hi
        cases hi
        exact ⟨l1 ++ p, v, q, g, b, hl', by rw [e2, hR0], rfl, s2⟩
  rcases hd'.at_ with ⟨l1, u, l2, rfl, h1, h2, h3, h4, h5⟩ | ⟨h1, h2, h3, h4⟩
  · rcases hk : (h.run u).kind with _ | ⟨f, o, a⟩ | ⟨g, b⟩
    · exact absurd hk (hr.ok u (by simp)).head
    · refine key l1 (u :: l2) rfl h1 h2 ?_
      rw [h5]
      exact (nextEl_skip fun i hi => piece_ch hr.ok hk (by omega)).symm
    · have : R.off = 0 := by have := ((hr.ok u (by simp)).elem g b hk).1; omega
      exact key l1 (u :: l2) rfl h1 h2 (by rw [h5, this]; rfl)
  · refine key l [] (by simp) h1 h2 ?_
    rw [nextEl_end (by rw [items_length hr.ok]; omega), nextEl_end (by rw [items_length hr.ok])]

theorem readPrevElem_spec {h : Hp} {hd : Nat} {l : List Nat} {R : Reader} {d : Rd} (hr : Ring h fs fx base hd l) (hd' : RdOk h hd l R d) :
    (∃ R', readPrevElem h R = some R' ∧ prevEl (items h fs l) d.pos = none ∧ elemOut h R' = none) ∨
    (∃ R' i g L, readPrevElem h R = some R' ∧ prevEl (items h fs l) d.pos = some (i, g, L) ∧ elemOut h R' = some (g, L) ∧
      RdOk h hd l R' { d with pos := i, last := some i }) := by
  have hlen := hr.length
  have key : ∀ l1 r, l = l1 ++ r → R.run = fst r hd → R.org = sum h l1 → prevEl (items h fs l) d.pos = prevEl (items h fs l) (sum h l1) →
      (∃ R', readPrevElem h R = some R' ∧ prevEl (items h fs l) d.pos = none ∧ elemOut h R' = none) ∨
      (∃ R' i g L, readPrevElem h R = some R' ∧ prevEl (items h fs l) d.pos = some (i, g, L) ∧ elemOut h R' = some (g, L) ∧
      RdOk h hd l R' { d with pos := i, last := some i }) := by
    intro l1 r hl h1 h2 h3
    have hlk : Linked h (hd :: l1) := by
      have := hr.linked; rw [hl] at this
      exact linked_left (l2 := r ++ [hd]) (by simpa using this)
    have hp : h.prv (fst r hd) = lst hd l1 := by
      have := hr.linked; rw [hl] at this
      exact (ring_mid this).2
    have hrl : l1.length < h.free + 1 := by rw [hl] at hlen; simp at hlen; omega
    rw [h3]
    rcases skipBack_spec (base := base) (fs := fs) (fx := fx) (x := items h fs l) l1.length (l1 := l1) rfl hlk hr.head (fun a ha => hr.ok a (by rw [hl]; simp [ha]))
      ⟨items h fs r, by rw [hl]; simp⟩ hrl with ⟨s1, s2⟩ | ⟨p, v, q, g, b, s1, s2, s3, s4⟩
    · left
      refine ⟨{ R with org := 0, eot := true, elem := none }, ?_, s2, rfl⟩
      unfold readPrevElem
      rw [h1, h2, hp, s1, Option.map_some]
      simp only [hr.head]
    · right
      have hl' : l = p ++ v :: (q ++ r) := by rw [hl, s1]; simp
      refine ⟨{ R with org := sum h p, run := v, off := 0, look := (h.run v).look, elem := some v }, sum h p, g, (h.run v).look, ?_, s4, ?_, ?_, ?_, ?_⟩
      · unfold readPrevElem
        rw [h1, h2, hp, s3, Option.map_some]
        simp only [s2, Nat.add_sub_cancel]
      · simp [elemOut, tagOf, s2]
      · exact hd'.eot
      · exact .inl ⟨p, v, q ++ r, hl', rfl, rfl, (hr.ok v (by rw [hl']; simp)).pos, (fun _ _ _ hk => by rw [s2] at hk; cases hk), rfl⟩
      · intro i hi
        have hi : some (sum h p) = some i := hi
        cases hi
        exact ⟨p, v, q ++ r, g, b, hl', rfl, rfl, s2⟩
  rcases hd'.at_ with ⟨l1, u, l2, rfl, h1, h2, h3, h4, h5⟩ | ⟨h1, h2, h3, h4⟩
  · rcases hk : (h.run u).kind with _ | ⟨f, o, a⟩ | ⟨g, b⟩
    · exact absurd hk (hr.ok u (by simp)).head
    · refine key l1 (u :: l2) rfl h1 h2 ?_
      rw [h5]
      exact prevEl_skip fun i hi => piece_ch hr.ok hk (by omega)
    · have : R.off = 0 := by have := ((hr.ok u (by simp)).elem g b hk).1; omega
      exact key l1 (u :: l2) rfl h1 h2 (by rw [h5, this]; rfl)
  · refine key l [] (by simp) h1 h2 ?_
    rw [prevEl_end (by rw [items_length hr.ok]; omega), items_length hr.ok]

theorem elemPos_spec {h : Hp} {hd e : Nat} : ∀ {l1 : List Nat} {l2 : List Nat} {f p : Nat}, Linked h (l1 ++ e :: l2 ++ [hd]) → e ∉ l1 → l1.length < f →
    elemPos h e f (fst (l1 ++ e :: l2) hd) p = some (p + sum h l1)
  | l1, l2, 0, p, _, _, hf => by omega
  | [], l2, f + 1, p, _, _, _ => by rw [elemPos, if_pos (by simp)]; simp
  | x :: l1, l2, f + 1, p, hl, he, hf => by
    have hn : h.nxt x = fst (l1 ++ e :: l2) hd := (ring_first (a := x) (b := hd) (l := l1 ++ e :: l2) (by simpa using hl)).1
    rw [elemPos, if_neg (by simp; rintro rfl; simp at he)]
    simp only [List.cons_append, fst_cons, hn]
    rw [elemPos_spec (linked_right (l1 := [x]) (by simpa using hl)) (fun h1 => he (by simp [h1])) (by simp at hf; omega)]
    simp; ring

end Verif.Texts
