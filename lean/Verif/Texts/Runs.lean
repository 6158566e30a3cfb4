import Verif.Texts.Ring

/-!
# Contents of runs; `Find`, `Split`, `Merge`, `Splice`
-/
namespace Verif.Texts

/-- The character for a byte. -/
def trch (ascii : Bool) (c : Nat) : Nat := if c = 10 ∧ ascii = true then 13 else c

/-- What a run stands for. -/
def runItems (files : Nat → List Nat) (r : Run) : List Item :=
  match r.kind with
  | .head => []
  | .piece f o a => (((files f).drop o).take r.len).map fun c => .ch (trch a c) r.look
  | .elem g _ => [.el g r.look]

def items (h : Hp) (files : Nat → List Nat) (l : List Nat) : List Item := l.flatMap fun a => runItems files (h.run a)

def sum (h : Hp) (l : List Nat) : Nat := (l.map fun a => (h.run a).len).sum

@[simp] theorem sum_nil (h : Hp) : sum h [] = 0 := rfl
@[simp] theorem sum_cons (h : Hp) (a : Nat) (l : List Nat) : sum h (a :: l) = (h.run a).len + sum h l := by simp [sum]
@[simp] theorem sum_append (h : Hp) (l m : List Nat) : sum h (l ++ m) = sum h l + sum h m := by simp [sum]
@[simp] theorem items_nil (h : Hp) (fs : Nat → List Nat) : items h fs [] = [] := rfl
@[simp] theorem items_cons (h : Hp) (fs : Nat → List Nat) (a : Nat) (l : List Nat) :
    items h fs (a :: l) = runItems fs (h.run a) ++ items h fs l := by simp [items]
@[simp] theorem items_append (h : Hp) (fs : Nat → List Nat) (l m : List Nat) : items h fs (l ++ m) = items h fs l ++ items h fs m := by
  simp [items]

theorem sum_congr {h h' : Hp} {l : List Nat} (he : ∀ a ∈ l, h'.run a = h.run a) : sum h' l = sum h l := by
  unfold sum; congr 1; exact List.map_congr_left fun a ha => by rw [he a ha]

theorem items_congr {h h' : Hp} {fs : Nat → List Nat} {l : List Nat} (he : ∀ a ∈ l, h'.run a = h.run a) : items h' fs l = items h fs l := by
  induction l with
  | nil => rfl
  | cons a l ih =>
    rw [items_cons, items_cons, he a (by simp), ih fun b hb => he b (List.mem_cons_of_mem _ hb)]

/-- A run in a text or buffer. -/
structure RunOk (files : Nat → List Nat) (fx : Nat → Bool) (base : Option Nat) (r : Run) : Prop where
  pos : 1 ≤ r.len
  fnt : r.look.fnt ≠ none
  head : r.kind ≠ .head
  piece : ∀ f o a, r.kind = .piece f o a → o + r.len ≤ (files f).length ∧ (a = true → fx f = true)
  elem : ∀ g b, r.kind = .elem g b → r.len = 1 ∧ b = base

theorem runItems_length {fs : Nat → List Nat} {fx : Nat → Bool} {base : Option Nat} {r : Run} (h : RunOk fs fx base r) :
    (runItems fs r).length = r.len := by
  unfold runItems
  cases hk : r.kind with
  | head => exact absurd hk h.head
  | piece f o a =>
    have := (h.piece f o a hk).1
    simp only [List.length_map, List.length_take, List.length_drop]; omega
  | elem g b => simp [(h.elem g b hk).1]

/-- A ring with its sentinel. -/
structure Ring (h : Hp) (files : Nat → List Nat) (fx : Nat → Bool) (base : Option Nat) (hd : Nat) (l : List Nat) : Prop where
  linked : Linked h (hd :: l ++ [hd])
  nodup : (hd :: l).Nodup
  lt : ∀ a ∈ hd :: l, a < h.free
  head : (h.run hd).kind = .head
  ok : ∀ a ∈ l, RunOk files fx base (h.run a)

theorem items_length {h : Hp} {fs : Nat → List Nat} {fx : Nat → Bool} {base : Option Nat} {l : List Nat}
    (hk : ∀ a ∈ l, RunOk fs fx base (h.run a)) : (items h fs l).length = sum h l := by
  induction l with
  | nil => rfl
  | cons a l ih =>
    rw [items_cons, sum_cons, List.length_append, runItems_length (hk a (by simp)), ih fun b hb => hk b (List.mem_cons_of_mem _ hb)]

theorem Ring.keep {h h' : Hp} {fs : Nat → List Nat} {fx : Nat → Bool} {base : Option Nat} {hd : Nat} {l S : List Nat}
    (hr : Ring h fs fx base hd l) (ha : Agree h h' S) (hS : ∀ a ∈ hd :: l, a ∉ S) : Ring h' fs fx base hd l := by
  have hm : ∀ a ∈ hd :: l ++ [hd], a < h.free ∧ a ∉ S := by
    intro a h1
    have : a ∈ hd :: l := by simp at h1 ⊢; tauto
    exact ⟨hr.lt a this, hS a this⟩
  refine ⟨linked_frame (fun a h1 => ha.nxt a (hm a (List.dropLast_subset _ h1)).1 (hm a (List.dropLast_subset _ h1)).2)
    (fun a h1 => ha.prv a (hm a (List.mem_of_mem_tail h1)).1 (hm a (List.mem_of_mem_tail h1)).2) hr.linked, hr.nodup,
    fun a h1 => lt_of_lt_of_le (hr.lt a h1) ha.le, ?_, fun a h1 => ?_⟩
  · rw [ha.run hd (hr.lt hd (by simp)) (hS hd (by simp))]; exact hr.head
  · rw [ha.run a (hr.lt a (by simp [h1])) (hS a (by simp [h1]))]; exact hr.ok a h1

theorem Ring.length {h : Hp} {fs : Nat → List Nat} {fx : Nat → Bool} {base : Option Nat} {hd : Nat} {l : List Nat}
    (hr : Ring h fs fx base hd l) : l.length + 1 ≤ h.free := length_le_of_nodup hr.nodup hr.lt

/-! ### Find -/

/-- The cache is at the end of a beginning of `k`. -/
def CacheIn (h : Hp) (T : Text) (hd : Nat) (k : List Nat) : Prop :=
  ∃ a b, k = a ++ b ∧ T.cache = lst hd a ∧ T.corg = sum h a

theorem CacheIn.app {h : Hp} {T : Text} {hd : Nat} {k m : List Nat} (hc : CacheIn h T hd k) : CacheIn h T hd (k ++ m) := by
  obtain ⟨a, b, rfl, h1, h2⟩ := hc
  exact ⟨a, b ++ m, by simp, h1, h2⟩

theorem CacheIn.congr {h h' : Hp} {T : Text} {hd : Nat} {k : List Nat} (hc : CacheIn h T hd k) (he : ∀ a ∈ k, h'.run a = h.run a) :
    CacheIn h' T hd k := by
  obtain ⟨a, b, rfl, h1, h2⟩ := hc
  exact ⟨a, b, rfl, h1, by rw [h2, sum_congr fun c hc => he c (by simp [hc])]⟩

theorem fwd_spec {h : Hp} {hd : Nat} : ∀ {l : List Nat} {k : Nat} {m : Int}, Linked h (l ++ [hd]) → 0 ≤ m → m < sum h l → l.length ≤ k →
    ∃ a u b, l = a ++ u :: b ∧ fwd h (k + 1) m (fst l hd) = some (m - sum h a, u) ∧ (sum h a : Int) ≤ m ∧
      m - sum h a < (h.run u).len
  | [], k, m, _, h0, h1, _ => by simp at h1; omega
  | x :: l, k, m, hl, h0, h1, hk => by
    rw [sum_cons] at h1
    obtain ⟨k, rfl⟩ : ∃ j, k = j + 1 := ⟨k - 1, by simp at hk; omega⟩
    rw [fst_cons, fwd]
    by_cases hm : m ≥ (h.run x).len
    · rw [if_pos hm, (ring_first (a := x) (l := l) hl).1]
      obtain ⟨a, u, b, rfl, h2, h3, h4⟩ := fwd_spec (h := h) (hd := hd) (l := l) (k := k) (m := m - (h.run x).len)
        (linked_right (l1 := [x]) hl) (by omega) (by push_cast at h1; omega) (by simp at hk; omega)
      refine ⟨x :: a, u, b, rfl, ?_, ?_, ?_⟩
      · rw [h2, sum_cons]; congr 2; push_cast; ring
      · rw [sum_cons]; push_cast; omega
      · rw [sum_cons]; push_cast; omega
    · rw [if_neg hm]
      exact ⟨[], x, l, rfl, by simp, by simpa using h0, by simpa using hm⟩

theorem bwd_spec {h : Hp} {hd : Nat} {y : Nat} : ∀ {l : List Nat} {k : Nat} {m : Int}, Linked h (hd :: l ++ [y]) → m < 0 → 0 ≤ m + sum h l → l.length ≤ k →
    ∃ a u b, l = a ++ u :: b ∧ bwd h (k + 1) m y = some (m + sum h (u :: b), u) ∧ 0 ≤ m + sum h (u :: b) ∧
      m + sum h (u :: b) < (h.run u).len := by
  intro l
  induction hn : l.length generalizing l y with
  | zero =>
    intro k m hl h0 h1 hk
    obtain rfl : l = [] := List.length_eq_zero_iff.mp hn
    simp at h1; omega
  | succ n ih =>
    intro k m hl h0 h1 hk
    rcases snoc_cases l with rfl | ⟨l', x, rfl⟩
    · cases hn
    · obtain ⟨k, rfl⟩ : ∃ j, k = j + 1 := ⟨k - 1, by omega⟩
      have hpx : h.prv y = x := by
        have : Linked h ((hd :: l') ++ x :: y :: []) := by simpa using hl
        exact (linked_nxt this).2
      rw [bwd, if_pos h0, hpx]
      by_cases hm : m + (h.run x).len < 0
      · have h1' : 0 ≤ m + (h.run x).len + sum h l' := by simp at h1; omega
        obtain ⟨a, u, b, rfl, h2, h3, h4⟩ := ih (y := x) (l := l') (by simpa using hn)
          (by have : Linked h (hd :: (l' ++ [x]) ++ [y]) := hl
              have := linked_left this; simpa using this) (k := k) (m := m + (h.run x).len) hm h1' (by omega)
        refine ⟨a, u, b ++ [x], by simp, ?_, ?_, ?_⟩
        · rw [h2]; simp only [sum_cons, sum_append, sum_nil]; congr 2; push_cast; ring
        · simp only [sum_cons, sum_append, sum_nil] at h3 ⊢; push_cast at h3 ⊢; omega
        · simp only [sum_cons, sum_append, sum_nil] at h4 ⊢; push_cast at h4 ⊢; omega
      · refine ⟨l', x, [], by simp, ?_, ?_, ?_⟩
        · rw [bwd, if_neg hm]; simp
        · simp; omega
        · simp; omega

/-- Where `Find` ends. -/
theorem find_spec {h : Hp} {fs : Nat → List Nat} {fx : Nat → Bool} {base : Option Nat} {T : Text} {l : List Nat} (pos : Nat)
    (hr : Ring h fs fx base T.head l) (hlen : T.len = sum h l) (hc : CacheIn h T T.head l) :
    (T.len ≤ pos ∧ find h T pos = some ⟨T.len, T.head, T.len, 0, { T with cache := T.head, corg := 0 }⟩) ∨
    (pos < T.len ∧ ∃ a u b, l = a ++ u :: b ∧ sum h a ≤ pos ∧ pos - sum h a < (h.run u).len ∧
      find h T pos = some ⟨pos, u, sum h a, pos - sum h a, { T with cache := lst T.head a, corg := sum h a }⟩) := by
  by_cases hp : T.len ≤ pos
  · left; exact ⟨hp, by rw [find, if_pos hp]⟩
  · right
    refine ⟨by omega, ?_⟩
    have hfree := hr.length
    obtain ⟨l1, l2, rfl, hc1, hc2⟩ := hc
    have hn : h.nxt T.cache = fst l2 T.head := by rw [hc1]; exact (ring_mid hr.linked).1
    rw [sum_append] at hlen
    rw [find, if_neg (by omega), hn]
    have hprv : ∀ a u b, l1 ++ l2 = a ++ u :: b → h.prv u = lst T.head a := by
      intro a u b e
      have := hr.linked; rw [e] at this
      exact (ring_mid this).2
    simp only [List.length_append] at hfree
    by_cases hge : pos ≥ T.corg
    · rw [if_pos hge]
      have hlk : Linked h (l2 ++ [T.head]) := by
        have : Linked h ((T.head :: l1) ++ (l2 ++ [T.head])) := by simpa using hr.linked
        exact linked_right this
      obtain ⟨a, u, b, rfl, h2, h3, h4⟩ := fwd_spec (k := h.free) (m := (pos : Int) - T.corg) hlk (by omega) (by omega) (by omega)
      refine ⟨l1 ++ a, u, b, by simp, by simp; omega, by simp; omega, ?_⟩
      rw [h2, Option.map_some]
      have e1 : ((pos : Int) - T.corg - sum h a).toNat = pos - sum h (l1 ++ a) := by simp; omega
      have e2 : pos - (pos - sum h (l1 ++ a)) = sum h (l1 ++ a) := by simp; omega
      simp only [e1, e2, hprv (l1 ++ a) u b (by simp)]
    · rw [if_neg hge]
      have hlk : Linked h (T.head :: l1 ++ [fst l2 T.head]) := by
        have h0 := hr.linked
        cases l2 with
        | nil => simpa using h0
        | cons y l2 =>
          have : Linked h ((T.head :: l1 ++ [y]) ++ (l2 ++ [T.head])) := by simpa using h0
          simpa using linked_left this
      obtain ⟨a, u, b, rfl, h2, h3, h4⟩ := bwd_spec (k := h.free) (m := (pos : Int) - T.corg) hlk (by omega) (by omega) (by omega)
      have hs : sum h (a ++ u :: b) = sum h a + sum h (u :: b) := sum_append h a (u :: b)
      refine ⟨a, u, b ++ l2, by simp, by omega, by omega, ?_⟩
      rw [h2, Option.map_some]
      have e1 : ((pos : Int) - T.corg + sum h (u :: b)).toNat = pos - sum h a := by omega
      have e2 : pos - (pos - sum h a) = sum h a := by omega
      simp only [e1, e2, hprv a u (b ++ l2) (by simp)]

/-! ### Split -/

/-- A new member between two neighbours. -/
theorem ins_linked {h h' : Hp} {hd n : Nat} {p q : List Nat} (hl : Linked h (hd :: (p ++ q) ++ [hd])) (hnd : (hd :: (p ++ q)).Nodup)
    (h1 : h'.nxt (lst hd p) = n) (h2 : h'.nxt n = fst q hd) (h3 : h'.prv n = lst hd p) (h4 : h'.prv (fst q hd) = n)
    (h5 : ∀ a ∈ hd :: (p ++ q), a ≠ lst hd p → h'.nxt a = h.nxt a) (h6 : ∀ a ∈ hd :: (p ++ q), a ≠ fst q hd → h'.prv a = h.prv a) :
    Linked h' (hd :: (p ++ n :: q) ++ [hd]) := by
  obtain ⟨m, hm⟩ := snoc_form hd p
  obtain ⟨x, X, hX⟩ : ∃ x X, q ++ [hd] = x :: X := by cases q <;> exact ⟨_, _, rfl⟩
  have hx : fst q hd = x := by cases q <;> simp_all
  have e : hd :: (p ++ n :: q) ++ [hd] = m ++ lst hd p :: n :: x :: X := by
    rw [← hX, ← List.cons_append, hm]; simp
  have e0 : hd :: (p ++ q) ++ [hd] = m ++ lst hd p :: x :: X := by
    rw [← hX, ← List.cons_append, hm]; simp
  rw [e]; rw [e0] at hl
  have hnd1 : (m ++ [lst hd p]).Nodup := by
    rw [← hm]; exact (List.nodup_append.mp (by simpa using hnd : ((hd :: p) ++ q).Nodup)).1
  have hdj : ∀ a ∈ hd :: p, ∀ b ∈ q, a ≠ b := (List.nodup_append.mp (by simpa using hnd : ((hd :: p) ++ q).Nodup)).2.2
  have hlm := lst_mem hd p
  apply linked_split.mpr
  refine ⟨?_, h1, h3, h2.trans hx, hx ▸ h4, ?_⟩
  · refine linked_frame (fun a ha => h5 a ?_ ?_) (fun a ha => h6 a ?_ ?_) (linked_split.mp hl).1
    · rw [List.dropLast_concat] at ha
      have : a ∈ hd :: p := by rw [hm]; simp [ha]
      simp at this ⊢; tauto
    · rw [List.dropLast_concat] at ha
      rintro rfl
      exact (List.nodup_append.mp hnd1).2.2 _ ha _ (by simp) rfl
    · rw [← hm, List.tail_cons] at ha; simp [ha]
    · rw [← hm, List.tail_cons] at ha
      cases q with
      | nil => simp only [fst_nil]; rintro rfl; simp at hnd; exact hnd.1 ha
      | cons y q => simp only [fst_cons]; exact hdj a (by simp [ha]) y (by simp)
  · have hx2 : Linked h (x :: X) := linked_right (l1 := m ++ [lst hd p]) (by simpa using hl)
    rw [← hX] at hx2 ⊢
    refine linked_frame (fun a ha => h5 a ?_ ?_) (fun a ha => h6 a ?_ ?_) hx2
    · rw [List.dropLast_concat] at ha; simp [ha]
    · rw [List.dropLast_concat] at ha; exact fun hc => hdj _ hlm a ha hc.symm
    · have := List.mem_of_mem_tail ha; simp at this ⊢; tauto
    · cases q with
      | nil => simp at ha
      | cons y q =>
        simp only [List.cons_append, List.tail_cons, List.mem_append, List.mem_singleton] at ha
        simp only [fst_cons]
        rintro rfl
        have h7 := List.nodup_cons.mp hnd
        rcases ha with ha | ha
        · exact (List.nodup_cons.mp (List.nodup_append.mp h7.2).2.1).1 ha
        · exact h7.1 (by simp [ha])

theorem take_add_map (b : List Nat) (o m n : Nat) : (b.drop o).take (m + n) = (b.drop o).take m ++ (b.drop (o + m)).take n := by
  rw [List.take_add, List.drop_drop]

/-- A piece cut in two. -/
theorem split_piece {h : Hp} {fs : Nat → List Nat} {fx : Nat → Bool} {base : Option Nat} {hd u off f o : Nat} {a : Bool} {p q : List Nat}
    (hr : Ring h fs fx base hd (p ++ u :: q)) (hk : (h.run u).kind = .piece f o a) (h0 : 0 < off) (h1 : off < (h.run u).len) :
    ∃ h', split h off u = some (h', u, h.free) ∧ Ring h' fs fx base hd (p ++ u :: h.free :: q) ∧
      h'.free = h.free + 1 ∧ (∀ c, c ≠ u → c ≠ h.free → h'.run c = h.run c) ∧
      h'.run u = { h.run u with len := off } ∧
      h'.run h.free = { h.run u with len := (h.run u).len - off, kind := .piece f (o + off) a } ∧
      Agree h h' (hd :: (p ++ u :: q)) := by
  have hnd := hr.nodup
  have hu : u < h.free := hr.lt u (by simp)
  have hlt := hr.lt
  have hmid := ring_mid (l1 := p ++ [u]) (l2 := q) (by simpa using hr.linked)
  rw [lst_snoc] at hmid
  obtain ⟨y, hy⟩ : ∃ y, y = fst q hd := ⟨_, rfl⟩
  rw [← hy] at hmid
  have hyl : y < h.free := by
    subst hy
    cases q with
    | nil => exact hlt hd (by simp)
    | cons z q => exact hlt z (by simp)
  have e : (h.run u).len - ((h.run u).len - off) = off := by omega
  have hnu : u ≠ h.free := by omega
  have hny : y ≠ h.free := by omega
  obtain ⟨h', hs, hN, hP, hR, hF⟩ : ∃ h', split h off u = some (h', u, h.free) ∧
      (∀ c, h'.nxt c = if c = u then h.free else if c = h.free then y else h.nxt c) ∧
      (∀ c, h'.prv c = if c = y then h.free else if c = h.free then u else h.prv c) ∧
      (∀ c, h'.run c = if c = u then { h.run u with len := off } else
        if c = h.free then { h.run u with len := (h.run u).len - off, kind := .piece f (o + off) a } else h.run c) ∧
      h'.free = h.free + 1 := by
    refine ⟨_, by simp only [split, if_neg (by omega : ¬ off = 0), if_neg (by omega : ¬ off ≥ (h.run u).len), hk]; rfl, ?_, ?_, ?_, rfl⟩
    · intro c
      simp only [Hp.setNxt, Hp.setPrv, Hp.setRun, Hp.new, upd, hmid.1]
    · intro c
      simp only [Hp.setNxt, Hp.setPrv, Hp.setRun, Hp.new, upd, hmid.1, if_true]
    · intro c
      simp only [Hp.setNxt, Hp.setPrv, Hp.setRun, Hp.new, upd, e, hk]
  have hyS : y ∈ hd :: (p ++ u :: q) := by
    subst hy
    cases q with
    | nil => simp
    | cons z q => simp
  refine ⟨h', hs, ?_, hF, fun c h2 h3 => by rw [hR, if_neg h2, if_neg h3], by rw [hR, if_pos rfl],
    by rw [hR, if_neg hnu.symm, if_pos rfl], ?_⟩
  · refine ⟨?_, ?_, ?_, ?_, ?_⟩
    · have := ins_linked (h := h) (h' := h') (hd := hd) (n := h.free) (p := p ++ [u]) (q := q) (by simpa using hr.linked) (by simpa using hnd)
        (by rw [lst_snoc, hN, if_pos rfl]) (by rw [hN, if_neg hnu.symm, if_pos rfl, hy]) (by rw [hP, if_neg hny.symm, if_pos rfl, lst_snoc])
        (by rw [← hy, hP, if_pos rfl])
        (fun c hc hcu => by
          rw [lst_snoc] at hcu
          have := hlt c (by simpa using hc)
          rw [hN, if_neg hcu, if_neg (by omega)])
        (fun c hc hcy => by
          rw [← hy] at hcy
          have := hlt c (by simpa using hc)
          rw [hP, if_neg hcy, if_neg (by omega)])
      simpa using this
    · have hf : h.free ∉ hd :: (p ++ u :: q) := fun hc => by have := hlt _ hc; omega
      have : (hd :: (p ++ u :: h.free :: q)).Perm (h.free :: hd :: (p ++ u :: q)) := by
        have h2 : (p ++ u :: h.free :: q).Perm (h.free :: (p ++ u :: q)) := by
          have := List.perm_middle (a := h.free) (l₁ := p ++ [u]) (l₂ := q)
          simpa using this
        exact (h2.cons hd).trans (List.Perm.swap _ _ _)
      rw [this.nodup_iff]
      exact List.nodup_cons.mpr ⟨hf, hnd⟩
    · intro c hc
      rw [hF]
      simp only [List.mem_cons, List.mem_append] at hc
      rcases hc with rfl | hc | rfl | rfl | hc
      · have := hlt c (by simp); omega
      · have := hlt c (by simp [hc]); omega
      · omega
      · omega
      · have := hlt c (by simp [hc]); omega
    · have : hd ≠ u := by rintro rfl; simp at hnd
      have h2 := hlt hd (by simp)
      rw [hR, if_neg this, if_neg (by omega)]; exact hr.head
    · have hru := hr.ok u (by simp)
      have hpc := hru.piece f o a hk
      intro c hc
      rw [hR]
      by_cases hcu : c = u
      · rw [if_pos hcu]
        exact ⟨h0, hru.fnt, by simp [hk], fun f' o' a' h2 => by
          simp only [hk] at h2; cases h2; exact ⟨by dsimp only; omega, hpc.2⟩, fun g b h2 => by simp [hk] at h2⟩
      · rw [if_neg hcu]
        by_cases hcn : c = h.free
        · rw [if_pos hcn]
          exact ⟨by dsimp only; omega, hru.fnt, by simp, fun f' o' a' h2 => by
            simp only [Kind.piece.injEq] at h2; obtain ⟨rfl, rfl, rfl⟩ := h2; exact ⟨by dsimp only; omega, hpc.2⟩, fun g b h2 => by simp at h2⟩
        · rw [if_neg hcn]
          exact hr.ok c (by simp at hc ⊢; tauto)
  · refine ⟨fun c h2 h3 => ?_, fun c h2 h3 => ?_, fun c h2 h3 => ?_, by omega⟩
    · have hcu : c ≠ u := by rintro rfl; simp at h3
      rw [hN, if_neg hcu, if_neg (by omega)]
    · have hcy : c ≠ y := by rintro rfl; exact h3 hyS
      rw [hP, if_neg hcy, if_neg (by omega)]
    · have hcu : c ≠ u := by rintro rfl; simp at h3
      rw [hR, if_neg hcu, if_neg (by omega)]

theorem runItems_split {fs : Nat → List Nat} {r : Run} {f o off : Nat} {a : Bool} (hk : r.kind = .piece f o a) (hl : off ≤ r.len) :
    runItems fs r = runItems fs { r with len := off } ++ runItems fs { r with len := r.len - off, kind := .piece f (o + off) a } := by
  simp only [runItems, hk]
  rw [← List.map_append, ← take_add_map, Nat.add_sub_cancel' hl]

theorem take_drop_of {X Y Z : List Item} {n : Nat} (h : Z = X ++ Y) (hn : X.length = n) : X = Z.take n ∧ Y = Z.drop n := by
  subst h hn; simp

/-- `Find` and `Split`: the ring is cut at the position. -/
theorem cut_spec {h : Hp} {fs : Nat → List Nat} {fx : Nat → Bool} {base : Option Nat} {T : Text} {K1 K2 : List Nat} (pos : Nat)
    (hr : Ring h fs fx base T.head (K1 ++ K2)) (hlen : T.len = sum h (K1 ++ K2)) (hc : CacheIn h T T.head (K1 ++ K2)) (hp : sum h K1 ≤ pos) :
    ∃ x h' k k2, find h T pos = some x ∧ split h x.off x.u = some (h', lst T.head (K1 ++ k), fst k2 T.head) ∧
      x.pos = min pos T.len ∧ x.T.head = T.head ∧ x.T.len = T.len ∧ Ring h' fs fx base T.head (K1 ++ k ++ k2) ∧
      CacheIn h' x.T T.head (K1 ++ k) ∧ items h' fs (K1 ++ k) = (items h fs (K1 ++ K2)).take x.pos ∧
      items h' fs k2 = (items h fs (K1 ++ K2)).drop x.pos ∧ sum h' (K1 ++ k) = x.pos ∧ (∀ c ∈ T.head :: K1, h'.run c = h.run c) ∧
      fst (k ++ k2) T.head = fst K2 T.head ∧ Agree h h' (T.head :: (K1 ++ K2)) ∧ (∀ c ∈ k ++ k2, c ∈ K2 ∨ h.free ≤ c) := by
  have hlk := hr.linked
  rcases find_spec pos hr hlen hc with ⟨h1, hf⟩ | ⟨h1, a, u, b, hab, h2, h3, hf⟩
  · have hL : (items h fs (K1 ++ K2)).length = T.len := by rw [items_length hr.ok, hlen]
    refine ⟨_, h, K2, [], hf, ?_, ?_, rfl, rfl, by simpa using hr, ⟨[], K1 ++ K2, rfl, rfl, rfl⟩, ?_, ?_, hlen.symm, fun _ _ => rfl, by simp,
      Agree.refl _ _, fun c hc => .inl (by simpa using hc)⟩
    · simp only [split, if_pos rfl]
      rw [(ring_mid (l1 := K1 ++ K2) (l2 := []) (by simpa using hlk)).2.symm]; rfl
    · show T.len = min pos T.len; omega
    · show _ = List.take T.len _; rw [← hL, List.take_length]
    · show _ = List.drop T.len _; rw [← hL, List.drop_length]; rfl
  · obtain ⟨a', rfl, rfl⟩ : ∃ a', a = K1 ++ a' ∧ K2 = a' ++ u :: b := by
      rcases List.append_eq_append_iff.mp hab with ⟨a', e1, e2⟩ | ⟨c, e1, e2⟩
      · exact ⟨a', e1, e2⟩
      · cases c with
        | nil => exact ⟨[], by simpa using e1.symm, by simpa using e2.symm⟩
        | cons c cs =>
          obtain ⟨rfl, e3⟩ := List.cons.inj (by simpa using e2)
          rw [e1] at hp; simp at hp; omega
    have hfull : items h fs (K1 ++ (a' ++ u :: b)) = items h fs (K1 ++ a') ++ (runItems fs (h.run u) ++ items h fs b) := by simp
    have hla : (items h fs (K1 ++ a')).length = sum h (K1 ++ a') :=
      items_length fun c hc => hr.ok c (by simp at hc ⊢; tauto)
    by_cases h0 : pos - sum h (K1 ++ a') = 0
    · have hpe : (items h fs (K1 ++ a')).length = pos := by omega
      obtain ⟨ht, hd'⟩ := take_drop_of hfull hpe
      refine ⟨_, h, a', u :: b, hf, ?_, ?_, rfl, rfl, by simpa using hr, ⟨K1 ++ a', [], by simp, rfl, rfl⟩, ht, ?_, by show sum h (K1 ++ a') = pos; omega, fun _ _ => rfl, by simp,
        Agree.refl _ _, fun c hc => .inl (by simpa using hc)⟩
      · simp only [split, if_pos h0]
        rw [(ring_mid (l1 := K1 ++ a') (l2 := u :: b) (by simpa using hlk)).2.symm]; rfl
      · show pos = min pos T.len; omega
      · rw [← hd']; simp
    · have hru := hr.ok u (by simp)
      cases hk : (h.run u).kind with
      | head => exact absurd hk hru.head
      | elem g b' => have := (hru.elem g b' hk).1; omega
      | piece f o as =>
        obtain ⟨h', hs, hr', hF, hR1, hR2, hR3, hA⟩ := split_piece (p := K1 ++ a') (by simpa using hr) hk (by omega : 0 < pos - sum h (K1 ++ a')) h3
        have hnd := hr.nodup
        have hsame : ∀ c ∈ T.head :: (K1 ++ a'), h'.run c = h.run c := by
          intro c hm
          refine hR1 c ?_ ?_
          · intro he
            rw [he] at hm
            have hnd' : ((T.head :: (K1 ++ a')) ++ u :: b).Nodup := by simpa using hnd
            exact (List.nodup_append.mp hnd').2.2 u hm u (by simp) rfl
          · have := hr.lt c (by simp at hm ⊢; tauto); omega
        have hsb : ∀ c ∈ b, h'.run c = h.run c := by
          intro c hm
          refine hR1 c ?_ ?_
          · intro he
            rw [he] at hm
            have hnd' : ((T.head :: (K1 ++ a')) ++ u :: b).Nodup := by simpa using hnd
            exact (List.nodup_cons.mp (List.nodup_append.mp hnd').2.1).1 hm
          · have := hr.lt c (by simp [hm]); omega
        have hi1 : items h' fs (K1 ++ a') = items h fs (K1 ++ a') := items_congr fun c hc => hsame c (List.mem_cons_of_mem _ hc)
        have hi2 : items h' fs b = items h fs b := items_congr hsb
        have hs1 : sum h' (K1 ++ a') = sum h (K1 ++ a') := sum_congr fun c hc => hsame c (List.mem_cons_of_mem _ hc)
        have hfull2 : items h fs (K1 ++ (a' ++ u :: b)) = items h' fs (K1 ++ (a' ++ [u])) ++ items h' fs (h.free :: b) := by
          rw [hfull, runItems_split hk (le_of_lt h3)]
          have e1 : items h' fs (K1 ++ (a' ++ [u])) = items h' fs (K1 ++ a') ++ runItems fs (h'.run u) := by simp
          rw [e1, items_cons, hi1, hi2, hR2, hR3]; simp
        have hsum : sum h' (K1 ++ (a' ++ [u])) = pos := by
          have e1 : sum h' (K1 ++ (a' ++ [u])) = sum h' (K1 ++ a') + (h'.run u).len := by simp; ring
          rw [e1, hs1, hR2]; simp only []; omega
        have hl2 : (items h' fs (K1 ++ (a' ++ [u]))).length = pos := by
          rw [items_length fun c hc => hr'.ok c (by simp at hc ⊢; tauto), hsum]
        obtain ⟨ht, hd'⟩ := take_drop_of hfull2 hl2
        refine ⟨_, h', a' ++ [u], h.free :: b, hf, ?_, ?_, rfl, rfl, by simpa using hr', ⟨K1 ++ a', [u], by simp, rfl, hs1.symm⟩, ht, hd', hsum,
          fun c hc => hsame c (by simp at hc ⊢; tauto), ?_, by simpa using hA, ?_⟩
        · simp only [hs, fst_cons, ← List.append_assoc, lst_snoc]
        · show pos = min pos T.len; omega
        · cases a' <;> simp
        · intro c hc
          simp only [List.mem_append, List.mem_cons, List.not_mem_nil, or_false] at hc ⊢
          rcases hc with (hc | rfl) | rfl | hc
          · exact .inl (.inl hc)
          · exact .inl (.inr (.inl rfl))
          · exact .inr le_rfl
          · exact .inl (.inr (.inr hc))

end Verif.Texts
