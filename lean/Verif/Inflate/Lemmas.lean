import Verif.Common
import Verif.Inflate.Spec

/-! # Lemmas about the window -/
namespace Verif.Inflate

/-- What the window holds: `P` is the text so far (with the dictionary `H` at its beginning), of which `F` bytes are delivered.  `read` may be at the end of the window. -/
structure Inv0 (H P : List Byte) (F : Nat) (s : S) : Prop where
  hF1 : H.length ≤ F
  hF2 : F ≤ P.length
  out : s.out = (P.take F).drop H.length
  rd : s.read ≤ W
  wr : s.write ≤ W
  rdF : s.read % W = F % W
  pend : P.length = F + if s.read ≤ s.write then s.write - s.read else W - s.read + s.write
  win : ∀ i < P.length, P.length ≤ i + W → s.window (i % W) = P.getD i 0
  bad : s.bad = false

theorem Inv0.le {H P F s} (h : Inv0 H P F s) : P.length ≤ F + W := by
  have := h.pend; have := h.rd; have := h.wr; split at * <;> omega

theorem Inv0.wrP {H P F s} (h : Inv0 H P F s) : s.write % W = P.length % W := by
  have := h.pend; have := h.rd; have := h.wr; have := h.rdF; split at * <;> omega

theorem piece_ok {H P F s n} (h : Inv0 H P F s) (h1 : s.read + n ≤ W) (h2 : F + n ≤ P.length) :
    piece s.window s.read n = (P.drop F).take n := by
  apply List.ext_getElem?
  intro i
  have hle := h.le
  have hr := h.rdF
  unfold piece
  by_cases hi : i < n
  · rw [List.getElem?_map, List.getElem?_range hi, List.getElem?_take, if_pos hi, List.getElem?_drop]
    have hw := h.win (F + i) (by omega) (by omega)
    have e : (F + i) % 32768 = s.read + i := by omega
    rw [e] at hw
    rw [List.getElem?_eq_getElem (by omega)]
    simp only [Option.map_some, hw]
    rw [List.getD_eq_getElem?_getD, List.getElem?_eq_getElem (by omega)]
    rfl
  · rw [List.getElem?_eq_none (by simp; omega), List.getElem?_eq_none (by simp; omega)]

theorem deliver_inv {H P F s n} (h : Inv0 H P F s) (h1 : n ≤ s.avail)
    (h2 : n ≤ if s.read ≤ s.write then s.write - s.read else W - s.read) : Inv0 H P (F + n) (deliver s n) := by
  have hp := h.pend; have hr := h.rd; have hw := h.wr; have hF := h.rdF; have h3 := h.hF1; have h4 := h.hF2
  unfold deliver
  by_cases hn : n > 0
  · have h5 : s.read + n ≤ W := by split at h2 <;> omega
    have h6 : F + n ≤ P.length := by split at h2 <;> split at hp <;> omega
    rw [if_pos hn]
    refine ⟨by omega, h6, ?_, h5, hw, by dsimp only; omega, ?_, h.win, ?_⟩
    · dsimp only
      rw [h.out, piece_ok h h5 h6, List.take_add, List.drop_append_of_le_length (by simp; omega)]
    · dsimp only
      split at h2 <;> split at hp <;> split <;> omega
    · simp [h.bad, h5, h1]
  · rw [if_neg hn]
    have : n = 0 := by omega
    subst this
    exact h

theorem deliver_fields (s : S) (n : Nat) : (deliver s n).read = s.read + n ∧ (deliver s n).write = s.write ∧ (deliver s n).avail = s.avail - n ∧
    (deliver s n).window = s.window := by
  unfold deliver
  by_cases hn : n > 0
  · rw [if_pos hn]; exact ⟨rfl, rfl, rfl, rfl⟩
  · rw [if_neg hn]; refine ⟨by omega, rfl, by omega, rfl⟩

/-- `flush`: some `F'`, the window's contents as before, no less room; all is delivered or no room is left in the output buffer. -/
theorem flush_inv {H P F s} (h : Inv0 H P F s) :
    ∃ F', F ≤ F' ∧ Inv0 H P F' (flush s) ∧ (flush s).read < W ∧ room s ≤ room (flush s) ∧ F' - F = s.avail - (flush s).avail ∧ (flush s).avail ≤ s.avail ∧
      ((flush s).avail = 0 ∨ (flush s).read = (flush s).write) ∧ (s.avail = 0 → s.read < W → flush s = s) ∧ (s.read ≤ s.write → (flush s).read ≤ (flush s).write) := by
  have hr := h.rd; have hw := h.wr
  unfold flush limit
  generalize hn : (if s.read ≤ s.write then s.write - s.read else 32768 - s.read) = n0
  generalize hm : (if n0 > s.avail then s.avail else n0) = n
  have hnl : n ≤ s.avail ∧ n ≤ n0 ∧ (n = s.avail ∨ n = n0) := by split at hm <;> omega
  have h1 := deliver_inv (n := n) h hnl.1 (by rw [hn]; exact hnl.2.1)
  obtain ⟨e1, e2, e3, e4⟩ := deliver_fields s n
  have hn0 : s.read + n0 ≤ W := by split at hn <;> omega
  unfold flushEnd limit
  by_cases hW : (deliver s n).read = 32768
  · rw [if_pos hW]
    generalize hs2 : rewind (deliver s n) = s2
    have r2 : s2.read = 0 := by rw [← hs2]; rfl
    have w2 : s2.write = if s.write = 32768 then 0 else s.write := by rw [← hs2, ← e2]; rfl
    have a2 : s2.avail = s.avail - n := by rw [← hs2, ← e3]; rfl
    have h2 : Inv0 H P (F + n) s2 := by
      have hp := h1.pend; have hF := h1.rdF
      rw [e2] at hp
      rw [hW] at hp hF
      refine ⟨h1.hF1, h1.hF2, by rw [← hs2]; exact h1.out, by omega, by rw [w2]; split <;> omega, by omega, ?_, by rw [← hs2]; exact h1.win, by rw [← hs2]; exact h1.bad⟩
      rw [r2, w2, if_pos (by omega)]
      split at hp <;> split <;> omega
    generalize hk : (if s2.write - s2.read > s2.avail then s2.avail else s2.write - s2.read) = k
    have hkl : k ≤ s2.avail ∧ k ≤ s2.write ∧ (k = s2.avail ∨ k = s2.write) := by rw [r2] at hk; split at hk <;> omega
    have h3 := deliver_inv (n := k) h2 hkl.1 (by rw [r2, if_pos (by omega)]; omega)
    obtain ⟨f1, f2, f3, f4⟩ := deliver_fields s2 k
    have hws : s2.write < W := by rw [w2]; split <;> omega
    refine ⟨F + n + k, by omega, h3, by omega, ?_, by omega, by omega, by omega, ?_, ?_⟩
    · unfold room
      rw [f1, f2, r2, if_neg (show ¬ s2.write < 0 + k by omega)]
      split at hn <;> split at w2 <;> split <;> omega
    · intro h0 h5; omega
    · intro _; omega
  · rw [if_neg hW]
    refine ⟨F + n, by omega, h1, by omega, ?_, by omega, by omega, ?_, ?_, ?_⟩
    · unfold room
      rw [e1, e2]
      split at hn <;> split <;> split <;> omega
    · split at hn <;> omega
    · intro h0 _
      have : n = 0 := by omega
      unfold deliver
      rw [if_neg (by omega)]
    · intro h5; rw [if_pos h5] at hn; omega

/-- Nothing is delivered yet, or the output buffer is full and there is more. -/
def Q (F : Nat) (P : List Byte) (s : S) : Prop := (F = 0 ∧ s.read = 0) ∨ (s.avail = 0 ∧ F < P.length)

theorem Q.grow {F P P' s s'} (h : Q F P s) (h1 : P.length ≤ P'.length) (h2 : s'.read = s.read) (h3 : s'.avail = s.avail) : Q F P' s' := by
  rcases h with ⟨a, b⟩ | ⟨a, b⟩
  · exact Or.inl ⟨a, by omega⟩
  · exact Or.inr ⟨by omega, by omega⟩

theorem wrap_inv {H P F s wa} (h : Inv0 H P F s) (hr : s.read < W) (hwa : wa ≤ room s) :
    Inv0 H P F (wrap s wa).1 ∧ (wrap s wa).1.read < W ∧ (wrap s wa).2 ≤ room (wrap s wa).1 ∧ (wrap s wa).1.avail = s.avail := by
  unfold wrap
  split
  · rename_i hc
    have hp := h.pend; have hw := h.wr; have := h.hF2
    refine ⟨⟨h.hF1, h.hF2, h.out, h.rd, by simp, h.rdF, ?_, h.win, h.bad⟩, hr, ?_, rfl⟩
    · dsimp only
      rw [if_neg (by omega)]
      split at hp <;> omega
    · unfold room; dsimp only; rw [if_pos (by omega)]; omega
  · exact ⟨h, hr, hwa, rfl⟩

theorem needOut_inv {H P F s wa} (h : Inv0 H P F s) (hr : s.read < W) (hwa : wa ≤ room s) :
    ∃ F', F ≤ F' ∧ Inv0 H P F' (needOut s wa).2.1 ∧ (needOut s wa).2.1.read < W ∧ (needOut s wa).2.2 ≤ room (needOut s wa).2.1 ∧
      F' - F = s.avail - (needOut s wa).2.1.avail ∧ (needOut s wa).2.1.avail ≤ s.avail ∧
      ((needOut s wa).1 = true → 1 ≤ (needOut s wa).2.2) ∧
      (Q F P s → (needOut s wa).1 = true → Q F' P (needOut s wa).2.1) ∧
      ((needOut s wa).1 = false → (needOut s wa).2.1.avail = 0 ∨ (needOut s wa).2.1.read = (needOut s wa).2.1.write) ∧
      (1 ≤ wa → (needOut s wa).1 = true) := by
  unfold needOut
  by_cases h0 : wa = 0
  · rw [if_pos h0]
    have h1 := wrap_inv h hr hwa
    have hq1 : Q F P s → Q F P (wrap s wa).1 := by
      intro hq
      unfold wrap
      split
      · exact hq.grow (le_refl _) rfl rfl
      · exact hq
    generalize wrap s wa = q at *
    obtain ⟨s1, w1⟩ := q
    dsimp only at *
    obtain ⟨i1, r1, l1, a1⟩ := h1
    by_cases h2 : w1 = 0
    · rw [if_pos h2]
      obtain ⟨F', hF, i2, r2, l2, e2, a2, d2, -⟩ := flush_inv i1
      have h3 := wrap_inv (wa := w1) i2 r2 (by omega)
      have hx3 : (wrap (flush s1) w1).1.avail = 0 ∨ (wrap (flush s1) w1).1.read = (wrap (flush s1) w1).1.write := by
        unfold wrap
        split
        · rcases d2 with d2 | d2
          · exact Or.inl d2
          · omega
        · exact d2
      have hq3 : Q F P s → (wrap (flush s1) w1).2 ≠ 0 → Q F' P (wrap (flush s1) w1).1 := by
        intro hq
        unfold wrap
        split
        · rename_i hc
          intro _
          have hav : (flush s1).avail = 0 := by
            rcases d2 with d2 | d2
            · exact d2
            · omega
          have hp := i2.pend
          exact Or.inr ⟨hav, by split at hp <;> omega⟩
        · intro h; exact absurd h2 h
      generalize wrap (flush s1) w1 = q at *
      obtain ⟨s3, w3⟩ := q
      dsimp only at *
      obtain ⟨i3, r3, l3, a3⟩ := h3
      by_cases h4 : w3 = 0
      · rw [if_pos h4]; exact ⟨F', hF, i3, r3, l3, by dsimp only; omega, by dsimp only; omega, by simp, by simp, fun _ => hx3, by intro h; omega⟩
      · rw [if_neg h4]; exact ⟨F', hF, i3, r3, l3, by dsimp only; omega, by dsimp only; omega, by intro _; dsimp only; omega, fun hq _ => hq3 hq h4, by simp, fun _ => rfl⟩
    · rw [if_neg h2]; exact ⟨F, le_refl _, i1, r1, l1, by dsimp only; omega, by dsimp only; omega, by intro _; dsimp only; omega, fun hq _ => hq1 hq, by simp, fun _ => rfl⟩
  · rw [if_neg h0]; exact ⟨F, le_refl _, h, hr, hwa, by dsimp only; omega, by dsimp only; omega, by intro _; dsimp only; omega, fun hq _ => hq, by simp, fun _ => rfl⟩

theorem getD_append_left (P Q : List Byte) (i : Nat) (h : i < P.length) : (P ++ Q).getD i 0 = P.getD i 0 := by
  rw [List.getD_eq_getElem?_getD, List.getD_eq_getElem?_getD, List.getElem?_append_left h]

theorem getD_append_right (P Q : List Byte) (i : Nat) (h : P.length ≤ i) : (P ++ Q).getD i 0 = Q.getD (i - P.length) 0 := by
  rw [List.getD_eq_getElem?_getD, List.getD_eq_getElem?_getD, List.getElem?_append_right h]

/-- Bytes are added to the window where there is room. -/
theorem push_inv {H P F s b} (h : Inv0 H P F s) (hr : s.read < W) (h1 : 1 ≤ room s) :
    Inv0 H (P ++ [b]) F (push s b) ∧ room s - 1 ≤ room (push s b) := by
  have hp := h.pend; have hw := h.wr; have hP := h.wrP; have h4 := h.hF2
  have hlt : s.write < W := by unfold room at h1; split at h1 <;> omega
  have hlt2 : s.write < s.read → s.write + 1 < s.read := by intro h5; unfold room at h1; rw [if_pos h5] at h1; omega
  refine ⟨⟨h.hF1, by simp; omega, ?_, h.rd, by unfold push; dsimp only; omega, h.rdF, ?_, ?_, ?_⟩, ?_⟩
  · unfold push; dsimp only
    rw [h.out, List.take_append_of_le_length h4]
  · unfold push; dsimp only
    simp only [List.length_append, List.length_singleton]
    split at hp <;> split <;> omega
  · intro i hi hi2
    simp only [List.length_append, List.length_singleton] at hi hi2
    unfold push; dsimp only
    by_cases hj : i = P.length
    · rw [getD_append_right _ _ _ (by omega)]
      have : i % 32768 = s.write := by omega
      rw [this, Function.update_self, hj]; simp
    · rw [getD_append_left _ _ _ (by omega), Function.update_of_ne (by omega)]
      exact h.win i (by omega) (by omega)
  · unfold push; dsimp only; simp [h.bad, hlt]
  · unfold room push; dsimp only; split <;> split <;> omega

/-- The byte `dist` bytes back. -/
theorem pushFrom_inv {H P F s index dist} (h : Inv0 H P F s) (hr : s.read < W) (h1 : 1 ≤ room s) (hd1 : 1 ≤ dist) (hd2 : dist ≤ W) (hd3 : dist ≤ P.length)
    (hi : index = (P.length - dist) % W) :
    Inv0 H (P ++ [P.getD (P.length - dist) 0]) F (pushFrom s index) ∧ room s - 1 ≤ room (pushFrom s index) ∧ (pushFrom s index).read = s.read ∧
      (pushFrom s index).avail = s.avail ∧ (pushFrom s index).write = s.write + 1 := by
  have e : s.window index = P.getD (P.length - dist) 0 := by rw [hi]; exact h.win _ (by omega) (by omega)
  obtain ⟨h2, h3⟩ := push_inv (b := P.getD (P.length - dist) 0) h hr h1
  have e2 : pushFrom s index = push s (P.getD (P.length - dist) 0) := by
    unfold pushFrom
    rw [e]
    have : decide (index < 32768) = true := by rw [hi]; exact decide_eq_true (Nat.mod_lt _ (by omega))
    simp only [this]
    simp [push]
  rw [e2]
  exact ⟨h2, h3, rfl, rfl, rfl⟩

theorem extend_length (d n : Nat) (P : List Byte) : (extend d n P).length = P.length + n := by
  induction n generalizing P with
  | zero => rfl
  | succ n ih => rw [extend, ih]; simp; omega

theorem bytewise_inv {H F dist} (n : Nat) : ∀ {P s index}, Inv0 H P F s → s.read < W → n ≤ room s → 1 ≤ dist → dist ≤ W → dist ≤ P.length →
    index + n ≤ W → index % W = (P.length - dist) % W →
    Inv0 H (extend dist n P) F (bytewise n s index) ∧ (bytewise n s index).read = s.read ∧ room s - n ≤ room (bytewise n s index) ∧
      (bytewise n s index).avail = s.avail ∧ (bytewise n s index).write = s.write + n := by
  induction n with
  | zero => intro P s index h _ _ _ _ _ _ _; exact ⟨h, rfl, by simp [bytewise], rfl, rfl⟩
  | succ n ih =>
    intro P s index h hr hn h1 h2 h3 h4 h5
    obtain ⟨i1, l1, r1, a1, w1⟩ := pushFrom_inv (index := index) h hr (by omega) h1 h2 h3 (by omega)
    obtain ⟨i2, r2, l2, a2, w2⟩ := ih (index := index + 1) i1 (by omega) (by omega) h1 h2 (by simp; omega) (by omega) (by simp; omega)
    exact ⟨i2, by rw [bytewise]; omega, by rw [bytewise]; omega, by rw [bytewise]; omega, by rw [bytewise]; omega⟩

theorem bytewise_fields (n : Nat) : ∀ (s : S) (index : Nat), (bytewise n s index).read = s.read ∧ (bytewise n s index).write = s.write + n ∧
    (bytewise n s index).avail = s.avail ∧ (bytewise n s index).out = s.out := by
  induction n with
  | zero => intro s i; exact ⟨rfl, rfl, rfl, rfl⟩
  | succ n ih =>
    intro s i
    obtain ⟨h1, h2, h3, h4⟩ := ih (pushFrom s i) (i + 1)
    rw [bytewise]
    exact ⟨h1, by rw [h2]; show s.write + 1 + n = _; omega, h3, h4⟩

/-- A copy of an area that does not overlap is the same byte by byte. -/
theorem bytewise_window (n : Nat) : ∀ (s : S) (index : Nat), (index + n ≤ s.write ∨ s.write + n ≤ index) → ∀ k,
    (bytewise n s index).window k = if s.write ≤ k ∧ k < s.write + n then s.window (index + (k - s.write)) else s.window k := by
  induction n with
  | zero => intro s i _ k; rw [if_neg (by omega)]; rfl
  | succ n ih =>
    intro s i h k
    rw [bytewise, ih (pushFrom s i) (i + 1) (by show _ ≤ s.write + 1 ∨ s.write + 1 + n ≤ _; omega)]
    show (if s.write + 1 ≤ k ∧ k < s.write + 1 + n then Function.update s.window s.write (s.window i) (i + 1 + (k - (s.write + 1))) else
      Function.update s.window s.write (s.window i) k) = _
    by_cases h1 : k = s.write
    · rw [if_neg (by omega), if_pos (by omega), h1, Function.update_self]; simp
    · by_cases h2 : s.write + 1 ≤ k ∧ k < s.write + 1 + n
      · rw [if_pos h2, if_pos (by omega), Function.update_of_ne (by omega)]
        congr 1; omega
      · rw [if_neg h2, if_neg (by omega), Function.update_of_ne h1]

theorem bytewise_bad (n : Nat) : ∀ (s : S) (index : Nat), index + n ≤ W → s.write + n ≤ W → (bytewise n s index).bad = s.bad := by
  induction n with
  | zero => intros; rfl
  | succ n ih =>
    intro s i h1 h2
    rw [bytewise, ih _ _ (by omega) (by show s.write + 1 + n ≤ _; omega)]
    have : decide (i < 32768) = true := decide_eq_true (by omega)
    have : decide (s.write < 32768) = true := decide_eq_true (by omega)
    simp [pushFrom, push, *]

theorem move_eq {s : S} {index n : Nat} (h1 : index + n ≤ W) (h2 : s.write + n ≤ W) (h3 : index + n ≤ s.write ∨ s.write + n ≤ index) :
    move s index n = bytewise n s index := by
  obtain ⟨e1, e2, e3, e4⟩ := bytewise_fields n s index
  have e5 := bytewise_bad n s index h1 h2
  have e6 : (bytewise n s index).window = (move s index n).window := funext (bytewise_window n s index h3)
  generalize bytewise n s index = q at *
  cases q
  dsimp only at *
  subst e1 e2 e3 e4 e5 e6
  unfold move
  dsimp only
  congr 1
  have : decide (index + n ≤ 32768 ∧ s.write + n ≤ 32768 ∧ (index + n ≤ s.write ∨ s.write + n ≤ index)) = true := decide_eq_true ⟨h1, h2, h3⟩
  rw [this]; simp

theorem extend_add (d m n : Nat) (P : List Byte) : extend d n (extend d m P) = extend d (m + n) P := by
  induction m generalizing P with
  | zero => rw [Nat.zero_add]; rfl
  | succ m ih => rw [extend, ih, Nat.add_right_comm, extend]

theorem room_le {s : S} (n : Nat) (h : n ≤ room s) (hr : s.read ≤ W) (hw : s.write ≤ W) : s.write + n ≤ W := by
  unfold room at h; split at h <;> omega

theorem fastTail_inv {H F P s index dist} (len : Nat) (h : Inv0 H P F s) (hr : s.read < W) (hn : len ≤ room s) (h1 : 1 ≤ dist) (h2 : dist ≤ W) (h3 : dist ≤ P.length)
    (h4 : index + len ≤ W) (h5 : index % W = (P.length - dist) % W) :
    Inv0 H (extend dist len P) F (fastTail s index len) ∧ (fastTail s index len).read = s.read ∧ room s - len ≤ room (fastTail s index len) ∧
      (fastTail s index len).avail = s.avail := by
  have hb := bytewise_inv len h hr hn h1 h2 h3 h4 h5
  unfold fastTail
  by_cases h0 : len > 0
  · rw [if_pos h0]
    by_cases h6 : index + len ≤ s.write
    · rw [if_pos h6, move_eq h4 (room_le len hn h.rd h.wr) (Or.inl h6)]
      exact ⟨hb.1, hb.2.1, hb.2.2.1, hb.2.2.2.1⟩
    · rw [if_neg h6]; exact ⟨hb.1, hb.2.1, hb.2.2.1, hb.2.2.2.1⟩
  · have : len = 0 := by omega
    subst this
    rw [if_neg h0]; exact ⟨h, rfl, by omega, rfl⟩

theorem fastCopy_inv {H F P s dist} (len : Nat) (h : Inv0 H P F s) (hr : s.read < W) (hn : len ≤ room s) (h1 : 1 ≤ dist) (h2 : dist ≤ W) (h3 : dist ≤ P.length) :
    Inv0 H (extend dist len P) F (fastCopy s len dist) ∧ (fastCopy s len dist).read = s.read ∧ room s - len ≤ room (fastCopy s len dist) ∧
      (fastCopy s len dist).avail = s.avail := by
  have hP := h.wrP
  have hl := room_le len hn h.rd h.wr
  unfold fastCopy
  dsimp only
  by_cases hlt : s.write < dist
  · rw [if_pos hlt]
    by_cases hb : dist - s.write < len
    · rw [if_pos hb]
      have hbw := bytewise_inv (index := 32768 - (dist - s.write)) (dist - s.write) h hr (by omega) h1 h2 h3 (by omega) (by omega)
      have e : (if s.write + (dist - s.write) ≤ 32768 - (dist - s.write) then move s (32768 - (dist - s.write)) (dist - s.write) else
          bytewise (dist - s.write) s (32768 - (dist - s.write))) = bytewise (dist - s.write) s (32768 - (dist - s.write)) := by
        split
        · exact move_eq (by omega) (by omega) (Or.inr (by omega))
        · rfl
      rw [e]
      obtain ⟨i1, r1, l1, a1, w1⟩ := hbw
      have hl2 := extend_length dist (dist - s.write) P
      obtain ⟨i2, r2, l2, a2⟩ := fastTail_inv (index := 0) (len - (dist - s.write)) i1 (by omega) (by omega) h1 h2 (by omega) (by omega) (by omega)
      rw [extend_add] at i2
      have e3 : dist - s.write + (len - (dist - s.write)) = len := by omega
      rw [e3] at i2
      exact ⟨i2, by omega, by omega, by omega⟩
    · rw [if_neg hb]
      exact fastTail_inv len h hr hn h1 h2 h3 (by omega) (by omega)
  · rw [if_neg hlt]
    exact fastTail_inv len h hr hn h1 h2 h3 (by omega) (by omega)

theorem copyLoop_inv {H dist} (len : Nat) : ∀ {P F s index wa}, Inv0 H P F s → s.read < W → wa ≤ room s → 1 ≤ dist → dist ≤ W → dist ≤ P.length →
    index = (P.length - dist) % W →
    ∃ F' k, F ≤ F' ∧ k ≤ len ∧ Inv0 H (extend dist k P) F' (copyLoop len s index wa).2.1 ∧ (copyLoop len s index wa).2.1.read < W ∧
      (copyLoop len s index wa).2.2.1 = len - k ∧ (copyLoop len s index wa).2.2.2 ≤ room (copyLoop len s index wa).2.1 ∧
      F' - F = s.avail - (copyLoop len s index wa).2.1.avail ∧ (copyLoop len s index wa).2.1.avail ≤ s.avail ∧
      ((copyLoop len s index wa).1 = true → k = len) ∧ (Q F P s → (copyLoop len s index wa).1 = true → Q F' (extend dist k P) (copyLoop len s index wa).2.1) ∧
      (1 ≤ wa → 0 < k ∨ ((copyLoop len s index wa).1 = true ∧ (copyLoop len s index wa).2.2.2 = wa)) := by
  induction len with
  | zero => intro P F s index wa h hr hw _ _ _ _; exact ⟨F, 0, le_refl _, le_refl _, h, hr, rfl, hw, by simp [copyLoop], le_refl _, fun _ => rfl, fun hq _ => hq, fun _ => Or.inr ⟨rfl, rfl⟩⟩
  | succ len ih =>
    intro P F s index wa h hr hw h1 h2 h3 h4
    obtain ⟨F1, hF1, i1, r1, l1, e1, a1, t1, q1, x1, o1⟩ := needOut_inv h hr hw
    rw [copyLoop]
    generalize needOut s wa = q at *
    obtain ⟨b, s1, wa1⟩ := q
    dsimp only at *
    cases b
    · exact ⟨F1, 0, hF1, by omega, i1, r1, rfl, l1, e1, a1, by simp, by simp, fun h => by have := o1 h; simp at this⟩
    · have := t1 rfl
      obtain ⟨i2, l2, r2, a2, w2⟩ := pushFrom_inv (index := index) i1 r1 (by omega) h1 h2 h3 h4
      obtain ⟨F3, k, hF3, hk, i3, r3, n3, l3, e3, a3, t3, q3, -⟩ := ih (index := (index + 1) % 32768) (wa := wa1 - 1) i2 (by omega) (by omega) h1 h2 (by simp; omega) (by simp; omega)
      dsimp only
      exact ⟨F3, k + 1, by omega, by omega, i3, r3, by omega, l3, by omega, by omega, fun h => by have := t3 h; omega, fun hq h => q3 ((q1 hq rfl).grow (by simp) r2 a2) h, fun _ => Or.inl (by omega)⟩

end Verif.Inflate
