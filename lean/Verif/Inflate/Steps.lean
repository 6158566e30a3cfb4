import Verif.Common
import Verif.Inflate.Lemmas

/-! # Lemmas about blocks and calls -/
namespace Verif.Inflate

theorem Inv0.empty {H P F s} (h : Inv0 H P F s) (h1 : s.read = s.write) : F = P.length := by
  have := h.pend; rw [if_pos (by omega)] at this; omega

/-- A part of a call: the text grows to `P'`, and `F'` bytes are delivered. -/
structure Part (H P' : List Byte) (F F' : Nat) (s s' : S) : Prop where
  le : F ≤ F'
  inv : Inv0 H P' F' s'
  rd : s'.read < W
  cnt : F' - F = s.avail - s'.avail
  av : s'.avail ≤ s.avail

theorem Part.trans {H P P' F F' F'' s s' s''} (h1 : Part H P F F' s s') (h2 : Part H P' F' F'' s' s'') : Part H P' F F'' s s'' :=
  ⟨le_trans h1.le h2.le, h2.inv, h2.rd, by have := h1.cnt; have := h2.cnt; have := h1.le; have := h2.le; have := h1.av; have := h2.av; omega, le_trans h2.av h1.av⟩

theorem Part.refl {H P F s} (h : Inv0 H P F s) (hr : s.read < W) : Part H P F F s s := ⟨le_refl _, h, hr, by omega, le_refl _⟩

theorem flush_part {H P F s} (h : Inv0 H P F s) : ∃ F', Part H P F F' s (flush s) := by
  obtain ⟨F', a, b, c, d, e, f, -⟩ := flush_inv h
  exact ⟨F', a, b, c, e, f⟩

/-- The text after what is in progress. -/
def curText (P : List Byte) : Cur → Option (List Byte)
  | .start => some P
  | .wash => some P
  | .lit b => some (P ++ [b])
  | .copy len dist => if 1 ≤ dist ∧ dist ≤ W ∧ dist ≤ P.length then some (extend dist len P) else none

def pendText (cur : Cur) (syms : List Sym) (P : List Byte) : Option (List Byte) := (curText P cur).bind (symsText syms)

theorem emit_inv {H P F s wa T} (cur : Cur) (h : Inv0 H P F s) (hr : s.read < W) (hwa : wa ≤ room s) (ht : curText P cur = some T) :
    ∃ P' F', Part H P' F F' s (emit s wa cur).2.1 ∧ (emit s wa cur).2.2.2 ≤ room (emit s wa cur).2.1 ∧ curText P' (emit s wa cur).2.2.1 = some T ∧
      ((emit s wa cur).1 = true → P' = T ∧ (emit s wa cur).2.2.1 = if cur = .wash then .wash else .start) ∧
      ((emit s wa cur).1 = false → (emit s wa cur).2.2.1 ≠ .wash) ∧
      (Q F P s → (emit s wa cur).1 = true → Q F' P' (emit s wa cur).2.1) ∧ P.length ≤ P'.length ∧
      (1 ≤ wa → P.length < P'.length ∨ ((emit s wa cur).1 = true ∧ 1 ≤ (emit s wa cur).2.2.2)) := by
  cases cur with
  | start => exact ⟨P, F, .refl h hr, hwa, ht, fun _ => ⟨by simpa [curText] using ht, by simp [emit]⟩, by simp [emit], fun hq _ => hq, le_refl _, fun h => Or.inr ⟨rfl, h⟩⟩
  | wash => exact ⟨P, F, .refl h hr, hwa, ht, fun _ => ⟨by simpa [curText] using ht, by simp [emit]⟩, by simp [emit], fun hq _ => hq, le_refl _, fun h => Or.inr ⟨rfl, h⟩⟩
  | lit b =>
    obtain ⟨F1, hF1, i1, r1, l1, e1, a1, t1, q1, x1, o1⟩ := needOut_inv h hr hwa
    rw [emit]
    generalize needOut s wa = q at *
    obtain ⟨ok, s1, wa1⟩ := q
    dsimp only at *
    cases ok
    · exact ⟨P, F1, ⟨hF1, i1, r1, e1, a1⟩, l1, ht, by simp, by simp, by simp, le_refl _, fun h => by have := o1 h; simp at this⟩
    · have := t1 rfl
      obtain ⟨i2, l2⟩ := push_inv (b := b) i1 r1 (by omega)
      exact ⟨P ++ [b], F1, ⟨hF1, i2, r1, e1, a1⟩, by dsimp only; omega, by simpa [curText] using ht, fun _ => ⟨by simpa [curText] using ht, by simp⟩, by simp, fun hq _ => (q1 hq rfl).grow (by simp) rfl rfl, by simp, fun _ => Or.inl (by simp)⟩
  | copy len dist =>
    have hc : 1 ≤ dist ∧ dist ≤ 32768 ∧ dist ≤ P.length := by
      by_contra hc; rw [curText, if_neg hc] at ht; simp at ht
    rw [curText, if_pos hc] at ht
    obtain ⟨h1, h2, h3⟩ := hc
    have hwp := h.wrP
    have hw := h.wr
    obtain ⟨F1, k, hF1, hk, i1, r1, n1, l1, e1, a1, t1, q1, o1⟩ := copyLoop_inv (index := (((s.write : Int) - dist) % 32768).toNat) (wa := wa) len h hr hwa h1 h2 h3 (by omega)
    rw [emit]
    generalize copyLoop len s (((s.write : Int) - dist) % 32768).toNat wa = q at *
    obtain ⟨ok, s1, n, wa1⟩ := q
    dsimp only at *
    subst n1
    cases ok
    · refine ⟨extend dist k P, F1, ⟨hF1, i1, r1, e1, a1⟩, l1, ?_, by simp, by simp, by simp, by rw [extend_length]; omega, fun h => Or.inl (by rw [extend_length]; have := o1 h; simp at this; omega)⟩
      dsimp only [curText]
      rw [if_pos (by rw [extend_length]; omega), extend_add, show k + (len - k) = len by omega]
      exact ht
    · have := t1 rfl
      subst this
      exact ⟨extend dist k P, F1, ⟨hF1, i1, r1, e1, a1⟩, l1, ht, fun _ => ⟨by simpa using ht, by simp⟩, by simp, fun hq _ => q1 hq rfl, by rw [extend_length]; omega, fun h => by
        rcases o1 h with o | ⟨-, o⟩
        · exact Or.inl (by rw [extend_length]; omega)
        · exact Or.inr ⟨rfl, by dsimp only; omega⟩⟩

theorem symText_cur {P x T} (h : symText P x = some T) : curText P x.cur = some T := by
  cases x with
  | lit b => exact h
  | copy len dist =>
    rw [symText] at h
    split at h
    · rename_i hc; rw [Sym.cur, curText, if_pos ⟨hc.2.2.1, hc.2.2.2.1, hc.2.2.2.2⟩]; exact h
    · simp at h

theorem fast_inv {H P F s wa T} (x : Sym) (h : Inv0 H P F s) (hr : s.read < W) (hwa : wa ≤ room s) (h258 : 258 ≤ wa) (ht : symText P x = some T) :
    Part H T F F s (fast s wa x).1 ∧ (fast s wa x).2 ≤ room (fast s wa x).1 ∧ (Q F P s → Q F T (fast s wa x).1) ∧ P.length < T.length := by
  cases x with
  | lit b =>
    obtain ⟨i2, l2⟩ := push_inv (b := b) h hr (by omega)
    simp only [symText, Option.some.injEq] at ht
    subst ht
    exact ⟨⟨le_refl _, i2, hr, by simp [fast, push], le_refl _⟩, by simp only [fast]; omega, fun hq => hq.grow (by simp) rfl rfl, by simp⟩
  | copy len dist =>
    rw [symText] at ht
    split at ht
    · rename_i hc
      obtain ⟨c1, c2, c3, c4, c5⟩ := hc
      simp only [Option.some.injEq] at ht
      subst ht
      obtain ⟨i1, r1, l1, a1⟩ := fastCopy_inv len h hr (by omega) c3 c4 c5
      exact ⟨⟨le_refl _, i1, by simp only [fast]; omega, by simp only [fast]; omega, by simp only [fast]; omega⟩, by simp only [fast]; omega, fun hq => hq.grow (by rw [extend_length]; omega) r1 a1, by rw [extend_length]; omega⟩
    · simp at ht

theorem wash_inv {H P F s} (toks : List Bool) (h : Inv0 H P F s) :
    ∃ F', Part H P F F' s (wash s toks).s ∧ (wash s toks).cur = .wash ∧ (wash s toks).syms = [] ∧ (wash s toks).toks = toks ∧
      ((wash s toks).fin = true → (wash s toks).s.read = (wash s toks).s.write) ∧
      (Q F P s → (wash s toks).fin = true → P.length ≤ W) ∧ ((wash s toks).fin = true ∨ (wash s toks).s.avail = 0) := by
  obtain ⟨F', h1⟩ := flush_part h
  have h5 : (wash s toks).fin = true ∨ (wash s toks).s.avail = 0 := by
    obtain ⟨F'', -, -, -, -, -, -, d, -⟩ := flush_inv h
    rcases d with d | d
    · exact Or.inr d
    · exact Or.inl (by simp [wash, d])
  refine ⟨F', h1, rfl, rfl, rfl, by simp [wash], fun hq hf => ?_, h5⟩
  have he := h1.inv.empty (by simpa [wash] using hf)
  have hc := h1.cnt; have hl := h1.le
  rcases hq with ⟨a, b⟩ | ⟨a, b⟩
  · have hp := h.pend; have hw := h.wr
    rw [b, if_pos (by omega)] at hp
    omega
  · omega

/-- What `codes` leaves. -/
structure CodesOk (H P P' T : List Byte) (F F' : Nat) (ts : List Bool) (s : S) (w n : Nat) (r : CodesResult) : Prop where
  part : Part H P' F F' s r.s
  text : pendText r.cur r.syms P' = some T
  fin : r.fin = true → P' = T ∧ (r.s.read = r.s.write ∨ true ∈ ts)
  cur : r.cur = .wash → r.syms = []
  toks : ∀ f ∈ r.toks, f ∈ ts
  q : Q F P s → r.fin = true → P'.length ≤ W ∨ Q F' P' r.s
  grow : P.length ≤ P'.length
  prog : 1 ≤ w → n + 1 ≤ ts.length → r.fin = true ∨ P.length < P'.length ∨ r.s.avail = 0
  len : r.fin = true → ts.length ≤ r.toks.length + n + 1

theorem codes_inv {H T} (toks : List Bool) : ∀ {P F s cur syms wa}, Inv0 H P F s → s.read < W → wa ≤ room s → (cur = .wash → syms = []) →
    pendText cur syms P = some T → ∃ P' F', CodesOk H P P' T F F' toks s wa syms.length (codes toks s cur syms wa) := by
  induction toks with
  | nil =>
    intro P F s cur syms wa h hr hwa hc ht
    unfold pendText at ht
    obtain ⟨T1, ht1, ht2⟩ := Option.bind_eq_some_iff.mp ht
    obtain ⟨P1, F1, p1, l1, t1, k1, n1, q1, g1, o1⟩ := emit_inv cur h hr hwa ht1
    rw [codes]
    generalize emit s wa cur = q at *
    obtain ⟨ok, s1, cur1, wa1⟩ := q
    dsimp only at *
    cases ok
    · exact ⟨P1, F1, p1, by dsimp only; rw [pendText, t1]; exact ht2, by simp, fun h => absurd h (n1 rfl), by simp, by simp, g1, fun h _ => Or.inr (Or.inl (by have := o1 h; simp at this; exact this)), by simp⟩
    · obtain ⟨e1, e2⟩ := k1 rfl
      subst e1
      split at e2
      · rename_i hw
        subst e2
        obtain ⟨F2, p2, c2, y2, k2, f2, q2, o2⟩ := wash_inv [] p1.inv
        have hs := hc hw
        subst hs
        refine ⟨P1, F2, p1.trans p2, ?_, fun hf => ⟨?_, Or.inl (f2 hf)⟩, fun _ => y2, by rw [k2]; simp, fun hq hf => Or.inl (q2 (q1 hq rfl) hf), g1,
          fun _ _ => o2.imp id Or.inr, fun _ => by rw [k2]; omega⟩
        · rw [c2, y2]; exact ht2
        · simpa [symsText] using ht2
      · subst e2
        obtain ⟨F2, p2⟩ := flush_part p1.inv
        exact ⟨P1, F2, p1.trans p2, ht2, by simp, by simp, by simp, by simp, g1, by simp, by simp⟩
  | cons f toks ih =>
    intro P F s cur syms wa h hr hwa hc ht
    unfold pendText at ht
    obtain ⟨T1, ht1, ht2⟩ := Option.bind_eq_some_iff.mp ht
    obtain ⟨P1, F1, p1, l1, t1, k1, n1, q1, g1, o1⟩ := emit_inv cur h hr hwa ht1
    rw [codes]
    generalize emit s wa cur = q at *
    obtain ⟨ok, s1, cur1, wa1⟩ := q
    dsimp only at *
    cases ok
    · exact ⟨P1, F1, p1, by dsimp only; rw [pendText, t1]; exact ht2, by simp, fun h => absurd h (n1 rfl), by simp, by simp, g1, fun h _ => Or.inr (Or.inl (by have := o1 h; simp at this; exact this)), by simp⟩
    · obtain ⟨e1, e2⟩ := k1 rfl
      subst e1
      split at e2
      · rename_i hw
        subst e2
        obtain ⟨F2, p2, c2, y2, k2, f2, q2, o2⟩ := wash_inv (f :: toks) p1.inv
        have hs := hc hw
        subst hs
        refine ⟨P1, F2, p1.trans p2, ?_, fun hf => ⟨?_, Or.inl (f2 hf)⟩, fun _ => y2, by rw [k2]; simp, fun hq hf => Or.inl (q2 (q1 hq rfl) hf), g1,
          fun _ _ => o2.imp id Or.inr, fun _ => by rw [k2]; omega⟩
        · rw [c2, y2]; exact ht2
        · simpa [symsText] using ht2
      · subst e2
        dsimp only
        cases syms with
        | nil =>
          dsimp only
          have e : P1 = T := by simpa [symsText] using ht2
          by_cases hf : f = true ∧ 258 ≤ wa1
          · rw [if_pos hf]
            exact ⟨P1, F1, p1, ht2, fun _ => ⟨e, Or.inr (by simp [hf.1])⟩, fun _ => rfl, fun g hg => List.mem_cons_of_mem _ hg, fun hq _ => Or.inr (q1 hq rfl), g1, fun _ _ => Or.inl rfl, by simp⟩
          · rw [if_neg hf]
            obtain ⟨F2, p2, c2, y2, k2, f2, q2, o2⟩ := wash_inv toks p1.inv
            refine ⟨P1, F2, p1.trans p2, ?_, fun hf => ⟨e, Or.inl (f2 hf)⟩, fun _ => y2, by rw [k2]; exact fun g hg => List.mem_cons_of_mem _ hg,
              fun hq hf => Or.inl (q2 (q1 hq rfl) hf), g1, fun _ _ => o2.imp id Or.inr, fun _ => by rw [k2]; simp⟩
            rw [c2, y2]; exact ht2
        | cons x syms =>
          dsimp only
          obtain ⟨T2, hx, hs⟩ := Option.bind_eq_some_iff.mp ht2
          by_cases hf : f = true ∧ 258 ≤ wa1
          · rw [if_pos hf]
            obtain ⟨p2, l2, q2, g2⟩ := fast_inv x p1.inv p1.rd l1 hf.2 hx
            obtain ⟨P3, F3, c3⟩ := ih (cur := .start) p2.inv p2.rd l2 (by simp) (show pendText .start syms T2 = some T from hs)
            exact ⟨P3, F3, (p1.trans p2).trans c3.part, c3.text, fun hf => ⟨(c3.fin hf).1, (c3.fin hf).2.imp id (List.mem_cons_of_mem _)⟩, c3.cur,
              fun g hg => List.mem_cons_of_mem _ (c3.toks g hg), fun hq hf => c3.q (q2 (q1 hq rfl)) hf,
              by have := c3.grow; omega, fun _ _ => Or.inr (Or.inl (by have := c3.grow; omega)), fun hf => by have := c3.len hf; simp; omega⟩
          · rw [if_neg hf]
            obtain ⟨P3, F3, c3⟩ := ih (cur := x.cur) (syms := syms) p1.inv p1.rd l1 (by cases x <;> simp [Sym.cur]) (show pendText x.cur syms P1 = some T by
              rw [pendText, symText_cur hx]; exact hs)
            exact ⟨P3, F3, p1.trans c3.part, c3.text, fun hf => ⟨(c3.fin hf).1, (c3.fin hf).2.imp id (List.mem_cons_of_mem _)⟩, c3.cur,
              fun g hg => List.mem_cons_of_mem _ (c3.toks g hg), fun hq hf => c3.q (q1 hq rfl) hf,
              by have := c3.grow; omega, fun h1 h2 => by
                have hg := c3.grow
                rcases o1 h1 with o | ⟨-, o⟩
                · exact Or.inr (Or.inl (by omega))
                · rcases c3.prog o (by simp at h2; omega) with h | h | h
                  · exact Or.inl h
                  · exact Or.inr (Or.inl (by omega))
                  · exact Or.inr (Or.inr h),
              fun hf => by have := c3.len hf; simp; omega⟩

theorem load_inv {H P F s} (bytes : List Byte) (h : Inv0 H P F s) (h0 : 0 < bytes.length) (h1 : s.write + bytes.length ≤ W)
    (h2 : s.write < s.read → s.write + bytes.length < s.read) : Inv0 H (P ++ bytes) F (load s bytes) := by
  have hp := h.pend; have hw := h.wr; have hP := h.wrP; have h4 := h.hF2; have hle := h.le
  refine ⟨h.hF1, by simp; omega, ?_, h.rd, h1, h.rdF, ?_, ?_, ?_⟩
  · show s.out = _
    rw [h.out, List.take_append_of_le_length h4]
  · unfold load; dsimp only
    simp only [List.length_append]
    split at hp <;> split <;> omega
  · intro i hi hi2
    simp only [List.length_append] at hi hi2
    unfold load; dsimp only
    by_cases hj : P.length ≤ i
    · rw [getD_append_right _ _ _ hj, if_pos (by omega)]
      congr 1; omega
    · rw [getD_append_left _ _ _ (by omega), if_neg (by omega)]
      exact h.win i (by omega) (by omega)
  · unfold load; dsimp only; simp [h.bad, h1, h0]

/-- What `stored` leaves. -/
structure StoredOk (H P P' T : List Byte) (F F' : Nat) (ts : List Bool) (s : S) (w n : Nat) (r : StoredResult) : Prop where
  part : Part H P' F F' s r.s
  text : P' ++ r.bytes = T
  fin : r.fin = true → P' = T
  ne : r.fin = false → r.bytes ≠ []
  wa : r.wa ≤ room r.s ∨ r.s.read ≤ r.s.write
  toks : ∀ f ∈ r.toks, f ∈ ts
  grow : P.length ≤ P'.length
  prog : 1 ≤ w → s.write < W → 1 ≤ ts.length → P.length < P'.length
  len : r.fin = true → ts.length ≤ r.toks.length + n
  stop : r.fin = false → r.s.avail = 0 ∨ r.s.read = r.s.write

theorem amount_le (l a w p : Nat) (hp : p ≤ W) : amount l a w p ≤ l ∧ amount l a w p ≤ w ∧ p + amount l a w p ≤ W := by
  unfold amount; dsimp only; (repeat' split) <;> omega

theorem amount_pos (l a w p : Nat) (h1 : 0 < l) (h2 : 0 < a) (h3 : 0 < w) (h4 : p < W) : 0 < amount l a w p := by
  unfold amount; dsimp only; (repeat' split) <;> omega

theorem stored_inv {H T} : ∀ (n : Nat) {toks P F s bytes wa}, bytes.length ≤ n → Inv0 H P F s → s.read < W → (wa ≤ room s ∨ s.read ≤ s.write) → bytes ≠ [] → P ++ bytes = T →
    ∃ P' F', StoredOk H P P' T F F' toks s wa bytes.length (stored toks s bytes wa) := by
  intro n
  induction n with
  | zero => intro toks P F s bytes wa hn _ _ _ hb _; exact absurd (List.length_eq_zero_iff.mp (by omega)) hb
  | succ n ih =>
    intro toks P F s bytes wa hn h hr hwa hb ht
    rw [stored]
    by_cases h0 : toks.length = 0
    · rw [if_pos h0]
      obtain ⟨F1, h1, i1, r1, l1, c1, a1, d1, -, w1⟩ := flush_inv h
      exact ⟨P, F1, ⟨h1, i1, r1, c1, a1⟩, ht, by simp, fun _ => hb, hwa.imp (fun h => le_trans h l1) w1, fun g hg => hg, le_refl _, by omega, by simp, fun _ => d1⟩
    · rw [if_neg h0]
      have hno : ∃ F1, Part H P F F1 s (needOut s wa).2.1 ∧ ((needOut s wa).2.2 ≤ room (needOut s wa).2.1 ∨ (needOut s wa).2.1.read ≤ (needOut s wa).2.1.write) ∧
          ((needOut s wa).1 = false → (needOut s wa).2.1.avail = 0 ∨ (needOut s wa).2.1.read = (needOut s wa).2.1.write) ∧ (1 ≤ wa → needOut s wa = (true, s, wa)) := by
        have hu : 1 ≤ wa → needOut s wa = (true, s, wa) := by intro h; unfold needOut; rw [if_neg (by omega)]
        by_cases hw : wa ≤ room s
        · obtain ⟨F1, hF1, i1, r1, l1, e1, a1, t1, -, x1, -⟩ := needOut_inv h hr hw
          exact ⟨F1, ⟨hF1, i1, r1, e1, a1⟩, Or.inl l1, x1, hu⟩
        · have e : needOut s wa = (true, s, wa) := by unfold needOut; rw [if_neg (by omega)]
          rw [e]
          exact ⟨F, .refl h hr, hwa, by simp, fun _ => rfl⟩
      obtain ⟨F1, p1, w1, x1, u1⟩ := hno
      generalize needOut s wa = q at *
      obtain ⟨ok, s1, wa1⟩ := q
      dsimp only at *
      cases ok
      · exact ⟨P, F1, p1, ht, by simp, fun _ => hb, w1, fun g hg => hg, le_refl _, fun h => by have := u1 h; simp at this, by simp, fun _ => x1 rfl⟩
      · dsimp only
        have m0 : 1 ≤ wa → s.write < W → 0 < amount bytes.length toks.length wa1 s1.write := by
          intro h1 h2
          have := u1 h1
          simp only [Prod.mk.injEq, true_and] at this
          obtain ⟨rfl, rfl⟩ := this
          exact amount_pos _ _ _ _ (List.length_pos_iff.mpr hb) (by omega) (by omega) h2
        obtain ⟨m1, m2, m3⟩ := amount_le bytes.length toks.length wa1 s1.write p1.inv.wr
        generalize amount bytes.length toks.length wa1 s1.write = t at *
        by_cases ht0 : 0 < t ∧ 0 < bytes.length
        · rw [if_pos ht0]
          have hlen : (bytes.take t).length = t := by simp; omega
          have i2 : Inv0 H (P ++ bytes.take t) F1 (load s1 (bytes.take t)) := by
            apply load_inv _ p1.inv (by omega) (by omega)
            intro hlt
            rcases w1 with w1 | w1
            · unfold room at w1; rw [if_pos hlt] at w1; omega
            · omega
          have p2 : Part H (P ++ bytes.take t) F F1 s (load s1 (bytes.take t)) := ⟨p1.le, i2, p1.rd, p1.cnt, p1.av⟩
          have w2 : wa1 - t ≤ room (load s1 (bytes.take t)) ∨ (load s1 (bytes.take t)).read ≤ (load s1 (bytes.take t)).write := by
            show wa1 - t ≤ (if s1.write + (bytes.take t).length < s1.read then s1.read - (s1.write + (bytes.take t).length) - 1 else 32768 - (s1.write + (bytes.take t).length)) ∨
              s1.read ≤ s1.write + (bytes.take t).length
            rw [hlen]
            rcases w1 with w1 | w1
            · unfold room at w1
              split at w1 <;> split <;> omega
            · right; omega
          by_cases hd : (bytes.drop t).length = 0
          · rw [if_pos hd]
            have e : bytes.take t = bytes := List.take_of_length_le (by simp at hd; omega)
            rw [e] at p2 w2 ⊢
            exact ⟨P ++ bytes, F1, p2, by simpa using ht, fun _ => ht, by simp, w2, fun g hg => List.mem_of_mem_drop hg, by simp, fun _ _ _ => by simp; omega,
              fun _ => by simp; omega, by simp⟩
          · rw [if_neg hd]
            obtain ⟨P3, F3, c3⟩ := ih (toks := toks.drop t) (wa := wa1 - t) (bytes := bytes.drop t) (by simp; omega) i2 p2.rd w2 (by intro h; rw [h] at hd; simp at hd)
              (by rw [List.append_assoc, List.take_append_drop]; exact ht)
            exact ⟨P3, F3, p2.trans c3.part, c3.text, c3.fin, c3.ne, c3.wa, fun g hg => List.mem_of_mem_drop (c3.toks g hg),
              by have := c3.grow; simp at this; omega, fun _ _ _ => by have := c3.grow; simp at this; omega, fun hf => by have := c3.len hf; simp at this; omega, c3.stop⟩
        · rw [if_neg ht0]
          obtain ⟨F2, h2, i2, r2, l2, c2, a2, d2, -, w2⟩ := flush_inv p1.inv
          have hbl := List.length_pos_iff.mpr hb
          exact ⟨P, F2, p1.trans ⟨h2, i2, r2, c2, a2⟩, ht, by simp, fun _ => hb, w1.imp (fun h => le_trans h l2) w2, fun g hg => hg, le_refl _, fun h1 h2 _ => absurd ⟨m0 h1 h2, hbl⟩ ht0, by simp, fun _ => d2⟩

/-- The text when all is done. -/
def blkText (P : List Byte) : Blk → Option (List Byte)
  | .type => some P
  | .codes cur syms => pendText cur syms P
  | .stored bytes => some (P ++ bytes)
  | .dry => some P
  | .done => some P

/-- No stored block after a compressed one, with the block in progress. -/
def Ordered (blk : Blk) (bs : List Block) : Prop :=
  match blk with
  | .codes _ _ => ∀ b ∈ bs, b.isStored = false
  | _ => StoredFirst bs

/-- The state between calls. -/
structure DInv (H P T : List Byte) (F : Nat) (d : D) : Prop where
  inv : Inv0 H P F d.s
  rd : d.s.read < W
  text : (blkText P d.blk).bind (streamText d.rest) = some T
  cur : ∀ cur syms, d.blk = .codes cur syms → cur = .wash → syms = []
  ne : ∀ bytes, d.blk = .stored bytes → bytes ≠ []
  dry : d.blk = .dry ∨ d.blk = .done → d.rest = []
  done : d.blk = .done → F = P.length

theorem storedFirst_of {bs : List Block} (h : ∀ b ∈ bs, b.isStored = false) : StoredFirst bs := by
  cases bs with
  | nil => trivial
  | cons b bs =>
    cases b with
    | codes syms => exact fun c hc => h c (List.mem_cons_of_mem _ hc)
    | stored bytes => have := h _ (List.mem_cons_self ..); simp [Block.isStored] at this

/-- A call from the start of a block. -/
theorem blocks_inv {H T} (bs : List Block) : ∀ {toks P F s wa}, Inv0 H P F s → s.read < W → streamText bs P = some T →
    (StoredFirst bs ∨ true ∉ toks) → (wa ≤ room s ∨ s.read ≤ s.write ∨ ∀ b ∈ bs, b.isStored = false) →
    ∃ P' F', DInv H P' T F' (blocks bs toks s wa) ∧ F ≤ F' ∧ F' - F = s.avail - (blocks bs toks s wa).s.avail ∧ (blocks bs toks s wa).s.avail ≤ s.avail ∧
      (StoredFirst bs → Ordered (blocks bs toks s wa).blk (blocks bs toks s wa).rest) ∧ P.length ≤ P'.length ∧
      ((blocks bs toks s wa).isDone = true ∨ (blocks bs toks s wa).s.avail = 0 ∨ (blocks bs toks s wa).s.read = (blocks bs toks s wa).s.write) ∧
      (F = P.length → 1 ≤ wa → needed bs ≤ toks.length →
        (blocks bs toks s wa).isDone = true ∨ P.length < P'.length ∨ (blocks bs toks s wa).s.avail = 0) := by
  induction bs with
  | nil =>
    intro toks P F s wa h hr ht _ _
    obtain ⟨F1, p1⟩ := flush_part h
    obtain ⟨-, -, -, -, -, -, -, d1, -⟩ := flush_inv h
    rw [blocks.eq_1]
    by_cases hc : (flush s).read ≠ (flush s).write
    · rw [if_pos hc]
      exact ⟨P, F1, ⟨p1.inv, p1.rd, ht, by simp, by simp, fun _ => rfl, by simp⟩, p1.le, p1.cnt, p1.av, fun _ => trivial, le_refl _, Or.inr d1,
        fun _ _ _ => Or.inr (Or.inr (d1.resolve_right hc))⟩
    · rw [if_neg hc]
      exact ⟨P, F1, ⟨p1.inv, p1.rd, ht, by simp, by simp, fun _ => rfl, fun _ => p1.inv.empty (by simpa using hc)⟩, p1.le, p1.cnt, p1.av, fun _ => trivial, le_refl _,
        Or.inl rfl, fun _ _ _ => Or.inl rfl⟩
  | cons b bs ih =>
    intro toks P F s wa h hr ht ho hwa
    have hem : F = P.length → 1 ≤ room s ∧ s.write < W := by
      intro hF
      have hp := h.pend; have hw := h.wr
      unfold room
      split at hp <;> split <;> omega
    cases toks with
    | nil =>
      obtain ⟨F1, p1⟩ := flush_part h
      obtain ⟨-, -, -, -, -, -, -, d1, -⟩ := flush_inv h
      have e : blocks (b :: bs) [] s wa = ⟨flush s, .type, b :: bs⟩ := by cases b <;> rfl
      rw [e]
      exact ⟨P, F1, ⟨p1.inv, p1.rd, ht, by simp, by simp, by simp, by simp⟩, p1.le, p1.cnt, p1.av, id, le_refl _, Or.inr d1,
        fun _ _ h => by cases b <;> simp [needed] at h⟩
    | cons f toks =>
      cases b with
      | codes syms =>
        obtain ⟨T1, ht1, ht2⟩ := Option.bind_eq_some_iff.mp (show (symsText syms P).bind (streamText bs) = some T from ht)
        obtain ⟨P1, F1, c1⟩ := codes_inv toks (cur := .start) (syms := syms) h hr (le_refl _) (by simp) (show pendText .start syms P = some T1 from ht1)
        rw [blocks.eq_3]
        generalize codes toks s .start syms (room s) = r at *
        by_cases hf : r.fin = true
        · rw [if_pos hf]
          obtain ⟨e1, w1⟩ := c1.fin hf
          subst e1
          have ho2 : StoredFirst bs ∨ true ∉ r.toks := by
            rcases ho with ho | ho
            · exact Or.inl (storedFirst_of ho)
            · exact Or.inr fun h => ho (List.mem_cons_of_mem _ (c1.toks _ h))
          have hw2 : wa ≤ room r.s ∨ r.s.read ≤ r.s.write ∨ ∀ b ∈ bs, b.isStored = false := by
            rcases w1 with w1 | w1
            · exact Or.inr (Or.inl (by omega))
            · rcases ho with ho | ho
              · exact Or.inr (Or.inr ho)
              · exact absurd (List.mem_cons_of_mem _ w1) ho
          obtain ⟨P2, F2, d2, l2, k2, a2, o2, g2, x2, m2⟩ := ih c1.part.inv c1.part.rd ht2 ho2 hw2
          have := c1.part.cnt; have := c1.part.le; have := c1.part.av
          have := c1.grow
          refine ⟨P2, F2, d2, by omega, by omega, by omega, fun h => o2 (storedFirst_of h), by omega, x2, ?_⟩
          intro hF h1 h2
          simp only [needed, List.length_cons] at h2
          have hlen := c1.len hf
          have hfp := c1.part.inv.hF2
          by_cases hg : P.length < P1.length
          · exact Or.inr (Or.inl (by omega))
          · rcases m2 (by omega) h1 (by omega) with m | m | m
            · exact Or.inl m
            · exact Or.inr (Or.inl (by omega))
            · exact Or.inr (Or.inr m)
        · rw [if_neg hf]
          obtain ⟨F2, p2⟩ := flush_part c1.part.inv
          obtain ⟨-, -, -, -, -, -, -, d1, -⟩ := flush_inv c1.part.inv
          have p3 := c1.part.trans p2
          have hav := p2.av
          exact ⟨P1, F2, ⟨p3.inv, p3.rd, by dsimp only [blkText]; rw [c1.text]; exact ht2, by intro c y h1 h2; cases h1; exact c1.cur h2, by simp, by simp, by simp⟩,
            p3.le, p3.cnt, p3.av, fun h => h, c1.grow, Or.inr d1, fun hF _ h2 => by
              simp only [needed, List.length_cons] at h2
              rcases c1.prog (hem hF).1 (by omega) with m | m | m
              · exact absurd m hf
              · exact Or.inr (Or.inl m)
              · exact Or.inr (Or.inr (by dsimp only; omega))⟩
      | stored bytes =>
        rw [blocks.eq_4]
        by_cases h0 : bytes.length = 0
        · rw [if_pos h0]
          have e : bytes = [] := List.length_eq_zero_iff.mp h0
          subst e
          have ht2 : streamText bs P = some T := by have := ht; rw [streamText, List.append_nil] at this; exact this
          obtain ⟨P2, F2, d2, l2, k2, a2, o2, g2, x2, m2⟩ := ih (toks := toks) (wa := wa) h hr ht2 (ho.imp id fun h g => h (List.mem_cons_of_mem _ g))
            (hwa.imp id (Or.imp id fun h c hc => h c (List.mem_cons_of_mem _ hc)))
          exact ⟨P2, F2, d2, l2, k2, a2, o2, g2, x2, fun hF h1 h2 => m2 hF h1 (by simp [needed] at h2; omega)⟩
        · rw [if_neg h0]
          have hwa2 : wa ≤ room s ∨ s.read ≤ s.write := by
            rcases hwa with h | h | h
            · exact Or.inl h
            · exact Or.inr h
            · have := h _ (List.mem_cons_self ..); simp [Block.isStored] at this
          obtain ⟨P1, F1, c1⟩ := stored_inv (toks := toks) (wa := wa) bytes.length (le_refl _) h hr hwa2 (by intro h; rw [h] at h0; simp at h0) rfl
          dsimp only
          generalize stored toks s bytes wa = r at *
          by_cases hf : r.fin = true
          · rw [if_pos hf]
            have e := c1.fin hf
            subst e
            obtain ⟨P2, F2, d2, l2, k2, a2, o2, g2, x2, m2⟩ := ih (toks := r.toks) (wa := r.wa) c1.part.inv c1.part.rd ht
              (ho.imp id fun h g => h (List.mem_cons_of_mem _ (c1.toks _ g))) (c1.wa.imp id Or.inl)
            have := c1.part.cnt; have := c1.part.le; have := c1.part.av
            have := c1.grow
            exact ⟨P2, F2, d2, by omega, by omega, by omega, o2, by omega, x2, fun hF h1 h2 => Or.inr (Or.inl (by
              simp only [needed, List.length_cons] at h2
              have := c1.prog h1 (hem hF).2 (by omega)
              omega))⟩
          · rw [if_neg hf]
            have p3 := c1.part
            exact ⟨P1, F1, ⟨p3.inv, p3.rd, by dsimp only [blkText]; rw [c1.text]; exact ht, by simp,
              by intro b h; cases h; exact c1.ne (by simpa using hf), by simp, by simp⟩, p3.le, p3.cnt, p3.av, fun h => h, c1.grow,
              Or.inr (c1.stop (by simpa using hf)), fun hF h1 h2 => Or.inr (Or.inl (by
                simp only [needed, List.length_cons] at h2
                exact c1.prog h1 (hem hF).2 (by omega)))⟩

theorem progress {H P P' T : List Byte} {F F' n : Nat} {d : D} (h : DInv H P' T F' d) (hF : F ≤ F') (hF2 : F ≤ P.length) (hc : F' - F = n - d.s.avail) (hn : 1 ≤ n) (hg : P.length ≤ P'.length)
    (hx : d.isDone = true ∨ d.s.avail = 0 ∨ d.s.read = d.s.write)
    (hm : F = P.length → d.isDone = true ∨ P.length < P'.length ∨ d.s.avail = 0) : d.isDone = true ∨ F < F' := by
  rcases hx with hx | hx | hx
  · exact Or.inl hx
  · exact Or.inr (by omega)
  · have := h.inv.empty hx
    by_cases h1 : F = P.length
    · rcases hm h1 with m | m | m
      · exact Or.inl m
      · exact Or.inr (by omega)
      · exact Or.inr (by omega)
    · exact Or.inr (by omega)

/-- A call. -/
theorem inflate_inv {H P T F d} (c : Call) (h : DInv H P T F d) (ho : Ordered d.blk d.rest ∨ true ∉ c.toks) :
    ∃ P' F', DInv H P' T F' (inflate d c) ∧ F ≤ F' ∧ F' - F ≤ c.room ∧ (Ordered d.blk d.rest → Ordered (inflate d c).blk (inflate d c).rest) ∧
      (1 ≤ c.room → d.needed ≤ c.toks.length → (inflate d c).isDone = true ∨ F < F') := by
  have hinv : Inv0 H P F { d.s with avail := c.room } := ⟨h.inv.hF1, h.inv.hF2, h.inv.out, h.inv.rd, h.inv.wr, h.inv.rdF, h.inv.pend, h.inv.win, h.inv.bad⟩
  have htext := h.text; have hcur := h.cur; have hne := h.ne; have hdry := h.dry
  unfold inflate
  dsimp only
  generalize hs : ({ d.s with avail := c.room } : S) = s at *
  have hrd : s.read < W := by rw [← hs]; exact h.rd
  have hav : s.avail = c.room := by rw [← hs]
  have hF2 := h.inv.hF2
  have hem : F = P.length → 1 ≤ room s ∧ s.write < W := by
    intro hF
    have hp := hinv.pend; have hw := hinv.wr
    unfold room
    split at hp <;> split <;> omega
  obtain ⟨s0, blk, rest⟩ := d
  dsimp only at ho htext hcur hne hdry ⊢
  cases blk with
  | type =>
    obtain ⟨P2, F2, d2, l2, k2, a2, o2, g2, x2, m2⟩ := blocks_inv rest (toks := c.toks) hinv hrd htext ho (Or.inl (le_refl _))
    exact ⟨P2, F2, d2, l2, by omega, o2, fun h1 h2 => progress d2 l2 hF2 (by rw [k2, hav]) h1 g2 x2 fun hF => m2 hF (hem hF).1 (by simpa [D.needed] using h2)⟩
  | codes cur syms =>
    obtain ⟨T1, ht1, ht2⟩ := Option.bind_eq_some_iff.mp htext
    obtain ⟨P1, F1, c1⟩ := codes_inv c.toks hinv hrd (le_refl _) (hcur cur syms rfl) ht1
    dsimp only
    generalize codes c.toks s cur syms (room s) = r at *
    by_cases hf : r.fin = true
    · rw [if_pos hf]
      obtain ⟨e1, w1⟩ := c1.fin hf
      subst e1
      have ho2 : StoredFirst rest ∨ true ∉ r.toks := by
        rcases ho with ho | ho
        · exact Or.inl (storedFirst_of ho)
        · exact Or.inr fun h => ho (c1.toks _ h)
      have hw2 : room s ≤ room r.s ∨ r.s.read ≤ r.s.write ∨ ∀ b ∈ rest, b.isStored = false := by
        rcases w1 with w1 | w1
        · exact Or.inr (Or.inl (by omega))
        · rcases ho with ho | ho
          · exact Or.inr (Or.inr ho)
          · exact absurd w1 ho
      obtain ⟨P2, F2, d2, l2, k2, a2, o2, g2, x2, m2⟩ := blocks_inv rest c1.part.inv c1.part.rd ht2 ho2 hw2
      have := c1.part.cnt; have := c1.part.le; have := c1.part.av
      have hgr := c1.grow
      refine ⟨P2, F2, d2, by omega, by omega, fun h => o2 (storedFirst_of h), fun h1 h2 => progress d2 (by omega) hF2 (n := c.room) (by omega) h1 (by omega) x2 fun hF => ?_⟩
      simp only [D.needed] at h2
      have hlen := c1.len hf
      have hfp := c1.part.inv.hF2
      by_cases hg : P.length < P1.length
      · exact Or.inr (Or.inl (by omega))
      · rcases m2 (by omega) (hem hF).1 (by omega) with m | m | m
        · exact Or.inl m
        · exact Or.inr (Or.inl (by omega))
        · exact Or.inr (Or.inr m)
    · rw [if_neg hf]
      obtain ⟨F2, p2⟩ := flush_part c1.part.inv
      obtain ⟨-, -, -, -, -, -, -, d1, -⟩ := flush_inv c1.part.inv
      have p3 := c1.part.trans p2
      have hav2 := p2.av
      have hD : DInv H P1 T F2 ⟨flush r.s, .codes r.cur r.syms, rest⟩ := ⟨p3.inv, p3.rd, by dsimp only [blkText]; rw [c1.text]; exact ht2, by intro c y h1 h2; cases h1; exact c1.cur h2, by simp, by simp, by simp⟩
      refine ⟨P1, F2, hD, p3.le, by have := p3.cnt; omega, fun h => h, fun h1 h2 => progress hD p3.le hF2 (n := c.room) (by rw [p3.cnt, hav]) h1 c1.grow (Or.inr d1) fun hF => ?_⟩
      simp only [D.needed] at h2
      rcases c1.prog (hem hF).1 (by omega) with m | m | m
      · exact absurd m hf
      · exact Or.inr (Or.inl m)
      · exact Or.inr (Or.inr (by dsimp only; omega))
  | stored bytes =>
    obtain ⟨P1, F1, c1⟩ := stored_inv (toks := c.toks) (wa := room s) bytes.length (le_refl _) hinv hrd (Or.inl (le_refl _)) (hne _ rfl) rfl
    dsimp only
    generalize stored c.toks s bytes (room s) = r at *
    by_cases hf : r.fin = true
    · rw [if_pos hf]
      have e := c1.fin hf
      subst e
      obtain ⟨P2, F2, d2, l2, k2, a2, o2, g2, x2, m2⟩ := blocks_inv rest (toks := r.toks) (wa := r.wa) c1.part.inv c1.part.rd htext
        (ho.imp id fun h g => h (c1.toks _ g)) (c1.wa.imp id Or.inl)
      have := c1.part.cnt; have := c1.part.le; have := c1.part.av
      have hgr := c1.grow
      refine ⟨P2, F2, d2, by omega, by omega, o2, fun h1 h2 => progress d2 (by omega) hF2 (n := c.room) (by omega) h1 (by omega) x2 fun hF => ?_⟩
      have hb := List.length_pos_iff.mpr (hne _ rfl)
      simp only [D.needed] at h2
      have := c1.prog (hem hF).1 (hem hF).2 (by omega)
      exact Or.inr (Or.inl (by omega))
    · rw [if_neg hf]
      have p3 := c1.part
      have hD : DInv H P1 T F1 ⟨r.s, .stored r.bytes, rest⟩ := ⟨p3.inv, p3.rd, by dsimp only [blkText]; rw [c1.text]; exact htext, by simp,
        by intro b h; cases h; exact c1.ne (by simpa using hf), by simp, by simp⟩
      refine ⟨P1, F1, hD, p3.le, by have := p3.cnt; omega, fun h => h, fun h1 h2 => progress hD p3.le hF2 (n := c.room) (by rw [p3.cnt, hav]) h1 c1.grow
        (Or.inr (c1.stop (by simpa using hf))) fun hF => ?_⟩
      have hb := List.length_pos_iff.mpr (hne _ rfl)
      simp only [D.needed] at h2
      exact Or.inr (Or.inl (c1.prog (hem hF).1 (hem hF).2 (by omega)))
  | dry =>
    have e := hdry (Or.inl rfl)
    subst e
    obtain ⟨P2, F2, d2, l2, k2, a2, o2, g2, x2, m2⟩ := blocks_inv [] (toks := c.toks) hinv hrd htext ho (Or.inl (le_refl _))
    exact ⟨P2, F2, d2, l2, by omega, o2, fun h1 h2 => progress d2 l2 hF2 (by rw [k2, hav]) h1 g2 x2 fun hF => m2 hF (hem hF).1 (by simp [needed])⟩
  | done => exact ⟨P, F, h, le_refl _, by omega, fun h => h, fun _ _ => Or.inl rfl⟩

end Verif.Inflate
