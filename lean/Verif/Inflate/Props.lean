import Verif.Common
import Verif.Inflate.Steps

/-! # The output of the decompressor -/
namespace Verif.Inflate

theorem start_inv (window : Nat → Byte) (stream : List Block) (dict : List Byte) (hd : dict.length < 32768) (T : List Byte) (ht : streamText stream dict = some T) :
    DInv dict dict T dict.length (setDictionary (start window stream) dict) := by
  have e : (if dict.length ≥ 32768 then 32768 - 1 else dict.length) = dict.length := if_neg (by omega)
  unfold setDictionary
  rw [e]
  refine ⟨⟨le_refl _, le_refl _, by simp [start], by dsimp only; omega, by dsimp only; omega, rfl, by simp, ?_, rfl⟩, hd, ht, by simp [start], by simp [start], by simp [start], by simp [start]⟩
  intro i hi _
  dsimp only
  rw [Nat.mod_eq_of_lt (by omega), if_pos hi]

theorem run_inv {H T} (cs : List Call) : ∀ {P F d}, DInv H P T F d → (Ordered d.blk d.rest ∨ NeverFast cs) →
    ∃ P' F', DInv H P' T F' (run d cs) ∧ F ≤ F' ∧ F' - F ≤ (cs.map Call.room).sum := by
  induction cs with
  | nil => intro P F d h _; exact ⟨P, F, h, le_refl _, by simp⟩
  | cons c cs ih =>
    intro P F d h ho
    obtain ⟨P1, F1, h1, l1, r1, o1, -⟩ := inflate_inv c h (ho.imp id fun h g => by have := h c (List.mem_cons_self ..) _ g; simp at this)
    obtain ⟨P2, F2, h2, l2, r2⟩ := ih h1 (ho.imp o1 fun h c hc => h c (List.mem_cons_of_mem _ hc))
    refine ⟨P2, F2, h2, by omega, ?_⟩
    simp only [List.map_cons, List.sum_cons]
    omega

theorem extend_prefix (d n : Nat) (P : List Byte) : P <+: extend d n P := by
  induction n generalizing P with
  | zero => exact List.prefix_refl _
  | succ n ih => exact (List.prefix_append _ _).trans (ih _)

theorem symsText_prefix (xs : List Sym) : ∀ {P T}, symsText xs P = some T → P <+: T := by
  induction xs with
  | nil => intro P T h; rw [symsText, Option.some.injEq] at h; subst h; exact List.prefix_refl _
  | cons x xs ih =>
    intro P T h
    obtain ⟨T1, h1, h2⟩ := Option.bind_eq_some_iff.mp (show (symText P x).bind (symsText xs) = some T from h)
    refine List.IsPrefix.trans ?_ (ih h2)
    cases x with
    | lit b => rw [symText, Option.some.injEq] at h1; subst h1; exact List.prefix_append _ _
    | copy len dist =>
      rw [symText] at h1
      split at h1
      · rw [Option.some.injEq] at h1; subst h1; exact extend_prefix _ _ _
      · simp at h1

theorem streamText_prefix (bs : List Block) : ∀ {P T}, streamText bs P = some T → P <+: T := by
  induction bs with
  | nil => intro P T h; rw [streamText, Option.some.injEq] at h; subst h; exact List.prefix_refl _
  | cons b bs ih =>
    intro P T h
    cases b with
    | codes syms =>
      obtain ⟨T1, h1, h2⟩ := Option.bind_eq_some_iff.mp (show (symsText syms P).bind (streamText bs) = some T from h)
      exact (symsText_prefix _ h1).trans (ih h2)
    | stored bytes => exact (List.prefix_append _ _).trans (ih (show streamText bs (P ++ bytes) = some T from h))

theorem DInv.prefix {H P T F d} (h : DInv H P T F d) : P <+: T := by
  obtain ⟨T1, h1, h2⟩ := Option.bind_eq_some_iff.mp h.text
  refine List.IsPrefix.trans ?_ (streamText_prefix _ h2)
  cases hb : d.blk with
  | type => rw [hb, blkText, Option.some.injEq] at h1; subst h1; exact List.prefix_refl _
  | dry => rw [hb, blkText, Option.some.injEq] at h1; subst h1; exact List.prefix_refl _
  | done => rw [hb, blkText, Option.some.injEq] at h1; subst h1; exact List.prefix_refl _
  | stored b => rw [hb, blkText, Option.some.injEq] at h1; subst h1; exact List.prefix_append _ _
  | codes cur syms =>
    rw [hb, blkText, pendText] at h1
    obtain ⟨T2, h3, h4⟩ := Option.bind_eq_some_iff.mp h1
    refine List.IsPrefix.trans ?_ (symsText_prefix _ h4)
    cases cur with
    | start => rw [curText, Option.some.injEq] at h3; subst h3; exact List.prefix_refl _
    | wash => rw [curText, Option.some.injEq] at h3; subst h3; exact List.prefix_refl _
    | lit b => rw [curText, Option.some.injEq] at h3; subst h3; exact List.prefix_append _ _
    | copy len dist =>
      rw [curText] at h3
      split at h3
      · rw [Option.some.injEq] at h3; subst h3; exact extend_prefix _ _ _
      · simp at h3

/-- **C87**: whatever the sizes of the output buffers and wherever the input is cut, the bytes delivered are the beginning of the text the stream stands for, and all of it
when the end of the stream is reported; no call delivers more than there is room for, no index is outside the window, no copy overlaps.  This is proved for streams in
which no stored block follows a compressed one, and for all streams when the fast path is not taken.  It does not hold in general: `C87_lost`. -/
theorem C87_output_partial (window : Nat → Byte) (dict data : List Byte) (stream : List Block) (cs : List Call) (hd : dict.length < 32768)
    (ht : plain dict stream = some data) (ho : StoredFirst stream ∨ NeverFast cs) :
    let d := run (setDictionary (start window stream) dict) cs
    d.s.bad = false ∧ d.s.out <+: data ∧ d.s.out.length ≤ (cs.map Call.room).sum ∧ (d.isDone = true → d.s.out = data) := by
  intro d
  unfold plain at ht
  rw [Option.map_eq_some_iff] at ht
  obtain ⟨T, ht, rfl⟩ := ht
  obtain ⟨P, F, h, l, r⟩ := run_inv cs (start_inv window stream dict hd T ht) (show Ordered .type stream ∨ NeverFast cs from ho)
  have hp := h.prefix
  obtain ⟨t, rfl⟩ := hp
  have hout := h.inv.out
  have h2 := h.inv.hF2
  have h1 := h.inv.hF1
  refine ⟨h.inv.bad, ?_, ?_, ?_⟩
  · show d.s.out <+: _
    rw [show d.s.out = _ from hout]
    have : P.take F <+: P ++ t := (List.take_prefix _ _).trans (List.prefix_append _ _)
    exact List.IsPrefix.drop this _
  · show d.s.out.length ≤ _
    rw [show d.s.out = _ from hout]
    simp
    omega
  · intro hdn
    have hb : (run (setDictionary (start window stream) dict) cs).blk = .done := by
      unfold D.isDone at hdn
      revert hdn
      show (match d.blk with | .done => true | _ => false) = true → d.blk = .done
      cases d.blk <;> simp
    have hF := h.done hb
    have hr := h.dry (Or.inr hb)
    have hx := h.text
    rw [hb, hr] at hx
    simp only [blkText, streamText, Option.bind_some, Option.some.injEq] at hx
    show d.s.out = _
    rw [show d.s.out = _ from hout, hF, List.take_length, ← hx]

theorem run_done (cs : List Call) : ∀ d : D, d.isDone = true → (run d cs).isDone = true := by
  induction cs with
  | nil => intro d h; exact h
  | cons c cs ih =>
    intro d h
    refine ih (inflate d c) ?_
    have : inflate d c = d := by
      unfold D.isDone at h
      unfold inflate
      cases hb : d.blk <;> simp_all
    rw [this]; exact h

theorem fed_run {H T} (cs : List Call) : ∀ {P F d}, DInv H P T F d → (Ordered d.blk d.rest ∨ NeverFast cs) → Fed d cs →
    (run d cs).isDone = true ∨ F + cs.length ≤ T.length := by
  induction cs with
  | nil => intro P F d h _ _; exact Or.inr (by have := h.inv.hF2; have := h.prefix.length_le; simp; omega)
  | cons c cs ih =>
    intro P F d h ho hf
    obtain ⟨f1, f2, f3⟩ := hf
    obtain ⟨P1, F1, h1, l1, r1, o1, m1⟩ := inflate_inv c h (ho.imp id fun h g => by have := h c (List.mem_cons_self ..) _ g; simp at this)
    rcases m1 f1 f2 with m | m
    · exact Or.inl (run_done cs _ m)
    · rcases ih h1 (ho.imp o1 fun h c hc => h c (List.mem_cons_of_mem _ hc)) f3 with k | k
      · exact Or.inl k
      · exact Or.inr (by simp only [List.length_cons]; omega)

/-- **C87**: a client that calls again and again, each time with room for at least one byte and with the input that is left, comes to the end of the stream: after as many calls
as there are bytes, and one more. -/
theorem C87_finishes_partial (window : Nat → Byte) (dict data : List Byte) (stream : List Block) (cs : List Call) (hd : dict.length < 32768)
    (ht : plain dict stream = some data) (ho : StoredFirst stream ∨ NeverFast cs) (hf : Fed (setDictionary (start window stream) dict) cs) (hl : data.length < cs.length) :
    (run (setDictionary (start window stream) dict) cs).isDone = true ∧ (run (setDictionary (start window stream) dict) cs).s.out = data := by
  have h1 : (run (setDictionary (start window stream) dict) cs).isDone = true := by
    have ht2 := ht
    unfold plain at ht2
    rw [Option.map_eq_some_iff] at ht2
    obtain ⟨T, ht2, rfl⟩ := ht2
    rcases fed_run cs (start_inv window stream dict hd T ht2) (show Ordered .type stream ∨ NeverFast cs from ho) hf with h | h
    · exact h
    · simp only [List.length_drop] at hl; omega
  exact ⟨h1, (C87_output_partial window dict data stream cs hd ht ho).2.2.2 h1⟩

/-- Calls with room for one byte each. -/
example : Fed (setDictionary (start (fun _ => 0) [.codes [.lit 9, .copy 3 1]]) []) (List.replicate 5 ⟨1, [true, true, true, true]⟩) ∧
    plain [] [.codes [.lit 9, .copy 3 1]] = some [9, 9, 9, 9] := by
  refine ⟨?_, by decide⟩
  simp only [List.replicate, Fed]
  decide

/-- A stream with overlapping copies, a dictionary, and calls with little room: the hypotheses are met, and the text is what one expects. -/
example : plain [1, 2] [.stored [7], .codes [.lit 9, .copy 5 2, .copy 3 9]] = some [7, 9, 7, 9, 7, 9, 7, 1, 2, 7] ∧
    StoredFirst [.stored [7], .codes [.lit 9, .copy 5 2, .copy 3 9]] := ⟨by decide, by simp [StoredFirst]⟩

example : (run (setDictionary (start (fun _ => 0) [.codes [.lit 9, .copy 5 2, .copy 3 8]]) [1, 2])
    [⟨3, [true, true, true, false]⟩, ⟨0, [true]⟩, ⟨20, [true, true]⟩]).s.out = [9, 2, 9, 2, 9, 2, 1, 2, 9] := by decide

/-- **C87**, what fails: the memory-to-memory `Uncompress` reports an error (BufError) for every stream of one compressed block with a text of more than 32768 bytes,
however large the destination is. -/
theorem C87_uncompress (syms : List Sym) (T : List Byte) (room : Nat) (toks : List Bool) (ht : symsText syms [] = some T) (hT : 32768 < T.length) :
    uncompress [.codes syms] room toks = none := by
  unfold uncompress
  dsimp only
  rw [if_neg]
  unfold inflate start
  dsimp only
  have hi : Inv0 [] [] 0 (⟨fun _ => 0, 0, 0, room, [], false⟩ : S) := ⟨by simp, by simp, by simp, by simp, by simp, rfl, by simp, by simp, rfl⟩
  cases toks with
  | nil => simp [blocks, D.isDone]
  | cons f toks =>
    obtain ⟨P1, F1, c1⟩ := codes_inv toks (cur := .start) (syms := syms) hi (by simp) (le_refl _) (by simp) (show pendText .start syms [] = some T from ht)
    rw [blocks.eq_3]
    generalize codes toks ⟨fun _ => 0, 0, 0, room, [], false⟩ .start syms _ = r at *
    by_cases hf : r.fin = true
    · rw [if_pos hf]
      obtain ⟨e, -⟩ := c1.fin hf
      subst e
      have hq := c1.q (Or.inl ⟨rfl, rfl⟩) hf
      obtain ⟨F2, p2⟩ := flush_part c1.part.inv
      have hp := c1.part.inv.pend; have hw := c1.part.inv.wr
      have hne : (flush r.s).read ≠ (flush r.s).write := by
        intro he
        have hF := p2.inv.empty he
        have := p2.cnt; have := p2.le
        rcases hq with hq | ⟨a, b⟩ | ⟨a, b⟩
        · omega
        · rw [b, if_pos (by omega)] at hp; omega
        · omega
      rw [blocks.eq_1, if_pos hne]
      simp [D.isDone]
    · rw [if_neg hf]; simp [D.isDone]

/-- A stream of one block with 127 copies of 258 bytes has such a text. -/
theorem long_text (n : Nat) : ∀ P : List Byte, P ≠ [] → ∃ T, symsText (List.replicate n (.copy 258 1)) P = some T ∧ T.length = P.length + 258 * n := by
  induction n with
  | zero => intro P _; exact ⟨P, rfl, rfl⟩
  | succ n ih =>
    intro P hP
    have h0 : 0 < P.length := List.length_pos_iff.mpr hP
    have e := extend_length 1 258 P
    obtain ⟨T, h1, h2⟩ := ih (extend 1 258 P) (by intro h; rw [h] at e; simp at e)
    refine ⟨T, ?_, by omega⟩
    rw [List.replicate_succ, symsText, symText, if_pos (by omega), Option.bind_some, h1]

example : uncompress [.codes (.lit 5 :: List.replicate 128 (.copy 258 1))] 100000 (List.replicate 1000 true) = none := by
  obtain ⟨T, h1, h2⟩ := long_text 128 [5] (by simp)
  exact C87_uncompress _ T _ _ (by rw [symsText, symText, Option.bind_some]; exact h1) (by rw [h2]; simp)

/-- **C87**, what fails: a distance that goes back to before the beginning of the text is not rejected; the bytes delivered are what an earlier stream left in the window. -/
theorem C87_too_far (window : Nat → Byte) :
    plain [] [.codes [.copy 3 3]] = none ∧
    (run (start window [.codes [.copy 3 3]]) [⟨10, [true, true, true]⟩]).isDone = true ∧
    (run (start window [.codes [.copy 3 3]]) [⟨10, [true, true, true]⟩]).s.out = [window 32765, window 32766, window 32767] := by
  refine ⟨by decide, ?_, ?_⟩ <;> rfl

theorem plain_last (dict : List Byte) (h : dict ≠ []) : plain dict [.codes [.copy 3 1]] = some (List.replicate 3 (dict.getD (dict.length - 1) 0)) := by
  have h0 : 0 < dict.length := List.length_pos_iff.mpr h
  have e4 : streamText [.codes [.copy 3 1]] dict = some (extend 1 3 dict) := by
    rw [streamText, symsText, symText, if_pos (by omega)]; rfl
  have e5 : ∀ (l : List Byte) (x : Byte), (l ++ [x]).getD ((l ++ [x]).length - 1) 0 = x := by intro l x; simp
  unfold plain
  rw [e4, Option.map_some, extend, extend, extend, extend, e5, e5]
  simp [List.replicate]

/-- **C87**, what fails: a dictionary of 32768 bytes or more is used as if it were its first 32767 bytes; the text of a stream depends on the last ones. -/
theorem C87_dictionary (d : D) (dict : List Byte) (h : 32768 ≤ dict.length) :
    setDictionary d dict = setDictionary d (dict.take 32767) ∧
    plain dict [.codes [.copy 3 1]] = some (List.replicate 3 (dict.getD (dict.length - 1) 0)) ∧
    plain (dict.take 32767) [.codes [.copy 3 1]] = some (List.replicate 3 (dict.getD 32766 0)) := by
  have hl : (dict.take 32767).length = 32767 := by rw [List.length_take]; omega
  refine ⟨?_, plain_last _ (by intro h'; rw [h'] at h; simp at h), ?_⟩
  · unfold setDictionary
    rw [hl, if_pos h, if_neg (show ¬ 32767 ≥ 32768 by omega)]
    have : (fun k => if k < 32768 - 1 then dict.getD k 0 else d.s.window k) = fun k => if k < 32767 then (dict.take 32767).getD k 0 else d.s.window k := by
      funext k
      by_cases hk : k < 32767
      · rw [if_pos (by omega), if_pos hk, List.getD_eq_getElem?_getD, List.getD_eq_getElem?_getD, List.getElem?_take, if_pos hk]
      · rw [if_neg (by omega), if_neg hk]
    dsimp only
    rw [this]
  · rw [plain_last _ (by intro h'; rw [h'] at hl; simp at hl), hl, List.getD_eq_getElem?_getD, List.getElem?_take, if_pos (by omega), ← List.getD_eq_getElem?_getD]

theorem stored_input_aux : ∀ (n : Nat) (toks : List Bool) (s : S) (bytes : List Byte) (wa : Nat), bytes.length ≤ n →
    (∃ k, k ≤ toks.length ∧ k ≤ bytes.length ∧ (stored toks s bytes wa).toks = toks.drop k ∧ (stored toks s bytes wa).bytes = bytes.drop k) := by
  intro n
  induction n with
  | zero =>
    intro toks s bytes wa hn
    rw [stored]
    split
    · exact ⟨0, by omega, by omega, rfl, rfl⟩
    · generalize needOut s wa = q
      obtain ⟨ok, s1, wa1⟩ := q
      cases ok
      · exact ⟨0, by omega, by omega, rfl, rfl⟩
      · dsimp only
        rw [if_neg (by omega)]
        exact ⟨0, by omega, by omega, rfl, rfl⟩
  | succ n ih =>
    intro toks s bytes wa hn
    rw [stored]
    split
    · exact ⟨0, by omega, by omega, rfl, rfl⟩
    · generalize needOut s wa = q
      obtain ⟨ok, s1, wa1⟩ := q
      cases ok
      · exact ⟨0, by omega, by omega, rfl, rfl⟩
      · dsimp only
        have hle : amount bytes.length toks.length wa1 s1.write ≤ toks.length ∧ amount bytes.length toks.length wa1 s1.write ≤ bytes.length ∨
            amount bytes.length toks.length wa1 s1.write = 32768 - s1.write ∧ s1.write + min (min bytes.length toks.length) wa1 > 32768 := by
          unfold amount; dsimp only; (repeat' split) <;> omega
        have hle : amount bytes.length toks.length wa1 s1.write ≤ toks.length ∧ amount bytes.length toks.length wa1 s1.write ≤ bytes.length := by omega
        generalize amount bytes.length toks.length wa1 s1.write = t at *
        by_cases ht : 0 < t ∧ 0 < bytes.length
        · rw [if_pos ht]
          by_cases hd : (bytes.drop t).length = 0
          · rw [if_pos hd]
            exact ⟨t, hle.1, hle.2, rfl, (List.length_eq_zero_iff.mp hd).symm⟩
          · rw [if_neg hd]
            obtain ⟨k, k1, k2, k3, k4⟩ := ih (toks.drop t) (load s1 (bytes.take t)) (bytes.drop t) (wa1 - t) (by simp; omega)
            rw [List.length_drop] at k1 k2
            exact ⟨t + k, by omega, by omega, by rw [k3, List.drop_drop], by rw [k4, List.drop_drop]⟩
        · rw [if_neg ht]
          exact ⟨0, by omega, by omega, rfl, rfl⟩

/-- **C87**: a stored block takes as many bytes as it delivers from the input, and never more than the input buffer holds. -/
theorem C87_stored_input (toks : List Bool) (s : S) (bytes : List Byte) (wa : Nat) :
    ∃ k, k ≤ toks.length ∧ k ≤ bytes.length ∧ (stored toks s bytes wa).toks = toks.drop k ∧ (stored toks s bytes wa).bytes = bytes.drop k :=
  stored_input_aux bytes.length toks s bytes wa (le_refl _)

/-- Two of three bytes have arrived: two are taken. -/
example : (stored [true, true] ⟨fun _ => 0, 0, 0, 10, [], false⟩ [1, 2, 3] 100).bytes = [3] := by
  rw [stored]; simp [needOut, amount, stored]

/-- A stored block for which there is room and input. -/
theorem stored_once {toks : List Bool} {s : S} {bytes : List Byte} {wa : Nat} (h0 : 0 < bytes.length) (h1 : bytes.length = toks.length) (h2 : bytes.length ≤ wa)
    (h3 : s.write + bytes.length ≤ 32768) : stored toks s bytes wa = ⟨load s bytes, [], [], wa - bytes.length, true⟩ := by
  have e1 : needOut s wa = (true, s, wa) := by unfold needOut; rw [if_neg (show ¬ wa = 0 by omega)]
  have e2 : amount bytes.length toks.length wa s.write = bytes.length := by
    unfold amount; dsimp only; (repeat' split) <;> omega
  rw [stored, if_neg (show ¬ toks.length = 0 by omega), e1]
  dsimp only
  rw [e2, if_pos ⟨h0, h0⟩, if_pos (show (bytes.drop bytes.length).length = 0 by simp), List.take_length, h1, List.drop_length]

theorem lost1 (B C : List Byte) (t : List Bool) (f : Bool) (hB : B.length = 32768) (ht : t.length = 32768) :
    ∃ w out, inflate (start (fun _ => 0) [.stored B, .codes [.lit 2, .lit 3], .stored C]) ⟨1000, f :: t⟩ =
      ⟨⟨w, 1000, 32768, 0, out, false⟩, .type, [.codes [.lit 2, .lit 3], .stored C]⟩ ∧ out.length = 1000 := by
  unfold inflate start
  dsimp only
  rw [blocks.eq_4, if_neg (show ¬ B.length = 0 by omega), show room ⟨fun _ => 0, 0, 0, 1000, [], false⟩ = 32768 from rfl,
    stored_once (by omega) (by omega) (by omega) (by dsimp only; omega)]
  have e2 : ∃ w, load ⟨fun _ => 0, 0, 0, 1000, [], false⟩ B = ⟨w, 0, 32768, 1000, [], false⟩ := by
    unfold load; dsimp only; rw [hB]; exact ⟨_, rfl⟩
  obtain ⟨w, e2⟩ := e2
  rw [e2, if_pos rfl]
  have e3 : flush ⟨w, 0, 32768, 1000, [], false⟩ = ⟨w, 1000, 32768, 0, piece w 0 1000, false⟩ := by
    simp [flush, flushEnd, limit, deliver]
  refine ⟨w, piece w 0 1000, ?_, ?_⟩
  · rw [blocks.eq_2, e3]
  · rw [piece, List.length_map, List.length_range]

theorem lost2 (w : Nat → Byte) (out C : List Byte) :
    ∃ w' x, inflate ⟨⟨w, 1000, 32768, 0, out, false⟩, .type, [.codes [.lit 2, .lit 3], .stored C]⟩ ⟨1, [false, true]⟩ =
      ⟨⟨w', 1001, 1, 0, out ++ [x], false⟩, .codes .start [.lit 3], [.stored C]⟩ := ⟨_, _, rfl⟩

theorem lost3 (w : Nat → Byte) (out C : List Byte) (t : List Bool) (hC : C.length = 999) (ht : t.length = 999) :
    ∃ w', inflate ⟨⟨w, 1001, 1, 0, out, false⟩, .codes .start [.lit 3], [.stored C]⟩ ⟨1, true :: true :: true :: t⟩ =
      ⟨⟨w', 1001, 1001, 1, out, false⟩, .done, []⟩ := by
  have e1 : codes (true :: true :: true :: t) ⟨w, 1001, 1, 1, out, false⟩ .start [.lit 3] 999 =
      ⟨⟨Function.update w 1 3, 1001, 2, 1, out, false⟩, .wash, [], true :: t, true⟩ := rfl
  unfold inflate
  dsimp only
  rw [show room ⟨w, 1001, 1, 1, out, false⟩ = 999 from rfl, e1, if_pos rfl, blocks.eq_4, if_neg (show ¬ C.length = 0 by omega),
    stored_once (by omega) (by omega) (by omega) (by dsimp only; omega), if_pos rfl]
  have e3 : ∃ w', load ⟨Function.update w 1 3, 1001, 2, 1, out, false⟩ C = ⟨w', 1001, 1001, 1, out, false⟩ := by
    refine ⟨(load ⟨Function.update w 1 3, 1001, 2, 1, out, false⟩ C).window, ?_⟩
    simp [load, hC]
  obtain ⟨w', e3⟩ := e3
  have e4 : flush ⟨w', 1001, 1001, 1, out, false⟩ = ⟨w', 1001, 1001, 1, out, false⟩ := by simp [flush, flushEnd, limit, deliver]
  rw [e3]
  refine ⟨w', ?_⟩
  rw [blocks.eq_1, e4, if_neg (by simp)]

/-- **C87**, what fails: bytes are lost when a stored block follows a compressed block that ended on the fast path.  A stream with 32768 stored bytes, two literals and 999
stored bytes is given to three calls, with room for 1000, 1 and 1 bytes; the third reports the end of the stream, and 1001 of 33769 bytes are delivered. -/
theorem C87_lost (B C : List Byte) (t t' : List Bool) (hB : B.length = 32768) (hC : C.length = 999) (ht : t.length = 32769) (ht' : t'.length = 999) :
    let stream := [.stored B, .codes [.lit 2, .lit 3], .stored C]
    let d := run (start (fun _ => 0) stream) [⟨1000, t⟩, ⟨1, [false, true]⟩, ⟨1, true :: true :: true :: t'⟩]
    plain [] stream = some (B ++ [2, 3] ++ C) ∧ (B ++ [2, 3] ++ C).length = 33769 ∧ d.isDone = true ∧ d.s.out.length = 1001 := by
  intro stream d
  refine ⟨by simp [plain, stream, streamText, symsText, symText], by simp [hB, hC], ?_⟩
  cases t with
  | nil => simp at ht
  | cons f t =>
    obtain ⟨w1, out, e1, hl⟩ := lost1 B C t f hB (by simpa using ht)
    obtain ⟨w2, x, e2⟩ := lost2 w1 out C
    obtain ⟨w3, e3⟩ := lost3 w2 (out ++ [x]) C t' hC ht'
    have hd : d = ⟨⟨w3, 1001, 1001, 1, out ++ [x], false⟩, .done, []⟩ := by
      show inflate (inflate (inflate (start (fun _ => 0) [.stored B, .codes [.lit 2, .lit 3], .stored C]) ⟨1000, f :: t⟩) ⟨1, [false, true]⟩) ⟨1, true :: true :: true :: t'⟩ = _
      rw [e1, e2, e3]
    rw [hd]
    exact ⟨rfl, by simp [hl]⟩

end Verif.Inflate
