import Verif.Common
import Verif.MD5.Model

namespace Verif.MD5

/-! ## Words -/

theorem assemble_eq (b0 b1 b2 b3 : Byte) :
    assemble b0 b1 b2 b3 = BitVec.ofNat 32 (b0.toNat + 256 * b1.toNat + 65536 * b2.toNat + 16777216 * b3.toNat) := by
  apply BitVec.eq_of_toNat_eq
  have h0 := b0.isLt
  have h1 := b1.isLt
  have h2 := b2.isLt
  have h3 := b3.isLt
  unfold assemble
  simp only [BitVec.toNat_add, BitVec.toNat_mul, BitVec.toNat_setWidth, BitVec.toNat_ofNat]
  omega

theorem byteReverse_eq (bs : List Byte) (i : Nat) : byteReverse bs i = wordAt bs i := assemble_eq _ _ _ _

theorem rotl_eq (x : Word) (n : Nat) (h : n < 32) : rotl x n = x.rotateLeft n := by
  unfold rotl
  rw [BitVec.rotateLeft_def, Nat.mod_eq_of_lt h]

/-! ## The steps -/

/-- The calls in the program are those of the specification. -/
theorem rows_spec : ∀ i, i < 64 → ∃ o, rows[i]? = some o ∧ o.proc = i / 16 + 1 ∧ o.w = (4 - i % 4) % 4 ∧ o.x = (5 - i % 4) % 4 ∧
    o.y = (6 - i % 4) % 4 ∧ o.z = (7 - i % 4) % 4 ∧ o.k = G i ∧ BitVec.ofNat 32 o.const = BitVec.ofNat 32 (T.getD i 0) ∧ o.s = S i ∧ S i < 32 := by
  have h : ∀ i : Fin 64, (match rows[i.val]? with
    | some o => decide (o.proc = i / 16 + 1 ∧ o.w = (4 - i % 4) % 4 ∧ o.x = (5 - i % 4) % 4 ∧
      o.y = (6 - i % 4) % 4 ∧ o.z = (7 - i.val % 4) % 4 ∧ o.k = G i ∧ BitVec.ofNat 32 o.const = BitVec.ofNat 32 (T.getD i 0) ∧ o.s = S i ∧ S i < 32)
    | none => false) = true := by decide +kernel
  intro i hi
  have := h ⟨i, hi⟩
  dsimp only at this
  cases ho : rows[i]? with
  | none => rw [ho] at this; cases this
  | some o =>
    rw [ho] at this
    exact ⟨o, rfl, of_decide_eq_true this⟩

/-- The words in the order of a step. -/
def view (r : Regs) (i : Nat) : St := ⟨r ((4 - i % 4) % 4), r ((5 - i % 4) % 4), r ((6 - i % 4) % 4), r ((7 - i % 4) % 4)⟩

theorem f_eq (i : Nat) (hi : i < 64) (p : Nat) (hp : p = i / 16 + 1) :
    (if p = 1 then f1 else if p = 2 then f2 else if p = 3 then f3 else f4) = F i := by
  funext x y z
  unfold F
  by_cases h1 : i < 16
  · rw [if_pos (by omega), if_pos h1]; rfl
  · rw [if_neg (by omega), if_neg h1]
    by_cases h2 : i < 32
    · rw [if_pos (by omega), if_pos h2]; rfl
    · rw [if_neg (by omega), if_neg h2]
      by_cases h3 : i < 48
      · rw [if_pos (by omega), if_pos h3]; rfl
      · rw [if_neg (by omega), if_neg h3]; rfl

theorem step_view (inp : Nat → Word) (r : Regs) (i : Nat) (hi : i < 64) (o : Row) (ho : rows[i]? = some o) :
    view (call inp r o) (i + 1) = step inp i (view r i) := by
  obtain ⟨o', h, h1, h2, h3, h4, h5, h6, h7, h8, h9⟩ := rows_spec i hi
  rw [ho] at h
  have := Option.some.inj h
  subst this
  unfold call view step
  dsimp only
  rw [f_eq i hi o.proc h1, h2, h3, h4, h5, h6, h7, h8, rotl_eq _ _ h9]
  have hm : i % 4 < 4 := Nat.mod_lt _ (by decide)
  have e1 : (4 - (i + 1) % 4) % 4 = (7 - i % 4) % 4 := by omega
  have e2 : (5 - (i + 1) % 4) % 4 = (4 - i % 4) % 4 := by omega
  have e3 : (6 - (i + 1) % 4) % 4 = (5 - i % 4) % 4 := by omega
  have e4 : (7 - (i + 1) % 4) % 4 = (6 - i % 4) % 4 := by omega
  rw [e1, e2, e3, e4, if_neg (by omega), if_pos rfl, if_neg (by omega), if_neg (by omega)]
  congr 1
  rw [BitVec.add_comm]
  congr 2
  rw [BitVec.add_assoc, BitVec.add_assoc, BitVec.add_assoc]

theorem run_view (inp : Nat → Word) (r : Regs) : ∀ n, n ≤ 64 → view ((rows.take n).foldl (call inp) r) n = steps inp (view r 0) n := by
  intro n
  induction n with
  | zero => intro _; rfl
  | succ n ih =>
    intro hn
    obtain ⟨o, ho, _⟩ := rows_spec n (by omega)
    have ht : rows.take (n + 1) = rows.take n ++ [o] := by
      rw [List.take_add_one, ho]; rfl
    rw [ht, List.foldl_append, List.foldl_cons, List.foldl_nil, step_view _ _ n (by omega) o ho, ih (by omega)]
    rfl

/-- `Transform` is the function of the RFC. -/
theorem transform_eq (buf : St) (inp : Nat → Word) : transform buf inp = compress buf inp := by
  unfold transform compress
  dsimp only
  have h := run_view inp (fun i => if i = 0 then buf.a else if i = 1 then buf.b else if i = 2 then buf.c else buf.d) 64 (le_refl _)
  rw [List.take_of_length_le (by decide)] at h
  have h0 : view (fun i => if i = 0 then buf.a else if i = 1 then buf.b else if i = 2 then buf.c else buf.d) 0 = buf := rfl
  rw [h0] at h
  rw [← h]
  rfl

/-! ## Blocks -/

theorem absorb_succ (n : Nat) (s : St) (m : List Byte) :
    absorb (n + 1) s m = absorb n (compress s (wordAt (m.take 64))) (m.drop 64) := rfl

theorem absorb_add (n k : Nat) : ∀ (s : St) (m : List Byte), absorb (n + k) s m = absorb k (absorb n s m) (m.drop (64 * n)) := by
  induction n with
  | zero => intro s m; rw [Nat.zero_add]; rfl
  | succ n ih =>
    intro s m
    rw [show n + 1 + k = (n + k) + 1 by omega, absorb_succ, ih, absorb_succ, List.drop_drop, show 64 + 64 * n = 64 * (n + 1) by omega]

theorem absorb_prefix (n : Nat) : ∀ (s : St) (m x : List Byte), 64 * n ≤ m.length → absorb n s (m ++ x) = absorb n s m := by
  induction n with
  | zero => intro s m x _; rfl
  | succ n ih =>
    intro s m x h
    rw [absorb_succ, absorb_succ, List.take_append_of_le_length (by omega), List.drop_append_of_le_length (by omega),
      ih _ _ _ (by rw [List.length_drop]; omega)]

theorem blit_length (dst : List Byte) (off : Nat) (src : List Byte) (h : off + src.length ≤ dst.length) :
    (blit dst off src).length = dst.length := by
  unfold blit
  rw [List.length_append, List.length_append, List.length_take, List.length_drop]
  omega

theorem blit_take (dst : List Byte) (off : Nat) (src : List Byte) (h : off ≤ dst.length) :
    (blit dst off src).take (off + src.length) = dst.take off ++ src := by
  unfold blit
  rw [List.take_append_of_le_length (by rw [List.length_append, List.length_take]; omega)]
  exact List.take_of_length_le (by rw [List.length_append, List.length_take]; omega)

/-- The state after a message. -/
structure Inv (c : Ctx) (m : List Byte) : Prop where
  buf : c.buf = absorb (m.length / 64) initial m
  bits : c.bits = BitVec.ofNat 32 (8 * m.length)
  len : c.inn.length = 64
  rest : c.inn.take (m.length % 64) = m.drop (64 * (m.length / 64))

theorem position_eq (n : Nat) : position (BitVec.ofNat 32 (8 * n)) = n % 64 := by
  unfold position
  rw [BitVec.toInt_ofNat']
  have h := Int.bmod_def ((8 * n : Nat) : Int) (2 ^ 32)
  rw [h]
  split <;> omega

theorem new_inv (inn : List Byte) (h : inn.length = 64) : Inv (new inn) [] where
  buf := rfl
  bits := rfl
  len := h
  rest := rfl

/-- Whole blocks. -/
theorem blocks_spec : ∀ (k : Nat) (c : Ctx) (b : List Byte), b.length < k → c.inn.length = 64 →
    (blocks k c b).buf = absorb (b.length / 64) c.buf b ∧ (blocks k c b).bits = c.bits ∧ (blocks k c b).inn.length = 64 ∧
    (blocks k c b).inn.take (b.length % 64) = b.drop (64 * (b.length / 64)) := by
  intro k
  induction k with
  | zero => intro c b h; omega
  | succ k ih =>
    intro c b hk hc
    rw [blocks]
    by_cases h : 64 ≤ b.length
    · rw [if_pos h]
      dsimp only
      have hl : (blit c.inn 0 (b.take 64)).length = 64 := by
        rw [blit_length _ _ _ (by rw [List.length_take]; omega)]; exact hc
      have hb : blit c.inn 0 (b.take 64) = b.take 64 := by
        have h1 := blit_take c.inn 0 (b.take 64) (Nat.zero_le _)
        rw [List.length_take, Nat.min_eq_left h, List.take_zero, List.nil_append] at h1
        exact (List.take_of_length_le (by rw [hl])).symm.trans h1
      obtain ⟨i1, i2, i3, i4⟩ := ih ⟨transform c.buf (byteReverse (blit c.inn 0 (b.take 64))), c.bits, blit c.inn 0 (b.take 64)⟩ (b.drop 64)
        (by rw [List.length_drop]; omega) hl
      refine ⟨?_, i2, i3, ?_⟩
      · rw [i1, List.length_drop, show b.length / 64 = (b.length - 64) / 64 + 1 by omega, absorb_succ]
        dsimp only
        rw [transform_eq, hb, show byteReverse (b.take 64) = wordAt (b.take 64) from funext fun i => byteReverse_eq _ _]
      · rw [List.length_drop, List.drop_drop] at i4
        rw [show b.length % 64 = (b.length - 64) % 64 by omega, i4]
        congr 1
        omega
    · rw [if_neg h]
      have hd : b.length / 64 = 0 := by omega
      have hm : b.length % 64 = b.length := by omega
      rw [hd, hm, Nat.mul_zero, List.drop_zero]
      by_cases h0 : 0 < b.length
      · rw [if_pos h0]
        refine ⟨rfl, rfl, ?_, ?_⟩
        · dsimp only
          rw [blit_length _ _ _ (by omega)]; exact hc
        · have := blit_take c.inn 0 b (Nat.zero_le _)
          rw [Nat.zero_add, List.take_zero, List.nil_append] at this
          exact this
      · rw [if_neg h0]
        have : b = [] := List.length_eq_zero_iff.1 (by omega)
        subst this
        exact ⟨rfl, rfl, hc, rfl⟩

theorem bits_add (n k : Nat) : BitVec.ofNat 32 (8 * n) + BitVec.ofNat 32 k * 8#32 = BitVec.ofNat 32 (8 * (n + k)) := by
  apply BitVec.eq_of_toNat_eq
  simp only [BitVec.toNat_add, BitVec.toNat_mul, BitVec.toNat_ofNat]
  omega

theorem writeBytes_inv {c : Ctx} {m : List Byte} (h : Inv c m) (b : List Byte) : Inv (writeBytes c b) (m ++ b) := by
  have hpos : position c.bits = m.length % 64 := by rw [h.bits, position_eq]
  have hml : m.length % 64 < 64 := Nat.mod_lt _ (by decide)
  have hbits : c.bits + BitVec.ofNat 32 b.length * 8#32 = BitVec.ofNat 32 (8 * (m ++ b).length) := by
    rw [h.bits, bits_add, List.length_append]
  have hdl : (m.drop (64 * (m.length / 64))).length = m.length % 64 := by rw [List.length_drop]; omega
  unfold writeBytes
  dsimp only
  rw [hpos, hbits]
  by_cases h0 : 0 < m.length % 64
  · rw [if_pos h0]
    have e64 : 64 - (64 - m.length % 64) = m.length % 64 := by omega
    rw [e64]
    by_cases hs : b.length < 64 - m.length % 64
    · rw [if_pos hs]
      have hq : (m ++ b).length / 64 = m.length / 64 := by rw [List.length_append]; omega
      have hr : (m ++ b).length % 64 = m.length % 64 + b.length := by rw [List.length_append]; omega
      refine ⟨?_, rfl, ?_, ?_⟩
      · show c.buf = _
        rw [hq, absorb_prefix _ _ _ _ (by omega)]; exact h.buf
      · show (blit c.inn _ b).length = 64
        rw [blit_length _ _ _ (by rw [h.len]; omega)]; exact h.len
      · show (blit c.inn _ b).take _ = _
        rw [hr, hq, blit_take _ _ _ (by rw [h.len]; omega), h.rest, List.drop_append_of_le_length (by omega)]
    · rw [if_neg hs]
      have htl : (b.take (64 - m.length % 64)).length = 64 - m.length % 64 := by rw [List.length_take]; omega
      have hbl : (blit c.inn (m.length % 64) (b.take (64 - m.length % 64))).length = 64 := by
        rw [blit_length _ _ _ (by rw [htl, h.len]; omega)]; exact h.len
      have hb : blit c.inn (m.length % 64) (b.take (64 - m.length % 64)) = m.drop (64 * (m.length / 64)) ++ b.take (64 - m.length % 64) := by
        have h1 := blit_take c.inn (m.length % 64) (b.take (64 - m.length % 64)) (by rw [h.len]; omega)
        rw [h.rest, List.take_of_length_le (by rw [hbl, htl]; omega)] at h1
        exact h1
      rw [hb] at hbl
      rw [hb]
      obtain ⟨i1, i2, i3, i4⟩ := blocks_spec (b.length + 1)
        ⟨transform c.buf (byteReverse (m.drop (64 * (m.length / 64)) ++ b.take (64 - m.length % 64))), BitVec.ofNat 32 (8 * (m ++ b).length),
          m.drop (64 * (m.length / 64)) ++ b.take (64 - m.length % 64)⟩ (b.drop (64 - m.length % 64)) (by rw [List.length_drop]; omega) hbl
      rw [List.length_drop] at i1 i4
      have hq : (m ++ b).length / 64 = m.length / 64 + ((b.length - (64 - m.length % 64)) / 64 + 1) := by rw [List.length_append]; omega
      have hr : (m ++ b).length % 64 = (b.length - (64 - m.length % 64)) % 64 := by rw [List.length_append]; omega
      have hd : (m ++ b).drop (64 * (m.length / 64)) = m.drop (64 * (m.length / 64)) ++ b := List.drop_append_of_le_length (by omega)
      have htake : ((m ++ b).drop (64 * (m.length / 64))).take 64 = m.drop (64 * (m.length / 64)) ++ b.take (64 - m.length % 64) := by
        rw [hd, List.take_append, hdl, List.take_of_length_le (by omega)]
      have hdrop : ((m ++ b).drop (64 * (m.length / 64))).drop 64 = b.drop (64 - m.length % 64) := by
        rw [hd, List.drop_append, hdl, List.drop_of_length_le (by omega), List.nil_append]
      refine ⟨?_, i2, i3, ?_⟩
      · rw [i1, hq, absorb_add, absorb_succ, htake, hdrop, absorb_prefix _ _ _ _ (by omega), ← h.buf]
        dsimp only
        rw [transform_eq, show byteReverse (m.drop (64 * (m.length / 64)) ++ b.take (64 - m.length % 64)) =
          wordAt (m.drop (64 * (m.length / 64)) ++ b.take (64 - m.length % 64)) from funext fun i => byteReverse_eq _ _]
      · rw [hr, i4, hq, show 64 * (m.length / 64 + ((b.length - (64 - m.length % 64)) / 64 + 1)) =
          64 * (m.length / 64) + (64 + 64 * ((b.length - (64 - m.length % 64)) / 64)) by omega, ← List.drop_drop, ← List.drop_drop, hdrop]
  · rw [if_neg h0]
    have hz : m.length % 64 = 0 := by omega
    obtain ⟨i1, i2, i3, i4⟩ := blocks_spec (b.length + 1) ⟨c.buf, BitVec.ofNat 32 (8 * (m ++ b).length), c.inn⟩ b (by omega) h.len
    have hq : (m ++ b).length / 64 = m.length / 64 + b.length / 64 := by rw [List.length_append]; omega
    have hr : (m ++ b).length % 64 = b.length % 64 := by rw [List.length_append]; omega
    have hd : (m ++ b).drop (64 * (m.length / 64)) = b := by
      rw [List.drop_append_of_le_length (by omega), List.drop_of_length_le (by omega), List.nil_append]
    refine ⟨?_, i2, i3, ?_⟩
    · rw [i1, hq, absorb_add, hd, absorb_prefix _ _ _ _ (by omega), ← h.buf]
    · rw [hr, i4, hq, Nat.mul_add, ← List.drop_drop, hd]

theorem set_blit (l : List Byte) (i : Nat) (h : i < l.length) (x : Byte) : l.set i x = blit l i [x] := by
  unfold blit
  rw [List.set_eq_take_append_cons_drop, if_pos h]
  simp

/-- `Write` is `WriteBytes` with one byte. -/
theorem write_eq {c : Ctx} {m : List Byte} (h : Inv c m) (ch : Byte) : write c ch = writeBytes c [ch] := by
  have hpos : position c.bits = m.length % 64 := by rw [h.bits, position_eq]
  have hml : m.length % 64 < 64 := Nat.mod_lt _ (by decide)
  unfold write writeBytes
  dsimp only
  rw [hpos]
  have e8 : c.bits + BitVec.ofNat 32 [ch].length * 8#32 = c.bits + 8#32 := rfl
  rw [e8, show [ch].length = 1 from rfl]
  by_cases h0 : 0 < m.length % 64
  · rw [if_pos h0, if_pos h0, set_blit _ _ (by rw [h.len]; omega)]
    by_cases h1 : 1 < 64 - m.length % 64
    · rw [if_pos h1, if_pos h1]
    · rw [if_neg h1, if_neg h1]
      have : 64 - m.length % 64 = 1 := by omega
      rw [this]
      rfl
  · rw [if_neg h0, if_neg h0, set_blit _ _ (by rw [h.len]; omega)]
    rfl

theorem exec_inv {c : Ctx} {m : List Byte} (h : Inv c m) (o : Op) : Inv (o.exec c) (m ++ o.bytes) := by
  cases o with
  | write ch =>
    show Inv (write c ch) (m ++ [ch])
    rw [write_eq h]; exact writeBytes_inv h [ch]
  | writeBytes b => exact writeBytes_inv h b

theorem run_inv (ops : List Op) : ∀ {c : Ctx} {m : List Byte}, Inv c m → Inv (ops.foldl Op.exec c) (m ++ ops.flatMap Op.bytes) := by
  induction ops with
  | nil => intro c m h; rw [List.flatMap_nil, List.append_nil]; exact h
  | cons o r ih =>
    intro c m h
    rw [List.flatMap_cons, ← List.append_assoc, List.foldl_cons]
    exact ih (exec_inv h o)

/-! ## The end -/

theorem mem_eq (w : Word) : mem w = littleEndian 4 w.toNat := by
  unfold mem littleEndian
  have : (List.range 4).map (fun i => BitVec.ofNat 8 (w.toNat / 256 ^ i)) =
    [BitVec.ofNat 8 (w.toNat / 256 ^ 0), BitVec.ofNat 8 (w.toNat / 256 ^ 1), BitVec.ofNat 8 (w.toNat / 256 ^ 2), BitVec.ofNat 8 (w.toNat / 256 ^ 3)] := rfl
  rw [this]
  congr 1
  · apply BitVec.eq_of_toNat_eq
    simp [Nat.shiftRight_eq_div_pow]
  congr 1
  · apply BitVec.eq_of_toNat_eq
    simp [Nat.shiftRight_eq_div_pow]
  congr 1
  · apply BitVec.eq_of_toNat_eq
    simp [Nat.shiftRight_eq_div_pow]
  congr 1
  · apply BitVec.eq_of_toNat_eq
    simp [Nat.shiftRight_eq_div_pow]

theorem assemble_mem (w : Word) : assemble (w.extractLsb' 0 8) (w.extractLsb' 8 8) (w.extractLsb' 16 8) (w.extractLsb' 24 8) = w := by
  rw [assemble_eq]
  apply BitVec.eq_of_toNat_eq
  have h := w.isLt
  simp only [BitVec.extractLsb'_toNat, BitVec.toNat_ofNat, Nat.shiftRight_eq_div_pow]
  omega

theorem output_eq (s : St) :
    (let bytes := mem s.a ++ mem s.b ++ mem s.c ++ mem s.d
     mem (byteReverse bytes 0) ++ mem (byteReverse bytes 1) ++ mem (byteReverse bytes 2) ++ mem (byteReverse bytes 3)) = output s := by
  have h0 : byteReverse (mem s.a ++ mem s.b ++ mem s.c ++ mem s.d) 0 = s.a := assemble_mem s.a
  have h1 : byteReverse (mem s.a ++ mem s.b ++ mem s.c ++ mem s.d) 1 = s.b := assemble_mem s.b
  have h2 : byteReverse (mem s.a ++ mem s.b ++ mem s.c ++ mem s.d) 2 = s.c := assemble_mem s.c
  have h3 : byteReverse (mem s.a ++ mem s.b ++ mem s.c ++ mem s.d) 3 = s.d := assemble_mem s.d
  dsimp only
  rw [h0, h1, h2, h3, mem_eq, mem_eq, mem_eq, mem_eq]
  rfl

theorem zeros_take (l : List Byte) (i n : Nat) (h : i + n ≤ l.length) : (zeros l i n).take (i + n) = l.take i ++ List.replicate n 0#8 := by
  have := blit_take l i (List.replicate n 0#8) (by omega)
  rw [List.length_replicate] at this
  exact this

theorem zeros_length (l : List Byte) (i n : Nat) (h : i + n ≤ l.length) : (zeros l i n).length = l.length :=
  blit_length l i _ (by rw [List.length_replicate]; exact h)

theorem wordAt_prefix (a b : List Byte) (i : Nat) (h : a.take (4 * i + 4) = b.take (4 * i + 4)) : wordAt a i = wordAt b i := by
  have g : ∀ j, j < 4 → a.getD (4 * i + j) 0 = b.getD (4 * i + j) 0 := by
    intro j hj
    have h1 : (a.take (4 * i + 4))[4 * i + j]? = a[4 * i + j]? := List.getElem?_take_of_lt (by omega)
    have h2 : (b.take (4 * i + 4))[4 * i + j]? = b[4 * i + j]? := List.getElem?_take_of_lt (by omega)
    rw [List.getD_eq_getElem?_getD, List.getD_eq_getElem?_getD, ← h1, ← h2, h]
  unfold wordAt
  rw [show 4 * i = 4 * i + 0 by rfl, g 0 (by omega), g 1 (by omega), g 2 (by omega), g 3 (by omega)]

/-- The words at the end of the last block. -/
theorem word_last (l : List Byte) (h : l.length = 56) (bits : Nat) :
    wordAt (l ++ littleEndian 8 bits) 14 = BitVec.ofNat 32 bits ∧ wordAt (l ++ littleEndian 8 bits) 15 = BitVec.ofNat 32 (bits / 2 ^ 32) := by
  have g : ∀ j, j < 8 → (l ++ littleEndian 8 bits).getD (56 + j) 0 = BitVec.ofNat 8 (bits / 256 ^ j) := by
    intro j hj
    rw [List.getD_eq_getElem?_getD, List.getElem?_append_right (by omega), h, show 56 + j - 56 = j by omega]
    unfold littleEndian
    rw [List.getElem?_map, List.getElem?_range hj]
    rfl
  constructor
  · unfold wordAt
    rw [show 4 * 14 = 56 + 0 by rfl, show 56 + 0 + 1 = 56 + 1 by rfl, show 56 + 0 + 2 = 56 + 2 by rfl, show 56 + 0 + 3 = 56 + 3 by rfl,
      g 0 (by omega), g 1 (by omega), g 2 (by omega), g 3 (by omega)]
    apply BitVec.eq_of_toNat_eq
    simp only [BitVec.toNat_ofNat]
    omega
  · unfold wordAt
    rw [show 4 * 15 = 56 + 4 by rfl, show 56 + 4 + 1 = 56 + 5 by rfl, show 56 + 4 + 2 = 56 + 6 by rfl, show 56 + 4 + 3 = 56 + 7 by rfl,
      g 4 (by omega), g 5 (by omega), g 6 (by omega), g 7 (by omega)]
    apply BitVec.eq_of_toNat_eq
    simp only [BitVec.toNat_ofNat]
    omega

end Verif.MD5
