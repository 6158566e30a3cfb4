import Verif.Common
import Verif.MD5.Lemmas

/-!
# C76: message digests are those of RFC 1321

`C76_md5_partial`: for all messages of less than 2^29 bytes, however they are passed.  `C76_chunks`: how they are passed does not matter, for
all messages.  `C76_hex`: the digest as a string.  Deviations: `C76_length`, `C76_overflow`.
-/
namespace Verif.MD5

theorem G_lt (i : Nat) : G i < 16 := by
  unfold G
  split
  · assumption
  · split
    · exact Nat.mod_lt _ (by decide)
    · split
      · exact Nat.mod_lt _ (by decide)
      · exact Nat.mod_lt _ (by decide)

theorem steps_congr (s : St) (x y : Nat → Word) (h : ∀ i, i < 16 → x i = y i) : ∀ n, steps x s n = steps y s n := by
  intro n
  induction n with
  | zero => rfl
  | succ n ih =>
    show step x n (steps x s n) = step y n (steps y s n)
    rw [ih]
    unfold step
    rw [h _ (G_lt n)]

theorem compress_congr (s : St) (x y : Nat → Word) (h : ∀ i, i < 16 → x i = y i) : compress s x = compress s y := by
  unfold compress
  rw [steps_congr s x y h]

theorem le_length (n v : Nat) : (littleEndian n v).length = n := by
  unfold littleEndian; rw [List.length_map, List.length_range]

/-- The last block: 56 bytes and the length. -/
theorem last_block (s : St) (inn l : List Byte) (hl : l.length = 56) (ht : inn.take 56 = l) (n : Nat) :
    transform s (fun i => if i = 14 then BitVec.ofNat 32 n else if i = 15 then 0 else byteReverse inn i) =
      compress s (wordAt (l ++ littleEndian 8 (n % 2 ^ 32))) := by
  rw [transform_eq]
  refine compress_congr s _ _ fun i hi => ?_
  obtain ⟨w1, w2⟩ := word_last l hl (n % 2 ^ 32)
  by_cases h14 : i = 14
  · rw [if_pos h14, h14, w1]
    apply BitVec.eq_of_toNat_eq
    simp only [BitVec.toNat_ofNat]
    omega
  · rw [if_neg h14]
    by_cases h15 : i = 15
    · rw [if_pos h15, h15, w2]
      rw [Nat.div_eq_of_lt (Nat.mod_lt _ (by decide))]; rfl
    · rw [if_neg h15, byteReverse_eq]
      refine wordAt_prefix _ _ i ?_
      rw [List.take_append_of_le_length (by omega), ← ht, List.take_take, Nat.min_eq_left (by omega)]

/-- `Close` in terms of the specification. -/
theorem close_eq {c : Ctx} {m : List Byte} (h : Inv c m) : close c = md5With (8 * m.length % 2 ^ 32) m := by
  have hpos : position c.bits = m.length % 64 := by rw [h.bits, position_eq]
  have hml : m.length % 64 < 64 := Nat.mod_lt _ (by decide)
  have hdl : (m.drop (64 * (m.length / 64))).length = m.length % 64 := by rw [List.length_drop]; omega
  have hset : (c.inn.set (m.length % 64) 128#8).take (m.length % 64 + 1) = m.drop (64 * (m.length / 64)) ++ [128#8] := by
    rw [set_blit _ _ (by rw [h.len]; exact hml)]
    have := blit_take c.inn (m.length % 64) [128#8] (by rw [h.len]; omega)
    rw [h.rest] at this
    exact this
  have hsl : (c.inn.set (m.length % 64) 128#8).length = 64 := by rw [List.length_set]; exact h.len
  have hend : ∀ x : List Byte, (m ++ x).drop (64 * (m.length / 64)) = m.drop (64 * (m.length / 64)) ++ x := fun x =>
    List.drop_append_of_le_length (by omega)
  unfold close md5With
  dsimp only
  rw [hpos, output_eq]
  refine congrArg output ?_
  by_cases h56 : 64 - 1 - m.length % 64 < 8
  · rw [if_pos h56]
    dsimp only
    have hz := zeros_take (c.inn.set (m.length % 64) 128#8) (m.length % 64 + 1) (64 - 1 - m.length % 64) (by rw [hsl]; omega)
    have hzl := zeros_length (c.inn.set (m.length % 64) 128#8) (m.length % 64 + 1) (64 - 1 - m.length % 64) (by rw [hsl]; omega)
    rw [hset, List.take_of_length_le (by rw [hzl, hsl]; omega)] at hz
    rw [hsl] at hzl
    have hz2 := zeros_take (zeros (c.inn.set (m.length % 64) 128#8) (m.length % 64 + 1) (64 - 1 - m.length % 64)) 0 56 (by rw [hzl]; omega)
    rw [Nat.zero_add, List.take_zero, List.nil_append] at hz2
    rw [h.bits, last_block _ _ _ (by rw [List.length_replicate]) hz2, hz, transform_eq,
      show byteReverse (m.drop (64 * (m.length / 64)) ++ [128#8] ++ List.replicate (64 - 1 - m.length % 64) 0#8) =
        wordAt (m.drop (64 * (m.length / 64)) ++ [128#8] ++ List.replicate (64 - 1 - m.length % 64) 0#8) from funext fun i => byteReverse_eq _ _,
      h.buf]
    have hpad : padding m.length (8 * m.length % 2 ^ 32) = [128#8] ++ List.replicate (64 - 1 - m.length % 64) 0#8 ++
        (List.replicate 56 0#8 ++ littleEndian 8 (8 * m.length % 2 ^ 32)) := by
      unfold padding
      rw [show (119 - m.length % 64) % 64 = (64 - 1 - m.length % 64) + 56 by omega, List.replicate_add]
      simp only [List.append_assoc, List.singleton_append, List.cons_append, List.nil_append]
    have hlen : (m ++ padding m.length (8 * m.length % 2 ^ 32)).length / 64 = m.length / 64 + 2 := by
      rw [hpad]
      simp only [List.length_append, List.length_replicate, List.length_singleton, le_length]
      omega
    rw [hlen, absorb_add, absorb_prefix _ _ _ _ (by omega), hend, absorb_succ, absorb_succ, hpad]
    have hcat : m.drop (64 * (m.length / 64)) ++ ([128#8] ++ List.replicate (64 - 1 - m.length % 64) 0#8 ++
        (List.replicate 56 0#8 ++ littleEndian 8 (8 * m.length % 2 ^ 32))) =
        (m.drop (64 * (m.length / 64)) ++ [128#8] ++ List.replicate (64 - 1 - m.length % 64) 0#8) ++
        (List.replicate 56 0#8 ++ littleEndian 8 (8 * m.length % 2 ^ 32)) := by
      simp only [List.append_assoc]
    have hbl : (m.drop (64 * (m.length / 64)) ++ [128#8] ++ List.replicate (64 - 1 - m.length % 64) 0#8).length = 64 := by
      simp only [List.length_append, List.length_replicate, List.length_singleton, hdl]
      omega
    rw [hcat, List.take_left' hbl, List.drop_left' hbl,
      List.take_of_length_le (by rw [List.length_append, List.length_replicate, le_length])]
    rfl
  · rw [if_neg h56]
    dsimp only
    have hz := zeros_take (c.inn.set (m.length % 64) 128#8) (m.length % 64 + 1) (64 - 1 - m.length % 64 - 8) (by rw [hsl]; omega)
    rw [hset, show m.length % 64 + 1 + (64 - 1 - m.length % 64 - 8) = 56 by omega] at hz
    have hl56 : (m.drop (64 * (m.length / 64)) ++ [128#8] ++ List.replicate (64 - 1 - m.length % 64 - 8) 0#8).length = 56 := by
      simp only [List.length_append, List.length_replicate, List.length_singleton, hdl]
      omega
    rw [h.bits, last_block _ _ _ hl56 hz, h.buf]
    have hpad : padding m.length (8 * m.length % 2 ^ 32) = [128#8] ++ List.replicate (64 - 1 - m.length % 64 - 8) 0#8 ++
        littleEndian 8 (8 * m.length % 2 ^ 32) := by
      unfold padding
      rw [show (119 - m.length % 64) % 64 = 64 - 1 - m.length % 64 - 8 by omega]
      simp only [List.append_assoc, List.singleton_append, List.cons_append, List.nil_append]
    have hlen : (m ++ padding m.length (8 * m.length % 2 ^ 32)).length / 64 = m.length / 64 + 1 := by
      rw [hpad]
      simp only [List.length_append, List.length_replicate, List.length_singleton, le_length]
      omega
    rw [hlen, absorb_add, absorb_prefix _ _ _ _ (by omega), hend, absorb_succ, hpad]
    have hcat : m.drop (64 * (m.length / 64)) ++ ([128#8] ++ List.replicate (64 - 1 - m.length % 64 - 8) 0#8 ++
        littleEndian 8 (8 * m.length % 2 ^ 32)) =
        (m.drop (64 * (m.length / 64)) ++ [128#8] ++ List.replicate (64 - 1 - m.length % 64 - 8) 0#8) ++
        littleEndian 8 (8 * m.length % 2 ^ 32) := by
      simp only [List.append_assoc]
    rw [hcat, List.take_of_length_le (by rw [List.length_append, hl56, le_length])]
    rfl

/-- **C76, chunks.**  The digest depends only on the bytes written, for all messages: not on how they are divided into calls of `Write` and
`WriteBytes`, and not on what the array of the context held before. -/
theorem C76_chunks (inn inn' : List Byte) (h : inn.length = 64) (h' : inn'.length = 64) (ops ops' : List Op)
    (he : ops.flatMap Op.bytes = ops'.flatMap Op.bytes) : digest inn ops = digest inn' ops' := by
  unfold digest
  have h1 := close_eq (run_inv ops (new_inv inn h))
  have h2 := close_eq (run_inv ops' (new_inv inn' h'))
  rw [h1, h2, he]

/-- **C76, MD5.**  For every message of less than 2^29 bytes, written by any sequence of calls of `Write` and `WriteBytes`, the digest is the
one of RFC 1321. -/
theorem C76_md5_partial (inn : List Byte) (h : inn.length = 64) (ops : List Op) (hl : (ops.flatMap Op.bytes).length < 2 ^ 29) :
    digest inn ops = md5 (ops.flatMap Op.bytes) := by
  have h1 := close_eq (run_inv ops (new_inv inn h))
  rw [List.nil_append] at h1
  rw [Nat.mod_eq_of_lt (by omega)] at h1
  exact h1

/-- "abc", in two calls: the digest in the RFC (A.5) is 900150983cd24fb0d6963f7d28e17f72. -/
example : digest (List.replicate 64 7#8) [.write 97, .writeBytes [98, 99]] =
    [0x90, 0x01, 0x50, 0x98, 0x3c, 0xd2, 0x4f, 0xb0, 0xd6, 0x96, 0x3f, 0x7d, 0x28, 0xe1, 0x7f, 0x72] := by decide +kernel

/-- The specification gives it too. -/
example : md5 [97, 98, 99] = [0x90, 0x01, 0x50, 0x98, 0x3c, 0xd2, 0x4f, 0xb0, 0xd6, 0x96, 0x3f, 0x7d, 0x28, 0xe1, 0x7f, 0x72] := by
  decide +kernel

/-- The empty message: d41d8cd98f00b204e9800998ecf8427e. -/
example : md5 [] = [0xd4, 0x1d, 0x8c, 0xd9, 0x8f, 0x00, 0xb2, 0x04, 0xe9, 0x80, 0x09, 0x98, 0xec, 0xf8, 0x42, 0x7e] := by
  decide +kernel

/-- **C76, hexadecimal.**  `ToString` writes two hexadecimal digits for each byte of a digest, with lower case letters, and a 0X: from the
characters the byte can be read back. -/
theorem C76_hex (d : List Byte) (h : d.length = 16) :
    (toStr d).length = 33 ∧ (toStr d)[32]? = some 0 ∧
    ∀ (i : Nat) (b : Byte), d[i]? = some b → ∃ (x y : Nat), (toStr d)[2 * i]? = some x ∧ (toStr d)[2 * i + 1]? = some y ∧
      ("0123456789abcdef".toList.map Char.toNat)[b.toNat / 16]? = some x ∧ ("0123456789abcdef".toList.map Char.toNat)[b.toNat % 16]? = some y ∧
      b.toNat = 16 * (b.toNat / 16) + b.toNat % 16 := by
  have hd : ∀ v, v < 16 → ("0123456789abcdef".toList.map Char.toNat)[v]? = some (hexDigit v) := by decide
  refine ⟨rfl, rfl, fun i b hb => ?_⟩
  have hi : i < 16 := by
    rw [← h]
    by_contra hc
    rw [List.getElem?_eq_none (by omega)] at hb; cases hb
  have hg : d.getD i 0 = b := by rw [List.getD_eq_getElem?_getD, hb]; rfl
  have hlt := b.isLt
  have e1 : ∀ i, i < 16 → (toStr d)[2 * i]? = some (hexDigit ((d.getD i 0).toNat / 16)) := by
    intro i hi; interval_cases i <;> rfl
  have e2 : ∀ i, i < 16 → (toStr d)[2 * i + 1]? = some (hexDigit ((d.getD i 0).toNat % 16)) := by
    intro i hi; interval_cases i <;> rfl
  refine ⟨hexDigit (b.toNat / 16), hexDigit (b.toNat % 16), ?_, ?_, hd _ (by omega), hd _ (by omega), by omega⟩
  · rw [e1 i hi, hg]
  · rw [e2 i hi, hg]

/-! ## Deviations -/

/-- **C76 deviation.**  For messages of 2^29 bytes and more only the low word of the length is used: what is hashed ends with other bytes than
RFC 1321 requires. -/
theorem C76_length (inn : List Byte) (h : inn.length = 64) (ops : List Op) (hl : 2 ^ 29 ≤ (ops.flatMap Op.bytes).length)
    (hu : (ops.flatMap Op.bytes).length < 2 ^ 61) :
    digest inn ops = md5With (8 * (ops.flatMap Op.bytes).length % 2 ^ 32) (ops.flatMap Op.bytes) ∧
    padding (ops.flatMap Op.bytes).length (8 * (ops.flatMap Op.bytes).length % 2 ^ 32) ≠
      padding (ops.flatMap Op.bytes).length (8 * (ops.flatMap Op.bytes).length) := by
  have h1 := close_eq (run_inv ops (new_inv inn h))
  rw [List.nil_append] at h1
  refine ⟨h1, fun he => ?_⟩
  generalize (ops.flatMap Op.bytes).length = n at *
  unfold padding at he
  have he := List.append_cancel_left (List.cons.inj he).2
  -- the bytes 4 to 7 are the high word
  have g : ∀ j, j < 8 → BitVec.ofNat 8 (8 * n % 2 ^ 32 / 256 ^ j) = BitVec.ofNat 8 (8 * n / 256 ^ j) := by
    intro j hj
    have e := congrArg (fun l => l[j]?) he
    unfold littleEndian at e
    rw [List.getElem?_map, List.getElem?_map, List.getElem?_range hj] at e
    exact Option.some.inj e
  have t4 := congrArg BitVec.toNat (g 4 (by omega))
  have t5 := congrArg BitVec.toNat (g 5 (by omega))
  have t6 := congrArg BitVec.toNat (g 6 (by omega))
  have t7 := congrArg BitVec.toNat (g 7 (by omega))
  simp only [BitVec.toNat_ofNat] at t4 t5 t6 t7
  omega

/-- **C76 deviation.**  The program relies on arithmetic modulo 2^32: already the values that `ByteReverse` computes for bytes of 80X and more
are beyond LONGINT, what the generated C leaves undefined. -/
theorem C76_overflow (b0 b1 b2 b3 : Byte) (h : 128 ≤ b3.toNat) :
    ((2 : Int) ^ 31 - 1 < 256 * (256 * (256 * b3.toNat + b2.toNat) + b1.toNat) + b0.toNat) := by
  have := b0.isLt
  omega

end Verif.MD5
