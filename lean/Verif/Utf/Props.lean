import Verif.Common
import Verif.Utf.Spec
import Verif.Utf.Model

/-!
# C56: Unicode and UTF-8
-/
namespace Verif.Utf
open Verif.Sums (Out chk)

theorem bind_ok {α β : Type} (a : α) (f : α → Out β) : (Out.ok a).bind f = f a := rfl

theorem chk_nat {n : Nat} (h : n < 2147483648) : chk (n : Int) = .ok (n : Int) := if_pos (by omega)

/-! ### Bits -/

theorem and_low (u m k : Nat) (hm : m = 2 ^ k - 1) (hk : k ≤ 16) (hu : u < 2147483648) : and (u : Int) (m : Int) = ((u % 2 ^ k : Nat) : Int) := by
  have hp : 2 ^ k ≤ 2 ^ 16 := Nat.pow_le_pow_right (by omega) hk
  have hp0 : 0 < 2 ^ k := Nat.pow_pos (by omega)
  unfold and
  have h1 : (BitVec.ofInt 32 (u : Int)).toNat = u := by rw [BitVec.toNat_ofInt]; omega
  have h2 : (BitVec.ofInt 32 (m : Int)).toNat = m := by rw [BitVec.toNat_ofInt]; omega
  have h3 : (BitVec.ofInt 32 (u : Int) &&& BitVec.ofInt 32 (m : Int)).toNat = u % 2 ^ k := by
    rw [BitVec.toNat_and, h1, h2, hm, Nat.and_two_pow_sub_one_eq_mod]
  have h4 : u % 2 ^ k < 2 ^ k := Nat.mod_lt _ hp0
  rw [BitVec.toInt_eq_toNat_cond, h3, if_pos (by omega)]

theorem and_3F (u : Nat) (hu : u < 2147483648) : and (u : Int) 0x3F = ((u % 64 : Nat) : Int) := and_low u 63 6 rfl (by omega) hu

theorem short_small (u : Nat) (hu : u < 32768) : short (u : Int) = (u : Int) := by
  unfold short
  rw [BitVec.toInt_eq_toNat_cond]
  have h1 : (BitVec.ofInt 16 (u : Int)).toNat = u := by rw [BitVec.toNat_ofInt]; omega
  rw [h1, if_pos (by omega)]

theorem cont_byte (u : Nat) (hu : u < 2147483648) : chr (0x80 + short (and (u : Int) 0x3F)) = 0x80 + u % 64 := by
  rw [and_3F u hu, short_small _ (by omega)]; unfold chr; omega

theorem first_byte (m k u : Nat) (hm : m % 256 = k) (hu : k + u < 256) : chr ((m : Int) + short (u : Int)) = k + u := by
  rw [short_small u (by omega)]; unfold chr; omega

/-! ### Writing -/

theorem put_eq : ∀ (bs : List Nat) (buf : List Nat) (pos : Nat), pos + bs.length ≤ buf.length →
    put buf pos bs = buf.take pos ++ bs ++ buf.drop (pos + bs.length) := by
  intro bs
  induction bs with
  | nil => intro buf pos _; simp [put]
  | cons b bs ih =>
    intro buf pos h
    simp only [List.length_cons] at h
    simp only [put]
    rw [ih _ _ (by simp; omega)]
    have h1 : (buf.set pos b).take (pos + 1) = buf.take pos ++ [b] := by
      rw [List.take_add_one, List.take_set_of_le (by omega)]
      simp [show pos < buf.length by omega]
    have h2 : (buf.set pos b).drop (pos + 1 + bs.length) = buf.drop (pos + (b :: bs).length) := by
      rw [List.drop_set_of_lt (by omega)]; congr 1; simp; omega
    rw [h1, h2]; simp

theorem put_zero (bs buf : List Nat) (pos : Nat) (h : pos + bs.length < buf.length) :
    (put buf pos bs).set (pos + bs.length) 0 = written buf pos bs := by
  rw [put_eq bs buf pos (by omega)]
  have hl : (buf.take pos ++ bs).length = pos + bs.length := by simp; omega
  rw [List.set_append_right _ _ (by rw [hl])]
  rw [hl, Nat.sub_self, List.drop_eq_getElem_cons h, List.set_cons_zero]
  rfl

theorem encLoop_step (f : Nat) (u max : Nat) (mask : Int) (buf : List Nat) (hu : u < 2147483648) (h : max < u) (hb : buf.length < 6) :
    encLoop (f + 1) (u : Int) mask (max : Int) buf = encLoop f ((u / 64 : Nat) : Int) (mask / 2) ((max / 2 : Nat) : Int) (buf ++ [0x80 + u % 64]) := by
  simp only [encLoop]
  rw [if_pos (by omega), if_pos hb, cont_byte u hu]
  congr 1

theorem encLoop_end (f : Nat) (u max : Nat) (mask : Int) (buf : List Nat) (h : u ≤ max) :
    encLoop (f + 1) (u : Int) mask (max : Int) buf = .ok ((u : Int), mask, buf) := by
  simp only [encLoop]
  rw [if_neg (by omega)]

/-- What the loop and the byte after it come to. -/
theorem enc_bytes (u : Nat) (h0 : 0x80 ≤ u) (hu : u < 2147483648) : ∃ (m : Int) (v : Int) (bs : List Nat),
    encLoop 8 (u : Int) 0x7F80 0x3F [] = .ok (v, m, bs) ∧ bs.length < 6 ∧ (bs ++ [chr (m + short v)]).reverse = utf8 u := by
  have s1 := encLoop_step 7 u 0x3F 0x7F80 [] hu (by omega) (by simp)
  have d1 : ((0x7F80 : Int) / 2) = 0x3FC0 := rfl
  have d2 : ((0x3FC0 : Int) / 2) = 0x1FE0 := rfl
  have d3 : ((0x1FE0 : Int) / 2) = 0x0FF0 := rfl
  have d4 : ((0x0FF0 : Int) / 2) = 0x07F8 := rfl
  have d5 : ((0x07F8 : Int) / 2) = 0x03FC := rfl
  have x1 : (0x3F / 2 : Nat) = 0x1F := rfl
  have x2 : (0x1F / 2 : Nat) = 0x0F := rfl
  have x3 : (0x0F / 2 : Nat) = 0x07 := rfl
  have x4 : (0x07 / 2 : Nat) = 0x03 := rfl
  have x5 : (0x03 / 2 : Nat) = 0x01 := rfl
  rw [d1, x1] at s1
  have e0 : encLoop 8 (u : Int) 0x7F80 0x3F [] = encLoop 7 ((u / 64 : Nat) : Int) 0x3FC0 ((0x1F : Nat) : Int) ([] ++ [0x80 + u % 64]) := s1
  have q2 : u / 64 / 64 = u / 4096 := by omega
  have q3 : u / 4096 / 64 = u / 262144 := by omega
  have q4 : u / 262144 / 64 = u / 16777216 := by omega
  have q5 : u / 16777216 / 64 = u / 1073741824 := by omega
  by_cases c1 : u < 0x800
  · rw [encLoop_end 6 _ _ _ _ (by omega)] at e0
    refine ⟨_, _, _, e0, by simp, ?_⟩
    have := first_byte 0x3FC0 0xC0 (u / 64) rfl (by omega)
    have e : chr (0x3FC0 + short ((u / 64 : Nat) : Int)) = 0xC0 + u / 64 := this
    rw [e]
    unfold utf8; rw [if_neg (by omega), if_pos c1]; simp
  rw [encLoop_step 6 _ _ _ _ (by omega) (by omega) (by simp), d2, x2, q2] at e0
  by_cases c2 : u < 0x10000
  · rw [encLoop_end 5 _ _ _ _ (by omega)] at e0
    refine ⟨_, _, _, e0, by simp, ?_⟩
    have e : chr (0x1FE0 + short ((u / 4096 : Nat) : Int)) = 0xE0 + u / 4096 := first_byte 0x1FE0 0xE0 (u / 4096) rfl (by omega)
    rw [e]
    unfold utf8; rw [if_neg (by omega), if_neg c1, if_pos c2]; simp
  rw [encLoop_step 5 _ _ _ _ (by omega) (by omega) (by simp), d3, x3, q3] at e0
  by_cases c3 : u < 0x200000
  · rw [encLoop_end 4 _ _ _ _ (by omega)] at e0
    refine ⟨_, _, _, e0, by simp, ?_⟩
    have e : chr (0x0FF0 + short ((u / 262144 : Nat) : Int)) = 0xF0 + u / 262144 := first_byte 0x0FF0 0xF0 (u / 262144) rfl (by omega)
    rw [e]
    unfold utf8; rw [if_neg (by omega), if_neg c1, if_neg c2, if_pos c3]; simp
  rw [encLoop_step 4 _ _ _ _ (by omega) (by omega) (by simp), d4, x4, q4] at e0
  by_cases c4 : u < 0x4000000
  · rw [encLoop_end 3 _ _ _ _ (by omega)] at e0
    refine ⟨_, _, _, e0, by simp, ?_⟩
    have e : chr (0x07F8 + short ((u / 16777216 : Nat) : Int)) = 0xF8 + u / 16777216 := first_byte 0x07F8 0xF8 (u / 16777216) rfl (by omega)
    rw [e]
    unfold utf8; rw [if_neg (by omega), if_neg c1, if_neg c2, if_neg c3, if_pos c4]; simp
  rw [encLoop_step 3 _ _ _ _ (by omega) (by omega) (by simp), d5, x5, q5, encLoop_end 2 _ _ _ _ (by omega)] at e0
  refine ⟨_, _, _, e0, by simp, ?_⟩
  have e : chr (0x03FC + short ((u / 1073741824 : Nat) : Int)) = 0xFC + u / 1073741824 := first_byte 0x03FC 0xFC (u / 1073741824) rfl (by omega)
  rw [e]
  unfold utf8; rw [if_neg (by omega), if_neg c1, if_neg c2, if_neg c3, if_neg c4]; simp

/-- **C56**.  `UCStoUTF8(ucs, utf8, pos)` writes the bytes of RFC 2279 and a 0X at `pos`, and moves `pos` behind them; if there is no
room for all of them it returns FALSE and changes nothing. -/
theorem C56_encode (u : Nat) (hu : u < 2147483648) (buf : List Nat) (pos : Nat) :
    ucsToUtf8 u buf pos =
      .ok (if pos + (utf8 u).length < buf.length then (true, written buf pos (utf8 u), pos + (utf8 u).length) else (false, buf, pos)) := by
  unfold ucsToUtf8
  by_cases h : u < 0x80
  · rw [if_pos (by omega)]
    have e : utf8 u = [u] := if_pos h
    have hc : chr (short (u : Int)) = u := by rw [short_small u (by omega)]; unfold chr; omega
    rw [e, hc]
    by_cases hp : pos + 1 < buf.length
    · rw [if_pos hp, if_pos (by simpa using hp)]
      have := put_zero [u] buf pos (by simpa using hp)
      simp only [put, List.length_singleton] at this
      rw [this]; rfl
    · rw [if_neg hp, if_neg (by simpa using hp)]
  · rw [if_neg (by omega)]
    obtain ⟨m, v, bs, he, hl, hr⟩ := enc_bytes u (by omega) hu
    rw [he, bind_ok, if_pos hl]
    simp only [hr]
    have hlen : (utf8 u).length = bs.length + 1 := by rw [← hr]; simp
    rw [hlen]
    by_cases hp : pos + bs.length + 1 < buf.length
    · rw [if_pos hp, if_pos (by omega)]
      have := put_zero (utf8 u) buf pos (by omega)
      rw [hlen] at this
      have e : pos + (bs.length + 1) = pos + bs.length + 1 := by omega
      rw [e] at this
      rw [this, e]
    · rw [if_neg hp, if_neg (by omega)]

/-! ### Reading -/

theorem contLoop_step (buf : List Nat) (n q : Nat) (u c : Nat) (h : buf[q]? = some c) (hu : u * 64 + 63 < 2147483648) (hc : c < 256) :
    contLoop buf (n + 1) q (u : Int) = contLoop buf n (q + 1) ((u * 64 + c % 64 : Nat) : Int) := by
  have e1 : ((u : Int) * 64) = ((u * 64 : Nat) : Int) := by omega
  have e2 : (((u * 64 : Nat) : Int) + ((c % 64 : Nat) : Int)) = ((u * 64 + c % 64 : Nat) : Int) := by omega
  simp only [contLoop, h]
  rw [e1, chk_nat (by omega), bind_ok, and_3F c (by omega), e2, chk_nat (by omega), bind_ok]

/-- The first byte tells the number of bytes. -/
theorem lead_eq : ∀ b : Nat, b < 256 → 0xC0 ≤ b → b < 0xFE →
    lead b 8 2 0x3F = (if b < 0xE0 then (2, 0x3F) else if b < 0xF0 then (3, 0x1F) else if b < 0xF8 then (4, 0xF) else if b < 0xFC then (5, 7) else (6, 3)) := by
  decide +kernel

theorem getElem?_part {buf : List Nat} {p : Nat} {bs : List Nat} (h : (buf.drop p).take bs.length = bs) (i : Nat) (hi : i < bs.length) :
    buf[p + i]? = bs[i]? := by
  have h' := congrArg (fun l => l[i]?) h
  simp only [List.getElem?_take, List.getElem?_drop] at h'
  rw [if_pos hi] at h'
  exact h'

/-- **C56**.  If the bytes of a character stand at `p` then `UTF8toUCS(utf8, p, ucs)` returns TRUE, gives the character and moves `p`
behind them. -/
theorem C56_decode (u : Nat) (hu : u < 2147483648) (buf : List Nat) (p : Nat) (x : Int)
    (h : (buf.drop p).take (utf8 u).length = utf8 u) :
    utf8ToUcs buf p x = .ok (true, p + (utf8 u).length, (u : Int)) := by
  have hg : ∀ i : Nat, i < (utf8 u).length → buf[p + i]? = (utf8 u)[i]? := fun i hi => getElem?_part h i hi
  have hlen : p + (utf8 u).length ≤ buf.length ∨ (utf8 u).length = 0 := by
    have := congrArg List.length h
    simp at this
    omega
  clear h
  by_cases c0 : u < 0x80
  · have e : utf8 u = [u] := if_pos c0
    rw [e] at hg ⊢
    have h0 := hg 0 (by simp)
    simp only [Nat.add_zero, List.getElem?_cons_zero] at h0
    unfold utf8ToUcs
    rw [h0]
    simp only [if_pos c0, List.length_singleton]
  have three : ∀ b, 0xC0 ≤ b → b < 0xFE → buf[p]? = some b → utf8ToUcs buf p x =
      (if p + (lead b 8 2 0x3F).1 - 1 < buf.length then
        (contLoop buf ((lead b 8 2 0x3F).1 - 1) (p + 1) (and b (lead b 8 2 0x3F).2)).bind fun v => .ok (true, p + (lead b 8 2 0x3F).1, v)
      else .ok (false, p, and b (lead b 8 2 0x3F).2)) := by
    intro b h1 _ h2
    unfold utf8ToUcs
    rw [h2]
    simp only [if_neg (show ¬ b < 0x80 by omega)]
  by_cases c1 : u < 0x800
  · have e : utf8 u = [0xC0 + u / 64, 0x80 + u % 64] := by unfold utf8; rw [if_neg c0, if_pos c1]
    rw [e] at hg hlen ⊢
    have h0 := hg 0 (by simp); have h1 := hg 1 (by simp)
    simp at h0 h1 hlen
    have hl := lead_eq (192 + u / 64) (by omega) (by omega) (by omega)
    rw [if_pos (by omega)] at hl
    rw [three _ (by omega) (by omega) h0, hl]
    simp only
    rw [if_pos (by omega)]
    have ha : and ((192 + u / 64 : Nat) : Int) ((63 : Nat) : Int) = ((u / 64 : Nat) : Int) := by
      rw [and_low _ 63 6 rfl (by omega) (by omega)]; congr 1; omega
    rw [ha, contLoop_step buf 0 (p + 1) _ _ h1 (by omega) (by omega)]
    have : u / 64 * 64 + (128 + u % 64) % 64 = u := by omega
    rw [this]; rfl
  by_cases c2 : u < 0x10000
  · have e : utf8 u = [0xE0 + u / 4096, 0x80 + u / 64 % 64, 0x80 + u % 64] := by unfold utf8; rw [if_neg c0, if_neg c1, if_pos c2]
    rw [e] at hg hlen ⊢
    have h0 := hg 0 (by simp); have h1 := hg 1 (by simp); have h2 := hg 2 (by simp)
    simp at h0 h1 h2 hlen
    have hl := lead_eq (224 + u / 4096) (by omega) (by omega) (by omega)
    rw [if_neg (by omega), if_pos (by omega)] at hl
    rw [three _ (by omega) (by omega) h0, hl]
    simp only
    rw [if_pos (by omega)]
    have ha : and ((224 + u / 4096 : Nat) : Int) ((31 : Nat) : Int) = ((u / 4096 : Nat) : Int) := by
      rw [and_low _ 31 5 rfl (by omega) (by omega)]; congr 1; omega
    rw [ha, contLoop_step buf 1 (p + 1) _ _ h1 (by omega) (by omega), contLoop_step buf 0 (p + 1 + 1) _ _ h2 (by omega) (by omega)]
    have : (u / 4096 * 64 + (128 + u / 64 % 64) % 64) * 64 + (128 + u % 64) % 64 = u := by omega
    rw [this]; rfl
  by_cases c3 : u < 0x200000
  · have e : utf8 u = [0xF0 + u / 262144, 0x80 + u / 4096 % 64, 0x80 + u / 64 % 64, 0x80 + u % 64] := by
      unfold utf8; rw [if_neg c0, if_neg c1, if_neg c2, if_pos c3]
    rw [e] at hg hlen ⊢
    have h0 := hg 0 (by simp); have h1 := hg 1 (by simp); have h2 := hg 2 (by simp); have h3 := hg 3 (by simp)
    simp at h0 h1 h2 h3 hlen
    have hl := lead_eq (240 + u / 262144) (by omega) (by omega) (by omega)
    rw [if_neg (by omega), if_neg (by omega), if_pos (by omega)] at hl
    rw [three _ (by omega) (by omega) h0, hl]
    simp only
    rw [if_pos (by omega)]
    have ha : and ((240 + u / 262144 : Nat) : Int) ((15 : Nat) : Int) = ((u / 262144 : Nat) : Int) := by
      rw [and_low _ 15 4 rfl (by omega) (by omega)]; congr 1; omega
    rw [ha, contLoop_step buf 2 (p + 1) _ _ h1 (by omega) (by omega), contLoop_step buf 1 (p + 1 + 1) _ _ h2 (by omega) (by omega),
      contLoop_step buf 0 (p + 1 + 1 + 1) _ _ h3 (by omega) (by omega)]
    have : ((u / 262144 * 64 + (128 + u / 4096 % 64) % 64) * 64 + (128 + u / 64 % 64) % 64) * 64 + (128 + u % 64) % 64 = u := by omega
    rw [this]; rfl
  by_cases c4 : u < 0x4000000
  · have e : utf8 u = [0xF8 + u / 16777216, 0x80 + u / 262144 % 64, 0x80 + u / 4096 % 64, 0x80 + u / 64 % 64, 0x80 + u % 64] := by
      unfold utf8; rw [if_neg c0, if_neg c1, if_neg c2, if_neg c3, if_pos c4]
    rw [e] at hg hlen ⊢
    have h0 := hg 0 (by simp); have h1 := hg 1 (by simp); have h2 := hg 2 (by simp); have h3 := hg 3 (by simp); have h4 := hg 4 (by simp)
    simp at h0 h1 h2 h3 h4 hlen
    have hl := lead_eq (248 + u / 16777216) (by omega) (by omega) (by omega)
    rw [if_neg (by omega), if_neg (by omega), if_neg (by omega), if_pos (by omega)] at hl
    rw [three _ (by omega) (by omega) h0, hl]
    simp only
    rw [if_pos (by omega)]
    have ha : and ((248 + u / 16777216 : Nat) : Int) ((7 : Nat) : Int) = ((u / 16777216 : Nat) : Int) := by
      rw [and_low _ 7 3 rfl (by omega) (by omega)]; congr 1; omega
    rw [ha, contLoop_step buf 3 (p + 1) _ _ h1 (by omega) (by omega), contLoop_step buf 2 (p + 1 + 1) _ _ h2 (by omega) (by omega),
      contLoop_step buf 1 (p + 1 + 1 + 1) _ _ h3 (by omega) (by omega), contLoop_step buf 0 (p + 1 + 1 + 1 + 1) _ _ h4 (by omega) (by omega)]
    have : (((u / 16777216 * 64 + (128 + u / 262144 % 64) % 64) * 64 + (128 + u / 4096 % 64) % 64) * 64 + (128 + u / 64 % 64) % 64) * 64 + (128 + u % 64) % 64 = u := by omega
    rw [this]; rfl
  · have e : utf8 u = [0xFC + u / 1073741824, 0x80 + u / 16777216 % 64, 0x80 + u / 262144 % 64, 0x80 + u / 4096 % 64, 0x80 + u / 64 % 64, 0x80 + u % 64] := by
      unfold utf8; rw [if_neg c0, if_neg c1, if_neg c2, if_neg c3, if_neg c4]
    rw [e] at hg hlen ⊢
    have h0 := hg 0 (by simp); have h1 := hg 1 (by simp); have h2 := hg 2 (by simp); have h3 := hg 3 (by simp); have h4 := hg 4 (by simp)
    have h5 := hg 5 (by simp)
    simp at h0 h1 h2 h3 h4 h5 hlen
    have hl := lead_eq (252 + u / 1073741824) (by omega) (by omega) (by omega)
    rw [if_neg (by omega), if_neg (by omega), if_neg (by omega), if_neg (by omega)] at hl
    rw [three _ (by omega) (by omega) h0, hl]
    simp only
    rw [if_pos (by omega)]
    have ha : and ((252 + u / 1073741824 : Nat) : Int) ((3 : Nat) : Int) = ((u / 1073741824 : Nat) : Int) := by
      rw [and_low _ 3 2 rfl (by omega) (by omega)]; congr 1; omega
    rw [ha, contLoop_step buf 4 (p + 1) _ _ h1 (by omega) (by omega), contLoop_step buf 3 (p + 1 + 1) _ _ h2 (by omega) (by omega),
      contLoop_step buf 2 (p + 1 + 1 + 1) _ _ h3 (by omega) (by omega), contLoop_step buf 1 (p + 1 + 1 + 1 + 1) _ _ h4 (by omega) (by omega),
      contLoop_step buf 0 (p + 1 + 1 + 1 + 1 + 1) _ _ h5 (by omega) (by omega)]
    have : ((((u / 1073741824 * 64 + (128 + u / 16777216 % 64) % 64) * 64 + (128 + u / 262144 % 64) % 64) * 64 + (128 + u / 4096 % 64) % 64) * 64 + (128 + u / 64 % 64) % 64) * 64 + (128 + u % 64) % 64 = u := by omega
    rw [this]; rfl

example : utf8 0x20AC = [0xE2, 0x82, 0xAC] ∧ ucsToUtf8 0x20AC [1, 2, 3, 4, 5, 6] 1 = .ok (true, [1, 0xE2, 0x82, 0xAC, 0, 6], 4) ∧
    ucsToUtf8 0x20AC [1, 2, 3, 4] 1 = .ok (false, [1, 2, 3, 4], 1) ∧ utf8ToUcs [1, 0xE2, 0x82, 0xAC, 0] 1 0 = .ok (true, 4, 0x20AC) := by
  decide +kernel

/-! ### Texts -/

theorem written_length (buf bs : List Nat) (pos : Nat) (h : pos + bs.length < buf.length) : (written buf pos bs).length = buf.length := by
  unfold written; simp; omega

theorem utf8_pos (u : Nat) : 0 < (utf8 u).length := by
  unfold utf8; repeat' split
  all_goals simp

/-- A call with any LONGINT leaves what stands before `pos`. -/
theorem enc_keeps (c : Int) (hc : c < 2147483648) (buf : List Nat) (pos : Nat) : ∃ b buf' pos', ucsToUtf8 c buf pos = .ok (b, buf', pos') ∧
    buf'.length = buf.length ∧ buf'.take pos = buf.take pos ∧ pos ≤ pos' := by
  by_cases h : 0 ≤ c
  · obtain ⟨u, rfl⟩ : ∃ u : Nat, c = (u : Int) := ⟨c.toNat, by omega⟩
    rw [C56_encode u (by omega) buf pos]
    by_cases hp : pos + (utf8 u).length < buf.length
    · rw [if_pos hp]
      refine ⟨_, _, _, rfl, written_length _ _ _ hp, ?_, by omega⟩
      unfold written
      rw [List.append_assoc, List.take_append_of_le_length (by simp; omega), List.take_take, Nat.min_self]
    · rw [if_neg hp]; exact ⟨_, _, _, rfl, rfl, rfl, by omega⟩
  · unfold ucsToUtf8
    rw [if_pos (by omega)]
    by_cases hp : pos + 1 < buf.length
    · rw [if_pos hp]
      refine ⟨_, _, _, rfl, by simp, ?_, by omega⟩
      rw [List.take_set_of_le (by omega), List.take_set_of_le (by omega)]
    · rw [if_neg hp]; exact ⟨_, _, _, rfl, rfl, rfl, by omega⟩

theorem arr_keeps : ∀ (cs : List Int) (buf : List Nat) (p q : Nat), (∀ c ∈ cs, c < 2147483648) → q ≤ p →
    ∃ buf', arrToUtf8 cs buf p = .ok buf' ∧ buf'.length = buf.length ∧ buf'.take q = buf.take q := by
  intro cs
  induction cs with
  | nil => intro buf p q _ _; exact ⟨buf, rfl, rfl, rfl⟩
  | cons c cs ih =>
    intro buf p q hc hq
    obtain ⟨b, buf1, p1, e, hl, ht, hp⟩ := enc_keeps c (hc c (by simp)) buf p
    have ht' : buf1.take q = buf.take q := by
      have := congrArg (List.take q) ht
      rwa [List.take_take, List.take_take, Nat.min_eq_left hq] at this
    simp only [arrToUtf8]
    rw [e, bind_ok]
    cases b
    · exact ⟨buf1, rfl, hl, ht'⟩
    · obtain ⟨buf2, e2, hl2, ht2⟩ := ih buf1 p1 q (fun c h => hc c (by simp [h])) (by omega)
      exact ⟨buf2, e2, hl2.trans hl, ht2.trans ht'⟩

/-- Characters, and what is behind them, written from `p` on. -/
theorem arr_text : ∀ (us : List Nat) (rest : List Int) (buf : List Nat) (p : Nat), (∀ u ∈ us, u < 2147483648) →
    (∀ c ∈ rest, c < 2147483648) → (rest = [] ∧ us ≠ [] ∨ rest.head? = some 0) → p + (text us).length + 1 < buf.length →
    ∃ tail, arrToUtf8 (us.map Int.ofNat ++ rest) buf p = .ok (buf.take p ++ text us ++ 0 :: tail) := by
  intro us
  induction us with
  | nil =>
    intro rest buf p _ hr h hlen
    rcases h with ⟨_, h⟩ | h
    · exact absurd rfl h
    cases rest with
    | nil => simp at h
    | cons c rest =>
      have hc : c = ((0 : Nat) : Int) := by simpa using h
      subst hc
      simp only [text, List.flatMap_nil, List.length_nil, Nat.add_zero] at hlen
      simp only [List.map_nil, List.nil_append, arrToUtf8]
      have h0 : utf8 0 = [0] := rfl
      rw [C56_encode 0 (by omega) buf p, h0, if_pos (by simpa using hlen), bind_ok, if_pos rfl]
      obtain ⟨buf', e, hl, ht⟩ := arr_keeps rest (written buf p [0]) (p + [0].length) (p + 1) (fun c h => hr c (by simp [h])) (by simp)
      simp only
      rw [e]
      refine ⟨buf'.drop (p + 1), ?_⟩
      congr 1
      conv_lhs => rw [← List.take_append_drop (p + 1) buf', ht]
      have : (written buf p [0]).take (p + 1) = buf.take p ++ [0] := by
        unfold written
        rw [List.take_append_of_le_length (by simp; omega), List.take_of_length_le (by simp)]
      rw [this]; simp [text]
  | cons u us ih =>
    intro rest buf p hu hr h hlen
    have ht : text (u :: us) = utf8 u ++ text us := rfl
    rw [ht, List.length_append] at hlen
    simp only [List.map_cons, List.cons_append, arrToUtf8]
    have hwl := written_length buf (utf8 u) p (by omega)
    have hwt : (written buf p (utf8 u)).take (p + (utf8 u).length) = buf.take p ++ utf8 u := by
      unfold written
      rw [List.take_append_of_le_length (by simp; omega), List.take_of_length_le (by simp)]
    have e := C56_encode u (hu u (by simp)) buf p
    rw [if_pos (by omega)] at e
    have e' : ucsToUtf8 (Int.ofNat u) buf p = _ := e
    rw [e', bind_ok, if_pos rfl]
    simp only
    by_cases hn : us = [] ∧ rest = []
    · obtain ⟨rfl, rfl⟩ := hn
      simp only [List.map_nil, List.append_nil, arrToUtf8]
      refine ⟨buf.drop (p + (utf8 u).length + 1), ?_⟩
      simp [written, text]
    · have hh : rest = [] ∧ us ≠ [] ∨ rest.head? = some 0 := by
        rcases h with ⟨h1, _⟩ | h
        · exact Or.inl ⟨h1, fun h2 => hn ⟨h2, h1⟩⟩
        · exact Or.inr h
      obtain ⟨tail, e2⟩ := ih rest (written buf p (utf8 u)) (p + (utf8 u).length) (fun c h => hu c (by simp [h])) hr hh (by rw [hwl]; omega)
      refine ⟨tail, ?_⟩
      rw [e2, hwt, ht]; simp

/-- **C56**.  `UCS4toUTF8(ucs4, utf8)` writes the text in `ucs4` up to its first 0 or its end, encoded and followed by 0X, if `utf8`
has room for it. -/
theorem C56_text_encode (us : List Nat) (rest : List Int) (buf : List Nat) (hu : ∀ u ∈ us, u < 2147483648)
    (hr : ∀ c ∈ rest, c < 2147483648) (h : rest = [] ∧ us ≠ [] ∨ rest.head? = some 0) (hlen : (text us).length + 1 < buf.length) :
    ∃ tail, ucs4ToUtf8 (us.map Int.ofNat ++ rest) buf = .ok (text us ++ 0 :: tail) := by
  obtain ⟨tail, e⟩ := arr_text us rest buf 0 hu hr h (by omega)
  exact ⟨tail, by simpa [ucs4ToUtf8] using e⟩

theorem ucs4Loop_text : ∀ (us : List Nat) (buf tail : List Nat) (p : Nat) (arr : List Int) (idx n : Nat),
    (∀ u ∈ us, 0 < u ∧ u < 2147483648) → buf.drop p = text us ++ 0 :: tail → n = arr.length - idx → idx + us.length < arr.length →
    ucs4Loop buf n p arr idx = .ok (arr.take idx ++ us.map Int.ofNat ++ 0 :: arr.drop (idx + us.length + 1), idx + us.length + 1) := by
  intro us
  induction us with
  | nil =>
    intro buf tail p arr idx n _ hb hn hlt
    simp only [List.length_nil, Nat.add_zero] at hlt
    obtain ⟨n, rfl⟩ : ∃ m, n = m + 1 := ⟨n - 1, by omega⟩
    have h0 : utf8 0 = [0] := rfl
    simp only [ucs4Loop]
    rw [C56_decode 0 (by omega) buf p _ (by rw [hb, h0]; rfl), bind_ok]
    simp only [Nat.cast_zero, Int.ofNat_eq_natCast, if_neg (show ¬ (true = true ∧ (0 : Int) < 0) by omega)]
    rw [List.set_set]
    congr 2
    rw [List.set_eq_take_append_cons_drop, if_pos hlt]
    simp
  | cons u us ih =>
    intro buf tail p arr idx n hu hb hn hlt
    simp only [List.length_cons] at hlt
    obtain ⟨n, rfl⟩ : ∃ m, n = m + 1 := ⟨n - 1, by omega⟩
    have ht : text (u :: us) = utf8 u ++ text us := rfl
    rw [ht, List.append_assoc] at hb
    have hu' := hu u (by simp)
    simp only [ucs4Loop]
    rw [C56_decode u hu'.2 buf p _ (by rw [hb, List.take_append_of_le_length (by omega), List.take_length]), bind_ok]
    simp only
    rw [if_pos ⟨trivial, by omega⟩]
    rw [ih buf tail (p + (utf8 u).length) (arr.set idx (u : Int)) (idx + 1) n (fun c h => hu c (by simp [h])) ?_ (by simp; omega) (by simp; omega)]
    · have h1 : (arr.set idx (u : Int)).take (idx + 1) = arr.take idx ++ [(u : Int)] := by
        rw [List.take_add_one, List.take_set_of_le (by omega)]
        simp [show idx < arr.length by omega]
      have h2 : (arr.set idx (u : Int)).drop (idx + 1 + us.length + 1) = arr.drop (idx + (us.length + 1) + 1) := by
        rw [List.drop_set_of_lt (by omega)]; congr 1; omega
      rw [h1, h2]
      have h3 : idx + 1 + us.length + 1 = idx + (us.length + 1) + 1 := by omega
      rw [h3]; simp
    · rw [← List.drop_drop, hb, List.drop_left]

/-- **C56**.  `UTF8toUCS4(utf8, ucs4, idx)` puts the characters of an encoded text that ends with 0X, and a 0, from `idx` on, if
there is room for them. -/
theorem C56_text_decode (us : List Nat) (tail : List Nat) (arr : List Int) (idx : Nat) (hu : ∀ u ∈ us, 0 < u ∧ u < 2147483648)
    (hlen : idx + us.length < arr.length) :
    utf8ToUcs4 (text us ++ 0 :: tail) arr idx =
      .ok (arr.take idx ++ us.map Int.ofNat ++ 0 :: arr.drop (idx + us.length + 1), idx + us.length + 1) :=
  ucs4Loop_text us _ tail 0 arr idx _ hu rfl rfl hlen

/-- **C56**.  A text that is encoded and decoded is the same text. -/
theorem C56_roundtrip (us : List Nat) (rest : List Int) (buf : List Nat) (arr : List Int) (hu : ∀ u ∈ us, 0 < u ∧ u < 2147483648)
    (hr : ∀ c ∈ rest, c < 2147483648) (h : rest = [] ∧ us ≠ [] ∨ rest.head? = some 0) (hlen : (text us).length + 1 < buf.length)
    (harr : us.length < arr.length) :
    ((ucs4ToUtf8 (us.map Int.ofNat ++ rest) buf).bind fun b => utf8ToUcs4 b arr 0) =
      .ok (us.map Int.ofNat ++ 0 :: arr.drop (us.length + 1), us.length + 1) := by
  obtain ⟨tail, e⟩ := C56_text_encode us rest buf (fun u h => (hu u h).2) hr h hlen
  rw [e, bind_ok, C56_text_decode us tail arr 0 hu (by omega)]
  simp

example : ((ucs4ToUtf8 [0x48, 0x20AC, 0x10FFFF, 0, -5, 77] (List.replicate 12 9)).bind fun b => utf8ToUcs4 b [1, 1, 1, 1, 1] 0) =
    .ok ([0x48, 0x20AC, 0x10FFFF, 0, 1], 4) := by decide +kernel
example : ([0, -5, 77] : List Int).head? = some 0 ∧ (∀ c ∈ ([0, -5, 77] : List Int), c < 2147483648) ∧
    (∀ u ∈ [0x48, 0x20AC, 0x10FFFF], 0 < u ∧ u < 2147483648) ∧ (text [0x48, 0x20AC, 0x10FFFF]).length + 1 < (List.replicate 12 9).length := by
  decide +kernel

/-! ### Where the module fails -/

/-- Characters from 8000H on are negative INTEGERs: `UCS2toUTF8` writes a single byte for them. -/
theorem C56_ucs2_high : ∃ (c : BitVec 16) (buf buf' : List Nat), 0 < c.toNat ∧ (utf8 c.toNat).length + 1 < buf.length ∧
    ucs2ToUtf8 [c] buf = .ok buf' ∧ buf'.take (utf8 c.toNat).length ≠ utf8 c.toNat ∧ utf8ToUcs buf' 0 0 = .ok (true, 1, 0x41) :=
  ⟨0xFF41#16, List.replicate 8 0, [0x41, 0, 0, 0, 0, 0, 0, 0], by decide +kernel⟩

/-- Sequences that encode nothing are taken: an overlong one, and one that is broken off by another character. -/
theorem C56_invalid : utf8ToUcs [0xC0, 0xAF, 0] 0 0 = .ok (true, 2, 0x2F) ∧ utf8ToUcs [0xC3, 0x41, 0] 0 0 = .ok (true, 2, 0xC1) := by
  decide +kernel

/-- Six continuation bytes after 0FEX overflow. -/
theorem C56_overflow : utf8ToUcs [0xFE, 0xBF, 0xBF, 0xBF, 0xBF, 0xBF, 0xBF, 0] 0 0 = .overflow := by decide +kernel

/-- `UTF8toASCII` never sets `lossy`, even if it replaces characters. -/
theorem C56_lossy (buf ascii : List Nat) (l : Bool) (b : Bool) (ascii' : List Nat) (l' : Bool)
    (h : utf8ToAscii buf ascii l = .ok (b, ascii', l')) : l' = l := by
  unfold utf8ToAscii at h
  cases hA : asciiLoop buf (buf.length + 1) 0 (-1) ascii 0 with
  | trap => rw [hA] at h; cases h
  | overflow => rw [hA] at h; cases h
  | ok r =>
    rw [hA, bind_ok] at h
    split at h
    · split at h
      · cases h
      · split at h
        · injection h with h; injection h with _ h; injection h with _ h; exact h.symm
        · injection h with h; injection h with _ h; injection h with _ h; exact h.symm
    · cases h

example : utf8ToAscii (text [0x41, 0x20AC] ++ [0]) [9, 9, 9, 9] false = .ok (true, [0x41, 0x5F, 0, 9], false) := by decide +kernel

/-- A text that begins with an incomplete character makes `UTF8toASCII` trap. -/
theorem C56_ascii_trap : utf8ToAscii [0xC3] [9, 9] false = .trap := by decide +kernel

end Verif.Utf
