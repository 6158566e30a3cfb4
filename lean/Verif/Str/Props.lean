import Verif.Common
import Verif.Chars
import Verif.Str.Lemmas
import Verif.Str.MatchLemmas

/-!
# C31: the operations of the module Strings; C32: wildcards

`str a` (Spec.lean) is the string in the array `a`.  Its length must be at most 32767, the largest INTEGER.
A result `none` means that an index is out of range: the program is stopped.
-/
namespace Verif.Str

/-! ## C31 -/

/-- **C31 (Length).**  `Length` returns the number of characters before the first 0X, at most 32767, for every array. -/
theorem C31_length_partial (s : List Nat) : length s = some (min (str s).length 32767) := length_ok s

/-- **C31 (Append).**  The string appended is cut at the capacity of the destination; nothing else is changed; if there is
room for it, a terminator is written.  (If there is none, the string fills the array: see `C31_append_unterminated`.) -/
theorem C31_append_partial {extra dest : List Nat} (h1 : (str dest).length ≤ 32767) (h2 : (str extra).length ≤ 32767) :
    ∃ d, append extra dest = some d ∧ d.length = dest.length ∧ str d = (str dest ++ str extra).take dest.length ∧
      ∀ i, (str dest).length + (str extra).length < i → d[i]? = dest[i]? := by
  have hz : 0 ∉ str dest ++ str extra := by
    simp only [List.mem_append, not_or]; exact ⟨str_nz _, str_nz _⟩
  have hle := str_le dest
  refine ⟨_, append_ok h1 h2, ?_, ?_, ?_⟩
  · split
    · simp; omega
    · simp; omega
  · split
    · rw [str_append hz, List.take_of_length_le (by simp; omega)]
    · exact str_full (fun h => hz (List.mem_of_mem_take h))
  · intro i hi
    split
    · rw [List.getElem?_append_right (by simp; omega), List.getElem?_cons, if_neg (by simp; omega), List.getElem?_drop]
      congr 1
      simp; omega
    · rw [List.getElem?_eq_none (by simp; omega), List.getElem?_eq_none (by omega)]

example : append (w! "cde" ++ [0, 9]) (w! "ab" ++ [0, 7, 7, 7, 8]) = some (w! "abcde" ++ [0, 8]) := by decide
example : append (w! "cde" ++ [0]) (w! "ab" ++ [0, 7]) = some (w! "abcd") := by decide

/-- **C31 (deviation).**  The documentation promises that the destination is always terminated.  It is not, when the
result has at least as many characters as the destination. -/
theorem C31_append_unterminated {extra dest : List Nat} (h1 : (str dest).length ≤ 32767) (h2 : (str extra).length ≤ 32767)
    (h : dest.length ≤ (str dest).length + (str extra).length) : ∃ d, append extra dest = some d ∧ 0 ∉ d := by
  refine ⟨_, append_ok h1 h2, ?_⟩
  rw [if_neg (by omega)]
  intro h0
  have := List.mem_of_mem_take h0
  simp only [List.mem_append] at this
  exact this.elim (str_nz _) (str_nz _)

/-- **C31 (Insert).**  For a position in the string (a negative one counts as 0), the source is inserted, and the result
cut at the capacity of the destination; nothing else is changed, if the source itself fits behind the position.
(If it does not: `C31_insert_trap`.  As with Append, a result that fills the array is not terminated.) -/
theorem C31_insert_partial {source dest : List Nat} {pos : Int} (h1 : (str dest).length ≤ 32767) (h2 : (str source).length ≤ 32767)
    (hpos : pos ≤ (str dest).length) (hfit : pos.toNat + (str source).length ≤ dest.length) :
    ∃ d, insert source pos dest = some d ∧ d.length = dest.length ∧
      str d = ((str dest).take pos.toNat ++ str source ++ (str dest).drop pos.toNat).take dest.length ∧
      ∀ i, (str dest).length + (str source).length < i → d[i]? = dest[i]? :=
  insert_ok (by split <;> omega) h1 h2 (by omega) hfit

example : insert (w! "xy" ++ [0]) 1 (w! "abc" ++ [0, 7, 7, 8]) = some (w! "axybc" ++ [0, 8]) := by decide
example : insert (w! "xy" ++ [0]) 1 (w! "abc" ++ [0]) = some (w! "axyb") := by decide
example : insert (w! "xy" ++ [0]) (-5) (w! "abc" ++ [0, 0, 0]) = some (w! "xyabc" ++ [0]) := by decide

/-- **C31 (deviation).**  A source that does not fit behind the position is not cut: the program is stopped by the index
check. -/
theorem C31_insert_trap {source dest : List Nat} {pos : Int} (h1 : (str dest).length ≤ 32767) (h2 : (str source).length ≤ 32767)
    (hpos : pos ≤ (str dest).length) (hfit : dest.length < pos.toNat + (str source).length) : insert source pos dest = none := by
  have hle := str_le dest
  unfold insert
  rw [length_short h1, length_short h2, Option.bind_some, Option.bind_some]
  have hp : (if pos < 0 then 0 else pos.toNat) = pos.toNat := by split <;> omega
  simp only [hp]
  rw [if_neg (by omega), if_neg (by omega), Option.bind_some]
  exact copyIn_none source _ _ _ _ _ (by omega) hfit (by omega)

example : insert (w! "wxyz" ++ [0]) 1 (w! "abc" ++ [0]) = none := by decide

/-- **C31 (Insert behind the end).**  The documentation excludes such positions; the destination is not changed (the code
tries to append, but with the arguments exchanged). -/
theorem C31_insert_behind {source dest : List Nat} {pos : Int} (h1 : (str dest).length ≤ 32767) (h2 : (str source).length ≤ 32767)
    (hpos : (str dest).length < pos) : insert source pos dest = some dest := by
  unfold insert
  rw [length_short h1, length_short h2, Option.bind_some, Option.bind_some]
  have hp : (if pos < 0 then 0 else pos.toNat) = pos.toNat := by split <;> omega
  simp only [hp]
  rw [if_pos (by omega), append_ok h2 h1, Option.map_some]

example : insert (w! "xy" ++ [0]) 4 (w! "abc" ++ [0, 7, 7, 8]) = some (w! "abc" ++ [0, 7, 7, 8]) := by decide

/-- **C31 (Delete).**  `n` characters from `pos` on (a negative position counts as 0) are deleted, or all there are;
nothing behind the old string changes. -/
theorem C31_delete {s : List Nat} {pos n : Int} (hl : (str s).length ≤ 32767) (hn : 0 ≤ n) (hp : pos < (str s).length)
    (h0 : 0 < s.length) :
    ∃ d, delete s pos n = some d ∧ d.length = s.length ∧
      str d = (str s).take pos.toNat ++ (str s).drop (pos.toNat + n.toNat) ∧ ∀ i, (str s).length ≤ i → d[i]? = s[i]? :=
  delete_ok hl hn hp h0

example : delete (w! "abcdef" ++ [0, 7]) 1 2 = some (w! "adef" ++ [0, 102, 0, 7]) := by decide
example : delete (w! "abcdef" ++ [0, 7]) 1 9 = some (w! "a" ++ [0] ++ w! "cdef" ++ [0, 7]) := by decide

/-- **C31 (Delete behind the end)** changes nothing. -/
theorem C31_delete_behind {s : List Nat} {pos n : Int} (hl : (str s).length ≤ 32767) (hp0 : 0 ≤ pos) (hp : (str s).length ≤ pos) :
    delete s pos n = some s := by
  unfold delete
  rw [length_short hl, Option.bind_some, if_neg (by omega), if_pos (by omega)]

/-- **C31 (Replace).**  What Replace really does, for a position in the string where the source fits: `pos` characters too
many are deleted.  For position 0 this is what is documented. -/
theorem C31_replace_partial {source dest : List Nat} {pos : Int} (h1 : (str dest).length ≤ 32767)
    (h2 : pos + (str source).length ≤ 32767) (h0 : 0 ≤ pos) (hpos : pos < (str dest).length)
    (hfit : pos.toNat + (str source).length ≤ dest.length) :
    ∃ d, replace source pos dest = some d ∧ d.length = dest.length ∧
      str d = ((str dest).take pos.toNat ++ str source ++ (str dest).drop (2 * pos.toNat + (str source).length)).take dest.length := by
  have hle := str_le dest
  obtain ⟨D, e1, e2, e3, _⟩ := delete_ok (s := dest) (p := pos) (n := pos + (str source).length) h1 (by omega) hpos (by omega)
  have hD : (str D).length ≤ (str dest).length := by rw [e3]; simp; omega
  have hD2 : pos.toNat ≤ (str D).length := by rw [e3]; simp; omega
  obtain ⟨d, f1, f2, f3, _⟩ := C31_insert_partial (source := source) (dest := D) (pos := pos) (by omega) (by omega) (by omega) (by omega)
  refine ⟨d, ?_, by omega, ?_⟩
  · unfold replace
    rw [length_short (by omega), Option.bind_some]
    unfold int16
    rw [if_pos (by omega), Option.bind_some, e1, Option.bind_some, f1]
  · rw [f3, e2, e3]
    have ht : ((str dest).take pos.toNat).length = pos.toNat := by simp; omega
    rw [List.take_left' ht, List.drop_left' ht]
    congr 3
    omega

/-- What the documentation says of Replace: Delete(dst, pos, Length(src)), then Insert(src, pos, dst). -/
theorem C31_replace_zero_partial {source dest : List Nat} (h1 : (str dest).length ≤ 32767) (h2 : (str source).length ≤ 32767) :
    replace source 0 dest = (delete dest 0 (str source).length).bind fun d => insert source 0 d := by
  unfold replace
  rw [length_short h2, Option.bind_some]
  unfold int16
  rw [if_pos (by omega), Option.bind_some, Int.zero_add]

/-- **C31 (deviation).**  For all other positions Replace differs from the documentation: replacing "cd" in "abcdefgh" by
"xy" also removes "ef". -/
theorem C31_replace_wrong : replace (w! "xy" ++ [0]) 2 (w! "abcdefgh" ++ [0]) = some (w! "abxygh" ++ [0] ++ w! "h" ++ [0]) ∧
    ((delete (w! "abcdefgh" ++ [0]) 2 2).bind fun d => insert (w! "xy" ++ [0]) 2 d) = some (w! "abxyefgh" ++ [0]) := by
  decide

/-- **C31 (Extract).**  The `n` characters from position `pos` on, or those there are, are copied, with a terminator, if
they fit.  The source must be terminated, unless less than its end is asked for. -/
theorem C31_extract_partial {source dest : List Nat} {pos n : Int} (h1 : (str source).length ≤ 32767) (h2 : dest.length ≤ 32767)
    (hn : 0 ≤ n) (hterm : (str source).length < source.length ∨ pos.toNat + n.toNat < (str source).length) (h0 : 0 < dest.length)
    (hfit : pos < (str source).length → min n.toNat ((str source).length - pos.toNat) < dest.length) :
    ∃ d, extract source pos n dest = some d ∧ d.length = dest.length ∧ str d = ((str source).drop pos.toNat).take n.toNat := by
  have hle := str_le source
  unfold extract
  rw [length_short h1, Option.bind_some]
  unfold int16
  rw [if_pos (by omega), Option.bind_some]
  have hp : (if pos < 0 then 0 else pos.toNat) = pos.toNat := by split <;> omega
  simp only [hp]
  by_cases hpos : (str source).length ≤ pos.toNat
  · rw [if_pos hpos, wr_nat (x := 0) (k := 0) _ _ rfl h0]
    refine ⟨_, rfl, by simp, ?_⟩
    rw [List.drop_eq_nil_of_le hpos, List.take_nil]
    apply str_of (by simp) (by simp) (by simp)
    intro _
    rw [List.length_nil, List.getElem?_set_self h0]
  · rw [if_neg (by omega)]
    obtain ⟨D, e1, e2, e3⟩ := extractLoop_ok source pos.toNat n.toNat (dest.length - 1) (by omega) hterm (source.length + 2) dest 0
      (by omega) (by omega) (by omega)
    have en : ((n.toNat : Nat) : Int) = n := by omega
    have ed : ((dest.length - 1 : Nat) : Int) = dest.length - 1 := by omega
    rw [en, ed] at e1
    rw [e1, Option.bind_some]
    have hlt := hfit (by omega)
    simp only []
    rw [wr_nat _ _ rfl (by omega)]
    refine ⟨_, rfl, by simpa using e2, ?_⟩
    have hlen : (((str source).drop pos.toNat).take n.toNat).length = min n.toNat ((str source).length - pos.toNat) := by simp
    apply str_of
    · exact fun h => str_nz source (List.mem_of_mem_drop (List.mem_of_mem_take h))
    · simp only [List.length_set]; omega
    · intro i hi
      rw [hlen] at hi
      rw [List.getElem?_set_ne (by omega), e3 i, if_pos (by omega), List.getElem?_take_of_lt (by omega), List.getElem?_drop]
    · intro _
      rw [hlen, List.getElem?_set_self (by omega)]

example : extract (w! "abcdef" ++ [0]) 1 3 [7, 7, 7, 7, 7] = some (w! "bcd" ++ [0, 7]) := by decide
example : extract (w! "abcdef" ++ [0]) 4 30 [7, 7, 7, 7, 7] = some (w! "ef" ++ [0, 7, 7]) := by decide

/-- **C31 (deviation).**  The documentation says that a result too long for the destination is truncated.  The program is
stopped by the index check instead. -/
theorem C31_extract_trap {source dest : List Nat} {pos n : Int} (h1 : (str source).length ≤ 32767) (h2 : dest.length ≤ 32767)
    (hn : 0 ≤ n) (hterm : (str source).length < source.length ∨ pos.toNat + n.toNat < (str source).length) (h0 : 0 < dest.length)
    (hpos : pos < (str source).length) (hbig : dest.length ≤ min n.toNat ((str source).length - pos.toNat)) :
    extract source pos n dest = none := by
  have hle := str_le source
  unfold extract
  rw [length_short h1, Option.bind_some]
  unfold int16
  rw [if_pos (by omega), Option.bind_some]
  have hp : (if pos < 0 then 0 else pos.toNat) = pos.toNat := by split <;> omega
  simp only [hp]
  rw [if_neg (by omega)]
  obtain ⟨D, e1, e2, e3⟩ := extractLoop_ok source pos.toNat n.toNat (dest.length - 1) (by omega) hterm (source.length + 2) dest 0
    (by omega) (by omega) (by omega)
  have en : ((n.toNat : Nat) : Int) = n := by omega
  have ed : ((dest.length - 1 : Nat) : Int) = dest.length - 1 := by omega
  rw [en, ed] at e1
  rw [e1, Option.bind_some]
  exact wr_none D 0 (by omega)

example : extract (w! "abcdef" ++ [0]) 1 3 [7, 7, 7] = none := by decide

/-- **C31 (Pos).**  For a pattern that is not empty and a position that is not negative, Pos returns the first position
from there on where the pattern occurs, or -1 if there is none. -/
theorem C31_pos_partial {pattern s : List Nat} {p : Nat} (h1 : (str s).length ≤ 32767) (h2 : (str pattern).length ≤ 32767)
    (hne : str pattern ≠ []) :
    (∃ i : Nat, pos pattern s p = some (i : Int) ∧ FirstAt (str pattern) (str s) p i) ∨
    (pos pattern s p = some (-1) ∧ ∀ i, p ≤ i → ¬ str pattern <+: (str s).drop i) := by
  have hpos : 0 < (str pattern).length := List.length_pos_iff.2 hne
  unfold pos
  rw [length_short h1, length_short h2, Option.bind_some, Option.bind_some, if_neg (by omega)]
  exact posLoop_ok pattern s p hpos _ p (Nat.le_refl _) (by omega) (by omega) (by omega)

example : pos (w! "ab" ++ [0]) (w! "xabyab" ++ [0]) 2 = some 4 := by decide
example : pos (w! "ab" ++ [0]) (w! "xabyab" ++ [0]) 5 = some (-1) := by decide

/-- **C31 (deviation).**  The empty pattern is found at 0, wherever the search starts. -/
theorem C31_pos_empty {pattern s : List Nat} {p : Int} (h : str pattern = []) : pos pattern s p = some 0 := by
  unfold pos
  rw [length_ok, length_ok, h]
  rfl

/-- **C31 (Cap).**  In a terminated string exactly the small letters are replaced, by the capital ones; the rest of the
array does not change. -/
theorem C31_cap {s : List Nat} (hl : (str s).length ≤ 32767) (hterm : (str s).length < s.length) :
    capString s = some ((str s).map upper ++ s.drop (str s).length) := by
  rcases str_cases s with ⟨h1, _⟩ | ⟨r, h1⟩
  · rw [← h1] at hterm; omega
  · have hd : s.drop (str s).length = 0 :: r := by
      obtain ⟨t, ht⟩ : ∃ t, t = str s := ⟨_, rfl⟩
      rw [← ht] at h1 ⊢
      rw [h1]; simp
    rw [hd]
    have := capLoop_ok [] r (s.length + 1) [] (str s) (by simpa using hl) (str_nz s) (by omega)
    simp only [List.nil_append, List.length_nil] at this
    unfold capString
    rw [← h1] at this
    exact this

example : capString (w! "aZ{z1" ++ [0] ++ w! "ab") = some (w! "AZ{Z1" ++ [0] ++ w! "ab") := by decide

/-! ## C32 -/

/-- **C32.**  For all strings of at most 32767 characters, Match terminates and returns TRUE exactly if the string is the
pattern with each `*` replaced by some sequence of characters. -/
theorem C32_match {string pattern : List Nat} (h1 : (str string).length ≤ 32767) (h2 : (str pattern).length ≤ 32767) :
    ∃ b, (∃ F, ∀ f, F ≤ f → «match» f string pattern = some b) ∧ (b = true ↔ Glob (str pattern) (str string)) := by
  have key : ∀ f, ((str pattern).length + 1) * (string.length + 2) ≤ f → ∃ b, «match» f string pattern = some b ∧
      (b = true ↔ Glob (str pattern) (str string)) := by
    intro f hf
    unfold «match»
    rw [length_short h1, length_short h2, Option.bind_some, Option.bind_some]
    have := matchM_ok string pattern (str pattern).length (str string).length f (str_le _) (str_le _) hf
    rwa [take_str, take_str] at this
  obtain ⟨b, _, hb⟩ := key _ (Nat.le_refl _)
  refine ⟨b, ⟨((str pattern).length + 1) * (string.length + 2), fun f hf => ?_⟩, hb⟩
  obtain ⟨b', e1, e2⟩ := key f hf
  rw [e1]
  congr 1
  rw [Bool.eq_iff_iff, e2, hb]

example : «match» 99 (w! "abcbd" ++ [0]) (w! "a*b*" ++ [0]) = some true := by decide
example : «match» 99 (w! "abcbd" ++ [0]) (w! "a*c" ++ [0]) = some false := by decide
example : Glob (w! "a*b*") (w! "abcbd") := Glob.char (by decide) (Glob.star (w! "bc") (Glob.char (by decide) (Glob.star (w! "d") Glob.nil)))

end Verif.Str
