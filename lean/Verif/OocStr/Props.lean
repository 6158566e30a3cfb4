import Verif.OocStr.Search
import Verif.Chars

/-!
# C84: string operations of the library have their documented effect

Arrays are terminated where the comments in the code require it (`0 ∈ a`), and have at least one element.
-/
namespace Verif.OocStr
open Verif.Str

/-- **C84 (Length).**  The number of characters before the first 0X, or of the elements of the array if there is none. -/
theorem C84_length (s : List Nat) : length s = some (str s).length := length_eq s

/-- **C84 (Assign).**  The destination holds the source, cut at its capacity, with a terminator. -/
theorem C84_assign {source dest : List Nat} (hs : 0 ∈ source) (hd : dest ≠ []) :
    ∃ d, assign source dest = some d ∧ Assigned dest (str source) d := by
  have hp : 0 < dest.length := List.length_pos_iff.2 hd
  obtain ⟨D, e1, e2, e3⟩ := assignLoop_ok hs (dest.length + 1) dest 0 hp (by omega) (by omega)
  unfold assign
  rw [e1, Option.bind_some, put_ok _ (by simp only [e2]; omega)]
  refine ⟨_, rfl, assigned_of hd (str_nz _) (by simp [e2]) (fun k hk => ?_) ?_⟩
  · rw [List.getElem?_set, if_neg (by omega), e3, if_pos (by omega)]
  · rw [List.getElem?_set, if_pos rfl, if_pos (by simp only [e2]; omega)]

example : assign (w! "hello" ++ [0]) [7, 7, 7, 7] = some (w! "hel" ++ [0]) := by decide
example : assign (w! "hi" ++ [0]) [7, 7, 7, 7] = some (w! "hi" ++ [0, 7]) := by decide

/-- **C84 (Extract).**  The destination holds the given number of characters of the source from the position on, or those there are, cut at its capacity. -/
theorem C84_extract {source dest : List Nat} (startPos number : Nat) (hs : 0 ∈ source) (hd : dest ≠ []) :
    ∃ d, extract source startPos number dest = some d ∧ Assigned dest (((str source).drop startPos).take number) d := by
  have hp : 0 < dest.length := List.length_pos_iff.2 hd
  unfold extract
  rw [length_eq, Option.bind_some]
  dsimp only
  generalize hsp : (if startPos > (str source).length then (str source).length else startPos) = sp
  generalize hn : (if number ≥ dest.length then dest.length - 1 else number) = n
  have h1 : sp ≤ (str source).length := by rw [← hsp]; split <;> omega
  have h2 : n < dest.length := by rw [← hn]; split <;> omega
  have h3 : (((str source).drop startPos).take number).length = min number ((str source).length - sp) := by
    rw [List.length_take, List.length_drop, ← hsp]; split <;> omega
  have h4 : min n ((str source).length - sp) = min (min number ((str source).length - sp)) (dest.length - 1) := by
    rw [← hn]; split <;> omega
  obtain ⟨D, e1, e2, e3⟩ := extractLoop_ok hs sp n h1 (dest.length + 1) dest 0 h2 (by omega) (by omega)
  rw [e1, Option.bind_some, put_ok _ (by simp only [e2]; omega)]
  refine ⟨_, rfl, assigned_of hd ?_ (by simp [e2]) (fun k hk => ?_) ?_⟩
  · exact fun h => str_nz source (List.mem_of_mem_drop (List.mem_of_mem_take h))
  · rw [h3] at hk
    rw [List.getElem?_set, if_neg (by omega), e3, if_pos (by omega), List.getElem?_take_of_lt (by omega), List.getElem?_drop]
    have : sp = startPos := by
      by_contra hc
      have : sp = (str source).length := by rw [← hsp]; split <;> [rfl; (rw [← hsp, if_neg (by assumption)] at hc; exact absurd rfl hc)]
      omega
    rw [this]
  · rw [h3, ← h4, List.getElem?_set, if_pos rfl, if_pos (by simp only [e2]; omega)]

example : extract (w! "abcdef" ++ [0]) 2 3 [7, 7, 7, 7, 7] = some (w! "cde" ++ [0, 7]) := by decide
example : extract (w! "abcdef" ++ [0]) 1 9 [7, 7, 7] = some (w! "bc" ++ [0]) := by decide
example : extract (w! "abc" ++ [0]) 4 9 [7, 7, 7] = some [0, 7, 7] := by decide

/-- **C84 (Delete).**  The given number of characters from the position on, or those there are, are removed. -/
theorem C84_delete {s : List Nat} (startPos number : Nat) (hs : 0 ∈ s) :
    ∃ d, delete s startPos number = some d ∧ Assigned s ((str s).take startPos ++ (str s).drop (startPos + number)) d := by
  have he := (ends_iff s).1 hs
  have hne : s ≠ [] := List.ne_nil_of_mem hs
  have hz : 0 ∉ (str s).take startPos ++ (str s).drop (startPos + number) := by
    rw [List.mem_append, not_or]
    exact ⟨fun h => str_nz s (List.mem_of_mem_take h), fun h => str_nz s (List.mem_of_mem_drop h)⟩
  unfold delete
  rw [length_eq, Option.bind_some]
  by_cases h1 : startPos + number < (str s).length
  · rw [if_pos h1]
    obtain ⟨D, e1, e2, e3⟩ := deleteLoop_ok s number ((str s).length - number) (by omega) (s.length + 1) s startPos startPos (by omega) (by omega)
      (by omega) rfl (fun k => by rw [if_neg (by omega)])
    have hl : ((str s).take startPos ++ (str s).drop (startPos + number)).length = (str s).length - number := by
      simp; omega
    refine ⟨D, e1, assigned_of hne hz e2 (fun k hk => ?_) ?_⟩
    · rw [hl] at hk
      rw [e3]
      by_cases hk2 : k < startPos
      · rw [if_neg (by omega), List.getElem?_append_left (by simp; omega), List.getElem?_take_of_lt hk2, str_get s (by omega)]
      · rw [if_pos (by omega), List.getElem?_append_right (by simp; omega), List.getElem?_drop, str_get s (by omega)]
        congr 1
        simp; omega
    · rw [hl, show min ((str s).length - number) (s.length - 1) = (str s).length - number by omega, e3, if_pos (by omega),
        show (str s).length - number + number = (str s).length by omega]
      exact str_end s he
  · rw [if_neg h1]
    have hd : (str s).drop (startPos + number) = [] := List.drop_eq_nil_of_le (by omega)
    rw [hd, List.append_nil] at hz ⊢
    by_cases h2 : startPos < (str s).length
    · rw [if_pos h2, put_ok _ (by omega)]
      have hl : ((str s).take startPos).length = startPos := by simp; omega
      refine ⟨_, rfl, assigned_of hne hz (by simp) (fun k hk => ?_) ?_⟩
      · rw [hl] at hk
        rw [List.getElem?_set, if_neg (by omega), List.getElem?_take_of_lt (by omega), str_get s (by omega)]
      · rw [hl, show min startPos (s.length - 1) = startPos by omega, List.getElem?_set, if_pos rfl, if_pos (by omega)]
    · rw [if_neg h2, List.take_of_length_le (by omega)]
      exact ⟨s, rfl, rfl, hs, (List.take_of_length_le (by omega)).symm⟩

example : delete (w! "abcdef" ++ [0]) 1 2 = some (w! "adef" ++ [0] ++ w! "f" ++ [0]) := by decide
example : delete (w! "abcdef" ++ [0]) 4 9 = some (w! "abcd" ++ [0] ++ w! "f" ++ [0]) := by decide
example : delete (w! "abcdef" ++ [0]) 6 1 = some (w! "abcdef" ++ [0]) := by decide

/-- **C84 (Insert).**  The destination is split at the position, and holds the first part, the source and the second part, cut at its capacity. -/
theorem C84_insert {source dest : List Nat} {startPos : Nat} (hs : 0 ∈ source) (hd : 0 ∈ dest) (hp : startPos ≤ (str dest).length) :
    ∃ d, insert source startPos dest = some d ∧ Assigned dest ((str dest).take startPos ++ str source ++ (str dest).drop startPos) d := by
  have he := (ends_iff dest).1 hd
  have hes := (ends_iff source).1 hs
  have hne : dest ≠ [] := List.ne_nil_of_mem hd
  have hz : 0 ∉ (str dest).take startPos ++ str source ++ (str dest).drop startPos := by
    rw [List.mem_append, List.mem_append, not_or, not_or]
    exact ⟨⟨fun h => str_nz dest (List.mem_of_mem_take h), str_nz source⟩, fun h => str_nz dest (List.mem_of_mem_drop h)⟩
  have hlen : ((str dest).take startPos ++ str source ++ (str dest).drop startPos).length = (str dest).length + (str source).length := by
    simp; omega
  unfold insert
  rw [length_eq, Option.bind_some, length_eq, Option.bind_some]
  unfold insertRoom
  by_cases h1 : startPos + (str source).length < dest.length - 1
  · rw [if_pos h1]
    -- the destination after its tail has been moved; `m` characters of it are kept
    have key : ∃ D, (if (str dest).length + (str source).length > dest.length - 1 then
        (put dest (dest.length - 1 - (str source).length) 0).bind fun dest' =>
          moveTail (str source).length startPos (dest.length - 1 - (str source).length + 1) dest'
        else moveTail (str source).length startPos ((str dest).length + 1) dest) = some D ∧ D.length = dest.length ∧
        (∀ k, k < startPos → D[k]? = (str dest)[k]?) ∧
        (∀ k, startPos + (str source).length ≤ k → k < min ((str dest).length + (str source).length) (dest.length - 1) →
          D[k]? = (str dest)[k - (str source).length]?) ∧
        D[min ((str dest).length + (str source).length) (dest.length - 1)]? = some 0 := by
      by_cases h2 : (str dest).length + (str source).length > dest.length - 1
      · rw [if_pos h2, put_ok _ (by omega), Option.bind_some]
        obtain ⟨D, e1, e2, e3⟩ := moveTail_ok (dest.set (dest.length - 1 - (str source).length) 0) (dest.length - 1 - (str source).length)
          (str source).length startPos (by simp; omega) (dest.length - 1 - (str source).length + 1) _ (by omega) (Or.inr rfl) rfl
          (fun i => by rw [if_neg (by omega)])
        refine ⟨D, e1, by simpa using e2, fun k hk => ?_, fun k hk1 hk2 => ?_, ?_⟩
        · rw [e3, if_neg (by omega), List.getElem?_set, if_neg (by omega), str_get dest (by omega)]
        · rw [e3, if_pos (by omega), List.getElem?_set, if_neg (by omega), str_get dest (by omega)]
        · rw [e3, if_pos (by omega), List.getElem?_set, if_pos (by omega), if_pos (by omega)]
      · rw [if_neg h2]
        obtain ⟨D, e1, e2, e3⟩ := moveTail_ok dest (str dest).length (str source).length startPos (by omega) ((str dest).length + 1) dest (by omega)
          (Or.inr rfl) rfl (fun i => by rw [if_neg (by omega)])
        refine ⟨D, e1, e2, fun k hk => ?_, fun k hk1 hk2 => ?_, ?_⟩
        · rw [e3, if_neg (by omega), str_get dest (by omega)]
        · rw [e3, if_pos (by omega), str_get dest (by omega)]
        · rw [e3, if_pos (by omega), show min ((str dest).length + (str source).length) (dest.length - 1) - (str source).length = (str dest).length by omega]
          exact str_end dest he
    obtain ⟨D, e1, e2, e3, e4, e5⟩ := key
    rw [e1, Option.map_some, Option.bind_some]
    dsimp only
    obtain ⟨R, f1, f2, f3⟩ := copyLoop_ok source (str source).length startPos (str_le source) (source.length + 1) D 0 (by omega) (by omega) (by omega)
    refine ⟨R, f1, assigned_of hne hz (by omega) (fun k hk => ?_) ?_⟩
    · rw [hlen] at hk
      rw [ins_get _ _ _ _ hp, f3]
      by_cases c1 : k < startPos
      · rw [if_neg (by omega), if_pos c1, e3 k c1]
      · rw [if_neg c1]
        by_cases c2 : k < startPos + (str source).length
        · rw [if_pos (by omega), if_pos c2, str_get source (by omega)]
        · rw [if_neg (by omega), if_neg c2, e4 k (by omega) hk]
    · rw [hlen, f3, if_neg (by omega)]
      exact e5
  · rw [if_neg h1, if_pos hp, put_ok _ (by omega), Option.map_some, Option.bind_some]
    dsimp only
    obtain ⟨R, f1, f2, f3⟩ := copyLoop_ok source (dest.length - 1 - startPos) startPos (by omega) (source.length + 1) (dest.set (dest.length - 1) 0) 0
      (by omega) (by omega) (by simp; omega)
    refine ⟨R, f1, assigned_of hne hz (by simpa using f2) (fun k hk => ?_) ?_⟩
    · rw [hlen] at hk
      rw [ins_get _ _ _ _ hp, f3]
      by_cases c1 : k < startPos
      · rw [if_neg (by omega), if_pos c1, List.getElem?_set, if_neg (by omega), str_get dest (by omega)]
      · rw [if_neg c1, if_pos (by omega), if_pos (by omega), str_get source (by omega)]
    · rw [hlen, show min ((str dest).length + (str source).length) (dest.length - 1) = dest.length - 1 by omega, f3, if_neg (by omega),
        List.getElem?_set, if_pos rfl, if_pos (by omega)]

example : insert (w! "xy" ++ [0]) 1 (w! "abc" ++ [0, 7, 7, 7]) = some (w! "axybc" ++ [0, 7]) := by decide
example : insert (w! "xy" ++ [0]) 1 (w! "abc" ++ [0, 7]) = some (w! "axyb" ++ [0]) := by decide
example : insert (w! "uvwxyz" ++ [0]) 2 (w! "abc" ++ [0]) = some (w! "abu" ++ [0]) := by decide

/-- **C84 (Insert behind the end)** does not change the string. -/
theorem C84_insert_behind {source dest : List Nat} {startPos : Nat} (hs : 0 ∈ source) (hd : 0 ∈ dest) (hp : (str dest).length < startPos) :
    ∃ d, insert source startPos dest = some d ∧ Assigned dest (str dest) d := by
  have he := (ends_iff dest).1 hd
  have hne : dest ≠ [] := List.ne_nil_of_mem hd
  unfold insert
  rw [length_eq, Option.bind_some, length_eq, Option.bind_some]
  unfold insertRoom
  have same : Assigned dest (str dest) dest := ⟨rfl, hd, (List.take_of_length_le (by omega)).symm⟩
  by_cases h1 : startPos + (str source).length < dest.length - 1
  · rw [if_pos h1, if_neg (by omega)]
    have hm : moveTail (str source).length startPos ((str dest).length + 1) dest = some dest := by
      rw [moveTail, if_neg (by omega)]
    rw [hm, Option.map_some, Option.bind_some]
    dsimp only
    obtain ⟨R, f1, f2, f3⟩ := copyLoop_ok source (str source).length startPos (str_le source) (source.length + 1) dest 0 (by omega)
      (by have := str_le source; omega) (by omega)
    refine ⟨R, f1, assigned_of hne (str_nz _) f2 (fun k hk => ?_) ?_⟩
    · rw [f3, if_neg (by omega), str_get dest (by omega)]
    · rw [show min (str dest).length (dest.length - 1) = (str dest).length by omega, f3, if_neg (by omega)]
      exact str_end dest he
  · rw [if_neg h1, if_neg (by omega), Option.bind_some]
    dsimp only
    refine ⟨dest, ?_, same⟩
    rw [copyLoop, if_neg (by omega)]

example : insert (w! "xy" ++ [0]) 4 (w! "abc" ++ [0, 7, 7, 7, 7, 7]) = some (w! "abc" ++ [0] ++ w! "xy" ++ [7, 7, 7]) := by decide

/-- **C84 (Replace).**  The characters from the position on are replaced by those of the source, as far as both strings go; the length does not change. -/
theorem C84_replace {source dest : List Nat} (startPos : Nat) (hs : 0 ∈ source) (hd : 0 ∈ dest) :
    ∃ d, replace source startPos dest = some d ∧
      Assigned dest ((str dest).take startPos ++ (str source).take ((str dest).length - startPos) ++ (str dest).drop (startPos + (str source).length)) d := by
  have he := (ends_iff dest).1 hd
  have hne : dest ≠ [] := List.ne_nil_of_mem hd
  unfold replace
  rw [length_eq, Option.bind_some]
  by_cases h1 : startPos < (str dest).length
  · rw [if_pos h1]
    obtain ⟨D, e1, e2, e3⟩ := replaceLoop_ok hs (str dest).length (dest.length + 1) dest startPos 0 (by omega) he (by omega) (by omega)
    have hlen : ((str dest).take startPos ++ (str source).take ((str dest).length - startPos) ++ (str dest).drop (startPos + (str source).length)).length =
        (str dest).length := by
      simp; omega
    refine ⟨D, e1, assigned_of hne ?_ e2 (fun k hk => ?_) ?_⟩
    · rw [List.mem_append, List.mem_append, not_or, not_or]
      exact ⟨⟨fun h => str_nz dest (List.mem_of_mem_take h), fun h => str_nz source (List.mem_of_mem_take h)⟩,
        fun h => str_nz dest (List.mem_of_mem_drop h)⟩
    · rw [hlen] at hk
      rw [e3]
      by_cases c1 : k < startPos
      · rw [if_neg (by omega), List.append_assoc, List.getElem?_append_left (by simp; omega), List.getElem?_take_of_lt c1, str_get dest (by omega)]
      · by_cases c2 : k - startPos < (str source).length
        · rw [if_pos (by omega), List.getElem?_append_left (by simp; omega), List.getElem?_append_right (by simp; omega),
            List.getElem?_take_of_lt (by simp; omega)]
          congr 1
          simp; omega
        · rw [if_neg (by omega), List.getElem?_append_right (by simp; omega), List.getElem?_drop, str_get dest (by omega)]
          congr 1
          simp; omega
    · rw [hlen, show min (str dest).length (dest.length - 1) = (str dest).length by omega, e3, if_neg (by omega)]
      exact str_end dest he
  · rw [if_neg h1, List.take_of_length_le (by omega), show (str dest).length - startPos = 0 by omega, List.take_zero, List.append_nil,
      List.drop_eq_nil_of_le (by omega), List.append_nil]
    exact ⟨dest, rfl, rfl, hd, (List.take_of_length_le (by omega)).symm⟩

example : replace (w! "xy" ++ [0]) 1 (w! "abcd" ++ [0]) = some (w! "axyd" ++ [0]) := by decide
example : replace (w! "uvwxyz" ++ [0]) 2 (w! "abcd" ++ [0, 7]) = some (w! "abuv" ++ [0, 7]) := by decide

/-- **C84 (Append).**  The destination holds its string followed by the source, cut at its capacity. -/
theorem C84_append {source dest : List Nat} (hs : 0 ∈ source) (hd : 0 ∈ dest) :
    ∃ d, append source dest = some d ∧ Assigned dest (str dest ++ str source) d := by
  have he := (ends_iff dest).1 hd
  have hne : dest ≠ [] := List.ne_nil_of_mem hd
  unfold append
  rw [length_eq, Option.bind_some]
  obtain ⟨D, e1, e2, e3⟩ := appendLoop_ok hs (dest.length + 1) dest (str dest).length 0 he (by omega) (by omega)
  rw [e1, Option.bind_some, put_ok _ (by simp only [e2]; omega)]
  have hm : (str dest).length + min ((str source).length - 0) (dest.length - 1 - (str dest).length) =
      min (str dest ++ str source).length (dest.length - 1) := by
    rw [List.length_append]; omega
  refine ⟨_, rfl, assigned_of hne ?_ (by simp [e2]) (fun k hk => ?_) ?_⟩
  · rw [List.mem_append, not_or]; exact ⟨str_nz _, str_nz _⟩
  · dsimp only
    rw [List.getElem?_set, if_neg (by omega), e3]
    by_cases hk2 : k < (str dest).length
    · rw [if_neg (by omega), List.getElem?_append_left hk2, str_get dest hk2]
    · rw [if_pos (by omega), List.getElem?_append_right (by omega), Nat.add_zero]
  · dsimp only
    rw [hm, List.getElem?_set, if_pos rfl, if_pos (by omega)]

example : append (w! "xyz" ++ [0]) (w! "ab" ++ [0, 7, 7]) = some (w! "abxy" ++ [0]) := by decide

/-- **C84 (Concat).**  The destination holds the two strings one after the other, cut at its capacity. -/
theorem C84_concat {source1 source2 dest : List Nat} (h1 : 0 ∈ source1) (h2 : 0 ∈ source2) (hd : dest ≠ []) :
    ∃ d, concat source1 source2 dest = some d ∧ Assigned dest (str source1 ++ str source2) d := by
  have hp : 0 < dest.length := List.length_pos_iff.2 hd
  unfold concat
  rw [concatLoop_eq h1 _ _ _ _ (by omega)]
  obtain ⟨D, e1, e2, e3⟩ := appendLoop_ok h1 (dest.length + 1) dest 0 0 hp (by omega) (by omega)
  rw [e1, Option.bind_some, concatLoop_eq h2 _ _ _ _ (by omega)]
  dsimp only
  obtain ⟨E, f1, f2, f3⟩ := appendLoop_ok h2 (dest.length + 1) D (0 + min ((str source1).length - 0) (dest.length - 1 - 0)) 0 (by omega) (by omega) (by omega)
  rw [f1, Option.bind_some, put_ok _ (by simp only [f2]; omega)]
  have hl := @List.length_append Nat (str source1) (str source2)
  refine ⟨_, rfl, assigned_of hd ?_ (by simp [f2, e2]) (fun k hk => ?_) ?_⟩
  · rw [List.mem_append, not_or]; exact ⟨str_nz _, str_nz _⟩
  · dsimp only
    rw [List.getElem?_set, if_neg (by omega), f3]
    by_cases hk2 : k < (str source1).length
    · rw [if_neg (by omega), List.getElem?_append_left hk2, e3, if_pos (by omega)]
      simp
    · rw [if_pos (by omega), List.getElem?_append_right (by omega), Nat.add_zero]
      congr 1
      omega
  · dsimp only
    rw [List.getElem?_set, if_pos (by omega), if_pos (by omega)]

example : concat (w! "ab" ++ [0]) (w! "cde" ++ [0]) [7, 7, 7, 7, 7] = some (w! "abcd" ++ [0]) := by decide
example : concat (w! "ab" ++ [0]) (w! "c" ++ [0]) [7, 7, 7, 7, 7] = some (w! "abc" ++ [0, 7]) := by decide

/-! ### The predicates -/

theorem take_len {t a : List Nat} (ha : a ≠ []) : t.take (a.length - 1) = t ↔ t.length < a.length := by
  have hp : 0 < a.length := List.length_pos_iff.2 ha
  constructor
  · intro h
    have := congrArg List.length h
    rw [List.length_take] at this
    omega
  · intro h; exact List.take_of_length_le (by omega)

/-- **C84 (predicates for Assign, Append, Concat).**  Each tells whether the operation will be complete: TRUE exactly if the string assigned is not cut. -/
theorem C84_can {source source2 dest : List Nat} (hs : 0 ∈ source) (hs2 : 0 ∈ source2) (hd : 0 ∈ dest) :
    (canAssignAll (str source).length dest = true ↔ ∀ d, assign source dest = some d → str d = str source) ∧
    (canAppendAll (str source).length dest = some true ↔ ∀ d, append source dest = some d → str d = str dest ++ str source) ∧
    (canConcatAll (str source).length (str source2).length dest = true ↔ ∀ d, concat source source2 dest = some d → str d = str source ++ str source2) := by
  have hne : dest ≠ [] := List.ne_nil_of_mem hd
  have main : ∀ {o : Option (List Nat)} {t : List Nat}, (∃ d, o = some d ∧ Assigned dest t d) →
      (t.length < dest.length ↔ ∀ d, o = some d → str d = t) := by
    rintro o t ⟨d, e, _, _, h3⟩
    subst e
    constructor
    · intro h d' hd'
      rw [← Option.some.inj hd', h3]
      exact (take_len hne).2 h
    · intro h
      have := h d rfl
      rw [h3] at this
      exact (take_len hne).1 this
  refine ⟨?_, ?_, ?_⟩
  · rw [← main (C84_assign hs hne)]
    simp [canAssignAll]
  · rw [← main (C84_append hs hd)]
    simp [canAppendAll, length_eq]
  · rw [← main (C84_concat hs hs2 hne)]
    simp [canConcatAll]

/-- **C84 (predicate for Extract).**  TRUE exactly if the characters are all in the source, and all are assigned. -/
theorem C84_can_extract {source dest : List Nat} (startPos number : Nat) (hs : 0 ∈ source) (hd : dest ≠ []) :
    canExtractAll (str source).length startPos number dest = true ↔
      startPos + number ≤ (str source).length ∧ ∀ d, extract source startPos number dest = some d → (str d).length = number := by
  have hp : 0 < dest.length := List.length_pos_iff.2 hd
  obtain ⟨d, e, _, _, h3⟩ := C84_extract startPos number hs hd
  have hl : (str d).length = min (min number ((str source).length - startPos)) (dest.length - 1) := by
    rw [h3]; simp; omega
  simp only [canExtractAll, Bool.and_eq_true, decide_eq_true_eq]
  constructor
  · rintro ⟨a, b⟩
    refine ⟨a, fun d' hd' => ?_⟩
    rw [e] at hd'
    rw [← Option.some.inj hd', hl]
    omega
  · rintro ⟨a, b⟩
    have := b d e
    exact ⟨a, by omega⟩

/-- **C84 (predicate for Delete).**  TRUE exactly if the position is in the string (or at its end) and the string becomes shorter by the number given. -/
theorem C84_can_delete {s : List Nat} (startPos number : Nat) (hs : 0 ∈ s) :
    canDeleteAll (str s).length startPos number = true ↔
      startPos ≤ (str s).length ∧ ∀ d, delete s startPos number = some d → (str d).length + number = (str s).length := by
  have he := (ends_iff s).1 hs
  obtain ⟨d, e, _, _, h3⟩ := C84_delete startPos number hs
  have hl : (str d).length = min startPos (str s).length + ((str s).length - (startPos + number)) := by
    rw [h3]; simp; omega
  simp only [canDeleteAll, decide_eq_true_eq]
  constructor
  · intro a
    refine ⟨by omega, fun d' hd' => ?_⟩
    rw [e] at hd'
    rw [← Option.some.inj hd', hl]
    omega
  · rintro ⟨a, b⟩
    have := b d e
    omega

/-- **C84 (predicate for Insert).**  TRUE exactly if the position is in the string (or at its end) and nothing is cut. -/
theorem C84_can_insert {source dest : List Nat} (startPos : Nat) (hs : 0 ∈ source) (hd : 0 ∈ dest) :
    canInsertAll (str source).length startPos dest = some true ↔
      startPos ≤ (str dest).length ∧
        ∀ d, insert source startPos dest = some d → str d = (str dest).take startPos ++ str source ++ (str dest).drop startPos := by
  have hne : dest ≠ [] := List.ne_nil_of_mem hd
  simp only [canInsertAll, length_eq, Option.map_some, Option.some.injEq, Bool.and_eq_true, decide_eq_true_eq]
  refine and_congr_right fun hp => ?_
  obtain ⟨d, e, _, _, h3⟩ := C84_insert hs hd hp
  have hlen : ((str dest).take startPos ++ str source ++ (str dest).drop startPos).length = (str source).length + (str dest).length := by
    simp; omega
  constructor
  · intro a d' hd'
    rw [e] at hd'
    rw [← Option.some.inj hd', h3]
    exact (take_len hne).2 (by omega)
  · intro b
    have := b d e
    rw [h3, take_len hne] at this
    omega

/-- **C84 (predicate for Replace).**  TRUE exactly if the position is in the string (or at its end) and all of the source is copied. -/
theorem C84_can_replace {source dest : List Nat} (startPos : Nat) (hs : 0 ∈ source) (hd : 0 ∈ dest) :
    canReplaceAll (str source).length startPos dest = some true ↔
      startPos ≤ (str dest).length ∧ ∀ d, replace source startPos dest = some d → str source <+: (str d).drop startPos := by
  have he := (ends_iff dest).1 hd
  obtain ⟨d, e, _, _, h3⟩ := C84_replace startPos hs hd
  simp only [canReplaceAll, length_eq, Option.map_some, Option.some.injEq, decide_eq_true_eq]
  constructor
  · intro a
    refine ⟨by omega, fun d' hd' => ?_⟩
    rw [e] at hd'
    rw [← Option.some.inj hd', h3, List.take_of_length_le (by simp; omega), List.take_of_length_le (l := str source) (by omega), List.append_assoc]
    have hl : ((str dest).take startPos).length = startPos := by simp; omega
    rw [List.drop_append_of_le_length (by omega), List.drop_eq_nil_of_le (by omega), List.nil_append]
    exact List.prefix_append _ _
  · rintro ⟨a, b⟩
    have := (b d e).length_le
    rw [List.length_drop, h3] at this
    simp only [List.length_take, List.length_append, List.length_drop] at this
    omega

example : canInsertAll 2 1 (w! "abc" ++ [0, 7, 7]) = some true ∧ canInsertAll 2 1 (w! "abc" ++ [0, 7]) = some false ∧
    canInsertAll 2 4 (w! "abc" ++ [0, 7, 7, 7, 7]) = some false := by decide
example : canReplaceAll 2 1 (w! "abc" ++ [0]) = some true ∧ canReplaceAll 3 1 (w! "abc" ++ [0, 7]) = some false := by decide

/-! ### Comparison and search -/

/-- **C84 (Compare).**  The strings are compared by the order of the dictionary. -/
theorem C84_compare {a b : List Nat} (ha : 0 ∈ a) (hb : 0 ∈ b) :
    compare a b = some (if str a < str b then -1 else if str a = str b then 0 else 1) := by
  unfold compare
  have hea := (ends_iff a).1 ha
  obtain ⟨j, e1, e2, e3, e4, e5⟩ := diffLoop_ok ha hb (a.length + 1) 0 (by omega) (by omega) (by omega) rfl
  rw [e1, Option.bind_some, get_str ha e2, Option.bind_some, get_str hb e3, Option.map_some]
  obtain ⟨o1, o2, o3⟩ := order_of (str_nz a) (str_nz b) e2 e3 e4
  congr 1
  by_cases h1 : (str a).getD j 0 < (str b).getD j 0
  · rw [if_pos h1, if_pos (o1 h1)]
  · rw [if_neg h1]
    by_cases h2 : (str a).getD j 0 > (str b).getD j 0
    · have := o2 h2
      rw [if_pos h2, if_neg (fun h => List.lt_irrefl _ (List.lt_trans h this)), if_neg]
      intro h
      rw [h] at this
      exact List.lt_irrefl _ this
    · rw [if_neg h2]
      have h3 : (str a).getD j 0 = (str b).getD j 0 := by omega
      rcases e5 with e5 | e5
      · exact absurd h3 e5
      · have := o3 h3 e5
        rw [if_neg (by rw [this]; exact List.lt_irrefl _), if_pos this]

/-- **C84 (Equal, FindDiff).**  TRUE exactly if the strings are equal; the position of the first difference, and none exactly if they are equal. -/
theorem C84_equal {a b : List Nat} (ha : 0 ∈ a) (hb : 0 ∈ b) :
    equal a b = some (decide (str a = str b)) ∧
    ((str a = str b ∧ findDiff a b = some none) ∨ ∃ i, findDiff a b = some (some i) ∧ FirstDiff (str a) (str b) i) := by
  unfold equal findDiff
  have hea := (ends_iff a).1 ha
  obtain ⟨j, e1, e2, e3, e4, e5⟩ := diffLoop_ok ha hb (a.length + 1) 0 (by omega) (by omega) (by omega) rfl
  rw [e1, Option.bind_some, Option.bind_some, get_str ha e2, Option.bind_some, Option.bind_some, get_str hb e3, Option.map_some, Option.map_some]
  obtain ⟨o1, o2, o3⟩ := order_of (str_nz a) (str_nz b) e2 e3 e4
  by_cases h : (str a).getD j 0 = (str b).getD j 0
  · rcases e5 with e5 | e5
    · exact absurd h e5
    · have he := o3 h e5
      have h0 : (str a).getD j 0 = 0 := by
        by_contra hc
        have := getD_ne.1 hc
        omega
      rw [if_pos h0, if_neg (by simpa using h0), if_neg (by rw [← h]; simpa using h0)]
      refine ⟨?_, Or.inl ⟨he, rfl⟩⟩
      rw [← h, h0]
      simp [he]
  · have hne : str a ≠ str b := fun hc => h (by rw [hc])
    have hfd : FirstDiff (str a) (str b) j := by
      refine ⟨e4, fun hc => h ?_⟩
      rw [List.getD_eq_getElem?_getD, List.getD_eq_getElem?_getD, hc]
    by_cases h0 : (str a).getD j 0 = 0
    · rw [if_pos h0, if_neg (by simpa using h0), if_pos (by rw [h0] at h; exact fun hc => h hc.symm)]
      refine ⟨?_, Or.inr ⟨j, rfl, hfd⟩⟩
      rw [h0] at h
      have hb' : ((str b).getD j 0 == 0) = false := by
        rw [beq_eq_false_iff_ne]; exact fun hc => h hc.symm
      rw [hb']
      simp [hne]
    · rw [if_neg h0, if_pos h0]
      refine ⟨?_, Or.inr ⟨j, rfl, hfd⟩⟩
      simp [hne]

example : compare (w! "abc" ++ [0]) (w! "abd" ++ [0]) = some (-1) ∧ compare (w! "abc" ++ [0]) (w! "ab" ++ [0]) = some 1 ∧
    findDiff (w! "abc" ++ [0]) (w! "ab" ++ [0]) = some (some 2) := by decide

/-- **C84 (FindNext).**  From a position in the string, the first occurrence from there on is found; the pattern is not found exactly if there is none.  From
a position behind the string nothing is found. -/
theorem C84_findNext {pattern s : List Nat} (startPos : Nat) (hp : 0 ∈ pattern) (hs : 0 ∈ s) :
    (startPos < (str s).length → (∃ i, findNext pattern s startPos = some (some i) ∧ FirstAt (str pattern) (str s) startPos i ∧ i ≤ (str s).length) ∨
      (findNext pattern s startPos = some none ∧ ∀ j, startPos ≤ j → j ≤ (str s).length → ¬ str pattern <+: (str s).drop j)) ∧
    ((str s).length ≤ startPos → findNext pattern s startPos = some none) := by
  unfold findNext
  rw [length_eq, Option.bind_some]
  have hes := (ends_iff s).1 hs
  have hep := (ends_iff pattern).1 hp
  constructor
  · intro h
    rw [if_pos h]
    refine nextLoop_ok hp hs startPos _ startPos 0 (by omega) (by omega) (by omega) ?_ (by omega) (by omega)
    have h1 : ((str s).length - startPos + 1) * ((str pattern).length + 1) ≤ (s.length + 1) * (pattern.length + 1) :=
      Nat.mul_le_mul (by omega) (by omega)
    rw [Nat.succ_mul] at h1
    omega
  · intro h
    rw [if_neg (by omega)]

/-- **C84 (FindPrev).**  The last occurrence up to the position is found; the pattern is not found exactly if there is none. -/
theorem C84_findPrev {pattern s : List Nat} (startPos : Int) (hp : 0 ∈ pattern) (hs : 0 ∈ s) :
    (∃ i, findPrev pattern s startPos = some (some i) ∧ LastAt (str pattern) (str s) startPos i) ∨
    (findPrev pattern s startPos = some none ∧
      ∀ j : Nat, (j : Int) ≤ startPos → j + (str pattern).length ≤ (str s).length → ¬ str pattern <+: (str s).drop j) := by
  unfold findPrev
  rw [length_eq, Option.bind_some, length_eq, Option.bind_some]
  dsimp only
  have hes := (ends_iff s).1 hs
  have hep := (ends_iff pattern).1 hp
  generalize hx : (if startPos > ((str s).length : Int) - (str pattern).length then ((str s).length : Int) - (str pattern).length else startPos) = x
  have hx1 : x ≤ startPos ∧ x ≤ ((str s).length : Int) - (str pattern).length := by rw [← hx]; split <;> omega
  have hx2 : x = startPos ∨ x = ((str s).length : Int) - (str pattern).length := by rw [← hx]; split <;> simp
  by_cases h : x ≥ 0
  · rw [if_pos h]
    refine prevLoop_ok hp hs startPos _ x.toNat 0 (by omega) (by omega) (by omega) ?_ (by omega) (fun j hj hq hl => by omega)
    have h1 : (x.toNat + 1) * ((str pattern).length + 1) ≤ (s.length + 1) * (pattern.length + 1) := Nat.mul_le_mul (by omega) (by omega)
    rw [Nat.succ_mul] at h1
    omega
  · rw [if_neg h]
    right
    exact ⟨rfl, fun j hj hl => by omega⟩

example : findNext (w! "ab" ++ [0]) (w! "aabab" ++ [0]) 0 = some (some 1) ∧ findNext (w! "ab" ++ [0]) (w! "aabab" ++ [0]) 2 = some (some 3) ∧
    findNext (w! "ab" ++ [0]) (w! "aabab" ++ [0]) 4 = some none ∧ findPrev (w! "ab" ++ [0]) (w! "aabab" ++ [0]) 9 = some (some 3) ∧
    findPrev (w! "ab" ++ [0]) (w! "aabab" ++ [0]) 2 = some (some 1) ∧ findPrev (w! "ab" ++ [0]) (w! "aabab" ++ [0]) 0 = some none := by decide

/-! ### Capitalize -/

/-- What `Capitalize` does: `CAP` is applied to every character; where this gives 0X, the string ends. -/
theorem capitalize_eq {s : List Nat} (hs : 0 ∈ s) :
    ∃ d, capitalize s = some d ∧ d.length = s.length ∧ 0 ∈ d ∧ str d = ((str s).map cap).takeWhile (· ≠ 0) := by
  rcases str_cases s with ⟨_, h⟩ | ⟨r, h⟩
  · exact absurd hs h
  · have h1 := capLoop_ok (s.length + 1) [] (str s) r (str_nz s) (by have := str_le s; omega)
    rw [List.nil_append, ← h] at h1
    refine ⟨_, h1, ?_, by simp, ?_⟩
    · conv_rhs => rw [h]
      simp
    · rw [List.nil_append]
      unfold str
      generalize (List.takeWhile (fun x => decide (x ≠ 0)) s).map cap = l
      induction l with
      | nil => simp
      | cons c l ih =>
        rw [List.cons_append, List.takeWhile_cons, List.takeWhile_cons, ih]

/-- **C84 (Capitalize).**  In a string of letters every letter is replaced by the capital letter.  Missing: other characters (`C84_capitalize_space`). -/
theorem C84_capitalize_partial {s : List Nat} (hs : 0 ∈ s) (hl : ∀ c ∈ str s, (65 ≤ c ∧ c ≤ 90) ∨ (97 ≤ c ∧ c ≤ 122)) :
    ∃ d, capitalize s = some d ∧ Assigned s ((str s).map upper) d := by
  have he := (ends_iff s).1 hs
  obtain ⟨d, e1, e2, e3, e4⟩ := capitalize_eq hs
  refine ⟨d, e1, e2, e3, ?_⟩
  have hm : (str s).map cap = (str s).map upper := by
    refine List.map_congr_left fun c hc => ?_
    have hc' : c < 128 := by rcases hl c hc with h | h <;> omega
    have hall : ∀ c : Fin 128, (65 ≤ c.1 ∧ c.1 ≤ 90) ∨ (97 ≤ c.1 ∧ c.1 ≤ 122) → cap c.1 = upper c.1 := by decide
    exact hall ⟨c, hc'⟩ (hl c hc)
  have h0 : 0 ∉ (str s).map upper := by
    intro hc
    obtain ⟨x, hx, h⟩ := List.mem_map.1 hc
    have := hl x hx
    simp only [upper] at h
    split at h <;> omega
  rw [e4, hm]
  refine (str_full h0).trans ?_
  rw [List.take_of_length_le (by simp; omega)]

example : capitalize (w! "Oberon" ++ [0]) = some (w! "OBERON" ++ [0]) := by decide

/-- **C84 (deviation).**  `CAP` clears bits of every character: a space becomes a terminator, so that "ab cd" becomes "AB"; and a digit becomes a control
character. -/
theorem C84_capitalize_space : capitalize (w! "ab cd" ++ [0]) = some (w! "AB" ++ [0] ++ w! "CD" ++ [0]) ∧
    capitalize (w! "a1" ++ [0]) = some [65, 17, 0] := by decide

end Verif.OocStr
