import Verif.ShowDef.Spec
import Verif.Common

namespace Verif.ShowDef

/-- A text that does not go on with an identifier. -/
def Stop (s : List Char) : Prop := ∀ c, s.head? = some c → isId c = false

theorem word_append {n s : List Char} (hn : ∀ c ∈ n, isId c) (hs : Stop s) : word (n ++ s) = (n, s) := by
  induction n with
  | nil =>
    cases s with
    | nil => rfl
    | cons c s =>
      have h : isId c = false := hs c rfl
      simp [word, List.takeWhile, List.dropWhile, h]
  | cons c n ih =>
    have h : isId c = true := hn c (by simp)
    have ih := ih (fun d hd => hn d (by simp [hd]))
    simp only [word, Prod.mk.injEq] at ih
    simp only [word, List.cons_append, List.takeWhile, List.dropWhile, h, ih.1, ih.2]

theorem stop_follow {s : List Char} (h : Follow s) : Stop s := by
  intro c hc
  rcases h with h | h | h <;> rw [h] at hc <;> cases hc <;> decide

theorem stop_cons {c : Char} {s : List Char} (h : isId c = false) : Stop (c :: s) := by
  intro d hd
  cases hd
  exact h

theorem skip_append (p s : List Char) : skip p (p ++ s) = some s := by
  induction p with
  | nil => cases s <;> rfl
  | cons c p ih => simp [skip, ih]

theorem ident_head {n s : List Char} (h : Ident n) : ∃ c, (n ++ s).head? = some c ∧ isId c = true := by
  obtain ⟨h1, h2, _⟩ := h
  cases n with
  | nil => exact absurd rfl h1
  | cons c n => exact ⟨c, rfl, h2 c (by simp)⟩

theorem ident_head_ne {n s : List Char} (h : Ident n) {d : Char} (hd : isId d = false) : (n ++ s).head? ≠ some d := by
  obtain ⟨c, h1, h2⟩ := ident_head (s := s) h
  rw [h1]
  intro e
  cases e
  rw [h2] at hd
  cases hd

theorem blanks_indent (k : Nat) {s : List Char} (h : s.head? ≠ some ' ') : blanks (indent k ++ s) = s := by
  unfold indent
  generalize 2 * k = n
  induction n with
  | zero =>
    cases s with
    | nil => rfl
    | cons c s =>
      have : ¬ c = ' ' := fun e => h (by rw [e]; rfl)
      simp [blanks, List.dropWhile, this]
  | succ n ih =>
    simp only [blanks, List.replicate_succ, List.cons_append, List.dropWhile] at ih ⊢
    simpa using ih

theorem dig_facts : ∀ i < 16, dv (dig i) = i ∧ dig i ≠ 'H' := by decide

theorem dig_dec : ∀ i < 10, dv (dig i) = i ∧ isDigit (dig i) = true := by decide

theorem val_append (b : Nat) (s : List Char) (c : Char) : val b (s ++ [c]) = val b s * b + dv c := by
  simp [val, List.foldl_append]

theorem wh_ok (f i : Nat) (h : i < f) : val 16 (wh f i) = i ∧ ∀ c ∈ wh f i, c ≠ 'H' := by
  induction f generalizing i with
  | zero => omega
  | succ f ih =>
    have hd := dig_facts (i % 16) (Nat.mod_lt _ (by decide))
    unfold wh
    rw [val_append, hd.1]
    by_cases h1 : 16 ≤ i
    · have hi := ih (i / 16) (by omega)
      rw [if_pos h1, hi.1]
      refine ⟨by omega, ?_⟩
      intro c hc
      rw [List.mem_append, List.mem_singleton] at hc
      rcases hc with hc | rfl
      · exact hi.2 c hc
      · exact hd.2
    · rw [if_neg h1]
      by_cases h2 : 10 ≤ i
      · rw [if_pos h2]
        refine ⟨?_, ?_⟩
        · have : val 16 ['0'] = 0 := by decide
          rw [this]; omega
        · intro c hc
          rw [List.mem_append, List.mem_singleton, List.mem_singleton] at hc
          rcases hc with rfl | rfl
          · decide
          · exact hd.2
      · rw [if_neg h2]
        refine ⟨?_, ?_⟩
        · have : val 16 [] = 0 := by decide
          rw [this]; omega
        · intro c hc
          rw [List.nil_append, List.mem_singleton] at hc
          rw [hc]; exact hd.2

theorem wn_ok (f i : Nat) (h : i < f) : val 10 (wn f i) = i ∧ (∀ c ∈ wn f i, isDigit c = true) ∧ wn f i ≠ [] := by
  induction f generalizing i with
  | zero => omega
  | succ f ih =>
    have hd := dig_dec (i % 10) (Nat.mod_lt _ (by decide))
    unfold wn
    rw [val_append, hd.1]
    by_cases h1 : 10 ≤ i
    · have hi := ih (i / 10) (by omega)
      rw [if_pos h1, hi.1]
      refine ⟨by omega, ?_, by simp⟩
      intro c hc
      rw [List.mem_append, List.mem_singleton] at hc
      rcases hc with hc | rfl
      · exact hi.2.1 c hc
      · exact hd.2
    · rw [if_neg h1]
      refine ⟨?_, ?_, by simp⟩
      · have : val 10 [] = 0 := by decide
        rw [this]; omega
      · intro c hc
        rw [List.nil_append, List.mem_singleton] at hc
        rw [hc]; exact hd.2

theorem takeDrop {p : Char → Bool} {n s : List Char} (hn : ∀ c ∈ n, p c = true) (hs : ∀ c, s.head? = some c → p c = false) :
    (n ++ s).takeWhile p = n ∧ (n ++ s).dropWhile p = s := by
  induction n with
  | nil =>
    cases s with
    | nil => exact ⟨rfl, rfl⟩
    | cons c s =>
      have h : p c = false := hs c rfl
      simp [List.takeWhile, List.dropWhile, h]
  | cons c n ih =>
    have h : p c = true := hn c (by simp)
    obtain ⟨i1, i2⟩ := ih (fun d hd => hn d (by simp [hd]))
    simp only [List.cons_append, List.takeWhile, List.dropWhile, h, i1, i2, and_self]

theorem readFlag_ok (flag : Nat) {s : List Char} (h : s.head? ≠ some '[') : readFlag (sysFlag flag ++ s) = some (flag, s) := by
  unfold sysFlag
  by_cases h0 : flag = 0
  · rw [if_neg (by simp [h0]), h0, List.nil_append]
    cases s with
    | nil => rfl
    | cons c s =>
      unfold readFlag
      split
      · rename_i e; cases e; exact absurd rfl h
      · rfl
  · rw [if_pos h0]
    obtain ⟨w1, w2⟩ := wh_ok (flag + 1) flag (by omega)
    have htd := takeDrop (p := fun c => decide (c ≠ 'H')) (n := wh (flag + 1) flag) (s := 'H' :: ']' :: ' ' :: s)
      (fun c hc => by simpa using w2 c hc) (fun c hc => by cases hc; decide)
    have e : '[' :: (wh (flag + 1) flag ++ ['H', ']', ' ']) ++ s = '[' :: (wh (flag + 1) flag ++ 'H' :: ']' :: ' ' :: s) := by
      simp
    rw [e]
    simp only [readFlag]
    rw [htd.1, htd.2, w1]
    have := skip_append "H] ".toList s
    have e2 : "H] ".toList ++ s = 'H' :: ']' :: ' ' :: s := rfl
    rw [e2] at this
    rw [this]
    rfl

theorem not_reserved {n : Name} (h : Ident n) : n ≠ "POINTER".toList ∧ n ≠ "PROCEDURE".toList ∧ n ≠ "ARRAY".toList ∧
    n ≠ "RECORD".toList ∧ n ≠ "END".toList ∧ n ≠ "VAR".toList := by
  refine ⟨?_, ?_, ?_, ?_, ?_, ?_⟩ <;> intro e <;> exact h.2.2 (by rw [e]; decide)

theorem readVar_ok (var : Bool) {n s : List Char} (h : Ident n) (hs : Stop s) :
    readVar ((if var then "VAR ".toList else []) ++ (n ++ s)) = some (var, n, s) := by
  cases var
  · simp only [readVar, List.nil_append, Bool.false_eq_true, if_false, word_append h.2.1 hs]
    rw [if_neg (not_reserved h).2.2.2.2.2]
  · have e : (if true = true then "VAR ".toList else []) ++ (n ++ s) = "VAR".toList ++ (' ' :: (n ++ s)) := rfl
    rw [e]
    unfold readVar
    rw [word_append (by decide) (stop_cons (by decide))]
    dsimp only
    rw [if_pos rfl, show skip [' '] (' ' :: (n ++ s)) = some (n ++ s) from skip_append [' '] _, Option.map_some,
      word_append h.2.1 hs]

theorem readMark_ok (ro : Bool) {s : List Char} (h : s.head? ≠ some '-') :
    readMark ((if ro then ['-'] else []) ++ s) = (ro, s) := by
  cases ro
  · simp only [Bool.false_eq_true, if_false, List.nil_append]
    cases s with
    | nil => rfl
    | cons c s =>
      unfold readMark
      split
      · rename_i e; cases e; exact absurd rfl h
      · rfl
  · rfl

/-- The first word at the end of a record. -/
theorem mths_head (ms : Mths) {rest : List Char} (hr : Follow rest) :
    (word (blanks (wmthd ms ++ (indent 2 ++ ("END".toList ++ rest))))).1 = "END".toList ∨
    (word (blanks (wmthd ms ++ (indent 2 ++ ("END".toList ++ rest))))).1 = "PROCEDURE".toList := by
  have hend : (word (blanks (indent 2 ++ ("END".toList ++ rest)))).1 = "END".toList := by
    rw [blanks_indent 2 (by simp), word_append (by decide) (stop_follow hr)]
  match ms with
  | .nil => left; rw [wmthd, List.nil_append]; exact hend
  | .cons rvar rn rt n ps r ms =>
    rw [wmthd]
    by_cases h : n ≠ hdTProcName
    · right
      rw [if_pos h]
      generalize ((if rvar then "VAR ".toList else []) ++ (rn ++ (':' :: ' ' ::
        (wtype rt ++ (')' :: ' ' :: (n ++ (sign (r.isSome || !ps.isNil) (wpars ps) (wres r) ++ [';', '\n']))))))) = X
      have e : indent 3 ++ ("PROCEDURE (".toList ++ X) ++ wmthd ms ++ (indent 2 ++ ("END".toList ++ rest)) =
          indent 3 ++ ("PROCEDURE".toList ++ (' ' :: '(' :: (X ++ (wmthd ms ++ (indent 2 ++ ("END".toList ++ rest)))))) := by
        have : "PROCEDURE (".toList = "PROCEDURE".toList ++ [' ', '('] := by decide
        rw [this]; simp
      rw [e, blanks_indent 3 (by simp), word_append (by decide) (stop_cons (by decide))]
    · rw [if_neg h, List.nil_append]
      exact mths_head ms hr

end Verif.ShowDef
