import Verif.CStr.Model
import Verif.Common
import Mathlib.Order.Basic
import Mathlib.Data.List.Lex

/-!
C03: string comparison.  C04: COPY.
-/
namespace Verif.CStr

/-! ### Specification -/

/-- The array holds the string `s`: its characters up to the first 0X are `s`. -/
def Holds (x s : List Nat) : Prop := 0 ∉ s ∧ ∃ junk, x = s ++ 0 :: junk

/-- Lexicographic order: the first difference decides, a proper prefix is smaller. -/
def lexCmp : List Nat → List Nat → Ordering
  | [], [] => .eq
  | [], _ :: _ => .lt
  | _ :: _, [] => .gt
  | a :: s, b :: t => if a < b then .lt else if b < a then .gt else lexCmp s t

/-- What each operator means for an ordering. -/
def Rel.holds (r : Rel) (o : Ordering) : Bool :=
  match r with
  | .eql => o = .eq
  | .neq => o ≠ .eq
  | .lss => o = .lt
  | .leq => o ≠ .gt
  | .gtr => o = .gt
  | .geq => o ≠ .lt

/-! ### C03 -/

theorem holds_unique {x s t : List Nat} (h1 : Holds x s) (h2 : Holds x t) : s = t := by
  obtain ⟨a, j, rfl⟩ := h1
  obtain ⟨b, k, h⟩ := h2
  induction s generalizing t with
  | nil =>
    cases t with
    | nil => rfl
    | cons c t => simp at h b; omega
  | cons c s ih =>
    cases t with
    | nil => simp at h a; omega
    | cons d t =>
      simp at h a b
      rw [h.1, ih a.2 b.2 h.2]

theorem strCmpFrom_spec (p s t j k : List Nat) (q : List Nat) (hpq : p.length = q.length)
    (hs : 0 ∉ s) (ht : 0 ∉ t) :
    ∃ n, strCmpFrom (p ++ (s ++ 0 :: j)) (q ++ (t ++ 0 :: k)) p.length = some n ∧
      (lexCmp s t = .eq ↔ n = 0) ∧ (lexCmp s t = .lt ↔ n < 0) ∧ (lexCmp s t = .gt ↔ n > 0) := by
  induction s generalizing p q t with
  | nil =>
    rw [strCmpFrom, dif_pos (by simp)]
    have e1 : (p ++ ([] ++ 0 :: j))[p.length]'(by simp) = 0 := by simp
    rw [e1]
    cases t with
    | nil =>
      have e2 : (q ++ ([] ++ 0 :: k))[p.length]? = some 0 := by rw [hpq]; simp
      refine ⟨0, ?_, by simp [lexCmp]⟩
      simp only [e2, Option.bind_eq_bind, Option.bind_some, if_true]; rfl
    | cons b t =>
      have e2 : (q ++ (b :: t ++ 0 :: k))[p.length]? = some b := by rw [hpq]; simp
      have hb : b ≠ 0 := by intro h; simp [h] at ht
      refine ⟨-(b : Int), ?_, ?_⟩
      · simp only [e2, Option.bind_eq_bind, Option.bind_some, if_true]
      · simp [lexCmp]; omega
  | cons a s ih =>
    have ha : a ≠ 0 := by intro h; simp [h] at hs
    rw [strCmpFrom, dif_pos (by simp)]
    have e1 : (p ++ (a :: s ++ 0 :: j))[p.length]'(by simp) = a := by simp
    rw [e1]
    cases t with
    | nil =>
      have e2 : (q ++ ([] ++ 0 :: k))[p.length]? = some 0 := by rw [hpq]; simp
      refine ⟨(a : Int) - (0 : Nat), ?_, ?_⟩
      · simp only [e2, Option.bind_eq_bind, Option.bind_some, if_neg ha]
      · simp [lexCmp]; omega
    | cons b t =>
      have e2 : (q ++ (b :: t ++ 0 :: k))[p.length]? = some b := by rw [hpq]; simp
      simp only [e2, Option.bind_eq_bind, Option.bind_some, if_neg ha]
      by_cases hab : a = b
      · subst hab
        simp only [if_true]
        have := ih (p ++ [a]) t (q ++ [a]) (by simp [hpq]) (fun h => hs (by simp [h])) (fun h => ht (by simp [h]))
        simp only [List.append_assoc, List.length_append, List.length_cons, List.length_nil,
          List.singleton_append] at this
        simpa [lexCmp] using this
      · simp only [if_neg hab]
        refine ⟨_, rfl, ?_⟩
        simp only [lexCmp]
        by_cases h1 : a < b
        · simp [h1]; omega
        · have h2 : b < a := by omega
          simp [h1, h2]; omega

/-- **C03.**  For all arrays that hold strings, every relational operator between them is defined and
means the lexicographic order of the strings, whatever follows the terminators. -/
theorem C03_string_relations {x y s t : List Nat} (hx : Holds x s) (hy : Holds y t) (r : Rel) :
    strRel r x y = some (r.holds (lexCmp s t)) := by
  obtain ⟨hs, j, rfl⟩ := hx
  obtain ⟨ht, k, rfl⟩ := hy
  obtain ⟨n, h1, h2, h3, h4⟩ := strCmpFrom_spec [] s t j k [] rfl hs ht
  simp only [List.nil_append, List.length_nil] at h1
  simp only [strRel, strCmp, h1, Option.map_some, Option.some.injEq]
  cases r <;> simp only [Rel.holds, decide_eq_decide] <;> simp only [ne_eq, h2, h3, h4] <;> omega

/-- **C03, the order is a total order** on strings. -/
theorem C03_lexCmp_total_order :
    (∀ s, lexCmp s s = .eq) ∧
    (∀ s t, lexCmp s t = .eq → s = t) ∧
    (∀ s t, lexCmp s t = .lt ↔ lexCmp t s = .gt) ∧
    (∀ s t u, lexCmp s t = .lt → lexCmp t u = .lt → lexCmp s u = .lt) := by
  refine ⟨?_, ?_, ?_, ?_⟩
  · intro s; induction s with
    | nil => rfl
    | cons a s ih => simp [lexCmp, ih]
  · intro s t h
    induction s generalizing t with
    | nil => cases t <;> simp_all [lexCmp]
    | cons a s ih =>
      cases t with
      | nil => simp [lexCmp] at h
      | cons b t =>
        simp only [lexCmp] at h
        split at h
        · cases h
        · split at h
          · cases h
          · rw [ih t h, show a = b by omega]
  · intro s t
    induction s generalizing t with
    | nil => cases t <;> simp [lexCmp]
    | cons a s ih =>
      cases t with
      | nil => simp [lexCmp]
      | cons b t =>
        simp only [lexCmp]
        by_cases h1 : a < b
        · have : ¬ b < a := by omega
          simp [h1, this]
        · by_cases h2 : b < a
          · simp [h1, h2]
          · simp [h1, h2, ih]
  · intro s t u h1 h2
    induction s generalizing t u with
    | nil => cases t <;> cases u <;> simp_all [lexCmp]
    | cons a s ih =>
      cases t with
      | nil => simp [lexCmp] at h1
      | cons b t =>
        cases u with
        | nil => simp [lexCmp] at h2
        | cons c u =>
          simp only [lexCmp] at h1 h2 ⊢
          split at h1
          · split at h2
            · rw [if_pos (by omega)]
            · split at h2
              · cases h2
              · rw [if_pos (by omega)]
          · split at h1
            · cases h1
            · split at h2
              · rw [if_pos (by omega)]
              · split at h2
                · cases h2
                · rw [if_neg (by omega), if_neg (by omega)]
                  exact ih t u h1 h2

/-- The specification's order is Lean's order on lists. -/
theorem lexCmp_lt_iff (s t : List Nat) : lexCmp s t = .lt ↔ s < t := by
  induction s generalizing t with
  | nil => cases t <;> simp [lexCmp]
  | cons a s ih =>
    cases t with
    | nil => simp [lexCmp]
    | cons b t =>
      rw [List.cons_lt_cons_iff]
      simp only [lexCmp]
      by_cases h1 : a < b
      · simp [h1]
      · by_cases h2 : b < a
        · simp [h1, h2]; omega
        · have : a = b := by omega
          simp [ih, this]

/-! ### C04 -/

theorem copyLoop_spec (p s junk : List Nat) (b : List Nat) (hs : 0 ∉ s) (hp : p.length < b.length) :
    copyLoop (p ++ (s ++ 0 :: junk)) (b.length - 1) b p.length =
      some (b.take p.length ++ s.take (b.length - 1 - p.length) ++
        0 :: b.drop (p.length + min s.length (b.length - 1 - p.length) + 1)) := by
  induction s generalizing p b with
  | nil =>
    rw [copyLoop]
    split
    · have e : (p ++ ([] ++ 0 :: junk))[p.length]? = some 0 := by simp
      simp only [e, Option.bind_eq_bind, Option.bind_some]
      simp only [ne_eq, not_true_eq_false, if_false, List.set_set, Option.some.injEq]
      rw [List.set_eq_take_append_cons_drop, if_pos hp]
      simp
    · rw [List.set_eq_take_append_cons_drop, if_pos hp]
      simp
  | cons a s ih =>
    have ha : a ≠ 0 := by intro h; simp [h] at hs
    rw [copyLoop]
    split
    · next hlt =>
      have e : (p ++ (a :: s ++ 0 :: junk))[p.length]? = some a := by simp
      simp only [e, Option.bind_eq_bind, Option.bind_some]
      simp only [ne_eq, ha, not_false_eq_true, if_true]
      have := ih (p ++ [a]) (b.set p.length a) (fun h => hs (by simp [h])) (by simp; omega)
      simp only [List.append_assoc, List.length_append, List.length_cons, List.length_nil,
        List.singleton_append, List.length_set, Nat.zero_add] at this
      simp only [List.cons_append]
      rw [this]
      congr 1
      have e1 : (b.set p.length a).take (p.length + 1) = b.take p.length ++ [a] := by
        rw [List.set_eq_take_append_cons_drop, if_pos hp]
        rw [List.take_append]
        simp [List.length_take]
        rw [show min p.length b.length = p.length by omega]
        simp
      have e2 : b.length - 1 - p.length = (b.length - 1 - (p.length + 1)) + 1 := by omega
      rw [e1, e2, List.take_succ_cons]
      simp only [List.append_assoc, List.cons_append, List.nil_append]
      have e3 : ∀ n, p.length < n → (b.set p.length a).drop n = b.drop n := by
        intro n hn
        rw [List.drop_set_of_lt hn]
      rw [e3 _ (by omega)]
      congr 5
      simp only [List.length_cons]
      omega
    · next hlt =>
      rw [List.set_eq_take_append_cons_drop, if_pos hp]
      have : b.length - 1 - p.length = 0 := by omega
      simp [this]

/-- **C04.**  For every source array that holds a string `s` and every destination of at least one
element: COPY is defined, and leaves in the destination the longest prefix of `s` that fits in
`LEN - 1` characters, a 0X, and after it the old contents unchanged.  Nothing else is written (the
result has the same length, and the source is not an output). -/
theorem C04_copy {a b s : List Nat} (ha : Holds a s) (hb : b ≠ []) :
    copy a b = some (s.take (b.length - 1) ++ 0 :: b.drop (min s.length (b.length - 1) + 1)) := by
  obtain ⟨hs, junk, rfl⟩ := ha
  have hp : 0 < b.length := List.length_pos_iff.2 hb
  have := copyLoop_spec [] s junk b hs (by simpa using hp)
  simpa [copy] using this

/-- **C04, corollary**: the destination holds the (possibly truncated) string, and keeps its length. -/
theorem C04_copy_holds {a b s : List Nat} (ha : Holds a s) (hb : b ≠ []) :
    ∃ b', copy a b = some b' ∧ b'.length = b.length ∧ Holds b' (s.take (b.length - 1)) := by
  have hp : 0 < b.length := List.length_pos_iff.2 hb
  refine ⟨_, C04_copy ha hb, ?_, fun h => ha.1 (List.mem_of_mem_take h), _, rfl⟩
  simp only [List.length_append, List.length_take, List.length_cons, List.length_drop]
  omega

/-- COPY followed by a comparison: a string that fits is copied faithfully. -/
theorem C04_copy_then_equal {a b s : List Nat} (ha : Holds a s) (hfit : s.length < b.length) :
    ∃ b', copy a b = some b' ∧ strRel .eql a b' = some true := by
  have hb : b ≠ [] := by rintro rfl; simp at hfit
  obtain ⟨b', h1, -, h2⟩ := C04_copy_holds ha hb
  rw [List.take_of_length_le (by omega)] at h2
  refine ⟨b', h1, ?_⟩
  rw [C03_string_relations ha h2]
  simp [Rel.holds, C03_lexCmp_total_order.1]

/-- Assignment of a string constant: the array holds exactly the constant. -/
theorem C04_assign_constant {s d : List Nat} (hs : 0 ∉ s) (hfit : s.length < d.length) :
    ∃ d', moveStr s d = some d' ∧ d'.length = d.length ∧ Holds d' s := by
  refine ⟨s ++ [0] ++ d.drop (s.length + 1), ?_, ?_, hs, d.drop (s.length + 1), by simp⟩
  · simp only [moveStr]; rw [if_pos (by omega)]
  · simp; omega

/- Non-vacuity. -/
example : Holds [65, 66, 0, 9, 9] [65, 66] := ⟨by decide, [9, 9], rfl⟩
example : strCmp [65, 66, 0, 9] [65, 200, 0] = some (-134) := by simp [strCmp, strCmpFrom]
example : copy [65, 66, 67, 0] [1, 2, 3] = some [65, 66, 0] := by simp [copy, copyLoop]
example : copy [65, 0] [1, 2, 3, 4] = some [65, 0, 3, 4] := by simp [copy, copyLoop]

end Verif.CStr
