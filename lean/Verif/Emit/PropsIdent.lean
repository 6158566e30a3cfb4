import Verif.Common
import Verif.Emit.PropsInt

/-!
# C45: names in the emitted C code
-/
namespace Verif.Emit
open Verif.Arith CSpec

/-- An Oberon identifier: ASCII letters and digits, first a letter (`C08`). -/
def IsName (s : Text) : Prop :=
  (∃ c r, s = c :: r ∧ ((65 ≤ c ∧ c ≤ 90) ∨ (97 ≤ c ∧ c ≤ 122))) ∧
  ∀ c ∈ s, (48 ≤ c ∧ c ≤ 57) ∨ (65 ≤ c ∧ c ≤ 90) ∨ (97 ≤ c ∧ c ≤ 122)

theorem hash_slots : ∀ p ∈ keytab.zipIdx, p.1 ≠ w! "UINT32" → p.1 ≠ w! "UINT8" →
    hashtab.getD (perfectHash p.1) (-1) = p.2 := by decide

/-- Exactly the keywords of the table are recognised, except two: the hash function is not perfect, and
the entries of `UINT32` and `UINT8` are overwritten by those of `do` and `size_t`. -/
theorem clash_iff (s : Text) : clash s = true ↔ s ∈ keytab ∧ s ≠ w! "UINT32" ∧ s ≠ w! "UINT8" := by
  have hx : clash (w! "UINT32") = false ∧ clash (w! "UINT8") = false := by decide
  constructor
  · intro h
    refine ⟨?_, by rintro rfl; rw [hx.1] at h; simp at h, by rintro rfl; rw [hx.2] at h; simp at h⟩
    simp only [clash] at h
    split at h
    · simp only [decide_eq_true_eq] at h
      rw [List.getD_eq_getElem?_getD] at h
      cases hg : keytab[(hashtab.getD (perfectHash s) (-1)).toNat]? with
      | none =>
        rw [hg] at h
        simp only [Option.getD_none] at h
        subst h
        revert hg; decide
      | some k =>
        rw [hg] at h
        simp only [Option.getD_some] at h
        subst h
        exact List.mem_of_getElem? hg
    · simp at h
  · rintro ⟨h, h1, h2⟩
    obtain ⟨i, hi, rfl⟩ := List.mem_iff_getElem.1 h
    have hs := hash_slots (keytab[i], i) (List.mem_zipIdx_iff_getElem?.2 (List.getElem?_eq_getElem hi)) h1 h2
    simp only [clash, hs]
    rw [if_pos (by omega), Int.toNat_natCast, List.getD_eq_getElem?_getD, List.getElem?_eq_getElem hi]
    simp

/-- Texts separated by underscores. -/
def join : List Text → Text
  | [] => []
  | [a] => a
  | a :: b :: r => a ++ 95 :: join (b :: r)

theorem split_unique {a b x y : Text} (ha : 95 ∉ a) (hb : 95 ∉ b) (h : a ++ 95 :: x = b ++ 95 :: y) :
    a = b ∧ x = y := by
  induction a generalizing b with
  | nil =>
    cases b with
    | nil => simpa using h
    | cons c b => simp at h; rw [← h.1] at hb; simp at hb
  | cons c a ih =>
    cases b with
    | nil => simp at h; rw [h.1] at ha; simp at ha
    | cons d b =>
      simp only [List.cons_append, List.cons.injEq] at h
      obtain ⟨rfl, h⟩ := h
      obtain ⟨rfl, rfl⟩ := ih (fun hc => ha (by simp [hc])) (fun hc => hb (by simp [hc])) h
      exact ⟨rfl, rfl⟩

theorem join_inj : ∀ {xs ys : List Text}, xs ≠ [] → ys ≠ [] → (∀ x ∈ xs, 95 ∉ x) → (∀ y ∈ ys, 95 ∉ y) →
    join xs = join ys → xs = ys := by
  intro xs
  induction xs with
  | nil => intro ys h; exact absurd rfl h
  | cons a xs ih =>
    intro ys _ hy0 hx hy h
    match ys, hy0 with
    | [b], _ =>
      match xs with
      | [] => simpa [join] using h
      | c :: xs =>
        rw [join, join] at h
        have hb := hy b (by simp)
        rw [← h] at hb
        simp at hb
    | b :: d :: ys, _ =>
      cases xs with
      | nil =>
        rw [join, join] at h
        have ha := hx a (by simp)
        rw [h] at ha
        simp at ha
      | cons c xs =>
        rw [join, join] at h
        obtain ⟨rfl, h2⟩ := split_unique (hx a (by simp)) (hy b (by simp)) h
        rw [ih (by simp) (by simp) (fun x hx' => hx x (by simp [hx'])) (fun y hy' => hy y (by simp [hy'])) h2]

/-- The parts of a name between underscores. -/
def parts : Obj → List Text
  | .inner n => n :: if clash n then [[]] else []
  | .global m n => [m, n]
  | .tproc m t n => [m, t, n]
  | .len n d => n :: ((if clash n then [[]] else []) ++ [[], w! "len" ++ if d ≠ 0 then writeInt d else []])
  | .dyntyp n => n :: ((if clash n then [[]] else []) ++ [[], w! "typ"])
  | .desc m t => [m, t, [], w! "typ"]

theorem ident_parts (o : Obj) : ident o = join (parts o) := by
  cases o with
  | inner n => simp only [ident, identInner, parts]; split <;> simp [join]
  | global m n => simp [ident, parts, join]
  | tproc m t n => simp [ident, parts, join]
  | len n d => simp only [ident, identInner, parts]; split <;> simp [join]
  | dyntyp n => simp only [ident, identInner, parts]; split <;> simp [join]
  | desc m t => simp [ident, parts, join]

/-- The object's names are Oberon identifiers. -/
def WellNamed : Obj → Prop
  | .inner n => IsName n
  | .global m n => IsName m ∧ IsName n
  | .tproc m t n => IsName m ∧ IsName t ∧ IsName n
  | .len n d => IsName n ∧ d < 2 ^ 31
  | .dyntyp n => IsName n
  | .desc m t => IsName m ∧ IsName t

theorem name_no95 {s : Text} (h : IsName s) : 95 ∉ s := by
  intro hc
  have := h.2 95 hc
  omega

theorem name_ne_nil {s : Text} (h : IsName s) : s ≠ [] := by
  obtain ⟨⟨c, r, rfl, -⟩, -⟩ := h; simp

theorem dim_text {d : Nat} (h : d < 2 ^ 31) : writeInt (d : Int) = numText d := by
  rw [writeInt, if_neg (by omega), writeInt0_eq]
  simp only [Int.natAbs_natCast]
  rw [if_neg (by omega), if_pos h]
  simp

theorem dim_inj {d e : Nat} (hd : d < 2 ^ 31) (he : e < 2 ^ 31)
    (h : (if d ≠ 0 then writeInt (d : Int) else []) = if e ≠ 0 then writeInt (e : Int) else []) : d = e := by
  have hne : ∀ n, numText n ≠ [] := by
    intro n; obtain ⟨c, cs, hc, -⟩ := numText_cons n; rw [hc]; simp
  by_cases h1 : d = 0 <;> by_cases h2 : e = 0 <;> simp only [h1, h2, ne_eq, not_true_eq_false,
    not_false_eq_true, if_true, if_false] at h
  · omega
  · rw [dim_text he] at h; exact absurd h.symm (hne e)
  · rw [dim_text hd] at h; exact absurd h (hne d)
  · rw [dim_text hd, dim_text he] at h
    have := congrArg decVal h
    rwa [numText_val (by omega), numText_val (by omega)] at this

theorem parts_no95 {o : Obj} (h : WellNamed o) : ∀ x ∈ parts o, 95 ∉ x := by
  intro x hx
  cases o with
  | inner n =>
    simp only [parts, List.mem_cons] at hx
    rcases hx with rfl | hx
    · exact name_no95 h
    · split at hx <;> simp at hx; subst hx; simp
  | global m n =>
    simp only [parts, List.mem_cons, List.not_mem_nil, or_false] at hx
    rcases hx with rfl | rfl
    · exact name_no95 h.1
    · exact name_no95 h.2
  | tproc m t n =>
    simp only [parts, List.mem_cons, List.not_mem_nil, or_false] at hx
    rcases hx with rfl | rfl | rfl
    · exact name_no95 h.1
    · exact name_no95 h.2.1
    · exact name_no95 h.2.2
  | len n d =>
    simp only [parts, List.mem_cons, List.mem_append, List.not_mem_nil, or_false] at hx
    rcases hx with rfl | hx | rfl | rfl
    · exact name_no95 h.1
    · split at hx <;> simp at hx; subst hx; simp
    · simp
    · intro hc
      rw [List.mem_append] at hc
      rcases hc with hc | hc
      · revert hc; decide
      · split at hc
        · rw [dim_text h.2] at hc
          have := numText_digit 95 hc
          revert this; decide
        · simp at hc
  | dyntyp n =>
    simp only [parts, List.mem_cons, List.mem_append, List.not_mem_nil, or_false] at hx
    rcases hx with rfl | hx | rfl | rfl
    · exact name_no95 h
    · split at hx <;> simp at hx; subst hx; simp
    · simp
    · decide
  | desc m t =>
    simp only [parts, List.mem_cons, List.not_mem_nil, or_false] at hx
    rcases hx with rfl | rfl | rfl | rfl
    · exact name_no95 h.1
    · exact name_no95 h.2
    · simp
    · decide

theorem parts_inj {a b : Obj} (ha : WellNamed a) (hb : WellNamed b) (h : parts a = parts b) : a = b := by
  cases a with
  | inner n =>
    cases b with
    | inner n' => simp only [parts, List.cons.injEq] at h; rw [h.1]
    | global m' n' =>
      have := name_ne_nil hb.2
      simp only [parts] at h; split at h <;> simp_all
    | tproc m' t' n' => simp only [parts] at h; split at h <;> simp at h
    | len n' d' => simp only [parts] at h; split at h <;> split at h <;> simp at h
    | dyntyp n' => simp only [parts] at h; split at h <;> split at h <;> simp at h
    | desc m' t' => simp only [parts] at h; split at h <;> simp at h
  | global m n =>
    have h1 := name_ne_nil ha.2
    cases b with
    | inner n' => simp only [parts] at h; split at h <;> simp_all
    | global m' n' => simpa [parts] using h
    | tproc m' t' n' => simp [parts] at h
    | len n' d' => simp only [parts] at h; split at h <;> simp at h
    | dyntyp n' => simp only [parts] at h; split at h <;> simp at h
    | desc m' t' => simp [parts] at h
  | tproc m t n =>
    have h1 := name_ne_nil ha.2.1
    cases b with
    | inner n' => simp only [parts] at h; split at h <;> simp at h
    | global m' n' => simp [parts] at h
    | tproc m' t' n' => simpa [parts] using h
    | len n' d' => simp only [parts] at h; split at h <;> simp at h; exact absurd h.2.1 h1
    | dyntyp n' => simp only [parts] at h; split at h <;> simp at h; exact absurd h.2.1 h1
    | desc m' t' => simp [parts] at h
  | len n d =>
    cases b with
    | inner n' => simp only [parts] at h; split at h <;> split at h <;> split at h <;> simp at h
    | global m' n' => simp only [parts] at h; split at h <;> simp at h
    | tproc m' t' n' =>
      have h1 := name_ne_nil hb.2.1
      simp only [parts] at h; split at h <;> simp at h; exact absurd h.2.1 h1
    | len n' d' =>
      simp only [parts, List.cons.injEq] at h
      obtain ⟨rfl, h⟩ := h
      rw [List.append_cancel_left_eq] at h
      simp only [List.cons.injEq, and_true, true_and, List.append_cancel_left_eq] at h
      rw [dim_inj ha.2 hb.2 h]
    | dyntyp n' => simp only [parts] at h; split at h <;> split at h <;> split at h <;> simp at h
    | desc m' t' =>
      have h1 := name_ne_nil hb.2
      simp only [parts] at h; split at h <;> simp at h
  | dyntyp n =>
    cases b with
    | inner n' => simp only [parts] at h; split at h <;> split at h <;> simp at h
    | global m' n' => simp only [parts] at h; split at h <;> simp at h
    | tproc m' t' n' =>
      have h1 := name_ne_nil hb.2.1
      simp only [parts] at h; split at h <;> simp at h; exact absurd h.2.1 h1
    | len n' d' => simp only [parts] at h; split at h <;> split at h <;> simp at h
    | dyntyp n' => simp only [parts, List.cons.injEq] at h; rw [h.1]
    | desc m' t' =>
      have h1 := name_ne_nil hb.2
      simp only [parts] at h; split at h <;> simp at h; exact absurd h.2 h1
  | desc m t =>
    have h1 := name_ne_nil ha.2
    cases b with
    | inner n' => simp only [parts] at h; split at h <;> simp at h
    | global m' n' => simp [parts] at h
    | tproc m' t' n' => simp [parts] at h
    | len n' d' => simp only [parts] at h; split at h <;> simp at h
    | dyntyp n' => simp only [parts] at h; split at h <;> simp at h; exact absurd h.2 h1
    | desc m' t' => simpa [parts] using h

/-- **C45, distinct names.**  Different objects get different C names. -/
theorem C45_injective {a b : Obj} (ha : WellNamed a) (hb : WellNamed b) (h : ident a = ident b) : a = b := by
  rw [ident_parts, ident_parts] at h
  have hne : ∀ o, parts o ≠ [] := by intro o; cases o <;> simp [parts]
  exact parts_inj ha hb (join_inj (hne a) (hne b) (parts_no95 ha) (parts_no95 hb) h)

/-- **C45, keywords.**  No emitted name is a keyword of C89, nor one of the type names `INT8` … `INT64`,
`UINT16`, `UINT64`, `ADDRESS`. -/
theorem C45_not_keyword_partial {o : Obj} (ho : WellNamed o) : ident o ∉ keywords89 ∧
    ident o ∉ [w! "INT8", w! "INT16", w! "INT32", w! "INT64", w! "UINT16", w! "UINT64", w! "ADDRESS"] := by
  have hsub : ∀ k, k ∈ keywords89 ∨ k ∈ [w! "INT8", w! "INT16", w! "INT32", w! "INT64", w! "UINT16",
      w! "UINT64", w! "ADDRESS"] → k ∈ keytab ∧ k ≠ w! "UINT32" ∧ k ≠ w! "UINT8" ∧ 95 ∉ k := by
    have h1 : ∀ k ∈ keywords89, k ∈ keytab ∧ k ≠ w! "UINT32" ∧ k ≠ w! "UINT8" ∧ 95 ∉ k := by decide
    have h2 : ∀ k ∈ [w! "INT8", w! "INT16", w! "INT32", w! "INT64", w! "UINT16", w! "UINT64", w! "ADDRESS"],
      k ∈ keytab ∧ k ≠ w! "UINT32" ∧ k ≠ w! "UINT8" ∧ 95 ∉ k := by decide
    rintro k (hk | hk)
    · exact h1 k hk
    · exact h2 k hk
  have key : ¬ (ident o ∈ keywords89 ∨ ident o ∈ [w! "INT8", w! "INT16", w! "INT32", w! "INT64", w! "UINT16",
      w! "UINT64", w! "ADDRESS"]) := by
    intro hc
    obtain ⟨h1, h2, h3, h4⟩ := hsub _ hc
    cases o with
    | inner n =>
      simp only [ident, identInner] at *
      by_cases hn : clash n = true
      · rw [if_pos hn] at h4; simp at h4
      · rw [if_neg hn, List.append_nil] at h1 h2 h3
        exact hn ((clash_iff n).2 ⟨h1, h2, h3⟩)
    | global m n => simp [ident] at h4
    | tproc m t n => simp [ident] at h4
    | len n d => simp [ident] at h4
    | dyntyp n => simp [ident] at h4
    | desc m t => simp [ident] at h4
  exact ⟨fun h => key (Or.inl h), fun h => key (Or.inr h)⟩

theorem isName_of_all {s : Text} (h : (s.head?.any fun c => decide ((65 ≤ c ∧ c ≤ 90) ∨ (97 ≤ c ∧ c ≤ 122))) = true)
    (h2 : (s.all fun c => decide ((48 ≤ c ∧ c ≤ 57) ∨ (65 ≤ c ∧ c ≤ 90) ∨ (97 ≤ c ∧ c ≤ 122))) = true) :
    IsName s := by
  constructor
  · cases s with
    | nil => simp at h
    | cons c r => exact ⟨c, r, rfl, by simpa using h⟩
  · intro c hc
    have := List.all_eq_true.1 h2 c hc
    simpa using this

/-- **C45 fails for the names `UINT32` and `UINT8`**: they are in the table of names to be avoided, but the
hash table loses them, so that a variable or field of that name is emitted under the name of the C type.
It also fails for the C99 keywords, and for the object `t` of a module `size`. -/
theorem C45_counterexamples :
    (WellNamed (.inner (w! "UINT32")) ∧ ident (.inner (w! "UINT32")) = w! "UINT32" ∧ w! "UINT32" ∈ keytab) ∧
    (WellNamed (.inner (w! "UINT8")) ∧ ident (.inner (w! "UINT8")) = w! "UINT8" ∧ w! "UINT8" ∈ keytab) ∧
    (WellNamed (.inner (w! "inline")) ∧ ident (.inner (w! "inline")) = w! "inline") ∧
    (WellNamed (.inner (w! "restrict")) ∧ ident (.inner (w! "restrict")) = w! "restrict") ∧
    (WellNamed (.global (w! "size") (w! "t")) ∧ ident (.global (w! "size") (w! "t")) = w! "size_t") := by
  refine ⟨⟨isName_of_all ?_ ?_, ?_, ?_⟩, ⟨isName_of_all ?_ ?_, ?_, ?_⟩, ⟨isName_of_all ?_ ?_, ?_⟩,
    ⟨isName_of_all ?_ ?_, ?_⟩, ⟨⟨isName_of_all ?_ ?_, isName_of_all ?_ ?_⟩, ?_⟩⟩ <;> decide

example : ident (.inner (w! "while")) = w! "while_" ∧ ident (.tproc (w! "M") (w! "T") (w! "p")) = w! "M_T_p" ∧
    ident (.len (w! "a") 1) = w! "a__len1" := by decide

end Verif.Emit
