import Verif.ShowDef.Ident

/-!
# C96: the directory and the name of the module
-/
namespace Verif.ShowDef.Arg

/-- The part of a file name before the first dot. -/
def stem (f : List Nat) : List Nat := f.takeWhile (· ≠ 46)

theorem toEnd_ok (a : List Nat) (r : List Nat) : ∀ (p q : List Nat), a = q ++ (p ++ 0 :: r) → 0 ∉ p → ∀ f > p.length,
    toEnd a f q.length = some (q.length + p.length)
  | [], q, h, _, f, hf => by
    obtain ⟨k, rfl⟩ : ∃ k, f = k + 1 := ⟨f - 1, by simp at hf; omega⟩
    have : a[q.length]? = some 0 := by rw [h, List.getElem?_append_right (by omega)]; simp
    rw [toEnd, this]
    simp
  | c :: p, q, h, hp, f, hf => by
    obtain ⟨k, rfl⟩ : ∃ k, f = k + 1 := ⟨f - 1, by simp at hf; omega⟩
    have e : a[q.length]? = some c := by rw [h, List.getElem?_append_right (by omega)]; simp
    have hc : c ≠ 0 := fun e => hp (by simp [e])
    have ih := toEnd_ok a r p (q ++ [c]) (by rw [h]; simp) (fun m => hp (by simp [m])) k (by simp at hf; omega)
    rw [toEnd, e]
    simp only [hc, ne_eq, not_false_eq_true, if_true]
    simp only [List.length_append, List.length_singleton] at ih
    rw [ih]
    simp; omega

theorem back_ok (a q : List Nat) (r : List Nat) : ∀ (n : Nat) (x : List Nat), x.length = n → a = q ++ (x ++ r) → 47 ∉ x →
    back a (q.length + n) = back a q.length
  | 0, _, _, _, _ => rfl
  | n + 1, x, hx, h, hn => by
    have hne : x ≠ [] := by intro e; rw [e] at hx; cases hx
    have hd := (List.dropLast_append_getLast hne).symm
    have hl : x.dropLast.length = n := by simp [hx]
    have e : a[q.length + n]? = some (x.getLast hne) := by
      rw [h, List.getElem?_append_right (by omega), Nat.add_sub_cancel_left, List.getElem?_append_left (by omega)]
      conv_lhs => rw [hd]
      rw [List.getElem?_append_right (by omega), hl]; simp
    have hc : x.getLast hne ≠ 47 := fun e => hn (e ▸ List.getLast_mem hne)
    have ih := back_ok a q (x.getLast hne :: r) n x.dropLast hl (by
      rw [h]; conv_lhs => rw [hd]
      simp) (fun m => hn (List.dropLast_subset x m))
    rw [← Nat.add_assoc, back, e]
    simp only [hc, ne_eq, not_false_eq_true, if_true]
    exact ih

theorem copy_ok (a r : List Nat) (d : Nat) (hd : d = 46 ∨ d = 0) : ∀ (s q w v : List Nat), a = q ++ (s ++ d :: r) → 46 ∉ s → 0 ∉ s →
    s.length < v.length → ∀ f > s.length, ∃ v', copy a f q.length w.length (w ++ v) = some (w ++ (s ++ 0 :: v'))
  | [], q, w, v, h, _, _, hv, f, hf => by
    obtain ⟨k, rfl⟩ : ∃ k, f = k + 1 := ⟨f - 1, by simp at hf; omega⟩
    cases v with
    | nil => simp at hv
    | cons y v =>
      have e : a[q.length]? = some d := by rw [h, List.getElem?_append_right (by omega)]; simp
      refine ⟨v, ?_⟩
      rw [copy, e]
      have hn : ¬ (d ≠ 46 ∧ d ≠ 0) := by rcases hd with h | h <;> simp [h]
      simp only [if_neg hn]
      rw [if_pos (by simp)]
      simp
  | c :: s, q, w, v, h, h1, h2, hv, f, hf => by
    obtain ⟨k, rfl⟩ : ∃ k, f = k + 1 := ⟨f - 1, by simp at hf; omega⟩
    cases v with
    | nil => simp at hv
    | cons y v =>
      have e : a[q.length]? = some c := by rw [h, List.getElem?_append_right (by omega)]; simp
      have hc : c ≠ 46 ∧ c ≠ 0 := ⟨fun e => h1 (by simp [e]), fun e => h2 (by simp [e])⟩
      obtain ⟨v', ih⟩ := copy_ok a r d hd s (q ++ [c]) (w ++ [c]) v (by rw [h]; simp) (fun m => h1 (by simp [m])) (fun m => h2 (by simp [m]))
        (by simp at hv; omega) k (by simp at hf; omega)
      refine ⟨v', ?_⟩
      rw [copy, e]
      simp only [if_pos hc]
      rw [if_pos (by simp)]
      have : (w ++ y :: v).set w.length c = w ++ [c] ++ v := by simp
      rw [this]
      simp only [List.length_append, List.length_singleton] at ih
      rw [ih]
      simp

/-- A text ends before the first dot or at its end. -/
theorem stem_split (f r : List Nat) : ∃ d r', (d = 46 ∨ d = 0) ∧ f ++ 0 :: r = stem f ++ d :: r' := by
  induction f with
  | nil => exact ⟨0, r, Or.inr rfl, rfl⟩
  | cons c f ih =>
    by_cases hc : c = 46
    · exact ⟨46, f ++ 0 :: r, Or.inl rfl, by simp [stem, hc]⟩
    · obtain ⟨d, r', h1, h2⟩ := ih
      refine ⟨d, r', h1, ?_⟩
      have : stem (c :: f) = c :: stem f := by simp [stem, hc]
      rw [this, List.cons_append, h2]; rfl

theorem stem_no_dot (f : List Nat) : 46 ∉ stem f := by
  induction f with
  | nil => simp [stem]
  | cons c f ih =>
    by_cases hc : c = 46
    · simp [stem, hc]
    · have : stem (c :: f) = c :: stem f := by simp [stem, hc]
      rw [this]
      simp only [List.mem_cons, not_or]
      exact ⟨fun e => hc e.symm, ih⟩

theorem stem_len (f : List Nat) : (stem f).length ≤ f.length := (List.takeWhile_sublist _).length_le

theorem str_append (s r : List Nat) (h : 0 ∉ s) : str (s ++ 0 :: r) = s := by
  induction s with
  | nil => simp [str]
  | cons c s ih =>
    have hc : c ≠ 0 := fun e => h (by simp [e])
    have := ih (fun m => h (by simp [m]))
    unfold str at *
    rw [List.cons_append, List.takeWhile_cons, if_pos (by simpa using hc), this]

/-- What is after the last slash is copied up to the first dot. -/
theorem copy_stem (q f r first : List Nat) (h0 : 0 ∉ f) (hf : f.length < first.length) (n : Nat) (hn : f.length < n) :
    ∃ v, copy (q ++ (f ++ 0 :: r)) n q.length 0 first = some v ∧ str v = stem f := by
  obtain ⟨d, r', h1, h2⟩ := stem_split f r
  have hz : 0 ∉ stem f := fun m => h0 ((List.takeWhile_subset _) m)
  have hl := stem_len f
  obtain ⟨v', e⟩ := copy_ok (q ++ (f ++ 0 :: r)) r' d h1 (stem f) q [] first (by rw [h2]) (stem_no_dot f) hz (by omega) n (by omega)
  exact ⟨_, e, by rw [List.nil_append]; exact str_append _ _ hz⟩

/-- C96: for `directory/file`, the definitions are looked for in the directory (everything before the last slash), and the module
is the part of the file name before its first dot; without a trap.  For all arrays, whatever they have behind the name. -/
theorem C96_path (d f r first : List Nat) (hd : d ≠ []) (h0 : 0 ∉ d ++ f) (hs : 47 ∉ f) (hf : f.length < first.length) :
    ∃ v, ident (d ++ 47 :: (f ++ 0 :: r)) first = some (some d, v) ∧ str v = stem f := by
  have hd0 : 0 ∉ d := fun m => h0 (List.mem_append_left _ m)
  have hf0 : 0 ∉ f := fun m => h0 (List.mem_append_right _ m)
  have hdl : 0 < d.length := List.length_pos_iff.2 hd
  have e1 := toEnd_ok (d ++ 47 :: (f ++ 0 :: r)) r (d ++ 47 :: f) [] (by simp) (by simp [hd0, hf0])
    ((d ++ 47 :: (f ++ 0 :: r)).length + 1) (by simp; omega)
  have e2 := back_ok (d ++ 47 :: (f ++ 0 :: r)) (d ++ [47]) r (f.length + 1) (f ++ [0]) (by simp) (by simp) (by simp [hs])
  have e3 : back (d ++ 47 :: (f ++ 0 :: r)) (d ++ [47]).length = some (d.length + 1) := by
    have : (d ++ 47 :: (f ++ 0 :: r))[d.length]? = some 47 := by rw [List.getElem?_append_right (by omega)]; simp
    rw [List.length_append, List.length_singleton, back, this]
    simp
  obtain ⟨v, e4, e5⟩ := copy_stem (d ++ [0]) f r first hf0 hf ((d ++ 47 :: (f ++ 0 :: r)).length + 1) (by simp; omega)
  refine ⟨v, ?_, e5⟩
  unfold ident
  rw [List.length_nil, Nat.zero_add] at e1
  rw [e1]
  simp only [Option.bind_eq_bind, Option.bind_some]
  have hl : (d ++ 47 :: f).length + 1 = (d ++ [47]).length + (f.length + 1) := by simp; omega
  rw [hl, e2, e3, Option.bind_some, if_pos (by omega), if_pos (by omega), Nat.add_sub_cancel]
  have hset : (d ++ 47 :: (f ++ 0 :: r)).set d.length 0 = d ++ [0] ++ (f ++ 0 :: r) := by simp
  rw [hset]
  simp only [List.length_append, List.length_singleton] at e4 ⊢
  rw [e4, Option.bind_some]
  have : str (d ++ [0] ++ (f ++ 0 :: r)) = d := by
    rw [List.append_assoc]; exact str_append d _ hd0
  rw [this]
  rfl

/-- C96: for a name without a slash the search path stays as it is, and the module is the part before the first dot. -/
theorem C96_plain (f r first : List Nat) (h0 : 0 ∉ f) (hs : 47 ∉ f) (hf : f.length < first.length) :
    ∃ v, ident (f ++ 0 :: r) first = some (none, v) ∧ str v = stem f := by
  have e1 := toEnd_ok (f ++ 0 :: r) r f [] (by simp) h0 ((f ++ 0 :: r).length + 1) (by simp; omega)
  have e2 := back_ok (f ++ 0 :: r) [] r (f.length + 1) (f ++ [0]) (by simp) (by simp) (by simp [hs])
  obtain ⟨v, e4, e5⟩ := copy_stem [] f r first h0 hf ((f ++ 0 :: r).length + 1) (by simp; omega)
  refine ⟨v, ?_, e5⟩
  unfold ident
  rw [List.length_nil, Nat.zero_add] at e1 e2
  rw [e1]
  simp only [Option.bind_eq_bind, Option.bind_some]
  rw [e2, back, Option.bind_some, if_neg (by omega), if_neg (by omega)]
  rw [List.nil_append, List.length_nil] at e4
  rw [e4]
  rfl

/-- Deviation: for a file in the root directory the search path is not changed: the module is looked for elsewhere
(BrowserCmd.Mod 259: `i > 0`). -/
theorem C96_root (f r first : List Nat) (h0 : 0 ∉ f) (hs : 47 ∉ f) (hf : f.length < first.length) :
    ∃ v, ident (47 :: (f ++ 0 :: r)) first = some (none, v) ∧ str v = stem f := by
  have e1 := toEnd_ok (47 :: (f ++ 0 :: r)) r (47 :: f) [] (by simp) (by simp [h0]) ((47 :: (f ++ 0 :: r)).length + 1) (by simp; omega)
  have e2 := back_ok (47 :: (f ++ 0 :: r)) [47] r (f.length + 1) (f ++ [0]) (by simp) (by simp) (by simp [hs])
  have e3 : back (47 :: (f ++ 0 :: r)) [47].length = some 1 := by
    rw [List.length_singleton, back]; simp
  obtain ⟨v, e4, e5⟩ := copy_stem [47] f r first h0 hf ((47 :: (f ++ 0 :: r)).length + 1) (by simp; omega)
  refine ⟨v, ?_, e5⟩
  unfold ident
  rw [List.length_nil, Nat.zero_add] at e1
  rw [e1]
  simp only [Option.bind_eq_bind, Option.bind_some]
  have hl : (47 :: f).length + 1 = [47].length + (f.length + 1) := by simp; omega
  rw [hl, e2, e3, Option.bind_some, if_neg (by omega), if_neg (by omega)]
  rw [List.singleton_append, List.length_singleton] at e4
  rw [e4]
  rfl

/-! ## Examples -/

/-- `lib/a.b/M.sym`: the directory is `lib/a.b`, the module is `M`. -/
example : (ident ([108, 105, 98, 47, 97, 46, 98, 47, 77, 46, 115, 121, 109] ++ [0, 9]) (List.replicate 15 7)).map (fun x => (x.1, str x.2)) =
    some (some [108, 105, 98, 47, 97, 46, 98], [77]) := by decide +kernel

end Verif.ShowDef.Arg
