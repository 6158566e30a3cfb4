import Verif.Listen.Model

/-!
# C97: lists that share their parts
-/
namespace Verif.Listen

/-- Specification: the records from `p` on, in this heap, are the list `xs`. -/
inductive Is (h : Heap) : Ptr → List Elem → Prop
  | nil : Is h none []
  | cons {p : Nat} {c : Cell} {xs : List Elem} : h[p]? = some c → Is h c.rest xs → Is h (some p) (c.e :: xs)

theorem Is.mono {h h' : Heap} (hp : h <+: h') {p : Ptr} {xs : List Elem} (i : Is h p xs) : Is h' p xs := by
  induction i with
  | nil => exact .nil
  | cons e _ ih =>
    refine .cons ?_ ih
    obtain ⟨r, rfl⟩ := hp
    have hl := (List.getElem?_eq_some_iff.1 e).1
    rw [List.getElem?_append_left hl, e]

theorem prefix_concat (h : Heap) (x : Elem) (t : Ptr) : h <+: (concat h x t).1 := List.prefix_append ..

/-- C97: a list is determined by its pointer. -/
theorem C97_one_list (h : Heap) (p : Ptr) (xs ys : List Elem) (hx : Is h p xs) (hy : Is h p ys) : xs = ys := by
  induction hx generalizing ys with
  | nil => cases hy; rfl
  | cons e _ ih =>
    cases hy with
    | cons e' i' =>
      rw [e] at e'
      cases e'
      rw [ih _ i']

/-- C97: `Concat` gives the list with one more element in front. -/
theorem C97_concat (h : Heap) (x : Elem) (t : Ptr) (xs : List Elem) (i : Is h t xs) :
    Is (concat h x t).1 (concat h x t).2 (x :: xs) :=
  .cons (c := ⟨x, t⟩) (by simp [concat]) (i.mono (prefix_concat h x t))

/-- C97: `Concat` and all that was made before: all lists stay as they are. -/
theorem C97_concat_others (h : Heap) (x : Elem) (t q : Ptr) (ys : List Elem) (i : Is h q ys) : Is (concat h x t).1 q ys :=
  i.mono (prefix_concat h x t)

/-- C97: `Head` and `Tail` of a list that is not empty are its first element and the list of the others. -/
theorem C97_head_tail (h : Heap) (p : Ptr) (x : Elem) (xs : List Elem) (i : Is h p (x :: xs)) :
    head h p = some x ∧ ∃ t, tail h p = some t ∧ Is h t xs := by
  cases i with
  | cons e i => exact ⟨by simp [head, deref, e], _, by simp [tail, deref, e], i⟩

/-- C97: `Head` and `Tail` of the empty list trap. -/
theorem C97_empty (h : Heap) : head h none = none ∧ tail h none = none := ⟨rfl, rfl⟩

theorem append_ok (h : Heap) (e : Elem) {p : Ptr} {xs : List Elem} (i : Is h p xs) : ∀ f > xs.length,
    ∃ h' p', append f h p e = some (h', p') ∧ h <+: h' ∧ h'.length = h.length + xs.length + 1 ∧ Is h' p' (xs ++ [e]) := by
  induction i with
  | nil =>
    intro f hf
    obtain ⟨k, rfl⟩ : ∃ k, f = k + 1 := ⟨f - 1, by simp at hf; omega⟩
    exact ⟨_, _, by rw [append, if_pos rfl], prefix_concat h e none, by simp [concat], C97_concat h e none [] .nil⟩
  | @cons p c xs he i ih =>
    intro f hf
    obtain ⟨k, rfl⟩ : ∃ k, f = k + 1 := ⟨f - 1, by simp at hf; omega⟩
    obtain ⟨h', p', e1, e2, e3, e4⟩ := ih k (by simp at hf; omega)
    have hh : head h (some p) = some c.e := by simp [head, deref, he]
    have ht : tail h (some p) = some c.rest := by simp [tail, deref, he]
    refine ⟨_, _, ?_, e2.trans (prefix_concat h' c.e p'), ?_, C97_concat h' c.e p' _ e4⟩
    · rw [append, if_neg (by simp), hh, ht]
      simp only [Option.bind_eq_bind, Option.bind_some]
      rw [e1]
      rfl
    · simp only [concat, List.length_append, List.length_nil, List.length_cons]; omega

/-- C97: `Append` gives the list with the element at its end, for lists of every length, without a trap. -/
theorem C97_append (h : Heap) (p : Ptr) (xs : List Elem) (e : Elem) (i : Is h p xs) :
    ∃ h' p', append (xs.length + 1) h p e = some (h', p') ∧ Is h' p' (xs ++ [e]) := by
  obtain ⟨h', p', e1, _, _, e4⟩ := append_ok h e i (xs.length + 1) (by omega)
  exact ⟨h', p', e1, e4⟩

/-- C97: `Append` changes no list: the argument and all lists that share parts with it stay as they are.  It makes one record for
each element of the result, and no other. -/
theorem C97_append_others (h : Heap) (p q : Ptr) (xs ys : List Elem) (e : Elem) (i : Is h p xs) (j : Is h q ys) (h' : Heap) (p' : Ptr)
    (f : Nat) (hf : xs.length < f) (r : append f h p e = some (h', p')) : Is h' q ys ∧ h'.length = h.length + (xs ++ [e]).length := by
  obtain ⟨h2, p2, e1, e2, e3, _⟩ := append_ok h e i f hf
  rw [e1] at r
  cases r
  exact ⟨j.mono e2, by simp [e3]; omega⟩

/-- C97: `IsElement` says whether some element of the list is equal, in the sense of the procedure, to the given one. -/
theorem C97_is_element (equal : Elem → Elem → Bool) (h : Heap) (e : Elem) (p : Ptr) (xs : List Elem) (i : Is h p xs) :
    ∀ f > xs.length, isElement equal f h e p = some (xs.any (equal e)) := by
  induction i with
  | nil =>
    intro f hf
    obtain ⟨k, rfl⟩ : ∃ k, f = k + 1 := ⟨f - 1, by simp at hf; omega⟩
    rw [isElement, if_pos rfl]; rfl
  | @cons p c xs he i ih =>
    intro f hf
    obtain ⟨k, rfl⟩ : ∃ k, f = k + 1 := ⟨f - 1, by simp at hf; omega⟩
    have hh : head h (some p) = some c.e := by simp [head, deref, he]
    have ht : tail h (some p) = some c.rest := by simp [tail, deref, he]
    have ih := ih k (by simp at hf; omega)
    rw [isElement, if_neg (by simp), hh, ht]
    simp only [Option.bind_eq_bind, Option.bind_some]
    rw [ih]
    cases hc : equal e c.e <;> simp [hc]

/-- C97: `Find` gives the first element of the list that is equal to the given one, and NIL if there is none. -/
theorem C97_find (equal : Elem → Elem → Bool) (h : Heap) (e : Elem) (p : Ptr) (xs : List Elem) (i : Is h p xs) :
    ∀ f > xs.length, find equal f h e p = some ((xs.find? (equal e)).getD none) := by
  induction i with
  | nil =>
    intro f hf
    obtain ⟨k, rfl⟩ : ∃ k, f = k + 1 := ⟨f - 1, by simp at hf; omega⟩
    rw [find, if_pos rfl]; rfl
  | @cons p c xs he i ih =>
    intro f hf
    obtain ⟨k, rfl⟩ : ∃ k, f = k + 1 := ⟨f - 1, by simp at hf; omega⟩
    have hh : head h (some p) = some c.e := by simp [head, deref, he]
    have ht : tail h (some p) = some c.rest := by simp [tail, deref, he]
    have ih := ih k (by simp at hf; omega)
    rw [find, if_neg (by simp), hh, ht]
    simp only [Option.bind_eq_bind, Option.bind_some]
    rw [ih]
    cases hc : equal e c.e <;> simp [hc]

/-! ## Examples: two lists that share the end -/

/-- `t = [3]`, `a = [1, 3]`, `b = [2, 3]`. -/
def shared : Heap := [⟨some 3, none⟩, ⟨some 1, some 0⟩, ⟨some 2, some 0⟩]

example : Is shared (some 1) [some 1, some 3] ∧ Is shared (some 2) [some 2, some 3] :=
  ⟨.cons (c := ⟨some 1, some 0⟩) rfl (.cons (c := ⟨some 3, none⟩) rfl .nil),
    .cons (c := ⟨some 2, some 0⟩) rfl (.cons (c := ⟨some 3, none⟩) rfl .nil)⟩

example : (append 3 shared (some 1) (some 7)).map (·.1.length) = some 6 := by decide

end Verif.Listen
