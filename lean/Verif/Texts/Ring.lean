import Verif.Texts.Spec
import Mathlib.Data.List.Basic
import Mathlib.Data.List.Perm.Subperm
import Mathlib.Tactic.Ring

/-!
# Rings of runs
-/
namespace Verif.Texts

theorem upd_same {α : Type} (f : Nat → α) (a : Nat) (x : α) : upd f a x a = x := if_pos rfl
theorem upd_ne {α : Type} {f : Nat → α} {a b : Nat} {x : α} (h : b ≠ a) : upd f a x b = f b := if_neg h

/-- Neighbours are linked in both directions. -/
def Linked (h : Hp) : List Nat → Prop
  | a :: b :: l => h.nxt a = b ∧ h.prv b = a ∧ Linked h (b :: l)
  | _ => True

/-- `a.next := b; b.prev := a`. -/
def link (h : Hp) (a b : Nat) : Hp := (h.setNxt a b).setPrv b a

theorem link_nxt (h : Hp) (a b c : Nat) : (link h a b).nxt c = if c = a then b else h.nxt c := rfl
theorem link_prv (h : Hp) (a b c : Nat) : (link h a b).prv c = if c = b then a else h.prv c := rfl
@[simp] theorem link_run (h : Hp) (a b : Nat) : (link h a b).run = h.run := rfl
@[simp] theorem link_free (h : Hp) (a b : Nat) : (link h a b).free = h.free := rfl

theorem linked_split {h : Hp} : ∀ {l1 : List Nat} {a : Nat} {l2 : List Nat},
    Linked h (l1 ++ a :: l2) ↔ Linked h (l1 ++ [a]) ∧ Linked h (a :: l2)
  | [], a, l2 => by simp [Linked]
  | [x], a, l2 => by simp [Linked, and_assoc]
  | x :: y :: l1, a, l2 => by
    have := linked_split (h := h) (l1 := y :: l1) (a := a) (l2 := l2)
    simp only [List.cons_append, Linked] at this ⊢
    rw [this]; tauto

theorem linked_left {h : Hp} : ∀ {l1 l2 : List Nat}, Linked h (l1 ++ l2) → Linked h l1
  | [], _, _ => trivial
  | [_], _, _ => trivial
  | x :: y :: l1, l2, hl => by
    simp only [List.cons_append, Linked] at hl ⊢
    exact ⟨hl.1, hl.2.1, linked_left (l1 := y :: l1) hl.2.2⟩

theorem linked_right {h : Hp} : ∀ {l1 l2 : List Nat}, Linked h (l1 ++ l2) → Linked h l2
  | [], _, hl => hl
  | [_], [], _ => trivial
  | [_], _ :: _, hl => hl.2.2
  | x :: y :: l1, l2, hl => linked_right (l1 := y :: l1) hl.2.2

theorem linked_join {h : Hp} : ∀ {A C : List Nat} {u x : Nat}, Linked h (A ++ [u]) → Linked h (x :: C) → h.nxt u = x →
    h.prv x = u → Linked h (A ++ u :: x :: C)
  | A, C, u, x, ha, hc, h1, h2 => linked_split.mpr ⟨ha, h1, h2, hc⟩

theorem linked_frame {h h' : Hp} : ∀ {l : List Nat}, (∀ a ∈ l.dropLast, h'.nxt a = h.nxt a) → (∀ a ∈ l.tail, h'.prv a = h.prv a) →
    Linked h l → Linked h' l
  | [], _, _, _ => trivial
  | [_], _, _, _ => trivial
  | a :: b :: l, h1, h2, hl => by
    simp only [Linked] at hl ⊢
    refine ⟨(h1 a (by simp)).trans hl.1, (h2 b (by simp)).trans hl.2.1, linked_frame (fun c hc => h1 c ?_) (fun c hc => h2 c ?_) hl.2.2⟩
    · simp only [List.dropLast_cons_cons]; exact List.mem_cons_of_mem _ hc
    · simp only [List.tail_cons] at hc ⊢; exact List.mem_cons_of_mem _ hc

theorem linked_link {h : Hp} {l : List Nat} {a b : Nat} (hl : Linked h l) (ha : a ∉ l.dropLast) (hb : b ∉ l.tail) : Linked (link h a b) l :=
  linked_frame (fun c hc => by rw [link_nxt, if_neg]; rintro rfl; exact ha hc) (fun c hc => by rw [link_prv, if_neg]; rintro rfl; exact hb hc) hl

theorem linked_nxt {h : Hp} {l1 l2 : List Nat} {a b : Nat} (hl : Linked h (l1 ++ a :: b :: l2)) : h.nxt a = b ∧ h.prv b = a :=
  ⟨(linked_right hl).1, (linked_right hl).2.1⟩

/-- The last of `a :: l`. -/
def lst (a : Nat) (l : List Nat) : Nat := l.getLastD a

@[simp] theorem lst_nil (a : Nat) : lst a [] = a := rfl
@[simp] theorem lst_snoc (a b : Nat) (l : List Nat) : lst a (l ++ [b]) = b := by simp [lst]
theorem lst_cons (a b : Nat) (l : List Nat) : lst a (b :: l) = lst b l := by simp only [lst]; cases l <;> rfl
theorem lst_append (a : Nat) (l m : List Nat) : lst a (l ++ m) = lst (lst a l) m := by
  induction l generalizing a with
  | nil => rfl
  | cons b l ih => rw [List.cons_append, lst_cons, lst_cons, ih]

theorem lst_mem (a : Nat) (l : List Nat) : lst a l ∈ a :: l := by
  induction l generalizing a with
  | nil => simp
  | cons b l ih => rw [lst_cons]; exact List.mem_cons_of_mem _ (ih b)

theorem lst_mem' {a : Nat} {l : List Nat} (h : l ≠ []) : lst a l ∈ l := by
  cases l with
  | nil => exact absurd rfl h
  | cons b l => rw [lst_cons]; exact lst_mem b l

/-- The first of `l ++ [b]`. -/
def fst (l : List Nat) (b : Nat) : Nat := l.headD b

@[simp] theorem fst_nil (b : Nat) : fst [] b = b := rfl
@[simp] theorem fst_cons (a b : Nat) (l : List Nat) : fst (a :: l) b = a := rfl

theorem snoc_cases (l : List Nat) : l = [] ∨ ∃ l' a, l = l' ++ [a] := by
  rcases l.eq_nil_or_concat with h | ⟨l', a, h⟩
  · exact .inl h
  · exact .inr ⟨l', a, by simpa using h⟩

/-- A cons list ends somewhere. -/
theorem snoc_form (a : Nat) (l : List Nat) : ∃ m, a :: l = m ++ [lst a l] := by
  rcases snoc_cases l with rfl | ⟨l', b, rfl⟩
  · exact ⟨[], rfl⟩
  · exact ⟨a :: l', by simp⟩

theorem ring_first {h : Hp} {a b : Nat} {l : List Nat} (hl : Linked h (a :: l ++ [b])) : h.nxt a = fst l b ∧ h.prv (fst l b) = a := by
  cases l with
  | nil => exact ⟨hl.1, hl.2.1⟩
  | cons c l => exact ⟨hl.1, hl.2.1⟩

theorem ring_mid {h : Hp} {a b : Nat} {l1 l2 : List Nat} (hl : Linked h (a :: (l1 ++ l2) ++ [b])) :
    h.nxt (lst a l1) = fst l2 b ∧ h.prv (fst l2 b) = lst a l1 := by
  obtain ⟨m, hm⟩ := snoc_form a l1
  have e : a :: (l1 ++ l2) ++ [b] = m ++ lst a l1 :: (l2 ++ [b]) := by
    rw [← List.cons_append, hm]; simp
  rw [e] at hl
  have := linked_right hl
  exact ring_first (by simpa using this)

/-- Joining two chains by a link. -/
theorem link_join {h : Hp} {a b : Nat} {A C : List Nat} (hA : Linked h (a :: A)) (hC : Linked h (C ++ [b]))
    (hAn : (a :: A).Nodup) (hCn : (C ++ [b]).Nodup) (hd1 : ∀ c ∈ a :: A, c ∉ C) (hb : b ∉ A) :
    Linked (link h (lst a A) (fst C b)) (a :: A ++ C ++ [b]) := by
  obtain ⟨m, hm⟩ := snoc_form a A
  have hlm : lst a A ∈ a :: A := lst_mem a A
  have e : a :: A ++ C ++ [b] = m ++ lst a A :: (C ++ [b]) := by rw [hm]; simp
  rw [e]
  obtain ⟨x, X, hX⟩ : ∃ x X, C ++ [b] = x :: X := by cases C <;> exact ⟨_, _, rfl⟩
  have hx : fst C b = x := by cases C <;> simp_all
  rw [hX]
  have hmn : (m ++ [lst a A]).Nodup := hm ▸ hAn
  have hxn : (x :: X).Nodup := hX ▸ hCn
  apply linked_join
  · rw [← hm]
    refine linked_link hA ?_ ?_
    · rw [hm, List.dropLast_concat]
      intro hc
      exact (List.nodup_append.mp hmn).2.2 _ hc _ (by simp) rfl
    · rw [hx, List.tail_cons]
      cases C with
      | nil => simp only [List.nil_append] at hX; obtain ⟨rfl, _⟩ := List.cons.inj hX; exact hb
      | cons c C =>
        rw [List.cons_append] at hX
        obtain ⟨rfl, _⟩ := List.cons.inj hX
        exact fun hc => hd1 _ (List.mem_cons_of_mem _ hc) (by simp)
  · rw [← hX]
    refine linked_link hC ?_ ?_
    · rw [List.dropLast_concat]; exact hd1 _ hlm
    · rw [hX, hx, List.tail_cons]; exact (List.nodup_cons.mp hxn).1
  · rw [link_nxt, if_pos rfl, hx]
  · rw [link_prv, hx, if_pos rfl]

/-- The same runs outside `S`. -/
structure Agree (h h' : Hp) (S : List Nat) : Prop where
  nxt : ∀ a, a < h.free → a ∉ S → h'.nxt a = h.nxt a
  prv : ∀ a, a < h.free → a ∉ S → h'.prv a = h.prv a
  run : ∀ a, a < h.free → a ∉ S → h'.run a = h.run a
  le : h.free ≤ h'.free

theorem Agree.refl (h : Hp) (S : List Nat) : Agree h h S := ⟨fun _ _ _ => rfl, fun _ _ _ => rfl, fun _ _ _ => rfl, le_rfl⟩

theorem Agree.trans {h h' h'' : Hp} {S S' : List Nat} (a : Agree h h' S) (b : Agree h' h'' S') (hs : ∀ c ∈ S', c ∈ S ∨ h.free ≤ c) :
    Agree h h'' S := by
  have key : ∀ c, c < h.free → c ∉ S → c ∉ S' := fun c h1 h2 h3 => by
    rcases hs c h3 with h4 | h4
    · exact h2 h4
    · omega
  have hl := a.le
  exact ⟨fun c h1 h2 => (b.nxt c (by omega) (key c h1 h2)).trans (a.nxt c h1 h2),
    fun c h1 h2 => (b.prv c (by omega) (key c h1 h2)).trans (a.prv c h1 h2),
    fun c h1 h2 => (b.run c (by omega) (key c h1 h2)).trans (a.run c h1 h2), by have := b.le; omega⟩

theorem Agree.mono {h h' : Hp} {S S' : List Nat} (a : Agree h h' S) (hs : ∀ c ∈ S, c ∈ S') : Agree h h' S' :=
  ⟨fun c h1 h2 => a.nxt c h1 (fun h => h2 (hs c h)), fun c h1 h2 => a.prv c h1 (fun h => h2 (hs c h)),
    fun c h1 h2 => a.run c h1 (fun h => h2 (hs c h)), a.le⟩

theorem agree_link (h : Hp) {a b : Nat} {S : List Nat} (ha : a ∈ S ∨ h.free ≤ a) (hb : b ∈ S ∨ h.free ≤ b) : Agree h (link h a b) S :=
  ⟨fun c h1 h2 => by rw [link_nxt, if_neg]; rintro rfl; rcases ha with h | h; exact h2 h; omega,
    fun c h1 h2 => by rw [link_prv, if_neg]; rintro rfl; rcases hb with h | h; exact h2 h; omega, fun _ _ _ => rfl, le_rfl⟩

theorem agree_setRun (h : Hp) {a : Nat} {r : Run} {S : List Nat} (ha : a ∈ S ∨ h.free ≤ a) : Agree h (h.setRun a r) S :=
  ⟨fun _ _ _ => rfl, fun _ _ _ => rfl, fun c h1 h2 => by
    show upd h.run a r c = _
    rw [upd_ne]; rintro rfl; rcases ha with h | h; exact h2 h; omega, le_rfl⟩

theorem agree_new (h : Hp) (S : List Nat) : Agree h h.new S :=
  ⟨fun _ _ _ => rfl, fun _ _ _ => rfl, fun _ _ _ => rfl, Nat.le_succ _⟩

/-- Distinct addresses below `n`. -/
theorem length_le_of_nodup {l : List Nat} {n : Nat} (hn : l.Nodup) (hl : ∀ a ∈ l, a < n) : l.length ≤ n := by
  have := (List.subperm_of_subset hn (l₂ := List.range n) (fun a ha => List.mem_range.mpr (hl a ha))).length_le
  simpa using this

end Verif.Texts
