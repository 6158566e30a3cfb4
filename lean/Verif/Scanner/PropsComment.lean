import Verif.Scanner.Model
import Verif.Scanner.Spec
import Mathlib.Data.List.Basic

/-!
C07: comments.
-/
namespace Verif.Scanner

theorem close_add (t : List Nat) : ∀ d k, close (d + k + 1) t = (close k t).bind (close d) := by
  intro d k
  fun_induction close k t generalizing d with
  | case1 => simp [close]
  | case2 => simp [close]
  | case3 k a b t h ih =>
    rw [close, if_pos h, ← ih d]; congr 1
  | case4 a b t h1 h2 =>
    rw [close, if_neg h1, if_pos h2, if_neg (by omega)]; rfl
  | case5 k a b t h1 h2 hk ih =>
    rw [close, if_neg h1, if_pos h2, if_neg (by omega), ← ih d]
    congr 1; omega
  | case6 k a b t h1 h2 ih => rw [close, if_neg h1, if_neg h2, ih]

theorem close_open (t : List Nat) : close 0 (40 :: 42 :: t) = (close 0 t).bind (close 0) := by
  rw [close, if_pos ⟨rfl, rfl⟩]; exact close_add t 0 0

theorem close_cons {a : Nat} {t : List Nat} (h1 : ¬ (a = 40 ∧ ch t = 42)) (h2 : ¬ (a = 42 ∧ ch t = 41)) :
    close 0 (a :: t) = close 0 t := by
  cases t with
  | nil => simp [close]
  | cons b t => simp only [ch, List.headD_cons] at h1 h2; rw [close, if_neg h1, if_neg h2]

/-- What `Comment` has to do with the text after the opening bracket. -/
def Res (t : List Nat) (o : Option (List Nat × List Nat)) : Prop :=
  match close 0 t with
  | some r => o = some (r, [])
  | none => ∃ e, o = some ([], e) ∧ e ≠ [] ∧ ∀ x ∈ e, x = 5

theorem close_length {t r : List Nat} {d : Nat} (h : close d t = some r) : r.length < t.length := by
  fun_induction close d t with
  | case1 => cases h
  | case2 => cases h
  | case3 d a b t h' ih => have := ih h; simp; omega
  | case4 a b t h1 h2 => cases h; simp; omega
  | case5 d a b t h1 h2 hk ih => have := ih h; simp; omega
  | case6 d a b t h1 h2 ih => have := ih h; simp at this ⊢; omega

theorem close_mem {t r : List Nat} {d : Nat} (h : close d t = some r) : ∀ x ∈ r, x ∈ t := by
  fun_induction close d t with
  | case1 => cases h
  | case2 => cases h
  | case3 d a b t h' ih => intro x hx; have := ih h x hx; simp [this]
  | case4 a b t h1 h2 => cases h; intro x hx; simp [hx]
  | case5 d a b t h1 h2 hk ih => intro x hx; have := ih h x hx; simp [this]
  | case6 d a b t h1 h2 ih =>
    intro x hx; have := ih h x hx
    simp only [List.mem_cons] at this ⊢
    exact Or.inr this

/-- What the WHILE loop in `Comment` does. -/
def WRes (t : List Nat) (o : Option (List Nat × List Nat)) : Prop :=
  ∃ t1 e1, o = some (t1, e1) ∧ t1.length ≤ t.length ∧ ch t1 ≠ 40 ∧ 0 ∉ t1 ∧
    ((e1 = [] ∧ close 0 t = close 0 t1) ∨
      (t1 = [] ∧ e1 ≠ [] ∧ (∀ x ∈ e1, x = 5) ∧ close 0 t = none))

theorem ch_zero {t : List Nat} (h : 0 ∉ t) (hc : ch t = 0) : t = [] := by
  cases t with
  | nil => rfl
  | cons a t => simp [ch] at hc; simp [hc] at h

theorem ch_ne {t : List Nat} {c : Nat} (hc : ch t = c) (h0 : c ≠ 0) : ∃ r, t = c :: r := by
  cases t with
  | nil => simp [ch] at hc; omega
  | cons a t => simp [ch] at hc; exact ⟨t, by rw [hc]⟩

theorem comment_all (f : Nat) :
    (∀ t, 0 ∉ t → 3 * t.length + 3 ≤ f → ∀ a, Res t (comment f (a :: t))) ∧
    (∀ t, 0 ∉ t → 3 * t.length + 1 ≤ f → WRes t (commentWhile f t)) ∧
    (∀ t, 0 ∉ t → 3 * t.length + 2 ≤ f → Res t (commentInner f t)) ∧
    (∀ t, 0 ∉ t → 3 * t.length + 3 ≤ f ∨ (t = [] ∧ 1 ≤ f) →
      (∀ r, t = 41 :: r → commentOuter f t = some (r, [])) ∧
      (ch t ≠ 41 → Res t (commentOuter f t))) := by
  induction f with
  | zero => exact ⟨by intros; omega, by intros; omega, by intros; omega, by intros; omega⟩
  | succ f ih =>
    obtain ⟨ihC, ihW, ihI, ihO⟩ := ih
    refine ⟨?_, ?_, ?_, ?_⟩
    · intro t h0 hf a
      simp only [comment, List.tail_cons]
      exact ihI t h0 (by omega)
    · intro t h0 hf
      simp only [commentWhile]
      split
      · next hc =>
        obtain ⟨t', rfl⟩ := ch_ne hc (by omega)
        rw [List.tail_cons]
        simp only [List.length_cons] at hf
        have h0' : 0 ∉ t' := fun h => h0 (by simp [h])
        split
        · next hc2 =>
          obtain ⟨t2, rfl⟩ := ch_ne hc2 (by omega)
          have h02 : 0 ∉ t2 := fun h => h0' (by simp [h])
          simp only [List.length_cons] at hf
          have hcom := ihC t2 h02 (by omega) 42
          unfold Res at hcom
          split at hcom
          · next r hr =>
            have hl := close_length hr
            have hm : 0 ∉ r := fun h => h02 (close_mem hr 0 h)
            obtain ⟨t3, e3, h1, h2, h3, h4, h5⟩ := ihW r hm (by omega)
            refine ⟨t3, e3, ?_, by simp; omega, h3, h4, ?_⟩
            · simp only [hcom, h1, bind, Option.bind]; simp
            · rw [close_open, hr]; simpa using h5
          · next hr =>
            obtain ⟨e, he, hne, hall⟩ := hcom
            obtain ⟨t3, e3, h1, h2, h3, h4, h5⟩ := ihW [] (by simp) (by simp; omega)
            have ht3 : t3 = [] := by cases t3 with | nil => rfl | cons a b => simp at h2
            subst ht3
            refine ⟨[], e ++ e3, ?_, by simp, by simp [ch], by simp, Or.inr ⟨rfl, by simp [hne], ?_, ?_⟩⟩
            · simp only [he, h1, bind, Option.bind]; simp
            · intro x hx
              rcases List.mem_append.1 hx with hx | hx
              · exact hall x hx
              · rcases h5 with ⟨rfl, -⟩ | ⟨-, -, h5, -⟩
                · simp at hx
                · exact h5 x hx
            · rw [close_open, hr]; rfl
        · next hc2 =>
          obtain ⟨t3, e3, h1, h2, h3, h4, h5⟩ := ihW t' h0' (by omega)
          refine ⟨t3, e3, h1, by simp; omega, h3, h4, ?_⟩
          rw [close_cons (by simp [hc2]) (by simp)]
          exact h5
      · next hc => exact ⟨t, [], rfl, Nat.le_refl _, hc, h0, Or.inl ⟨rfl, rfl⟩⟩
    · intro t h0 hf
      simp only [commentInner]
      obtain ⟨t1, e1, h1, h2, h3, h4, h5⟩ := ihW t h0 (by omega)
      simp only [h1, bind, Option.bind]
      by_cases hs : ch t1 = 42
      · obtain ⟨t2, rfl⟩ := ch_ne hs (by omega)
        have h02 : 0 ∉ t2 := fun h => h4 (by simp [h])
        simp only [hs, if_true, List.tail_cons]
        rcases h5 with ⟨rfl, hcl⟩ | ⟨h5, -⟩
        · simp only [List.length_cons] at h2
          have ho := ihO t2 h02 (Or.inl (by omega))
          unfold Res
          by_cases hp : ch t2 = 41
          · obtain ⟨r, rfl⟩ := ch_ne hp (by omega)
            have : close 0 (42 :: 41 :: r) = some r := by simp [close]
            rw [hcl, this, ho.1 r rfl]; simp
          · have ho2 := ho.2 hp
            unfold Res at ho2
            rw [hcl, close_cons (by simp) (by simp [hp])]
            split <;> rename_i hq <;> rw [hq] at ho2
            · simp only at ho2; rw [ho2]; simp
            · simp only at ho2
              obtain ⟨e, he, hne, hall⟩ := ho2
              exact ⟨e, by rw [he]; simp, hne, hall⟩
        · cases h5
      · simp only [hs, if_false]
        by_cases hz : ch t1 = 0
        · have ht := ch_zero h4 hz
          subst ht
          have ho := (ihO [] (by simp) (Or.inr ⟨rfl, by omega⟩)).2 (by simp [ch])
          unfold Res at ho
          simp only [close] at ho
          obtain ⟨e, he, hne, hall⟩ := ho
          simp only [hz, if_true, he]
          have hcl : close 0 t = none := by
            rcases h5 with ⟨-, h5⟩ | ⟨-, -, -, h5⟩
            · simpa [close] using h5
            · exact h5
          unfold Res
          rw [hcl]
          refine ⟨e1 ++ e, rfl, by simp [hne], ?_⟩
          intro x hx
          rcases List.mem_append.1 hx with hx | hx
          · rcases h5 with ⟨rfl, -⟩ | ⟨-, -, h5, -⟩
            · simp at hx
            · exact h5 x hx
          · exact hall x hx
        · simp only [hz, if_false]
          cases t1 with
          | nil => simp [ch] at hz
          | cons a t2 =>
            have h02 : 0 ∉ t2 := fun h => h4 (by simp [h])
            simp only [List.length_cons] at h2
            simp only [List.tail_cons]
            rcases h5 with ⟨rfl, hcl⟩ | ⟨h5, -⟩
            · have hi := ihI t2 h02 (by omega)
              simp only [ch, List.headD_cons] at h3 hs
              unfold Res at hi ⊢
              rw [hcl, close_cons (by simp [h3]) (by simp [hs])]
              split <;> rename_i hq <;> rw [hq] at hi
              · simp only at hi; rw [hi]; simp
              · simp only at hi
                obtain ⟨e, he, hne, hall⟩ := hi
                exact ⟨e, by rw [he]; simp, hne, hall⟩
            · cases h5
    · intro t h0 hf
      constructor
      · rintro r rfl
        simp [commentOuter, ch]
      · intro hp
        simp only [commentOuter, if_neg hp]
        split
        · next hz =>
          have := ch_zero h0 hz
          subst this
          unfold Res
          simp only [close]
          exact ⟨[5], rfl, by simp, by simp⟩
        · next hz =>
          have hne : t ≠ [] := by rintro rfl; simp [ch] at hz
          rcases hf with hf | ⟨h, -⟩
          · exact ihI t h0 (by omega)
          · exact absurd h hne

theorem comment_res {t : List Nat} (h0 : 0 ∉ t) :
    Res t (comment (commentFuel (42 :: t)) (42 :: t)) :=
  (comment_all _).1 t h0 (by simp [commentFuel]; omega) 42

/-! ### `Get` and its fuel -/

theorem skipBlanks_length (t : List Nat) : (skipBlanks t).length ≤ t.length := by
  induction t with
  | nil => simp [skipBlanks]
  | cons c t ih => simp only [skipBlanks]; split <;> (try split) <;> grind

theorem skipBlanks_mem {t : List Nat} {x : Nat} (h : x ∈ skipBlanks t) : x ∈ t := by
  induction t with
  | nil => simp [skipBlanks] at h
  | cons c t ih =>
    simp only [skipBlanks] at h
    split at h
    · split at h
      · simp at h
      · simp [ih h]
    · exact h

theorem get_fuel (n : Nat) : ∀ t f f', 0 ∉ t → t.length < n → t.length < f → t.length < f' →
    get f t = get f' t := by
  induction n with
  | zero => intros; omega
  | succ n ih =>
    intro t f f' h0 hn hf hf'
    obtain ⟨f, rfl⟩ : ∃ g, f = g + 1 := ⟨f - 1, by omega⟩
    obtain ⟨f', rfl⟩ : ∃ g, f' = g + 1 := ⟨f' - 1, by omega⟩
    simp only [get]
    have hl := skipBlanks_length t
    have hm : 0 ∉ skipBlanks t := fun h => h0 (skipBlanks_mem h)
    cases hsk : skipBlanks t with
    | nil => rfl
    | cons c t' =>
      rw [hsk] at hl hm
      simp only [List.length_cons] at hl
      simp only
      split
      · rfl
      · split
        · next h =>
          obtain ⟨t2, rfl⟩ := ch_ne h.2 (by omega)
          have h02 : 0 ∉ t2 := fun h => hm (by simp [h])
          have hr := comment_res h02
          unfold Res at hr
          simp only [List.length_cons] at hl
          split at hr
          · next r hcl =>
            have := close_length hcl
            rw [hr]
            simp only [bind, Option.bind]
            rw [ih r f f' (fun h => h02 (close_mem hcl 0 h)) (by omega) (by omega) (by omega)]
          · obtain ⟨e, he, -⟩ := hr
            rw [he]
            simp only [bind, Option.bind]
            rw [ih [] f f' (by simp) (by simp; omega) (by simp; omega) (by simp; omega)]
        · rfl

/-- **C07.**  For any text (of characters other than 0X) that begins with a comment:
* if the comment is closed, by the matching bracket `close` finds, then `Get` behaves exactly as it
  would on the text after that bracket: same symbol, same remaining text, same errors;
* if it is not closed, `Get` reports error 5 (at least once, and nothing else) and delivers the end
  of the text.
In both cases it terminates. -/
theorem C07_comments (t : List Nat) (h0 : 0 ∉ t) :
    match close 0 t with
    | some r => scan (40 :: 42 :: t) = scan r
    | none => ∃ e, scan (40 :: 42 :: t) = some (.eof, [], e) ∧ e ≠ [] ∧ ∀ x ∈ e, x = 5 := by
  have hr := comment_res h0
  unfold Res at hr
  have key : scan (40 :: 42 :: t) = (comment (commentFuel (42 :: t)) (42 :: t)).bind (fun p =>
      (get (t.length + 2) p.1).bind (fun q => some (q.1, q.2.1, p.2 ++ q.2.2))) := by
    simp only [scan, List.length_cons, get, skipBlanks]
    simp [ch, bind]
  cases hcl : close 0 t with
  | some r =>
    rw [hcl] at hr
    simp only at hr ⊢
    rw [key, hr]
    have hl := close_length hcl
    have hm : 0 ∉ r := fun h => h0 (close_mem hcl 0 h)
    simp only [Option.bind]
    rw [scan, get_fuel (t.length + 3) r (t.length + 2) (r.length + 1) hm (by omega) (by omega) (by omega)]
    cases get (r.length + 1) r <;> simp
  | none =>
    rw [hcl] at hr
    simp only at hr ⊢
    obtain ⟨e, he, hne, hall⟩ := hr
    refine ⟨e, ?_, hne, hall⟩
    rw [key, he]
    simp [get, skipBlanks]

/- Non-vacuity: a nested comment with stray brackets, and an unclosed one. -/
example : close 0 (w! " a (* ( *) ** ) *)END") = some (w! "END") := by decide
example : close 0 (w! "*(*) *) x") = none := by decide
example : scan (w! "(*)*)x") = some (.ident (w! "x"), [], []) := by decide

end Verif.Scanner
