import Verif.Parse.Run

/-! # The parser comes to an end -/
namespace Verif.Parse
open Verif.Scanner (Tok)

variable {α β γ : Type}

/-- A set of numbers of steps. -/
structure Ix (ι : Type) where
  S : ι → Prop
  ne : ∃ x, S x

/-- `F` steps or more. -/
def ab (F : Nat) : Ix Nat := ⟨fun f => F ≤ f, F, Nat.le_refl _⟩

variable {ι : Type}

/-- With any number of steps out of `F`, `p` has the same outcome; the input left satisfies `Q`. -/
def W (p : ι → P α) (F : Ix ι) (i : List T) (Q : List T → Prop) : Prop :=
  ∃ r, (∀ f, F.S f → p f i = some r) ∧ Q r.2.1

theorem W.bind {p : ι → P α} {g : ι → α → P β} {F : Ix ι} {i : List T} {Q R : List T → Prop} (h : W p F i R)
    (h' : ∀ a j, R j → W (fun f => g f a) F j Q) : W (fun f => p f >>= g f) F i Q := by
  obtain ⟨⟨a, j, e⟩, hr, hR⟩ := h
  obtain ⟨⟨b, k, e'⟩, hr', hQ⟩ := h' a j hR
  refine ⟨(b, k, e ++ e'), fun f hf => ?_, hQ⟩
  show P.bind (p f) (g f) i = _
  simp only [P.bind, hr f hf]
  have := hr' f hf
  simp only at this
  rw [this]

theorem W.imp {p : ι → P α} {F : Ix ι} {i : List T} {Q R : List T → Prop} (h : W p F i R) (h' : ∀ j, R j → Q j) : W p F i Q := by
  obtain ⟨r, hr, hR⟩ := h
  exact ⟨r, hr, h' _ hR⟩

theorem W.mono {p : Nat → P α} {F G : Nat} {i : List T} {Q : List T → Prop} (h : W p (ab F) i Q) (hF : F ≤ G) : W p (ab G) i Q := by
  obtain ⟨r, hr, hR⟩ := h
  exact ⟨r, fun f hf => hr f (Nat.le_trans hF hf), hR⟩

theorem W.succ {p : Nat → P α} {F : Nat} {i : List T} {Q : List T → Prop} (h : W (fun f => p (f + 1)) (ab F) i Q) :
    W p (ab (F + 1)) i Q := by
  obtain ⟨r, hr, hR⟩ := h
  refine ⟨r, fun f hf => ?_, hR⟩
  have hf : F + 1 ≤ f := hf
  obtain ⟨g, rfl⟩ : ∃ g, f = g + 1 := ⟨f - 1, by omega⟩
  exact hr g (show F ≤ g by omega)

theorem w_pure {a : α} {F : Ix ι} {i : List T} {Q : List T → Prop} : W (fun _ => pure a) F i Q ↔ Q i := by
  refine ⟨fun ⟨r, hr, h⟩ => ?_, fun h => ⟨(a, i, []), fun _ _ => rfl, h⟩⟩
  obtain ⟨x, hx⟩ := F.ne
  have : some (a, i, ([] : List Nat)) = some r := hr x hx
  cases this; exact h

theorem w_simple {p : P α} {g : ι → α → P β} {F : Ix ι} {i j : List T} {a : α} {Q : List T → Prop} (hp : p i = some (a, j, [])) :
    W (fun f => p >>= g f) F i Q ↔ W (fun f => g f a) F j Q := by
  have : ∀ f, (p >>= g f) i = g f a j := by
    intro f
    show P.bind p (g f) i = _
    simp only [P.bind, hp]
    cases g f a j with
    | none => rfl
    | some r => rfl
  simp only [W, this]

theorem w_sy {g : ι → Nat → P β} {F : Ix ι} {i : List T} {Q : List T → Prop} :
    W (fun f => sy >>= g f) F i Q ↔ W (fun f => g f (cur i)) F i Q := w_simple rfl

theorem w_get {g : ι → Unit → P β} {F : Ix ι} {i : List T} {Q : List T → Prop} :
    W (fun f => get >>= g f) F i Q ↔ W (fun f => g f ()) F i.tail Q := w_simple rfl

theorem w_name {g : ι → Name → P β} {F : Ix ι} {i : List T} {Q : List T → Prop} :
    W (fun f => name >>= g f) F i Q ↔ W (fun f => g f (curName i)) F i Q := w_simple rfl

theorem w_tok {g : ι → Tok → P β} {F : Ix ι} {i : List T} {Q : List T → Prop} :
    W (fun f => tok >>= g f) F i Q ↔ W (fun f => g f ((i.head?.map (·.1)).getD .eof)) F i Q := w_simple rfl

theorem w_ask {g : ι → Bool → P β} {F : Ix ι} {i : List T} {Q : List T → Prop} :
    W (fun f => ask >>= g f) F i Q ↔ W (fun f => g f ((i.head?.map (·.2)).getD false)) F i Q := w_simple rfl

theorem w_err {n : Nat} {g : ι → Unit → P β} {F : Ix ι} {i : List T} {Q : List T → Prop} :
    W (fun f => err n >>= g f) F i Q ↔ W (fun f => g f ()) F i Q := by
  have hb : ∀ f, (err n >>= g f) i = (g f () i).map fun r => (r.1, r.2.1, n :: r.2.2) := by
    intro f
    show P.bind (err n) (g f) i = _
    simp only [P.bind, err]
    cases g f () i with
    | none => rfl
    | some r => rfl
  simp only [W, hb]
  constructor
  · rintro ⟨r, hr, hQ⟩
    obtain ⟨x, hx⟩ := F.ne
    obtain ⟨⟨a, k, e⟩, h1, rfl⟩ := Option.map_eq_some_iff.mp (hr x hx)
    refine ⟨(a, k, e), fun f hf => ?_, hQ⟩
    obtain ⟨⟨a', k', e'⟩, h2, h3⟩ := Option.map_eq_some_iff.mp (hr f hf)
    simp only [Prod.mk.injEq, List.cons.injEq, true_and] at h3
    obtain ⟨rfl, rfl, rfl⟩ := h3
    exact h2
  · rintro ⟨r, hr, hQ⟩
    exact ⟨(r.1, r.2.1, n :: r.2.2), fun f hf => by rw [hr f hf]; rfl, hQ⟩

/-- `err` as the last step. -/
theorem w_err' {n : Nat} {F : Ix ι} {i : List T} {Q : List T → Prop} : W (fun _ => err n) F i Q ↔ Q i := by
  refine ⟨fun ⟨r, hr, h⟩ => ?_, fun h => ⟨((), i, [n]), fun _ _ => rfl, h⟩⟩
  obtain ⟨x, hx⟩ := F.ne
  have : some ((), i, [n]) = some r := hr x hx
  cases this; exact h

theorem w_get' {F : Ix ι} {i : List T} {Q : List T → Prop} : W (fun _ => get) F i Q ↔ Q i.tail := by
  refine ⟨fun ⟨r, hr, h⟩ => ?_, fun h => ⟨((), i.tail, []), fun _ _ => rfl, h⟩⟩
  obtain ⟨x, hx⟩ := F.ne
  have : some ((), i.tail, []) = some r := hr x hx
  cases this; exact h

theorem w_ite {c : Prop} [Decidable c] {p q : ι → P α} {F : Ix ι} {i : List T} {Q : List T → Prop} :
    W (fun f => if c then p f else q f) F i Q ↔ if c then W p F i Q else W q F i Q := by
  split <;> rfl

theorem w_iteb {c : Prop} [Decidable c] {p q : ι → P α} {g : ι → α → P β} {F : Ix ι} {i : List T} {Q : List T → Prop} :
    W (fun f => (if c then p f else q f) >>= g f) F i Q ↔ if c then W (fun f => p f >>= g f) F i Q else W (fun f => q f >>= g f) F i Q := by
  split <;> rfl

theorem w_pureb {a : α} {g : ι → α → P β} {F : Ix ι} {i : List T} {Q : List T → Prop} :
    W (fun f => pure a >>= g f) F i Q ↔ W (fun f => g f a) F i Q := w_simple rfl

theorem w_bindb {p : ι → P γ} {q : ι → γ → P α} {g : ι → α → P β} {F : Ix ι} {i : List T} {Q : List T → Prop} :
    W (fun f => (p f >>= q f) >>= g f) F i Q ↔ W (fun f => p f >>= fun x => q f x >>= g f) F i Q := by
  simp only [W, bind_b]

/-- The input after `CheckSym(n)`. -/
def eat (n : Nat) (i : List T) : List T := if cur i = n then i.tail else i

theorem w_checkSym {n : Nat} {g : ι → Unit → P β} {F : Ix ι} {i : List T} {Q : List T → Prop} :
    W (fun f => checkSym n >>= g f) F i Q ↔ W (fun f => g f ()) F (eat n i) Q := by
  unfold checkSym eat
  simp only [w_bindb, w_sy, w_iteb, w_get, w_err]
  split <;> rfl

theorem w_sameName {x n : Name} {g : ι → Unit → P β} {F : Ix ι} {i : List T} {Q : List T → Prop} :
    W (fun f => sameName x n >>= g f) F i Q ↔ W (fun f => g f ()) F i Q := by
  unfold sameName
  simp only [w_iteb, w_pureb, w_err, ite_self]

/-- The input after the skipping of symbols below `n`. -/
def drop (n : Nat) (i : List T) : List T := if cur i < n then i.dropWhile (fun t => code t.1 < n) else i

theorem w_sync {n e : Nat} {g : ι → Unit → P β} {F : Ix ι} {i : List T} {Q : List T → Prop} :
    W (fun f => sync n e >>= g f) F i Q ↔ W (fun f => g f ()) F (drop n i) Q := by
  have hs : ∀ (g : ι → Unit → P β) (i : List T), W (fun f => skip n >>= g f) F i Q ↔
      W (fun f => g f ()) F (i.dropWhile (fun t => code t.1 < n)) Q := fun g i => w_simple rfl
  unfold sync drop
  simp only [w_bindb, w_sy, w_iteb, w_err, hs, w_pureb]
  split <;> rfl

theorem lenpos (i : List T) : cur i = 64 ∨ 0 < i.length := by
  cases i with
  | nil => exact .inl rfl
  | cons t i => exact .inr (by simp)

theorem eat_le (n : Nat) (i : List T) : (eat n i).length ≤ i.length := by
  unfold eat; split <;> simp

theorem eat_eq (n : Nat) (hn : n ≠ 64) (i : List T) : (eat n i).length < i.length ∨ eat n i = i := by
  unfold eat
  split
  · rename_i h
    have := lenpos i
    left; rw [List.length_tail]; omega
  · exact .inr rfl

theorem dropWhile_le (p : T → Bool) : ∀ i : List T, (i.dropWhile p).length ≤ i.length
  | [] => by simp
  | t :: i => by
    rw [List.dropWhile_cons]
    have := dropWhile_le p i
    split <;> simp <;> omega

theorem drop_eq (n : Nat) (hn : n ≤ 64) (i : List T) : (drop n i).length < i.length ∨ drop n i = i := by
  unfold drop
  split
  · rename_i h
    left
    cases i with
    | nil => simp [cur] at h; omega
    | cons t i =>
      have hc : decide (code t.1 < n) = true := by simpa [cur] using h
      rw [List.dropWhile_cons, if_pos hc]
      have := dropWhile_le (fun t => code t.1 < n) i
      simp; omega
  · exact .inr rfl

theorem drop_le (n : Nat) (i : List T) : (drop n i).length ≤ i.length := by
  unfold drop
  split
  · exact dropWhile_le _ _
  · exact Nat.le_refl _

theorem drop_ge (n : Nat) (hn : n ≤ 64) (i : List T) : n ≤ cur (drop n i) := by
  unfold drop
  split
  · have : ∀ i : List T, n ≤ cur (i.dropWhile (fun t => code t.1 < n)) := by
      intro i
      induction i with
      | nil => simpa [cur] using hn
      | cons t i ih =>
        rw [List.dropWhile_cons]
        split
        · exact ih
        · rename_i h
          simpa [cur] using h
    exact this i
  · omega

/-- One step after another. -/
macro "wst" : tactic => `(tactic|
  simp only [w_sy, w_get, w_get', w_name, w_tok, w_ask, w_err, w_err', w_checkSym, w_sync, w_sameName, w_pureb, w_bindb, w_pure, w_ite, w_iteb])

/-- Lengths. -/
macro "wln" : tactic => `(tactic| ((try simp only [List.length_tail] at *); omega))

/-- Something was read, if there was something to read. -/
def Adv (i k : List T) : Prop := k.length < i.length ∨ k.length ≤ i.length ∧ i.length = 0

theorem qualident_w {F : Ix ι} {i : List T} : W (fun _ => qualident) F i (Adv i) := by
  unfold qualident
  wst
  unfold Adv
  repeat' split
  all_goals wln

/-- `F` steps or more for each part, and more than `m` for the list. -/
def ab2 (F m : Nat) : Ix (Nat × Nat) := ⟨fun x => F ≤ x.1 ∧ m ≤ x.2, (F, m), Nat.le_refl _, Nat.le_refl _⟩

theorem commas_w2 {item : Nat → P α} {again : Nat → Bool} {F n : Nat} {R : List T → List T → Prop}
    (hR : ∀ i k, R i k → k.length ≤ i.length ∧ (again (cur k) = true → k.length < i.length))
    (h : ∀ i, i.length ≤ n → W item (ab F) i (R i)) : ∀ m (i : List T), i.length ≤ n → i.length ≤ m →
    W (fun x : Nat × Nat => commas (item x.1) again x.2) (ab2 F (m + 1)) i (fun k => ∃ j, R i j ∧ k.length ≤ j.length) := by
  intro m
  induction m with
  | zero =>
    intro i hn hm
    suffices W (fun x : Nat × Nat => commas (item x.1) again (x.2 + 1)) (ab2 F 0) i (fun k => ∃ j, R i j ∧ k.length ≤ j.length) by
      obtain ⟨r, hr, hQ⟩ := this
      refine ⟨r, fun x hx => ?_, hQ⟩
      have h1 : F ≤ x.1 ∧ 1 ≤ x.2 := hx
      have : commas (item x.1) again (x.2 - 1 + 1) i = some r := hr (x.1, x.2 - 1) ⟨h1.1, Nat.zero_le _⟩
      rwa [Nat.sub_add_cancel h1.2] at this
    simp only [commas]
    have hi : W (fun x : Nat × Nat => item x.1) (ab2 F 0) i (R i) := by
      obtain ⟨r, hr, hQ⟩ := h i hn
      exact ⟨r, fun x hx => hr x.1 hx.1, hQ⟩
    refine W.bind hi fun a j hj => ?_
    have hl := hR i j hj
    have hp := lenpos j
    have hc : cur j = 64 := by omega
    have ha : ¬ again (cur j) = true := fun hb => by have := hl.2 hb; omega
    have h19 : ¬ cur j = 19 := by omega
    wst
    rw [if_neg h19, if_neg ha]
    exact ⟨j, hj, Nat.le_refl _⟩
  | succ m ih =>
    intro i hn hm
    suffices W (fun x : Nat × Nat => commas (item x.1) again (x.2 + 1)) (ab2 F (m + 1)) i (fun k => ∃ j, R i j ∧ k.length ≤ j.length) by
      obtain ⟨r, hr, hQ⟩ := this
      refine ⟨r, fun x hx => ?_, hQ⟩
      have h1 : F ≤ x.1 ∧ m + 1 + 1 ≤ x.2 := hx
      have : commas (item x.1) again (x.2 - 1 + 1) i = some r := hr (x.1, x.2 - 1) ⟨h1.1, show m + 1 ≤ x.2 - 1 by omega⟩
      rwa [Nat.sub_add_cancel (by omega)] at this
    simp only [commas]
    have hi : W (fun x : Nat × Nat => item x.1) (ab2 F (m + 1)) i (R i) := by
      obtain ⟨r, hr, hQ⟩ := h i hn
      exact ⟨r, fun x hx => hr x.1 hx.1, hQ⟩
    refine W.bind hi fun a j hj => ?_
    have hl := hR i j hj
    have hp := lenpos j
    wst
    split
    · refine W.bind (ih j.tail (by wln) (by wln)) fun as k hk => ?_
      obtain ⟨j', hj', hk⟩ := hk
      have := hR _ _ hj'
      wst
      exact ⟨j, hj, by wln⟩
    · split
      · rename_i hb
        have hlt := hl.2 hb
        refine W.bind (ih j (by omega) (by omega)) fun as k hk => ?_
        obtain ⟨j', hj', hk⟩ := hk
        have := hR _ _ hj'
        wst
        exact ⟨j, hj, by omega⟩
      · exact ⟨j, hj, Nat.le_refl _⟩

theorem commas_w {item : Nat → P α} {again : Nat → Bool} {F : Nat} {R : List T → List T → Prop} {i : List T}
    (hR : ∀ i k, R i k → k.length ≤ i.length ∧ (again (cur k) = true → k.length < i.length))
    (h : ∀ j : List T, j.length ≤ i.length → W item (ab F) j (R j)) (hF : i.length < F) :
    W (fun f => commas (item f) again f) (ab F) i (fun k => ∃ j, R i j ∧ k.length ≤ j.length) := by
  obtain ⟨r, hr, hQ⟩ := commas_w2 hR h i.length i (Nat.le_refl _) (Nat.le_refl _)
  exact ⟨r, fun f hf => hr (f, f) ⟨hf, Nat.le_trans hF hf⟩, hQ⟩

/-! ### Expressions -/

/-- The input gets no longer. -/
def Le (i k : List T) : Prop := k.length ≤ i.length

/-- Enough steps for expressions. -/
structure TotE (F : Nat) : Prop where
  ex : ∀ i : List T, 16 * i.length + 4 ≤ F → W expression (ab F) i (Adv i)
  si : ∀ i : List T, 16 * i.length + 3 ≤ F → W simple (ab F) i (Adv i)
  ad : ∀ (i : List T) x, 16 * i.length + 1 ≤ F → W (fun f => adds f x) (ab F) i (Le i)
  te : ∀ i : List T, 16 * i.length + 2 ≤ F → W term (ab F) i (Adv i)
  mu : ∀ (i : List T) x, 16 * i.length + 1 ≤ F → W (fun f => muls f x) (ab F) i (Le i)
  fa : ∀ i : List T, 16 * i.length + 1 ≤ F → W factor (ab F) i (Adv i)
  se : ∀ i : List T, 16 * i.length + 1 ≤ F → W selector (ab F) i (Le i)
  ac : ∀ i : List T, 16 * i.length + 5 ≤ F → W actuals (ab F) i (Le i)
  el : ∀ i : List T, 16 * i.length + 5 ≤ F → W element (ab F) i (Adv i)
  st : ∀ i : List T, 16 * i.length + 6 ≤ F → W sets (ab F) i (Le i)

theorem adv_starts {again : Nat → Bool} (h : again 64 = false) (i k : List T) (ha : Adv i k) :
    k.length ≤ i.length ∧ (again (cur k) = true → k.length < i.length) := by
  unfold Adv at ha
  refine ⟨by omega, fun hb => ?_⟩
  have := lenpos k
  rcases this with hc | hc
  · rw [hc, h] at hb; cases hb
  · omega

theorem totE : ∀ F, TotE F := by
  intro F
  induction F with
  | zero => constructor <;> intros <;> omega
  | succ F ih =>
    constructor
    · -- expression
      intro i hF
      refine W.succ ?_
      simp only [expression]
      refine W.bind (ih.si i (by omega)) fun x j hj => ?_
      have hp := lenpos j
      unfold Adv at *
      wst
      split
      · refine W.bind (ih.si _ (by wln)) fun y k hk => ?_
        unfold Adv at *
        wst
        wln
      · split
        · split
          · refine W.bind qualident_w fun y k hk => ?_
            unfold Adv at *
            wst
            wln
          · wln
        · wln
    · -- simple
      intro i hF
      refine W.succ ?_
      simp only [simple]
      have hp := lenpos i
      wst
      split
      · refine W.bind (ih.te _ (by wln)) fun y k hk => ?_
        unfold Adv at *
        refine (ih.ad _ _ (by wln)).imp fun l hl => ?_
        unfold Le at *
        wln
      · refine W.bind (ih.te _ (by wln)) fun y k hk => ?_
        unfold Adv at *
        refine (ih.ad _ _ (by wln)).imp fun l hl => ?_
        unfold Le at *
        wln
    · -- adds
      intro i x hF
      refine W.succ ?_
      simp only [adds]
      have hp := lenpos i
      unfold Le at *
      wst
      split
      · refine W.bind (ih.te _ (by wln)) fun y k hk => ?_
        unfold Adv at *
        refine (ih.ad _ _ (by wln)).imp fun l hl => ?_
        unfold Le at *
        wln
      · exact Nat.le_refl _
    · -- term
      intro i hF
      refine W.succ ?_
      simp only [term]
      refine W.bind (ih.fa _ (by wln)) fun y k hk => ?_
      unfold Adv at *
      refine (ih.mu _ _ (by wln)).imp fun l hl => ?_
      unfold Le at *
      wln
    · -- muls
      intro i x hF
      refine W.succ ?_
      simp only [muls]
      have hp := lenpos i
      unfold Le at *
      wst
      split
      · refine W.bind (ih.fa _ (by wln)) fun y k hk => ?_
        unfold Adv at *
        refine (ih.mu _ _ (by wln)).imp fun l hl => ?_
        unfold Le at *
        wln
      · exact Nat.le_refl _
    · -- factor
      intro i hF
      refine W.succ ?_
      simp only [factor]
      wst
      have hd := drop_le 30 i
      have hp := lenpos (drop 30 i)
      generalize drop 30 i = j at *
      have adv : ∀ k : List T, k.length < j.length → Adv i k := fun k hk => .inl (by omega)
      split
      · refine W.bind qualident_w fun q k hk => ?_
        unfold Adv at hk
        refine W.bind (ih.se _ (by wln)) fun ss l hl => ?_
        unfold Le at hl
        have hp' := lenpos l
        wst
        split
        · refine W.bind (ih.ac _ (by wln)) fun ss l' hl' => ?_
          unfold Le at hl'
          have := eat_le 22 l'
          wst
          exact adv _ (by wln)
        · exact adv _ (by wln)
      · split
        · exact adv _ (by wln)
        · split
          · exact adv _ (by wln)
          · split
            · refine W.bind (ih.ex _ (by wln)) fun x k hk => ?_
              unfold Adv at hk
              have := eat_le 22 k
              wst
              exact adv _ (by wln)
            · split
              · refine W.bind (ih.ex _ (by wln)) fun x k hk => ?_
                unfold Adv at hk
                have := eat_le 22 k
                wst
                exact adv _ (by wln)
              · split
                · refine W.bind (ih.st _ (by wln)) fun x k hk => ?_
                  unfold Le at hk
                  have := eat_le 24 k
                  wst
                  exact adv _ (by wln)
                · split
                  · refine W.bind (ih.fa _ (by wln)) fun x k hk => ?_
                    unfold Adv at hk
                    wst
                    exact adv _ (by wln)
                  · unfold Adv
                    wln
    · -- selector
      intro i hF
      refine W.succ ?_
      simp only [selector]
      wst
      have hp := lenpos i
      split
      · refine W.bind (commas_w (R := Adv) (adv_starts (again := fun _ => false) rfl) (fun j hj => ih.ex j (by wln)) (by wln)) fun es k hk => ?_
        obtain ⟨j, hj, hk⟩ := hk
        unfold Adv at hj
        have := eat_le 23 k
        wst
        refine W.bind (ih.se _ (by wln)) fun ss l hl => ?_
        unfold Le at *
        wst
        wln
      · split
        · split
          · refine W.bind (ih.se _ (by wln)) fun ss l hl => ?_
            unfold Le at *
            wst
            wln
          · refine (ih.se _ (by wln)).imp fun l hl => ?_
            unfold Le at *
            wln
        · split
          · refine W.bind (ih.se _ (by wln)) fun ss l hl => ?_
            unfold Le at *
            wst
            wln
          · split
            · split
              · refine W.bind qualident_w fun q k hk => ?_
                unfold Adv at hk
                have := eat_le 22 k
                wst
                refine W.bind (ih.se _ (by wln)) fun ss l hl => ?_
                unfold Le at *
                wst
                wln
              · have := eat_le 22 i.tail
                refine (ih.se _ (by wln)).imp fun l hl => ?_
                unfold Le at *
                wln
            · exact Nat.le_refl _
    · -- actuals
      intro i hF
      refine W.succ ?_
      simp only [actuals]
      wst
      split
      · exact Nat.le_refl _
      · refine (commas_w (R := Adv) (adv_starts rfl) (fun j hj => ih.ex j (by wln)) (by wln)).imp fun k hk => ?_
        obtain ⟨j, hj, hk⟩ := hk
        unfold Adv Le at *
        omega
    · -- element
      intro i hF
      refine W.succ ?_
      simp only [element]
      refine W.bind (ih.ex _ (by omega)) fun x j hj => ?_
      have hp := lenpos j
      unfold Adv at *
      wst
      split
      · refine W.bind (ih.ex _ (by wln)) fun x j hj => ?_
        unfold Adv at *
        wst
        wln
      · wln
    · -- sets
      intro i hF
      refine W.succ ?_
      simp only [sets]
      wst
      split
      · exact Nat.le_refl _
      · refine (commas_w (R := Adv) (adv_starts rfl) (fun j hj => ih.el j (by wln)) (by wln)).imp fun k hk => ?_
        obtain ⟨j, hj, hk⟩ := hk
        unfold Adv Le at *
        omega


/-! ### Types -/

/-- Something was read, or nothing at all. -/
def Same (i k : List T) : Prop := k.length < i.length ∨ k = i

theorem defn_w {F : Ix ι} {i : List T} : W (fun _ => defn) F i (Adv i) := by
  unfold defn
  wst
  unfold Adv
  repeat' split
  all_goals wln

theorem sysFlag_w {F : Nat} {i : List T} (hF : 16 * i.length + 4 ≤ F) : W sysFlag (ab F) i (Le i) := by
  unfold sysFlag
  wst
  have := lenpos i
  split
  · refine W.bind ((totE F).ex _ (by wln)) fun x k hk => ?_
    have := eat_le 23 k
    unfold Adv Le at *
    wst
    wln
  · exact Nat.le_refl _

/-- Something was read, or the symbol was not `s`. -/
def Unless (s : Nat) (i k : List T) : Prop := k.length < i.length ∨ k = i ∧ cur i ≠ s

theorem defItem_w {F : Ix ι} {i : List T} : W (fun _ => defItem) F i (Unless 38 i) := by
  unfold defItem
  wst
  have := lenpos i
  split
  · refine defn_w.imp fun k hk => ?_
    unfold Adv at hk
    exact .inl (by omega)
  · exact .inr ⟨rfl, by assumption⟩

theorem nameItem_w {F : Ix ι} {i : List T} : W (fun _ => nameItem) F i (Unless 38 i) := by
  unfold nameItem
  wst
  have := lenpos i
  split
  · exact .inl (by wln)
  · exact .inr ⟨rfl, by assumption⟩

theorem unless_starts {s : Nat} (i k : List T) (ha : Unless s i k) :
    k.length ≤ i.length ∧ ((fun x => x == s) (cur k) = true → k.length < i.length) := by
  rcases ha with h | ⟨rfl, h⟩
  · exact ⟨by omega, fun _ => h⟩
  · exact ⟨Nat.le_refl _, fun hb => absurd (by simpa using hb) h⟩

theorem defs_w {F : Nat} {i : List T} (hF : i.length < F) :
    W (fun f => commas defItem (fun s => s == 38) f) (ab F) i (fun k => k.length ≤ i.length ∧ (cur i = 38 → k.length < i.length)) := by
  refine (commas_w (R := Unless 38) (again := fun s => s == 38) (item := fun _ => defItem) unless_starts (fun _ _ => defItem_w) hF).imp
    fun k hk => ?_
  obtain ⟨j, hj, hk⟩ := hk
  rcases hj with h | ⟨rfl, h⟩
  · exact ⟨by omega, fun _ => by omega⟩
  · exact ⟨hk, fun hc => absurd hc h⟩

theorem parNames_w : ∀ F (i : List T), i.length < F → W parNames (ab F) i (Unless 38 i) := by
  intro F
  induction F with
  | zero => intros; omega
  | succ F ih =>
    intro i hF
    refine W.succ ?_
    simp only [parNames]
    refine W.bind nameItem_w fun x j hj => ?_
    have hp := lenpos j
    have hl : j.length ≤ i.length := by rcases hj with h | ⟨rfl, h⟩ <;> omega
    wst
    split
    · refine W.bind (ih _ (by wln)) fun xs k hk => ?_
      wst
      refine .inl ?_
      rcases hk with h | ⟨rfl, h⟩ <;> wln
    · split
      · have hlt : j.length < i.length := by
          rcases hj with h | ⟨rfl, h⟩
          · exact h
          · exact absurd (by assumption) h
        refine W.bind (ih _ (by wln)) fun xs k hk => ?_
        wst
        refine .inl ?_
        rcases hk with h | ⟨rfl, h⟩ <;> wln
      · split
        · refine W.bind (ih _ (by wln)) fun xs k hk => ?_
          wst
          refine .inl ?_
          rcases hk with h | ⟨rfl, h⟩ <;> wln
        · exact hj

theorem resync_w : ∀ F (i : List T), i.length < F → W resync (ab F) i (Same i) := by
  intro F
  induction F with
  | zero => intros; omega
  | succ F ih =>
    intro i hF
    refine W.succ ?_
    simp only [resync]
    have hp := lenpos i
    wst
    split
    · exact .inr rfl
    · split
      · exact .inr rfl
      · refine (ih _ (by wln)).imp fun k hk => .inl ?_
        rcases hk with h | rfl <;> wln

theorem result_w {F : Ix ι} {i : List T} : W (fun _ => result) F i (Le i) := by
  unfold result
  wst
  have := lenpos i
  unfold Le
  split
  · split
    · refine W.bind qualident_w fun q k hk => ?_
      unfold Adv at hk
      wst
      wln
    · wln
  · exact Nat.le_refl _

theorem varMark_w {F : Ix ι} {i : List T} : W (fun _ => varMark) F i (Same i) := by
  unfold varMark
  wst
  have := lenpos i
  split
  · exact .inl (by wln)
  · exact .inr rfl

/-- Enough steps for types. -/
structure TotT (F : Nat) : Prop where
  ty : ∀ i : List T, 16 * i.length + 2 ≤ F → W type (ab F) i (Unless 38 i)
  ar : ∀ i : List T, 16 * i.length + 5 ≤ F → W array (ab F) i (Le i)
  re : ∀ i : List T, 16 * i.length + 5 ≤ F → W record (ab F) i (Le i)
  fi : ∀ i : List T, 16 * i.length + 1 ≤ F → W fields (ab F) i (Le i)
  po : ∀ i : List T, 16 * i.length + 5 ≤ F → W pointer (ab F) i (Le i)
  pa : ∀ i : List T, 16 * i.length + 4 ≤ F → W pars (ab F) i (Le i)
  se : ∀ i : List T, 16 * i.length + 3 ≤ F → W secs (ab F) i (Le i)

theorem totT : ∀ F, TotT F := by
  intro F
  induction F with
  | zero => constructor <;> intros <;> omega
  | succ F ih =>
    have un : ∀ {i k : List T}, Unless 38 i k → k.length ≤ i.length := fun h => by rcases h with h | ⟨rfl, h⟩ <;> omega
    constructor
    · -- type
      intro i hF
      refine W.succ ?_
      simp only [type]
      wst
      have hd := drop_le 30 i
      have hq := drop_eq 30 (by decide) i
      have hp := lenpos (drop 30 i)
      generalize hj : drop 30 i = j at *
      have fin : ∀ (k : List T) (t : Ty), k.length < j.length → W (fun f => resync f >>= fun _ => pure t) (ab F) k (Unless 38 i) := by
        intro k t hk
        refine W.bind (resync_w F k (by omega)) fun _ l hl => ?_
        wst
        rcases hl with h | rfl
        · exact .inl (by omega)
        · exact .inl (by omega)
      split
      · refine W.bind qualident_w fun q k hk => ?_
        unfold Adv at hk
        wst
        exact fin _ _ (by omega)
      · split
        · refine W.bind (ih.ar _ (by wln)) fun q k hk => ?_
          unfold Le at hk
          wst
          exact fin _ _ (by wln)
        · split
          · refine W.bind (ih.re _ (by wln)) fun q k hk => ?_
            unfold Le at hk
            have := eat_le 41 k
            wst
            exact fin _ _ (by wln)
          · split
            · refine W.bind (ih.po _ (by wln)) fun q k hk => ?_
              unfold Le at hk
              exact fin _ _ (by wln)
            · split
              · refine W.bind (sysFlag_w (by wln)) fun fl k hk => ?_
                unfold Le at hk
                have := lenpos k
                wst
                split
                · refine W.bind (ih.pa _ (by wln)) fun q k hk => ?_
                  unfold Le at hk
                  wst
                  exact fin _ _ (by wln)
                · exact fin _ _ (by wln)
              · rename_i h38 _ _ _ _
                refine W.bind (resync_w F j (by omega)) fun _ l hl => ?_
                wst
                rcases hl with h | rfl
                · exact .inl (by omega)
                · rcases hq with h | rfl
                  · exact .inl (by omega)
                  · exact .inr ⟨rfl, h38⟩
    · -- array
      intro i hF
      refine W.succ ?_
      simp only [array]
      refine W.bind (sysFlag_w (by omega)) fun fl j hj => ?_
      unfold Le at *
      have := lenpos j
      wst
      split
      · refine W.bind (ih.ty _ (by wln)) fun fl k hk => ?_
        have := un hk
        wst
        wln
      · refine W.bind ((totE F).ex _ (by wln)) fun x k hk => ?_
        unfold Adv at hk
        have := lenpos k
        wst
        split
        · refine W.bind (ih.ty _ (by wln)) fun fl l hl => ?_
          have := un hl
          wst
          wln
        · split
          · split
            · wln
            · refine W.bind (ih.ar _ (by wln)) fun a l hl => ?_
              unfold Le at *
              wst
              split <;> wln
          · wln
    · -- record
      intro i hF
      refine W.succ ?_
      simp only [record]
      refine W.bind (sysFlag_w (by omega)) fun fl j hj => ?_
      unfold Le at *
      have := lenpos j
      wst
      split
      · split
        · refine W.bind qualident_w fun q k hk => ?_
          unfold Adv at hk
          have := eat_le 22 k
          wst
          refine W.bind (ih.fi _ (by wln)) fun fs l hl => ?_
          unfold Le at *
          wst
          wln
        · have := eat_le 22 j.tail
          refine W.bind (ih.fi _ (by wln)) fun fs l hl => ?_
          unfold Le at *
          wst
          wln
      · refine W.bind (ih.fi _ (by wln)) fun fs l hl => ?_
        unfold Le at *
        wst
        wln
    · -- fields
      intro i hF
      refine W.succ ?_
      simp only [fields]
      have := lenpos i
      unfold Le
      wst
      have fin : ∀ (k : List T) (fl : Fl), k.length ≤ i.length → (cur k = 38 → k.length < i.length) →
          W (fun f => do
            let s ← sy
            if s = 39 then do { get; let fs ← fields f; pure (fl :: fs) }
            else (if s = 38 then do { err 39; let fs ← fields f; pure (fl :: fs) } else pure [fl])) (ab F) k
            (fun k => k.length ≤ i.length) := by
        intro k fl hk hk'
        have := lenpos k
        wst
        split
        · refine W.bind (ih.fi _ (by wln)) fun fs l hl => ?_
          unfold Le at *
          wst
          wln
        · split
          · refine W.bind (ih.fi _ (by wln)) fun fs l hl => ?_
            unfold Le at *
            wst
            wln
          · exact hk
      have fin' := fin
      simp only [w_sy, w_get, w_name, w_err, w_pureb, w_bindb, w_pure, w_ite, w_iteb] at fin'
      split
      · rename_i h38
        refine W.bind (defs_w (by wln)) fun ds k hk => ?_
        have := hk.2 h38
        have := eat_le 20 k
        wst
        refine W.bind (ih.ty _ (by wln)) fun t l hl => ?_
        have := un hl
        wst
        exact fin' _ _ (by omega) (by omega)
      · rename_i hn
        have h := fin' i Fl.none (Nat.le_refl _) (fun h => by contradiction)
        simpa only [hn, if_false] using h
    · -- pointer
      intro i hF
      refine W.succ ?_
      simp only [pointer]
      refine W.bind (sysFlag_w (by omega)) fun fl j hj => ?_
      unfold Le at *
      have := eat_le 28 j
      wst
      split
      · refine W.bind qualident_w fun q k hk => ?_
        unfold Adv at hk
        wst
        wln
      · refine W.bind (ih.ty _ (by wln)) fun t l hl => ?_
        have := un hl
        wst
        wln
    · -- pars
      intro i hF
      refine W.succ ?_
      simp only [pars]
      unfold Le at *
      wst
      split
      · refine W.bind (ih.se _ (by wln)) fun t l hl => ?_
        have := eat_le 22 l
        wst
        refine W.bind result_w fun t k hk => ?_
        unfold Le at *
        wst
        wln
      · have := eat_le 22 i
        refine W.bind result_w fun t k hk => ?_
        unfold Le at *
        wst
        wln
    · -- secs
      intro i hF
      refine W.succ ?_
      simp only [secs]
      unfold Le at *
      refine W.bind varMark_w fun v j hj => ?_
      have hjl : j.length ≤ i.length := by rcases hj with h | rfl <;> omega
      refine W.bind (parNames_w F _ (by omega)) fun ns k hk => ?_
      have := un hk
      have := eat_le 20 k
      have he := eat_eq 20 (by decide) k
      wst
      refine W.bind (ih.ty _ (by wln)) fun t l hl => ?_
      have := un hl
      have := lenpos l
      have hlt : cur l = 38 → l.length < i.length := by
        intro h38
        rcases hl with h | ⟨rfl, h⟩
        · omega
        · exact absurd h38 h
      wst
      split
      · refine W.bind (ih.se _ (by wln)) fun fs l hl => ?_
        unfold Le at *
        wst
        wln
      · split
        · rename_i h38
          have := hlt h38
          refine W.bind (ih.se _ (by wln)) fun fs l hl => ?_
          unfold Le at *
          wst
          wln
        · wln

end Verif.Parse
