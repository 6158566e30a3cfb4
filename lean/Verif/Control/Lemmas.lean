import Verif.Control.LemmasParse

/-!
# Statements: lemmas about the label table, EXIT and FOR
-/
namespace Verif.Control

open Spec

variable {σ : Type}

/-! ## EXIT -/

/-- A result that is not EXIT. -/
def NE (r : Option (Res σ)) : Prop := ∀ s, r ≠ some (.exit s)

theorem NE.bind {r : Option (Res σ)} {f : Res σ → Option (Res σ)} (h : NE r) (h1 : ∀ s, NE (f (.norm s)))
    (h2 : ∀ s, NE (f (.ret s))) (h3 : ∀ n s, NE (f (.halt n s))) : NE (r.bind f) := by
  cases r with
  | none => intro s; simp
  | some r =>
    cases r with
    | norm s => exact h1 s
    | exit s => exact absurd rfl (h s)
    | ret s => exact h2 s
    | halt n s => exact h3 n s

theorem while_ne {c : σ → Option (Bool × σ)} {b : σ → Option (Res σ)} (h : ∀ s, NE (b s)) : ∀ f s, NE (while' c b f s)
  | 0, _ => by intro s; simp [while']
  | f + 1, s => by
    simp only [while']
    cases c s with
    | none => intro s; simp
    | some p =>
      obtain ⟨v, s⟩ := p
      simp only [Option.bind_some]
      cases v with
      | false => intro s; simp
      | true =>
        simp only [if_true]
        exact (h s).bind (fun s => while_ne h f s) (fun s => by intro s; simp) (fun n s => by intro s; simp)

theorem repeat_ne {c : σ → Option (Bool × σ)} {b : σ → Option (Res σ)} (h : ∀ s, NE (b s)) : ∀ f s, NE (repeat' b c f s)
  | 0, _ => by intro s; simp [repeat']
  | f + 1, s => by
    simp only [repeat']
    refine (h s).bind (fun s => ?_) (fun s => by intro s; simp) (fun n s => by intro s; simp)
    simp only
    cases c s with
    | none => intro s; simp
    | some p =>
      obtain ⟨v, s⟩ := p
      simp only [Option.bind_some]
      cases v with
      | true => intro s; simp
      | false => simp only [Bool.false_eq_true, if_false]; exact repeat_ne h f s

theorem loop_ne {b : σ → Option (Res σ)} : ∀ f s, NE (loop' b f s)
  | 0, _ => by intro s; simp [loop']
  | f + 1, s => by
    simp only [loop']
    cases b s with
    | none => intro s; simp
    | some r =>
      simp only [Option.bind_some]
      cases r with
      | norm s => exact loop_ne f s
      | _ => intro s; simp

theorem for_ne {v : Var σ} {e step : Int} {b : σ → Option (Res σ)} (h : ∀ s, NE (b s)) : ∀ f s, NE (for' v e step b f s)
  | 0, _ => by intro s; simp [for']
  | f + 1, s => by
    simp only [for']
    by_cases hc : (0 < step ∧ v.get s ≤ e) ∨ (step < 0 ∧ e ≤ v.get s)
    · rw [if_pos hc]
      refine (h s).bind (fun s => ?_) (fun s => by intro s; simp) (fun n s => by intro s; simp)
      simp only
      cases v.arith (v.get s + step) with
      | none => intro s; simp
      | some x => exact for_ne h f _
    · rw [if_neg hc]; intro s; simp

mutual
theorem exec_ne {k : Nat} : ∀ (s : St σ), (parse 0 k s).2.2 = [] → ∀ F x, NE (exec F s x)
  | .act f, _, F, x => by
    simp only [exec]
    cases f x <;> intro s <;> simp
  | .ifelse i els, h, F, x => by
    simp only [parse, List.append_eq_nil_iff] at h
    simp only [exec]
    exact execIfs_ne i h.1 F _ (fun s => execs_ne els h.2 F s) x
  | .wth i e els, h, F, x => by
    simp only [parse, List.append_eq_nil_iff] at h
    simp only [exec]
    refine execIfs_ne i h.1 F _ (fun s => ?_) x
    cases e with
    | true => exact execs_ne els h.2 F s
    | false => intro s; simp
  | .case e cs el els, h, F, x => by
    simp only [parse, List.append_eq_nil_iff] at h
    simp only [exec]
    cases e x with
    | none => intro s; simp
    | some p =>
      obtain ⟨v, s⟩ := p
      simp only [Option.bind_some]
      refine execCases_ne cs h.1.1 F v _ (fun s => ?_) s
      cases el with
      | true => exact execs_ne els h.2 F s
      | false => intro s; simp
  | .whileDo c b, h, F, x => by
    simp only [parse] at h
    simp only [exec]
    exact while_ne (fun s => execs_ne b h F s) F x
  | .repeatUntil b c, h, F, x => by
    simp only [parse] at h
    simp only [exec]
    exact repeat_ne (fun s => execs_ne b h F s) F x
  | .loop b, _, F, x => by
    simp only [exec]
    exact loop_ne F x
  | .exit, h, _, _ => by
    simp [parse] at h
  | .ret f, _, F, x => by
    simp only [exec]
    cases f x <;> intro s <;> simp
  | .halt n, _, F, x => by intro s; simp [exec]
  | .forTo v a b step body, h, F, x => by
    have hb : ∃ k, (parses 0 k body).2.2 = [] := by
      cases b with
      | const e => simp only [parse, List.append_eq_nil_iff] at h; exact ⟨k, h.2⟩
      | dyn f => simp only [parse, List.append_eq_nil_iff] at h; exact ⟨k + 1, h.2⟩
    obtain ⟨k', hb⟩ := hb
    simp only [exec]
    cases b.eval x with
    | none => intro s; simp
    | some p =>
      obtain ⟨e, s⟩ := p
      simp only [Option.bind_some]
      cases a s with
      | none => intro s; simp
      | some p =>
        obtain ⟨y, s⟩ := p
        simp only [Option.bind_some]
        exact for_ne (fun s => execs_ne body hb F s) F _
theorem execs_ne {k : Nat} : ∀ (s : Ss σ), (parses 0 k s).2.2 = [] → ∀ F x, NE (execs F s x)
  | .nil, _, F, x => by intro s; simp [execs]
  | .cons s t, h, F, x => by
    simp only [parses, List.append_eq_nil_iff] at h
    simp only [execs]
    exact (exec_ne s h.1 F x).bind (fun s => execs_ne t h.2 F s) (fun s => by intro s; simp) (fun n s => by intro s; simp)
theorem execIfs_ne {k : Nat} : ∀ (i : Ifs σ), (parseIfs 0 k i).2.2 = [] → ∀ F (q : σ → Option (Res σ)), (∀ s, NE (q s)) → ∀ x, NE (execIfs F i q x)
  | .nil, _, F, q, hq, x => hq x
  | .cons c b t, h, F, q, hq, x => by
    simp only [parseIfs, List.append_eq_nil_iff] at h
    simp only [execIfs]
    cases c.eval x with
    | none => intro s; simp
    | some p =>
      obtain ⟨v, s⟩ := p
      simp only [Option.bind_some]
      cases v with
      | true => exact execs_ne b h.1 F s
      | false => exact execIfs_ne t h.2 F q hq s
theorem execCases_ne {k : Nat} {tab : Nat → Int × Int} {n : Nat} : ∀ (i : Cases σ), (parseCases 0 k tab n i).2.2.2.2 = [] →
    ∀ F v (q : σ → Option (Res σ)), (∀ s, NE (q s)) → ∀ x, NE (execCases F v i q x)
  | .nil, _, F, v, q, hq, x => hq x
  | .cons l b t, h, F, v, q, hq, x => by
    simp only [parseCases, List.append_eq_nil_iff] at h
    simp only [execCases]
    by_cases hv : ∃ r ∈ l, r.1 ≤ v ∧ v ≤ r.2
    · rw [if_pos hv]; exact execs_ne b h.1.2 F x
    · rw [if_neg hv]; exact execCases_ne t h.2 F v q hq x
end

/-! ## The table -/

theorem shift_ok : ∀ (n : Nat) (tab : Nat → Int × Int) (x y : Int), ∃ i, i ≤ n ∧ (shift tab x y n).2.1 = i ∧
    (∀ j, j < i → (shift tab x y n).1 j = tab j) ∧ (∀ j, i ≤ j → j < n → (shift tab x y n).1 (j + 1) = tab j ∧ y < (tab j).1) ∧
    (∀ j, n < j → (shift tab x y n).1 j = tab j) ∧
    ((i = 0 ∧ (shift tab x y n).2.2 = false) ∨ (∃ p, i = p + 1 ∧ (tab p).1 ≤ y ∧ (shift tab x y n).2.2 = decide (x ≤ (tab p).2)))
  | 0, tab, x, y => ⟨0, Nat.le_refl _, rfl, fun _ _ => rfl, fun j h1 h2 => by omega, fun _ _ => rfl, Or.inl ⟨rfl, rfl⟩⟩
  | n + 1, tab, x, y => by
    by_cases hc : (tab n).1 ≤ y
    · refine ⟨n + 1, Nat.le_refl _, ?_, ?_, fun j h1 h2 => by omega, ?_, Or.inr ⟨n, rfl, hc, ?_⟩⟩
      all_goals simp only [shift, if_pos hc]
      · intros; trivial
      · intros; trivial
    · simp only [shift, if_neg hc]
      obtain ⟨i, h1, h2, h3, h4, h5, h6⟩ := shift_ok n (upd tab (n + 1) (tab n)) x y
      refine ⟨i, by omega, h2, ?_, ?_, ?_, ?_⟩
      · intro j hj
        rw [h3 j hj, upd, if_neg (by omega)]
      · intro j hj1 hj2
        rcases Nat.lt_or_ge j n with hj | hj
        · have := h4 j hj1 hj
          rw [upd, if_neg (by omega)] at this
          exact this
        · have hj : j = n := by omega
          subst hj
          rw [h5 (j + 1) (by omega), upd, if_pos rfl]
          exact ⟨rfl, by omega⟩
      · intro j hj
        rw [h5 j (by omega), upd, if_neg (by omega)]
      · rcases h6 with h6 | ⟨p, h7, h8, h9⟩
        · exact Or.inl h6
        · rw [upd, if_neg (by omega)] at h8 h9
          exact Or.inr ⟨p, h7, h8, h9⟩

/-- The table holds the ranges `rs`, sorted. -/
structure Holds (tab : Nat → Int × Int) (n : Nat) (rs : List (Int × Int)) : Prop where
  len : rs.length = n
  mem : ∀ r, r ∈ rs ↔ ∃ i, i < n ∧ tab i = r
  ord : ∀ i, i < n → (tab i).1 ≤ (tab i).2
  sorted : ∀ i j, i < j → j < n → (tab i).2 < (tab j).1

theorem share_iff {a b : Int × Int} (ha : a.1 ≤ a.2) (hb : b.1 ≤ b.2) : Share a b ↔ a.1 ≤ b.2 ∧ b.1 ≤ a.2 := by
  unfold Share
  constructor
  · rintro ⟨v, h1, h2⟩; omega
  · rintro ⟨h1, h2⟩
    rcases Int.le_total a.1 b.1 with h | h
    · exact ⟨b.1, by omega, by omega⟩
    · exact ⟨a.1, by omega, by omega⟩

/-- Entering a range: reported exactly if it shares a number with one in the table; if not, the table is as before, with it. -/
theorem enter_ok {tab : Nat → Int × Int} {n : Nat} {rs : List (Int × Int)} (h : Holds tab n rs) {x y : Int} (hxy : x ≤ y) (hn : n < 128) :
    ((enter tab n x y).2.2 = [62] ↔ ∃ r ∈ rs, Share r (x, y)) ∧ ((enter tab n x y).2.2 = [] ↔ ¬ ∃ r ∈ rs, Share r (x, y)) ∧
    ((enter tab n x y).2.2 = [] → Holds (enter tab n x y).1 (enter tab n x y).2.1 (rs ++ [(x, y)])) := by
  obtain ⟨i, h1, h2, h3, h4, h5, h6⟩ := shift_ok n tab x y
  have hdup : (shift tab x y n).2.2 = true ↔ ∃ r ∈ rs, Share r (x, y) := by
    rcases h6 with ⟨h7, h8⟩ | ⟨p, h7, h8, h9⟩
    · rw [h8]
      simp only [Bool.false_eq_true, false_iff, not_exists, not_and]
      intro r hr hs
      obtain ⟨j, hj, rfl⟩ := (h.mem r).1 hr
      rw [share_iff (h.ord j hj) (by simpa using hxy)] at hs
      have := (h4 j (by omega) hj).2
      simp only at hs
      omega
    · rw [h9, decide_eq_true_iff]
      constructor
      · intro hx
        exact ⟨tab p, (h.mem _).2 ⟨p, by omega, rfl⟩, (share_iff (h.ord p (by omega)) (by simpa using hxy)).2 ⟨h8, hx⟩⟩
      · rintro ⟨r, hr, hs⟩
        obtain ⟨j, hj, rfl⟩ := (h.mem r).1 hr
        rw [share_iff (h.ord j hj) (by simpa using hxy)] at hs
        simp only at hs
        rcases Nat.lt_or_ge j i with hji | hji
        · rcases Nat.lt_or_ge j p with hjp | hjp
          · have := h.sorted j p hjp (by omega)
            have := h.ord p (by omega)
            omega
          · have : j = p := by omega
            rw [this] at hs; exact hs.2
        · have := (h4 j hji hj).2
          omega
  rcases hs : shift tab x y n with ⟨tab', i', dup⟩
  rw [hs] at h2 h3 h4 h5 h6 hdup
  simp only at h2 h3 h4 h5 h6 hdup
  subst h2
  simp only [enter, if_pos hn, hs]
  cases dup with
  | true => exact ⟨by simpa using hdup, by simpa using hdup, by simp⟩
  | false =>
    have hno : ¬ ∃ r ∈ rs, Share r (x, y) := by rw [← hdup]; simp
    refine ⟨by simpa using hdup, by simpa using hdup, fun _ => ?_⟩
    -- the entries of the new table
    have hlow : ∀ j, j < i' → upd tab' i' (x, y) j = tab j := by
      intro j hj; rw [upd, if_neg (by omega), h3 j hj]
    have hmid : upd tab' i' (x, y) i' = (x, y) := by rw [upd, if_pos rfl]
    have hhigh : ∀ j, i' < j → j < n + 1 → upd tab' i' (x, y) j = tab (j - 1) := by
      intro j hj1 hj2
      rw [upd, if_neg (by omega)]
      have := (h4 (j - 1) (by omega) (by omega)).1
      rwa [Nat.sub_add_cancel (by omega)] at this
    have hbelow : ∀ j, j < i' → (tab j).2 < x := by
      intro j hj
      rcases h6 with ⟨h7, h8⟩ | ⟨p, h7, h8, h9⟩
      · omega
      · have : ¬ x ≤ (tab p).2 := by simpa using h9
        rcases Nat.lt_or_ge j p with hjp | hjp
        · have := h.sorted j p hjp (by omega)
          have := h.ord p (by omega)
          omega
        · have : j = p := by omega
          rw [this]; omega
    refine ⟨by simp [h.len], ?_, ?_, ?_⟩
    · intro r
      rw [List.mem_append, List.mem_singleton, h.mem]
      constructor
      · rintro (⟨j, hj, rfl⟩ | rfl)
        · rcases Nat.lt_or_ge j i' with hji | hji
          · exact ⟨j, by omega, hlow j hji⟩
          · exact ⟨j + 1, by omega, by rw [hhigh (j + 1) (by omega) (by omega)]; rfl⟩
        · exact ⟨i', by omega, hmid⟩
      · rintro ⟨j, hj, rfl⟩
        rcases Nat.lt_trichotomy j i' with hji | hji | hji
        · exact Or.inl ⟨j, by omega, (hlow j hji).symm⟩
        · exact Or.inr (by rw [hji, hmid])
        · exact Or.inl ⟨j - 1, by omega, (hhigh j hji hj).symm⟩
    · intro j hj
      rcases Nat.lt_trichotomy j i' with hji | hji | hji
      · rw [hlow j hji]; exact h.ord j (by omega)
      · rw [hji, hmid]; exact hxy
      · rw [hhigh j hji hj]; exact h.ord _ (by omega)
    · intro a b hab hb
      rcases Nat.lt_trichotomy b i' with hbi | hbi | hbi
      · rw [hlow b hbi, hlow a (by omega)]; exact h.sorted a b hab (by omega)
      · rw [hbi, hmid, hlow a (by omega)]; exact hbelow a (by omega)
      · rw [hhigh b hbi hb]
        rcases Nat.lt_trichotomy a i' with hai | hai | hai
        · rw [hlow a hai]; exact h.sorted a (b - 1) (by omega) (by omega)
        · rw [hai, hmid]; exact (h4 (b - 1) (by omega) (by omega)).2
        · rw [hhigh a hai (by omega)]; exact h.sorted (a - 1) (b - 1) (by omega) (by omega)

theorem holds_nil (tab : Nat → Int × Int) : Holds tab 0 [] :=
  ⟨rfl, fun r => by simp, fun i h => by omega, fun i j _ h => by omega⟩

/-- The labels of a list are entered without an error exactly if they are legal together with those in the table. -/
theorem labelList_iff : ∀ (l : List (Int × Int)) (tab : Nat → Int × Int) (n : Nat) (rs : List (Int × Int)), Holds tab n rs → n ≤ 128 → In32 l →
    ((labelList l tab n).2.2.2 = [] ↔ (∀ r ∈ l, r.1 ≤ r.2) ∧ (∀ r ∈ rs, ∀ q ∈ l, ¬ Share r q) ∧ l.Pairwise (fun a b => ¬ Share a b) ∧ rs.length + l.length ≤ 128) ∧
    ((labelList l tab n).2.2.2 = [] → Holds (labelList l tab n).2.1 (labelList l tab n).2.2.1 (rs ++ l))
  | [], tab, n, rs, h, hn, _ => by
    simp only [labelList]
    refine ⟨?_, fun _ => by rw [List.append_nil]; exact h⟩
    have := h.len
    simp only [List.not_mem_nil, false_imp_iff, implies_true, List.Pairwise.nil, List.length_nil, true_and, true_iff]
    omega
  | (l, g) :: t, tab, n, rs, h, hn, h32 => by
    have h0 := h32 (l, g) List.mem_cons_self
    simp only at h0
    have h32' : In32 t := fun r hr => h32 r (List.mem_cons_of_mem _ hr)
    have hlen := h.len
    simp only [labelList, longint_of h0.1 h0.2.1, longint_of h0.2.2.1 h0.2.2.2]
    by_cases hc : g < l
    · simp only [if_pos hc]
      refine ⟨?_, by simp⟩
      constructor
      · intro he; simp at he
      · rintro ⟨h1, _⟩
        have := h1 (l, g) List.mem_cons_self
        simp only at this
        omega
    · simp only [if_neg hc]
      rcases Nat.lt_or_ge n 128 with hn' | hn'
      · obtain ⟨e1, e2, e3⟩ := enter_ok h (x := l) (y := g) (by omega) hn'
        have hcount : (enter tab n l g).2.1 = n + 1 := by simp only [enter, if_pos hn']
        by_cases hs : ∃ r ∈ rs, Share r (l, g)
        · rw [e1.2 hs]
          refine ⟨?_, by simp⟩
          constructor
          · intro he; simp at he
          · rintro ⟨_, h2, _⟩
            obtain ⟨r, hr, hrs⟩ := hs
            exact absurd hrs (h2 r hr (l, g) List.mem_cons_self)
        · have h' := e3 (e2.2 hs)
          obtain ⟨i1, i2⟩ := labelList_iff t _ _ _ h' (by rw [hcount]; omega) h32'
          rw [e2.2 hs]
          simp only [List.nil_append]
          refine ⟨i1.trans ?_, fun he => by have := i2 he; rwa [List.append_assoc] at this⟩
          constructor
          · rintro ⟨a1, a2, a3, a4⟩
            refine ⟨?_, ?_, ?_, ?_⟩
            · intro r hr
              rcases List.mem_cons.1 hr with rfl | hr
              · simp only; omega
              · exact a1 r hr
            · intro r hr q hq
              rcases List.mem_cons.1 hq with rfl | hq
              · exact fun hsh => hs ⟨r, hr, hsh⟩
              · exact a2 r (List.mem_append_left _ hr) q hq
            · rw [List.pairwise_cons]
              exact ⟨fun q hq => a2 (l, g) (List.mem_append_right _ (List.mem_singleton.2 rfl)) q hq, a3⟩
            · simp only [List.length_append, List.length_cons, List.length_nil] at a4 ⊢
              omega
          · rintro ⟨a1, a2, a3, a4⟩
            rw [List.pairwise_cons] at a3
            refine ⟨fun r hr => a1 r (List.mem_cons_of_mem _ hr), ?_, a3.2, ?_⟩
            · intro r hr q hq
              rcases List.mem_append.1 hr with hr | hr
              · exact a2 r hr q (List.mem_cons_of_mem _ hq)
              · rw [List.mem_singleton.1 hr]; exact a3.1 q hq
            · simp only [List.length_append, List.length_cons, List.length_nil] at a4 ⊢
              omega
      · have : (enter tab n l g).2.2 = [213] := by simp only [enter, if_neg (show ¬ n < 128 by omega)]
        rw [this]
        refine ⟨?_, by simp⟩
        constructor
        · intro he; simp at he
        · rintro ⟨_, _, _, a4⟩
          simp only [List.length_cons] at a4
          omega

/-- The branches of a CASE: an error is in the labels or in the branches. -/
theorem parseCases_iff {d : Nat} : ∀ (cs : Cases σ) (k : Nat) (tab : Nat → Int × Int) (n : Nat) (rs : List (Int × Int)), Holds tab n rs → n ≤ 128 →
    In32 (ranges cs) → BranchesOk d cs →
    ((parseCases d k tab n cs).2.2.2.2 = [] ↔ (∀ r ∈ ranges cs, r.1 ≤ r.2) ∧ (∀ r ∈ rs, ∀ q ∈ ranges cs, ¬ Share r q) ∧
      (ranges cs).Pairwise (fun a b => ¬ Share a b) ∧ rs.length + (ranges cs).length ≤ 128)
  | .nil, k, tab, n, rs, h, hn, _, _ => by
    simp only [parseCases, ranges]
    have := h.len
    simp only [List.not_mem_nil, false_imp_iff, implies_true, List.Pairwise.nil, List.length_nil, true_and, true_iff]
    omega
  | .cons l b t, k, tab, n, rs, h, hn, h32, hb => by
    simp only [BranchesOk] at hb
    simp only [ranges] at h32
    obtain ⟨i1, i2⟩ := labelList_iff l tab n rs h hn (fun r hr => h32 r (List.mem_append_left _ hr))
    simp only [parseCases, ranges, List.append_eq_nil_iff, hb.1, and_true]
    by_cases he : (labelList l tab n).2.2.2 = []
    · have h' := i2 he
      have hl := h'.len
      obtain ⟨b1, b2, b3, b4⟩ := i1.1 he
      have := parseCases_iff t (parses d k b).2.1 _ _ _ h' (by rw [← hl, List.length_append]; omega) (fun r hr => h32 r (List.mem_append_right _ hr)) hb.2
      rw [this]
      constructor
      · rintro ⟨_, a1, a2, a3, a4⟩
        refine ⟨?_, ?_, ?_, ?_⟩
        · intro r hr
          rcases List.mem_append.1 hr with hr | hr
          · exact b1 r hr
          · exact a1 r hr
        · intro r hr q hq
          rcases List.mem_append.1 hq with hq | hq
          · exact b2 r hr q hq
          · exact a2 r (List.mem_append_left _ hr) q hq
        · rw [List.pairwise_append]
          exact ⟨b3, a3, fun r hr q hq => a2 r (List.mem_append_right _ hr) q hq⟩
        · simp only [List.length_append] at a4 ⊢; omega
      · rintro ⟨a1, a2, a3, a4⟩
        rw [List.pairwise_append] at a3
        refine ⟨he, fun r hr => a1 r (List.mem_append_right _ hr), ?_, a3.2.1, ?_⟩
        · intro r hr q hq
          rcases List.mem_append.1 hr with hr | hr
          · exact a2 r hr q (List.mem_append_right _ hq)
          · exact a3.2.2 r hr q hq
        · simp only [List.length_append] at a4 ⊢; omega
    · constructor
      · rintro ⟨h1, _⟩; exact absurd h1 he
      · rintro ⟨a1, a2, a3, a4⟩
        rw [List.pairwise_append] at a3
        exfalso
        apply he
        rw [i1]
        refine ⟨fun r hr => a1 r (List.mem_append_left _ hr), fun r hr q hq => a2 r hr q (List.mem_append_left _ hq), a3.1, ?_⟩
        simp only [List.length_append] at a4
        omega

theorem parseCases_holds {d : Nat} : ∀ (cs : Cases σ) (k : Nat) (tab : Nat → Int × Int) (n : Nat) (rs : List (Int × Int)), Holds tab n rs → n ≤ 128 →
    In32 (ranges cs) → (parseCases d k tab n cs).2.2.2.2 = [] → Holds (parseCases d k tab n cs).2.1 (parseCases d k tab n cs).2.2.1 (rs ++ ranges cs) ∧
      (ranges cs).Pairwise (fun a b => ¬ Share a b) ∧ (∀ r ∈ rs, ∀ q ∈ ranges cs, ¬ Share r q)
  | .nil, k, tab, n, rs, h, hn, _, _ => by
    simp only [parseCases, ranges, List.append_nil]
    exact ⟨h, List.Pairwise.nil, by simp⟩
  | .cons l b t, k, tab, n, rs, h, hn, h32, he => by
    simp only [ranges] at h32
    obtain ⟨i1, i2⟩ := labelList_iff l tab n rs h hn (fun r hr => h32 r (List.mem_append_left _ hr))
    simp only [parseCases, List.append_eq_nil_iff] at he
    obtain ⟨⟨e1, e2⟩, e3⟩ := he
    have h' := i2 e1
    have hl := h'.len
    obtain ⟨b1, b2, b3, b4⟩ := i1.1 e1
    obtain ⟨c1, c2, c3⟩ := parseCases_holds t (parses d k b).2.1 _ _ _ h' (by rw [← hl, List.length_append]; omega) (fun r hr => h32 r (List.mem_append_right _ hr)) e3
    simp only [parseCases, ranges]
    refine ⟨by rw [← List.append_assoc]; exact c1, ?_, ?_⟩
    · rw [List.pairwise_append]
      exact ⟨b3, c2, fun r hr q hq => c3 r (List.mem_append_right _ hr) q hq⟩
    · intro r hr q hq
      rcases List.mem_append.1 hq with hq | hq
      · exact b2 r hr q hq
      · exact c3 r (List.mem_append_left _ hr) q hq

/-- The smallest and the largest label. -/
theorem holds_ends {tab : Nat → Int × Int} {n : Nat} {rs : List (Int × Int)} (h : Holds tab n rs) (hn : 0 < n) :
    (∃ r ∈ rs, r.1 = (tab 0).1) ∧ (∀ r ∈ rs, (tab 0).1 ≤ r.1) ∧ (∃ r ∈ rs, r.2 = (tab (n - 1)).2) ∧ (∀ r ∈ rs, r.2 ≤ (tab (n - 1)).2) := by
  refine ⟨⟨tab 0, (h.mem _).2 ⟨0, hn, rfl⟩, rfl⟩, ?_, ⟨tab (n - 1), (h.mem _).2 ⟨n - 1, by omega, rfl⟩, rfl⟩, ?_⟩
  · intro r hr
    obtain ⟨i, hi, rfl⟩ := (h.mem r).1 hr
    rcases Nat.eq_zero_or_pos i with rfl | h0
    · exact Int.le_refl _
    · have := h.sorted 0 i h0 hi
      have := h.ord 0 hn
      omega
  · intro r hr
    obtain ⟨i, hi, rfl⟩ := (h.mem r).1 hr
    rcases Nat.lt_or_ge i (n - 1) with h0 | h0
    · have := h.sorted i (n - 1) h0 (by omega)
      have := h.ord (n - 1) (by omega)
      omega
    · have : i = n - 1 := by omega
      rw [this]

/-! ## FOR -/

theorem forEnd_succ (v : Var σ) (a step : Int) (g : σ → σ) (n : Nat) (s : σ) :
    forEnd v a step g (n + 1) s = v.set (a + (n + 1) * step) (g (forEnd v a step g n s)) := by
  unfold forEnd
  rw [List.range_succ, List.foldl_append]
  rfl

theorem forCount_iff {a b step : Int} (hs : step ≠ 0) (n : Nat) :
    n < forCount a b step ↔ (0 < step ∧ a + n * step ≤ b) ∨ (step < 0 ∧ b ≤ a + n * step) := by
  unfold forCount
  by_cases h : 0 < step
  · rw [if_pos h]
    have h1 : (n : Int) ≤ (b - a) / step ↔ n * step ≤ b - a := Int.le_ediv_iff_mul_le h
    constructor
    · intro h2
      exact Or.inl ⟨h, by have := h1.1 (by omega); omega⟩
    · rintro (⟨_, h2⟩ | ⟨h2, _⟩)
      · have := h1.2 (by omega); omega
      · omega
  · rw [if_neg h]
    have h1 : (n : Int) ≤ (a - b) / (-step) ↔ n * (-step) ≤ a - b := Int.le_ediv_iff_mul_le (by omega)
    rw [Int.mul_neg] at h1
    constructor
    · intro h2
      exact Or.inr ⟨by omega, by have := h1.1 (by omega); omega⟩
    · rintro (⟨h2, _⟩ | ⟨_, h2⟩)
      · omega
      · have := h1.2 (by omega); omega

end Verif.Control
