import Verif.Ending.Once

/-!
# How a program ends: termination
-/
namespace Verif.Ending

/-- Steps without signals. -/
def ticks (k : Nat) : List Ev := List.replicate k .tick

theorem run_append (p : Prog) : ∀ (a b : List Ev) (s : St), run p (a ++ b) s = run p b (run p a s)
  | [], _, _ => rfl
  | e :: a, b, s => run_append p a b (next1 p e s)

theorem ticks_add (j k : Nat) : ticks (j + k) = ticks j ++ ticks k := List.replicate_add _ _ _

/-- A program outside the procedures for finalizers. -/
structure At (s : St) (xs : List Nat) (L : List Act) (e : Option EndBy) : Prop where
  done : s.done = none
  code : s.code = L.map .act ++ [.load, .exit e]
  chain : Chain s.next s.fin xs
  range : ∀ x ∈ xs, x < s.fresh
  pos : 0 < s.fresh
  disp : s.disp 11 = .segv

/-- The number of finalizers that may still register others. -/
def weight (K : Nat) (s : St) (xs : List Nat) : Nat := (K - s.fresh) + xs.countP (· < K)

/-- A program that ends after some steps. -/
def Ends (p : Prog) (s : St) : Prop := ∃ k, (run p (ticks k) s).done.isSome = true

theorem Ends.of_steps {p : Prog} {s s' : St} (j : Nat) (h : run p (ticks j) s = s') (he : Ends p s') : Ends p s := by
  obtain ⟨k, hk⟩ := he
  exact ⟨j + k, by rw [ticks_add, run_append, h]; exact hk⟩

/-- An action that registers nothing. -/
theorem act_at (p : Prog) {s : St} {xs : List Nat} {a : Act} {L : List Act} {e : Option EndBy} (h : At s xs (a :: L) e) (ha : a ≠ .reg) :
    (step p s).done.isSome = true ∨ ∃ L' e', At (step p s) xs L' e' ∧ L'.length ≤ L.length ∧ L'.count .reg ≤ L.count .reg ∧
      (step p s).fresh = s.fresh := by
  have hs : step p s = act p a { s with code := L.map .act ++ [.load, .exit e] } := step_code h.done h.code
  rw [hs]
  have hstop : ∀ (c : EndBy) (b : List Nat), ∃ L' e', At (stop c { s with code := L.map .act ++ [.load, .exit e], blocked := b }) xs L' e' ∧
      L'.length ≤ L.length ∧ L'.count .reg ≤ L.count .reg ∧ (stop c { s with code := L.map .act ++ [.load, .exit e], blocked := b }).fresh = s.fresh :=
    fun c b => ⟨[], some c, ⟨h.done, rfl, h.chain, h.range, h.pos, h.disp⟩, Nat.zero_le _, Nat.zero_le _, rfl⟩
  cases a with
  | put c =>
    refine Or.inr ⟨L, e, ?_, Nat.le_refl _, Nat.le_refl _, ?_⟩
    · show At (put c { s with code := L.map .act ++ [.load, .exit e] }) xs L e
      unfold put
      dsimp only
      split <;> split <;> exact ⟨h.done, rfl, h.chain, h.range, h.pos, h.disp⟩
    · show (put c { s with code := L.map .act ++ [.load, .exit e] }).fresh = _
      unfold put
      dsimp only
      split <;> split <;> rfl
  | flush => exact Or.inr ⟨L, e, ⟨h.done, rfl, h.chain, h.range, h.pos, h.disp⟩, Nat.le_refl _, Nat.le_refl _, rfl⟩
  | reg => exact absurd rfl ha
  | handler sig k =>
    refine Or.inr ⟨L, e, ?_, Nat.le_refl _, Nat.le_refl _, ?_⟩
    · show At (setHandler sig k { s with code := L.map .act ++ [.load, .exit e] }) xs L e
      unfold setHandler
      split
      · exact ⟨h.done, rfl, h.chain, h.range, h.pos, by dsimp only; rw [if_neg (by omega)]; exact h.disp⟩
      · exact ⟨h.done, rfl, h.chain, h.range, h.pos, h.disp⟩
    · show (setHandler sig k { s with code := L.map .act ++ [.load, .exit e] }).fresh = _
      unfold setHandler
      split <;> rfl
  | halt c => exact Or.inr (hstop (.halt c) s.blocked)
  | assert c => exact Or.inr (hstop (.assert c) s.blocked)
  | nil =>
    by_cases hb : 11 ∈ s.blocked
    · left
      simp only [act, hb, if_true]; rfl
    · right
      have : act p .nil { s with code := L.map .act ++ [.load, .exit e] } =
          stop (.halt (-10)) { s with code := L.map .act ++ [.load, .exit e], blocked := 11 :: s.blocked } := by
        simp only [act, hb, if_false, deliver, h.disp]
      rw [this]
      exact hstop _ _
  | fault g => exact Or.inl rfl

theorem ends_at {p : Prog} {K : Nat} (hK : ∀ n, K ≤ n → Act.reg ∉ p.beh n) : ∀ (m R x l : Nat) (s : St) (xs : List Nat) (L : List Act)
    (e : Option EndBy), At s xs L e → weight K s xs = m → L.count .reg = R → xs.length = x → L.length = l → Ends p s := by
  intro m
  induction m using Nat.strong_induction_on with
  | _ m ihm =>
  intro R
  induction R using Nat.strong_induction_on with
  | _ R ihR =>
  intro x
  induction x using Nat.strong_induction_on with
  | _ x ihx =>
  intro l
  induction l using Nat.strong_induction_on with
  | _ l ihl =>
  intro s xs L e h hm hR hx hl
  cases L with
  | cons a L =>
    by_cases ha : a = .reg
    · subst ha
      have h1 : run p (ticks 2) s = { s with next := fun x => if x = s.fresh then s.fin else s.next x, code := L.map .act ++ [.load, .exit e], fin := s.fresh, fresh := s.fresh + 1, log := s.log ++ [.reg s.fresh] } := by
        show step p (step p s) = _
        rw [step_code h.done h.code]
        show step p { s with code := .link s.fresh :: (L.map .act ++ [.load, .exit e]),
                             next := fun x => if x = s.fresh then s.fin else s.next x, fresh := s.fresh + 1 } = _
        exact Eq.trans (step_code (i := .link s.fresh) (r := L.map .act ++ [.load, .exit e]) (by exact h.done) rfl) rfl
      refine Ends.of_steps 2 h1 ?_
      rw [List.count_cons_self] at hR
      refine ihR (L.count .reg) (by omega) _ _ _ (s.fresh :: xs) L e ⟨h.done, rfl, ?_, ?_, Nat.succ_pos _, h.disp⟩ ?_ rfl rfl rfl
      · refine ⟨rfl, by have := h.pos; omega, ?_⟩
        dsimp only
        rw [if_pos rfl]
        refine Chain.congr ?_ h.chain
        intro x hx
        rw [if_neg (by have := h.range x hx; omega)]
      · intro x hx
        show x < s.fresh + 1
        rcases List.mem_cons.mp hx with rfl | hx
        · omega
        · have := h.range x hx; omega
      · unfold weight at hm ⊢
        dsimp only
        rw [List.countP_cons]
        by_cases hf : s.fresh < K
        · simp only [hf, decide_true, if_true]; omega
        · simp only [hf, decide_false, Bool.false_eq_true, if_false]; omega
    · rcases act_at p h ha with h1 | ⟨L', e', h1, h2, h3, h4⟩
      · exact ⟨1, h1⟩
      · refine Ends.of_steps (s' := step p s) 1 rfl ?_
        rw [List.count_cons_of_ne ha] at hR
        rw [List.length_cons] at hl
        have hm' : weight K (step p s) xs = m := by unfold weight at hm ⊢; rw [h4]; exact hm
        by_cases hr : L'.count .reg < R
        · exact ihR _ hr _ _ _ xs L' e' h1 hm' rfl rfl rfl
        · exact ihl L'.length (by omega) _ xs L' e' h1 hm' (by omega) hx rfl
  | nil =>
    have hc : s.code = .load :: [.exit e] := h.code
    cases xs with
    | nil =>
      have hf : s.fin = 0 := h.chain
      refine ⟨2, ?_⟩
      show (step p (step p s)).done.isSome = true
      rw [step_code h.done hc]
      have h2 : stepI p s [.exit e] .load = { s with code := [.exit e] } := by simp only [stepI, hf, if_true]
      have h5 : ∀ t : St, t.done = none → t.code = [.exit e] → (step p t).done.isSome = true := fun t g1 g2 => by
        rw [step_code g1 g2]; exact (exit_log e t).2.2
      rw [h2]
      exact h5 _ h.done rfl
    | cons n xs =>
      obtain ⟨hf, hn0, hch⟩ := h.chain
      have h1 : run p (ticks 3) s =
          { s with code := (p.beh n).map .act ++ [.load, .exit e], fin := s.next n, log := s.log ++ [.start n] } := by
        show step p (step p (step p s)) = _
        rw [step_code h.done hc]
        have h2 : stepI p s [.exit e] .load = { s with code := .pop n :: [.exit e] } := by
          have : s.fin ≠ 0 := by rw [hf]; exact hn0
          simp only [stepI, this, if_false]; rw [hf]
        have h3 : ∀ t : St, t.done = none → t.code = .pop n :: [.exit e] → step p t = { t with code := .call n :: [.exit e], fin := t.next t.fin } :=
          fun t g1 g2 => step_code g1 g2
        have h4 : ∀ t : St, t.done = none → t.code = .call n :: [.exit e] →
            step p t = { t with code := (p.beh n).map .act ++ [.load, .exit e], log := t.log ++ [.start n] } := fun t g1 g2 => step_code g1 g2
        rw [h2]
        refine (congrArg (step p) (h3 { s with code := .pop n :: [.exit e] } h.done rfl)).trans ?_
        refine (h4 { s with code := .call n :: [.exit e], fin := s.next s.fin } h.done rfl).trans ?_
        dsimp only
        rw [hf]
      refine Ends.of_steps 3 h1 ?_
      have hat : At { s with code := (p.beh n).map .act ++ [.load, .exit e], fin := s.next n, log := s.log ++ [.start n] } xs (p.beh n) e :=
        ⟨h.done, rfl, hch, fun x hx => h.range x (List.mem_cons_of_mem _ hx), h.pos, h.disp⟩
      unfold weight at hm
      rw [List.countP_cons] at hm
      by_cases hk : n < K
      · simp only [hk, decide_true, if_true] at hm
        exact ihm ((K - s.fresh) + xs.countP (· < K)) (by omega) _ _ _ _ xs (p.beh n) e hat rfl rfl rfl rfl
      · simp only [hk, decide_false, Bool.false_eq_true, if_false] at hm
        have h0 : (p.beh n).count .reg = 0 := List.count_eq_zero.mpr (hK n (by omega))
        simp only [List.count_nil] at hR
        rw [List.length_cons] at hx
        exact ihx xs.length (by omega) _ _ xs (p.beh n) e hat hm (by omega) rfl rfl

end Verif.Ending
