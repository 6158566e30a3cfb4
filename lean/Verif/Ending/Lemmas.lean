import Verif.Common
import Verif.Ending.Model
import Mathlib.Data.List.Perm.Basic

/-!
# How a program ends: invariants
-/
namespace Verif.Ending

/-! ## Histories -/

theorem registered_append (a b : List Obs) : registered (a ++ b) = registered a ++ registered b := List.filterMap_append

theorem started_append (a b : List Obs) : started (a ++ b) = started a ++ started b := List.filterMap_append

theorem texts_append (a b : List Obs) : texts (a ++ b) = texts a ++ texts b := List.filterMap_append

theorem lastEnding_stop (l : List Obs) (e : EndBy) : lastEnding (l ++ [.ending e]) = some e := by
  simp [lastEnding, List.filterMap_append]

theorem lastEnding_same (l : List Obs) (o : Obs) (h : ∀ e, o ≠ .ending e) : lastEnding (l ++ [o]) = lastEnding l := by
  cases o with
  | ending e => exact absurd rfl (h e)
  | _ => simp [lastEnding, List.filterMap_append]

theorem count_registered (n : Nat) (l : List Obs) : regs n l = (registered l).count n := by
  induction l with
  | nil => rfl
  | cons o l ih =>
    cases o with
    | reg m =>
      by_cases h : m = n
      · subst h; simp only [regs, registered] at ih ⊢; simp [ih]
      · simp only [regs, registered] at ih ⊢; simp [h, ih, List.count_cons]
    | _ => simp only [regs, registered] at ih ⊢; simp [ih, List.count_cons]

theorem count_started (n : Nat) (l : List Obs) : starts n l = (started l).count n := by
  induction l with
  | nil => rfl
  | cons o l ih =>
    cases o with
    | start m =>
      by_cases h : m = n
      · subst h; simp only [starts, started] at ih ⊢; simp [ih]
      · simp only [starts, started] at ih ⊢; simp [h, ih, List.count_cons]
    | _ => simp only [starts, started] at ih ⊢; simp [ih, List.count_cons]

/-! ## The status and the text, for every schedule -/

/-- What is known while the program runs: the last step is the exit that belongs to the history; the text is written or in the buffer. -/
structure Txt (s : St) : Prop where
  code : ∃ L, s.code = L ++ [.exit (lastEnding s.log)] ∧ ∀ e, .exit e ∉ L
  text : s.out ++ s.buf = texts s.log
  len : s.buf.length ≤ 128
  line : 10 ∉ s.buf

theorem Txt.stop {s : St} (h : Txt s) (e : EndBy) : Txt (stop e s) := by
  refine ⟨⟨[.load], ?_, ?_⟩, ?_, h.len, h.line⟩
  · show ended (some e) = [Ins.load] ++ [Ins.exit (lastEnding (s.log ++ [.ending e]))]
    rw [lastEnding_stop]; rfl
  · intro e' he; simp at he
  · show s.out ++ s.buf = texts (s.log ++ [.ending e])
    rw [texts_append, h.text]; simp [texts]

theorem Txt.deliver {s : St} (h : Txt s) (p : Prog) (sig : Nat) : (deliver p sig s).done.isSome = true ∨ Txt (deliver p sig s) := by
  unfold Ending.deliver
  split
  · exact Or.inr ⟨h.code, h.text, h.len, h.line⟩
  · cases s.disp sig with
    | deflt => exact Or.inl rfl
    | ignore => exact Or.inr h
    | proc k =>
      obtain ⟨L, hL, hn⟩ := h.code
      refine Or.inr ⟨⟨(p.hdl k s.calls).map .act ++ [.sigret sig] ++ L, ?_, ?_⟩, ?_, h.len, h.line⟩
      · show _ ++ s.code = _ ++ [Ins.exit (lastEnding (s.log ++ [.got sig]))]
        rw [lastEnding_same _ _ (by intro e; simp), hL]; simp
      · intro e he
        simp only [List.mem_append, List.mem_map, List.mem_singleton] at he
        rcases he with (⟨a, _, ha⟩ | ha) | ha
        · simp at ha
        · simp at ha
        · exact hn e ha
      · show s.out ++ s.buf = texts (s.log ++ [.got sig])
        rw [texts_append, h.text]; simp [texts]
    | segv => exact Or.inr (Txt.stop (s := { s with blocked := sig :: s.blocked }) ⟨h.code, h.text, h.len, h.line⟩ _)

theorem Txt.flush {s : St} (h : Txt s) : Txt (flush s) :=
  ⟨h.code, by show (s.out ++ s.buf) ++ [] = _; rw [List.append_nil, h.text]; rfl, Nat.zero_le _, List.not_mem_nil⟩

theorem Txt.put {s : St} (h : Txt s) (c : Nat) : Txt (put c s) := by
  unfold Ending.put
  obtain ⟨s1, hs1, h1, hl⟩ : ∃ s1, s1 = (if 128 ≤ s.buf.length then Ending.flush s else s) ∧ Txt s1 ∧ s1.buf.length < 128 := by
    by_cases hc : 128 ≤ s.buf.length
    · exact ⟨_, rfl, by rw [if_pos hc]; exact h.flush, by rw [if_pos hc]; exact Nat.zero_lt_succ _⟩
    · exact ⟨_, rfl, by rw [if_neg hc]; exact h, by rw [if_neg hc]; omega⟩
  rw [← hs1]
  have hcode : ∃ L, s1.code = L ++ [Ins.exit (lastEnding (s1.log ++ [.put c]))] ∧ ∀ e, .exit e ∉ L := by
    rw [lastEnding_same _ _ (by intro e; simp)]; exact h1.code
  have htext : s1.out ++ (s1.buf ++ [c]) = texts (s1.log ++ [.put c]) := by
    rw [← List.append_assoc, h1.text, texts_append]; rfl
  dsimp only
  split
  · refine ⟨hcode, ?_, Nat.zero_le _, List.not_mem_nil⟩
    show (s1.out ++ (s1.buf ++ [c])) ++ [] = _
    rw [List.append_nil, htext]; rfl
  · rename_i hc
    refine ⟨hcode, htext, ?_, ?_⟩
    · show (s1.buf ++ [c]).length ≤ 128
      rw [List.length_append]; simp; omega
    · show 10 ∉ s1.buf ++ [c]
      rw [List.mem_append]
      rintro (hx | hx)
      · exact h1.line hx
      · rw [List.mem_singleton] at hx; exact hc hx.symm

theorem Txt.act {s : St} (h : Txt s) (p : Prog) (a : Act) : (act p a s).done.isSome = true ∨ Txt (act p a s) := by
  cases a with
  | put c => exact Or.inr (h.put c)
  | flush => exact Or.inr h.flush
  | reg =>
    obtain ⟨L, hL, hn⟩ := h.code
    refine Or.inr ⟨⟨.link s.fresh :: L, ?_, ?_⟩, h.text, h.len, h.line⟩
    · show Ins.link s.fresh :: s.code = _
      rw [hL]; rfl
    · intro e he
      rw [List.mem_cons] at he
      rcases he with he | he
      · simp at he
      · exact hn e he
  | handler sig k =>
    show (setHandler sig k s).done.isSome = true ∨ Txt (setHandler sig k s)
    unfold setHandler
    split
    · exact Or.inr ⟨h.code, h.text, h.len, h.line⟩
    · exact Or.inr h
  | halt c => exact Or.inr (h.stop _)
  | assert c => exact Or.inr (h.stop _)
  | nil =>
    show (if 11 ∈ s.blocked then _ else Ending.deliver p 11 s).done.isSome = true ∨ Txt (if 11 ∈ s.blocked then _ else Ending.deliver p 11 s)
    split
    · exact Or.inl rfl
    · exact h.deliver p 11
  | fault sig => exact Or.inl rfl

/-- The rest of the code. -/
theorem tail_code {i : Ins} {r L : List Ins} {e : Option EndBy} (h : i :: r = L ++ [.exit e]) (hn : ∀ e, .exit e ∉ L) (hi : ∀ e, i ≠ .exit e) :
    ∃ L', r = L' ++ [.exit e] ∧ ∀ e, .exit e ∉ L' := by
  cases L with
  | nil =>
    simp only [List.nil_append, List.cons.injEq] at h
    exact absurd h.1 (hi e)
  | cons j L =>
    simp only [List.cons_append, List.cons.injEq] at h
    exact ⟨L, h.2, fun e he => hn e (List.mem_cons_of_mem _ he)⟩

/-- A number with at most `k` digits. -/
theorem errnat_ok : ∀ (k n : Nat), n < 10 ^ (k + 1) → errnat (k + 1) n =
    if n = 0 then [48] else (Nat.digits 10 n).reverse.map (48 + ·)
  | 0, n, h => by
    by_cases h0 : n = 0
    · subst h0; rfl
    · have : n < 10 := by simpa using h
      rw [if_neg h0, Nat.digits_of_lt 10 n h0 this]
      show (if 10 ≤ n then errnat 0 (n / 10) else []) ++ [n % 10 + 48] = _
      rw [if_neg (by omega), Nat.mod_eq_of_lt this]; simp [Nat.add_comm]
  | k + 1, n, h => by
    show (if 10 ≤ n then errnat (k + 1) (n / 10) else []) ++ [n % 10 + 48] = _
    by_cases h1 : 10 ≤ n
    · rw [if_pos h1, errnat_ok k (n / 10) (by rw [Nat.pow_succ] at h; omega), if_neg (by omega), if_neg (by omega)]
      rw [Nat.digits_def' (by omega : 1 < 10) (by omega : 0 < n)]
      simp [Nat.add_comm]
    · rw [if_neg h1]
      by_cases h0 : n = 0
      · subst h0; rfl
      · rw [if_neg h0, Nat.digits_of_lt 10 n h0 (by omega), Nat.mod_eq_of_lt (by omega)]; simp [Nat.add_comm]

theorem errint_ok {c : Int} (h1 : -2147483648 ≤ c) (h2 : c ≤ 2147483647) {d : List Nat} (h : errint c = some d) : d = decimal c := by
  unfold errint at h
  by_cases hm : c = -2147483648
  · rw [if_pos hm] at h; simp at h
  · rw [if_neg hm] at h
    unfold decimal
    by_cases hn : c < 0
    · rw [if_pos hn, Option.some.injEq] at h
      rw [← h, if_pos hn, if_neg (by omega), errnat_ok 9 _ (by omega), if_neg (by omega)]
      have : c.natAbs = (-c).toNat := by omega
      rw [this]; rfl
    · rw [if_neg hn, Option.some.injEq] at h
      rw [← h, if_neg hn, errnat_ok 9 _ (by omega)]
      have : c.natAbs = c.toNat := by omega
      rw [this]
      by_cases h0 : c = 0
      · subst h0; rfl
      · rw [if_neg h0, if_neg (by omega)]; rfl

theorem display_ok (c : Int) : (if c < 0 then display c else []) = chars ((explanations.lookup c).getD "") := by
  by_cases h : -21 < c ∧ c < 0
  · obtain ⟨h1, h2⟩ := h
    have : c = -1 ∨ c = -2 ∨ c = -3 ∨ c = -4 ∨ c = -5 ∨ c = -6 ∨ c = -7 ∨ c = -8 ∨ c = -9 ∨ c = -10 ∨ c = -11 ∨ c = -12 ∨ c = -13 ∨
      c = -14 ∨ c = -15 ∨ c = -16 ∨ c = -17 ∨ c = -18 ∨ c = -19 ∨ c = -20 := by omega
    rcases this with h | h | h | h | h | h | h | h | h | h | h | h | h | h | h | h | h | h | h | h <;> subst h <;> rfl
  · have hd : display c = [] := by
      unfold display
      repeat rw [if_neg (by omega)]
    have hl : explanations.lookup c = none := by
      unfold explanations
      simp only [List.lookup]
      repeat rw [show (c == _) = false from by rw [beq_eq_false_iff_ne]; intro hc; omega]
    rw [hl, hd]; simp [chars]

/-- The exit. -/
theorem exit_ok {s : St} (h : s.out ++ s.buf = texts s.log) (e : Option EndBy)
    (hr : ∀ c, e = some (.halt c) ∨ e = some (.assert c) → -2147483648 ≤ c ∧ c ≤ 2147483647) {n : Nat}
    (hd : (exit e s).done = some (.status n)) : n = status e ∧ (exit e s).out = s.out ++ message e := by
  cases e with
  | none =>
    simp only [exit, Option.some.injEq, Result.status.injEq] at hd
    exact ⟨hd.symm, (List.append_nil _).symm⟩
  | some e =>
    cases e with
    | halt c =>
      have := hr c (Or.inl rfl)
      unfold exit at hd ⊢
      dsimp only at hd ⊢
      cases he : errint c with
      | none => rw [he] at hd; simp at hd
      | some d =>
        rw [he] at hd
        simp only [exitStatus, Option.some.injEq, Result.status.injEq] at hd
        refine ⟨hd.symm, ?_⟩
        dsimp only [message]
        rw [display_ok, errint_ok this.1 this.2 he]
        simp only [List.append_assoc]
    | assert c =>
      have := hr c (Or.inr rfl)
      unfold exit at hd ⊢
      dsimp only at hd ⊢
      cases he : errint c with
      | none => rw [he] at hd; simp at hd
      | some d =>
        rw [he] at hd
        constructor
        · dsimp only [status]
          by_cases h0 : 0 < c
          · rw [if_pos h0]
            simp only [h0, if_true, exitStatus, Option.some.injEq, Result.status.injEq] at hd
            exact hd.symm
          · rw [if_neg h0]
            simp only [h0, if_false, exitStatus, Option.some.injEq, Result.status.injEq] at hd
            rw [← hd]; rfl
        · dsimp only [message]
          rw [errint_ok this.1 this.2 he]
          by_cases h0 : c = 0
          · subst h0; simp only [List.append_assoc]; rfl
          · simp only [h0, if_false, ne_eq, not_false_eq_true, if_true, List.append_assoc]

/-- The process has ended with this status and this output. -/
def Fine (s : St) : Prop :=
  ∀ n, s.done = some (.status n) →
    (∀ c, lastEnding s.log = some (.halt c) ∨ lastEnding s.log = some (.assert c) → -2147483648 ≤ c ∧ c ≤ 2147483647) →
    n = status (lastEnding s.log) ∧ ∃ shown, s.out = shown ++ message (lastEnding s.log) ∧ shown ++ s.buf = texts s.log ∧
      s.buf.length ≤ 128 ∧ 10 ∉ s.buf

theorem exit_log (e : Option EndBy) (s : St) : (exit e s).log = s.log ∧ (exit e s).buf = s.buf ∧ (exit e s).done.isSome = true := by
  cases e with
  | none => exact ⟨rfl, rfl, rfl⟩
  | some e =>
    cases e <;> (unfold exit; dsimp only; split <;> exact ⟨rfl, rfl, rfl⟩)

theorem killed_fine {s : St} {g : Nat} (h : s.done = some (.killed g)) : Fine s := by
  intro n hn; rw [h] at hn; simp at hn

/-- While it runs, or how it ended. -/
def TInv (s : St) : Prop := (s.done = none ∧ Txt s) ∨ (s.done.isSome = true ∧ Fine s)

theorem deliver_done (p : Prog) (sig : Nat) (s : St) (h : s.done = none) :
    (deliver p sig s).done = none ∨ ∃ g, (deliver p sig s).done = some (.killed g) := by
  unfold deliver
  split
  · exact Or.inl h
  · cases s.disp sig with
    | deflt => exact Or.inr ⟨_, rfl⟩
    | ignore => exact Or.inl h
    | proc k => exact Or.inl h
    | segv => exact Or.inl h

theorem act_done (p : Prog) (a : Act) (s : St) (h : s.done = none) :
    (act p a s).done = none ∨ ∃ g, (act p a s).done = some (.killed g) := by
  cases a with
  | put c =>
    left
    show (put c s).done = none
    unfold put
    dsimp only
    split <;> split <;> exact h
  | flush => exact Or.inl h
  | reg => exact Or.inl h
  | handler sig k =>
    left
    show (setHandler sig k s).done = none
    unfold setHandler
    split <;> exact h
  | halt c => exact Or.inl h
  | assert c => exact Or.inl h
  | nil =>
    show (if 11 ∈ s.blocked then _ else deliver p 11 s).done = none ∨ ∃ g, (if 11 ∈ s.blocked then _ else deliver p 11 s).done = _
    split
    · exact Or.inr ⟨_, rfl⟩
    · exact deliver_done p 11 s h
  | fault sig => exact Or.inr ⟨_, rfl⟩

theorem tinv_of {s : St} (h1 : s.done = none ∨ ∃ g, s.done = some (.killed g)) (h2 : s.done.isSome = true ∨ Txt s) : TInv s := by
  rcases h1 with h1 | ⟨g, hg⟩
  · rcases h2 with h2 | h2
    · rw [h1] at h2; simp at h2
    · exact Or.inl ⟨h1, h2⟩
  · exact Or.inr ⟨by rw [hg]; rfl, killed_fine hg⟩

theorem step_tinv (p : Prog) {s : St} (hd : s.done = none) (h : Txt s) : TInv (step p s) := by
  unfold step
  rw [if_neg (by rw [hd]; simp)]
  obtain ⟨L, hL, hn⟩ := h.code
  cases hc : s.code with
  | nil => rw [hc] at hL; simp at hL
  | cons i r =>
    rw [hc] at hL
    have ht : (∀ e, i ≠ .exit e) → Txt { s with code := r } := fun hi => ⟨tail_code hL hn hi, h.text, h.len, h.line⟩
    cases i with
    | act a => exact tinv_of (act_done p a _ hd) ((ht (by simp)).act p a)
    | link f =>
      have := ht (by simp)
      refine Or.inl ⟨hd, ?_, ?_, h.len, h.line⟩
      · show ∃ L, r = L ++ [Ins.exit (lastEnding (s.log ++ [.reg f]))] ∧ _
        rw [lastEnding_same _ _ (by simp)]; exact this.code
      · show s.out ++ s.buf = texts (s.log ++ [.reg f])
        rw [texts_append, h.text]; simp [texts]
    | load =>
      have := ht (by simp)
      dsimp only
      split
      · exact Or.inl ⟨hd, this⟩
      · obtain ⟨L', h1, h2⟩ := this.code
        refine Or.inl ⟨hd, ⟨.pop s.fin :: L', ?_, ?_⟩, h.text, h.len, h.line⟩
        · show Ins.pop s.fin :: r = _
          rw [show r = _ from h1]; rfl
        · intro e he
          rw [List.mem_cons] at he
          rcases he with he | he
          · simp at he
          · exact h2 e he
    | pop n =>
      obtain ⟨L', h1, h2⟩ := (ht (by simp)).code
      refine Or.inl ⟨hd, ⟨.call n :: L', ?_, ?_⟩, h.text, h.len, h.line⟩
      · show Ins.call n :: r = _
        rw [show r = _ from h1]; rfl
      · intro e he
        rw [List.mem_cons] at he
        rcases he with he | he
        · simp at he
        · exact h2 e he
    | call n =>
      obtain ⟨L', h1, h2⟩ := (ht (by simp)).code
      refine Or.inl ⟨hd, ⟨(p.beh n).map .act ++ .load :: L', ?_, ?_⟩, ?_, h.len, h.line⟩
      · show _ ++ Ins.load :: r = _ ++ [Ins.exit (lastEnding (s.log ++ [.start n]))]
        rw [lastEnding_same _ _ (by simp), show r = _ from h1]; simp
      · intro e he
        rw [List.mem_append, List.mem_map, List.mem_cons] at he
        rcases he with ⟨a, _, ha⟩ | he | he
        · simp at ha
        · simp at he
        · exact h2 e he
      · show s.out ++ s.buf = texts (s.log ++ [.start n])
        rw [texts_append, h.text]; simp [texts]
    | exit e =>
      right
      obtain ⟨h1, h2, h3⟩ := exit_log e s
      have he : e = lastEnding s.log := by
        cases L with
        | nil => simp only [List.nil_append, List.cons.injEq, Ins.exit.injEq] at hL; exact hL.1
        | cons j L =>
          simp only [List.cons_append, List.cons.injEq] at hL
          exact absurd (by rw [hL.1]; exact List.mem_cons_self) (hn e)
      refine ⟨h3, ?_⟩
      intro n hns hr
      dsimp only at hns hr ⊢
      rw [h1] at hr ⊢
      rw [← he] at hr ⊢
      obtain ⟨h4, h5⟩ := exit_ok h.text e hr hns
      exact ⟨h4, s.out, h5, by rw [h2]; exact h.text, by rw [h2]; exact h.len, by rw [h2]; exact h.line⟩
    | sigret sig =>
      have := ht (by simp)
      dsimp only
      split
      · exact tinv_of (deliver_done p sig _ hd) (Txt.deliver (s := { s with code := r, blocked := s.blocked.erase sig, pend := s.pend.erase sig })
          ⟨this.code, h.text, h.len, h.line⟩ p sig)
      · exact Or.inl ⟨hd, this.code, h.text, h.len, h.line⟩

theorem next1_tinv (p : Prog) (ev : Ev) {s : St} (h : TInv s) : TInv (next1 p ev s) := by
  rcases h with ⟨hd, h⟩ | ⟨hd, h⟩
  · cases ev with
    | tick => exact step_tinv p hd h
    | sig g =>
      show TInv (if s.done.isSome = true then s else deliver p g s)
      rw [if_neg (by rw [hd]; simp)]
      exact tinv_of (deliver_done p g s hd) (h.deliver p g)
  · cases ev with
    | tick =>
      show TInv (step p s)
      unfold step
      rw [if_pos hd]; exact Or.inr ⟨hd, h⟩
    | sig g =>
      show TInv (if s.done.isSome = true then s else deliver p g s)
      rw [if_pos hd]; exact Or.inr ⟨hd, h⟩

theorem run_tinv (p : Prog) : ∀ (evs : List Ev) {s : St}, TInv s → TInv (run p evs s)
  | [], _, h => h
  | e :: r, _, h => run_tinv p r (next1_tinv p e h)

theorem start_tinv (main : List Act) : TInv (start main) := by
  refine Or.inl ⟨rfl, ⟨main.map .act ++ [.load], ?_, ?_⟩, rfl, Nat.zero_le _, List.not_mem_nil⟩
  · show main.map Ins.act ++ ended none = _
    simp [ended, start, lastEnding]
  · intro e he
    simp at he

end Verif.Ending
