import Verif.Common
import Verif.Ending.Ends

/-!
# C77: how a program ends

`C77_finalizers`: every finalizer registered runs exactly once, whatever ends the program.  `C77_order`: the last one registered runs first.
`C77_ends`: the program ends.  `C77_status`: its status and its output, for every schedule of signals.  `C77_signals_partial` and
`C77_quiet_partial`: finalizers and signals.  Deviations: `C77_lost`, `C77_twice`, `C77_nil`, `C77_killed`, `C77_unwritten`, `C77_256`,
`C77_never`.
-/
namespace Verif.Ending

theorem final_of {Q O : Prop} {s : St} (h : OInv Q O s) {n : Nat} (hd : s.done = some (.status n)) : Final Q O s := by
  rcases h with ⟨g, hg⟩ | ⟨h1, _⟩ | ⟨_, h⟩
  · rw [hg] at hd; simp at hd
  · rw [h1] at hd; simp at hd
  · exact h

theorem final_count {Q O : Prop} {s : St} (h : Final Q O s) (f : Nat) :
    regs f s.log ≤ 1 ∧ starts f s.log ≤ regs f s.log ∧ (Q → starts f s.log = regs f s.log) := by
  obtain ⟨lost, h1, h2⟩ := h.perm
  have h3 : regs f s.log ≤ 1 := by rw [count_registered]; exact List.nodup_iff_count_le_one.mp h.nodup f
  have h4 : regs f s.log = starts f s.log + lost.count f := by
    rw [count_registered, count_started, h1.count_eq, List.count_append]
  refine ⟨h3, by omega, fun hq => ?_⟩
  rw [h4, h2 hq]; simp

theorem ticks_quiet (p : Prog) (main : List Act) (k : Nat) :
    run p (ticks k) (start main) = run ⟨p.beh, fun _ _ => []⟩ (ticks k) (start main) := by
  refine ticks_same (p := p) (p' := ⟨p.beh, fun _ _ => []⟩) rfl (ticks k) (start main) (fun e he => List.eq_of_mem_replicate he) ?_ rfl
  intro g hg
  simp [start, ended] at hg

theorem ticks_sig (k : Nat) (g : Nat) : Ev.sig g ∉ ticks k := fun h => by simpa using List.eq_of_mem_replicate h

/-- Whatever a program, its finalizers and the checks that fail do, however often `HALT` is executed, also in finalizers: if the process
ends with a status, every finalizer registered, also by other finalizers, has been started exactly once. -/
theorem C77_finalizers (p : Prog) (main : List Act) (k n : Nat) (h : (run p (ticks k) (start main)).done = some (.status n)) (f : Nat) :
    regs f (run p (ticks k) (start main)).log ≤ 1 ∧
    starts f (run p (ticks k) (start main)).log = regs f (run p (ticks k) (start main)).log := by
  rw [ticks_quiet] at h ⊢
  have := run_inv (Q := True) (O := False) (fun h => absurd h id) (p := ⟨p.beh, fun _ _ => []⟩) (fun _ _ a ha => absurd ha List.not_mem_nil)
    (fun h => absurd h id) (ticks k) (fun _ => ticks_sig k 11) (start_inv True False main)
  have := final_count (final_of this h) f
  exact ⟨this.1, this.2.2 trivial⟩

/-- If finalizers register no others, the last one registered runs first. -/
theorem C77_order (p : Prog) (hb : ∀ n, Act.reg ∉ p.beh n) (main : List Act) (k n : Nat)
    (h : (run p (ticks k) (start main)).done = some (.status n)) :
    started (run p (ticks k) (start main)).log = (registered (run p (ticks k) (start main)).log).reverse := by
  rw [ticks_quiet] at h ⊢
  have := run_inv (Q := True) (O := True) (fun _ => trivial) (p := ⟨p.beh, fun _ _ => []⟩) (fun _ _ a ha => absurd ha List.not_mem_nil)
    (fun _ => hb) (ticks k) (fun _ => ticks_sig k 11) (start_inv True True main)
  exact ((final_of this h).order trivial).symm

/-- If only finitely many finalizers register others, the process ends. -/
theorem C77_ends (p : Prog) (K : Nat) (hK : ∀ n, K ≤ n → Act.reg ∉ p.beh n) (main : List Act) :
    ∃ k, (run p (ticks k) (start main)).done.isSome = true :=
  ends_at hK _ _ _ _ _ [] main none ⟨rfl, rfl, rfl, fun _ h => absurd h List.not_mem_nil, Nat.one_pos, rfl⟩ rfl rfl rfl rfl

/-- For every schedule of signals and whatever handlers do: if the process ends with a status, it is that of the event that ended the program
last, or 0 if there was none; the output is the text written with `Out`, in order, up to some characters since the last line that are still in
the buffer, followed by the message that explains the event. -/
theorem C77_status (p : Prog) (main : List Act) (evs : List Ev) (n : Nat) (h : (run p evs (start main)).done = some (.status n))
    (hr : ∀ c, lastEnding (run p evs (start main)).log = some (.halt c) ∨ lastEnding (run p evs (start main)).log = some (.assert c) →
      -2147483648 ≤ c ∧ c ≤ 2147483647) :
    n = status (lastEnding (run p evs (start main)).log) ∧
    ∃ shown left, texts (run p evs (start main)).log = shown ++ left ∧ left.length ≤ 128 ∧ 10 ∉ left ∧
      (run p evs (start main)).out = shown ++ message (lastEnding (run p evs (start main)).log) := by
  rcases run_tinv p evs (start_tinv main) with ⟨h1, _⟩ | ⟨_, h1⟩
  · rw [h1] at h; simp at h
  · obtain ⟨h2, shown, h3, h4, h5, h6⟩ := h1 n h hr
    exact ⟨h2, shown, _, h4.symm, h5, h6, h3⟩

/-- The codes that the compiler and the run-time system use: the process reports success exactly if the program reached the end of its main
module or executed `HALT(0)` last. -/
theorem C77_success (p : Prog) (main : List Act) (evs : List Ev) (n : Nat) (h : (run p evs (start main)).done = some (.status n))
    (hh : ∀ c, lastEnding (run p evs (start main)).log = some (.halt c) → -20 ≤ c ∧ c ≤ 255)
    (ha : ∀ c, lastEnding (run p evs (start main)).log = some (.assert c) → 0 ≤ c ∧ c ≤ 255) :
    n = 0 ↔ lastEnding (run p evs (start main)).log = none ∨ lastEnding (run p evs (start main)).log = some (.halt 0) := by
  have := (C77_status p main evs n h (fun c hc => by
    rcases hc with hc | hc
    · have := hh c hc; omega
    · have := ha c hc; omega)).1
  rw [this]
  cases he : lastEnding (run p evs (start main)).log with
  | none => simp [status]
  | some e =>
    cases e with
    | halt c =>
      have := hh c he
      simp only [status, reduceCtorEq, Option.some.injEq, EndBy.halt.injEq, false_or]
      omega
    | assert c =>
      have := ha c he
      simp only [status, reduceCtorEq, Option.some.injEq, or_self, iff_false]
      split <;> omega

/-- For every schedule of signals, if handlers register no finalizers: no finalizer is started twice, and none that was not registered.
Missing: handlers that end the program or register finalizers, see `C77_lost` and `C77_twice`. -/
theorem C77_signals_partial (p : Prog) (hp : ∀ h k, Act.reg ∉ p.hdl h k) (main : List Act) (evs : List Ev) (n : Nat)
    (h : (run p evs (start main)).done = some (.status n)) (f : Nat) :
    starts f (run p evs (start main)).log ≤ regs f (run p evs (start main)).log ∧ regs f (run p evs (start main)).log ≤ 1 := by
  have := run_inv (Q := False) (O := False) id (p := p) (fun h k a ha => ⟨fun he => hp h k (by rw [← he]; exact ha), fun h => absurd h id⟩)
    (fun h => absurd h id) evs (fun h => absurd h id) (start_inv False False main)
  have := final_count (final_of this h) f
  exact ⟨this.2.1, this.1⟩

/-- For every schedule of signals, if handlers neither register finalizers nor end the program: every finalizer registered has been started
exactly once. -/
theorem C77_quiet_partial (p : Prog) (hp : ∀ h k, ∀ a ∈ p.hdl h k, (∃ c, a = .put c) ∨ a = .flush ∨ (∃ s g, a = .handler s g)) (main : List Act)
    (evs : List Ev) (he : .sig 11 ∉ evs) (n : Nat) (h : (run p evs (start main)).done = some (.status n)) (f : Nat) :
    regs f (run p evs (start main)).log ≤ 1 ∧ starts f (run p evs (start main)).log = regs f (run p evs (start main)).log := by
  have := run_inv (Q := True) (O := False) (fun h => absurd h id) (p := p) (fun h k a ha => by
    rcases hp h k a ha with ⟨c, rfl⟩ | rfl | ⟨s, g, rfl⟩
    · exact ⟨by simp, fun _ => trivial⟩
    · exact ⟨by simp, fun _ => trivial⟩
    · exact ⟨by simp, fun _ => trivial⟩)
    (fun h => absurd h id) evs (fun _ => he) (start_inv True False main)
  have := final_count (final_of this h) f
  exact ⟨this.1, this.2.2 trivial⟩

/-! ## Examples -/

/-- The first finalizer writes `A`, registers another and halts with 3; the second writes a line; the third one does nothing. -/
def exP : Prog :=
  ⟨fun n => if n = 1 then [.put 65, .reg, .halt 3] else if n = 2 then [.put 66, .put 10] else [], fun _ _ => [.put 67]⟩

/-- The hypotheses of `C77_finalizers` and `C77_status` hold for a program with nested halts. -/
example : (run exP (ticks 40) (start [.handler 2 (some 0), .reg, .reg, .nil])).done = some (.status 3) ∧
    started (run exP (ticks 40) (start [.handler 2 (some 0), .reg, .reg, .nil])).log = [2, 1, 3] ∧
    (run exP (ticks 40) (start [.handler 2 (some 0), .reg, .reg, .nil])).out = [66, 10] ++ chars "Terminated by Halt(3). " ++ [10] := by
  decide +kernel

/-- Its finalizers from 2 on register no others. -/
example : ∀ n, 2 ≤ n → Act.reg ∉ exP.beh n := by
  intro n h
  have : n ≠ 1 := by omega
  simp only [exP, this, if_false]
  split <;> decide

/-- The hypotheses of `C77_order`. -/
example : (run ⟨fun _ => [.put 66], fun _ _ => []⟩ (ticks 40) (start [.reg, .reg, .reg, .assert 0])).done = some (.status 255) ∧
    started (run ⟨fun _ => [.put 66], fun _ _ => []⟩ (ticks 40) (start [.reg, .reg, .reg, .assert 0])).log = [3, 2, 1] := by
  decide +kernel

/-- The hypotheses of `C77_quiet_partial`: a signal arrives during `RegisterFinalizer`. -/
example : (run ⟨fun _ => [.put 66, .put 10], fun _ _ => [.put 67]⟩ ([.tick, .tick, .sig 2] ++ ticks 40) (start [.handler 2 (some 0), .reg])).done =
      some (.status 0) ∧
    (run ⟨fun _ => [.put 66, .put 10], fun _ _ => [.put 67]⟩ ([.tick, .tick, .sig 2] ++ ticks 40) (start [.handler 2 (some 0), .reg])).out =
      [67, 66, 10] := by
  decide +kernel

/-! ## Deviations -/

/-- A signal whose handler ends the program arrives in `FINALL` after the finalizer was taken off the list: it never runs. -/
theorem C77_lost : ∃ (p : Prog) (main : List Act) (evs : List Ev), (∀ h k, Act.reg ∉ p.hdl h k) ∧
    (run p evs (start main)).done = some (.status 1) ∧ regs 1 (run p evs (start main)).log = 1 ∧ starts 1 (run p evs (start main)).log = 0 :=
  ⟨⟨fun _ => [], fun _ _ => [.halt 1]⟩, [.handler 2 (some 0), .reg], ticks 5 ++ [.sig 2] ++ ticks 10, fun _ _ => (by simp),
    (by decide +kernel), (by decide +kernel), (by decide +kernel)⟩

/-- A handler that registers a finalizer while `FINALL` takes one off the list: the one runs twice, the other never. -/
theorem C77_twice : ∃ (p : Prog) (main : List Act) (evs : List Ev), (run p evs (start main)).done = some (.status 0) ∧
    starts 1 (run p evs (start main)).log = 2 ∧ regs 2 (run p evs (start main)).log = 1 ∧ starts 2 (run p evs (start main)).log = 0 :=
  ⟨⟨fun _ => [], fun _ _ => [.reg]⟩, [.handler 2 (some 0), .reg], ticks 4 ++ [.sig 2] ++ ticks 20,
    (by decide +kernel), (by decide +kernel), (by decide +kernel), (by decide +kernel)⟩

/-- If an access to `NIL` ends the program and a finalizer accesses `NIL` as well, the process is killed and the other finalizers do not run;
after `HALT` they do. -/
theorem C77_nil : ∃ p : Prog,
    ((run p (ticks 20) (start [.reg, .reg, .nil])).done = some (.killed 11) ∧ starts 1 (run p (ticks 20) (start [.reg, .reg, .nil])).log = 0) ∧
    ((run p (ticks 20) (start [.reg, .reg, .halt 1])).done = some (.status 246) ∧
      starts 1 (run p (ticks 20) (start [.reg, .reg, .halt 1])).log = 1) :=
  ⟨⟨fun n => if n = 2 then [.nil] else [], fun _ _ => []⟩, (by decide +kernel), (by decide +kernel)⟩

/-- A division by zero, or an interrupt without a handler, ends the process without running the finalizers. -/
theorem C77_killed : ∃ p : Prog,
    ((run p (ticks 20) (start [.reg, .fault 8])).done = some (.killed 8) ∧ regs 1 (run p (ticks 20) (start [.reg, .fault 8])).log = 1 ∧
      starts 1 (run p (ticks 20) (start [.reg, .fault 8])).log = 0) ∧
    ((run p ([.tick, .tick, .sig 2] ++ ticks 20) (start [.reg, .flush])).done = some (.killed 2) ∧
      starts 1 (run p ([.tick, .tick, .sig 2] ++ ticks 20) (start [.reg, .flush])).log = 0) :=
  ⟨⟨fun _ => [], fun _ _ => []⟩, (by decide +kernel), (by decide +kernel)⟩

/-- Text that is not followed by the end of a line is not written when the program ends. -/
theorem C77_unwritten : ∃ (p : Prog) (main : List Act), (run p (ticks 10) (start main)).done = some (.status 0) ∧
    texts (run p (ticks 10) (start main)).log = chars "Hi" ∧ (run p (ticks 10) (start main)).out = [] :=
  ⟨⟨fun _ => [], fun _ _ => []⟩, [.put 72, .put 105], (by decide +kernel), (by decide +kernel), (by decide +kernel)⟩

/-- `Modules.Halt(256)` reports success, although it writes that the program was terminated. -/
theorem C77_256 (p : Prog) : (run p (ticks 10) (start [.halt 256])).done = some (.status 0) ∧
    (run p (ticks 10) (start [.halt 256])).out = chars "Terminated by Halt(256). " ++ [10] := ⟨rfl, rfl⟩

/-- The states of a program whose finalizers always register another one. -/
def Loops (s : St) : Prop :=
  s.done = none ∧ s.fresh ≠ 0 ∧ (s.code = [.act .reg, .load, .exit none] ∨ (∃ f, f ≠ 0 ∧ s.code = [.link f, .load, .exit none]) ∨
    (s.code = [.load, .exit none] ∧ s.fin ≠ 0) ∨ (∃ n, s.code = [.pop n, .exit none]) ∨ ∃ n, s.code = [.call n, .exit none])

theorem loops_step {p : Prog} (hp : ∀ n, p.beh n = [.reg]) {s : St} (h : Loops s) : Loops (step p s) := by
  obtain ⟨hd, hf, h⟩ := h
  rcases h with h | ⟨f, hf0, h⟩ | ⟨h, h0⟩ | ⟨n, h⟩ | ⟨n, h⟩
  · rw [step_code hd h]
    exact ⟨hd, Nat.succ_ne_zero _, Or.inr (Or.inl ⟨s.fresh, hf, rfl⟩)⟩
  · rw [step_code hd h]
    exact ⟨hd, hf, Or.inr (Or.inr (Or.inl ⟨rfl, hf0⟩))⟩
  · rw [step_code hd h]
    simp only [stepI, h0, if_false]
    exact ⟨hd, hf, Or.inr (Or.inr (Or.inr (Or.inl ⟨s.fin, rfl⟩)))⟩
  · rw [step_code hd h]
    exact ⟨hd, hf, Or.inr (Or.inr (Or.inr (Or.inr ⟨n, rfl⟩)))⟩
  · rw [step_code hd h]
    exact ⟨hd, hf, Or.inl (by simp only [stepI, hp]; rfl)⟩

/-- A program with a finalizer that registers itself again never ends, even after `HALT` or the end of its main module. -/
theorem C77_never (p : Prog) (hp : ∀ n, p.beh n = [.reg]) (k : Nat) : (run p (ticks k) (start [.reg])).done = none := by
  have : ∀ (k : Nat) (s : St), Loops s → Loops (run p (ticks k) s) := by
    intro k
    induction k with
    | zero => intro s h; exact h
    | succ k ih => intro s h; exact ih _ (loops_step hp h)
  exact (this k _ ⟨rfl, Nat.one_ne_zero, Or.inl rfl⟩).1

end Verif.Ending
