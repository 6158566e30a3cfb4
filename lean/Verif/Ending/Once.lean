import Verif.Ending.Lemmas

/-!
# How a program ends: the list of finalizers
-/
namespace Verif.Ending

/-- The list of finalizers from a node. -/
def Chain (nx : Nat → Nat) : Nat → List Nat → Prop
  | a, [] => a = 0
  | a, x :: xs => a = x ∧ x ≠ 0 ∧ Chain nx (nx x) xs

theorem Chain.congr {nx nx' : Nat → Nat} : ∀ {xs : List Nat} {a : Nat}, (∀ x ∈ xs, nx' x = nx x) → Chain nx a xs → Chain nx' a xs
  | [], _, _, h => h
  | x :: xs, _, hx, h => ⟨h.1, h.2.1, by
      rw [hx x List.mem_cons_self]; exact Chain.congr (fun y hy => hx y (List.mem_cons_of_mem _ hy)) h.2.2⟩

/-- Actions that do not end the program. -/
def quiet : Act → Prop
  | .halt _ | .assert _ | .nil => False
  | _ => True

/-- Steps of a signal handler. -/
def ok (Q : Prop) : Ins → Prop
  | .act a => a ≠ .reg ∧ (Q → quiet a)
  | .sigret g => g ≠ 11
  | _ => False

/-- Steps of a program outside the procedures for finalizers. -/
def plain : Ins → Prop
  | .act _ => True
  | .sigret g => g ≠ 11
  | _ => False

theorem ok.plain {Q : Prop} {i : Ins} (h : ok Q i) : plain i := by
  cases i with
  | act a => trivial
  | sigret g => exact h
  | _ => exact absurd h id

/-- Only the handler of signal 11 ends the program. -/
def DispOk (s : St) : Prop := ∀ x, s.disp x = .segv ↔ x = 11

/-- The handlers register no finalizers, and do not end the program if `Q`. -/
def HdlOk (Q : Prop) (p : Prog) : Prop := ∀ h k, ∀ a ∈ p.hdl h k, a ≠ .reg ∧ (Q → quiet a)

/-- Steps that leave the list of finalizers alone. -/
def Harm (Q : Prop) (s s' : St) (r : List Ins) : Prop :=
  (∃ g, s'.done = some (.killed g)) ∨
  (¬ Q ∧ s'.done = none ∧ s'.fin = s.fin ∧ s'.next = s.next ∧ s'.fresh = s.fresh ∧ DispOk s' ∧
    ∃ e, s'.code = ended (some e) ∧ s'.log = s.log ++ [.ending e]) ∨
  (s'.done = none ∧ s'.fin = s.fin ∧ s'.next = s.next ∧ s'.fresh = s.fresh ∧ DispOk s' ∧
    ∃ A, (∀ i ∈ A, ok Q i) ∧ s'.code = A ++ r ∧ registered s'.log = registered s.log ∧ started s'.log = started s.log)

theorem harm_deliver {Q : Prop} {p : Prog} (hp : HdlOk Q p) {s : St} (hd : s.done = none) (hi : DispOk s) {sig : Nat} (hs : Q → sig ≠ 11) :
    Harm Q s (deliver p sig s) s.code := by
  unfold deliver
  split
  · exact Or.inr (Or.inr ⟨hd, rfl, rfl, rfl, hi, [], fun i h => absurd h List.not_mem_nil, rfl, rfl, rfl⟩)
  · cases hdp : s.disp sig with
    | deflt => exact Or.inl ⟨_, rfl⟩
    | ignore => exact Or.inr (Or.inr ⟨hd, rfl, rfl, rfl, hi, [], fun i h => absurd h List.not_mem_nil, rfl, rfl, rfl⟩)
    | proc k =>
      refine Or.inr (Or.inr ⟨hd, rfl, rfl, rfl, hi, (p.hdl k s.calls).map .act ++ [.sigret sig], ?_, rfl, ?_, ?_⟩)
      · intro i h
        rw [List.mem_append, List.mem_map, List.mem_singleton] at h
        rcases h with ⟨a, ha, rfl⟩ | rfl
        · exact hp k s.calls a ha
        · intro h11
          have := (hi sig).mpr h11
          rw [hdp] at this; simp at this
      · show registered (s.log ++ [.got sig]) = _
        rw [registered_append]; simp [registered]
      · show started (s.log ++ [.got sig]) = _
        rw [started_append]; simp [started]
    | segv =>
      refine Or.inr (Or.inl ⟨fun hq => hs hq ((hi sig).mp hdp), hd, rfl, rfl, rfl, hi, _, rfl, rfl⟩)

theorem harm_put {Q : Prop} {s : St} (hd : s.done = none) (hi : DispOk s) (c : Nat) : Harm Q s (put c s) s.code := by
  have hlog : (put c s).log = s.log ++ [.put c] := by unfold put; dsimp only; split <;> split <;> rfl
  refine Or.inr (Or.inr ⟨?_, ?_, ?_, ?_, ?_, [], fun i h => absurd h List.not_mem_nil, ?_, ?_, ?_⟩)
  · unfold put; dsimp only; split <;> split <;> exact hd
  · unfold put; dsimp only; split <;> split <;> rfl
  · unfold put; dsimp only; split <;> split <;> rfl
  · unfold put; dsimp only; split <;> split <;> rfl
  · unfold put; dsimp only; split <;> split <;> exact hi
  · unfold put; dsimp only; split <;> split <;> rfl
  · rw [hlog, registered_append]; simp [registered]
  · rw [hlog, started_append]; simp [started]

theorem harm_handler {Q : Prop} {s : St} (hd : s.done = none) (hi : DispOk s) (sig : Nat) (h : Option Nat) :
    Harm Q s (setHandler sig h s) s.code := by
  refine Or.inr (Or.inr ?_)
  unfold setHandler
  split
  · rename_i hs
    refine ⟨hd, rfl, rfl, rfl, ?_, [], fun i h => absurd h List.not_mem_nil, rfl, rfl, rfl⟩
    intro x
    by_cases hx : x = sig
    · subst hx
      cases h <;> simp <;> omega
    · simp only [hx, if_false]
      exact hi x
  · exact ⟨hd, rfl, rfl, rfl, hi, [], fun i h => absurd h List.not_mem_nil, rfl, rfl, rfl⟩

theorem harm_stop {Q : Prop} (hq : ¬ Q) {s : St} (hd : s.done = none) (hi : DispOk s) (e : EndBy) (r : List Ins) : Harm Q s (stop e s) r :=
  Or.inr (Or.inl ⟨hq, hd, rfl, rfl, rfl, hi, e, rfl, rfl⟩)

theorem harm_act {Q : Prop} {p : Prog} (hp : HdlOk Q p) {s : St} (hd : s.done = none) (hi : DispOk s) {a : Act} (ha : a ≠ .reg)
    (hq : Q → quiet a) : Harm Q s (act p a s) s.code := by
  cases a with
  | put c => exact harm_put hd hi c
  | flush => exact Or.inr (Or.inr ⟨hd, rfl, rfl, rfl, hi, [], fun i h => absurd h List.not_mem_nil, rfl, rfl, rfl⟩)
  | reg => exact absurd rfl ha
  | handler sig h => exact harm_handler hd hi sig h
  | halt c => exact harm_stop (fun h => hq h) hd hi _ _
  | assert c => exact harm_stop (fun h => hq h) hd hi _ _
  | nil =>
    show Harm Q s (if 11 ∈ s.blocked then _ else deliver p 11 s) s.code
    split
    · exact Or.inl ⟨_, rfl⟩
    · exact harm_deliver hp hd hi (fun h => absurd (hq h) id)
  | fault sig => exact Or.inl ⟨_, rfl⟩

theorem harm_step {Q : Prop} {p : Prog} (hp : HdlOk Q p) {s : St} (hd : s.done = none) (hi : DispOk s) {i : Ins} {r : List Ins}
    (hc : s.code = i :: r) (ho : ok Q i) : Harm Q s (step p s) r := by
  unfold step
  rw [if_neg (by rw [hd]; simp), hc]
  cases i with
  | act a => exact harm_act (s := { s with code := r }) hp hd hi ho.1 ho.2
  | sigret g =>
    dsimp only
    split
    · exact harm_deliver (s := { s with code := r, blocked := s.blocked.erase g, pend := s.pend.erase g }) hp hd hi (fun _ => ho)
    · exact Or.inr (Or.inr ⟨hd, rfl, rfl, rfl, hi, [], fun i h => absurd h List.not_mem_nil, rfl, rfl, rfl⟩)
  | _ => exact absurd ho id

/-- What is executed next. -/
inductive Shape (Q : Prop) (s : St) : List Ins → List Nat → Prop
  /-- The program or a finalizer. -/
  | prog {L : List Ins} {e : Option EndBy} : (∀ i ∈ L, plain i) → Shape Q s (L ++ [.load, .exit e]) []
  /-- Within `RegisterFinalizer`. -/
  | link {A L : List Ins} {f : Nat} {e : Option EndBy} : (∀ i ∈ A, ok Q i) → (∀ i ∈ L, plain i) → f ≠ 0 → f < s.fresh →
      s.next f = s.fin → f ∉ registered s.log → Shape Q s (A ++ .link f :: (L ++ [.load, .exit e])) []
  /-- Within `FINALL`. -/
  | pop {A : List Ins} {e : Option EndBy} : (∀ i ∈ A, ok Q i) → s.fin ≠ 0 → Shape Q s (A ++ [.pop s.fin, .exit e]) []
  | call {A : List Ins} {n : Nat} {e : Option EndBy} : (∀ i ∈ A, ok Q i) → Shape Q s (A ++ [.call n, .exit e]) [n]
  /-- After `FINALL`. -/
  | exit {A : List Ins} {e : Option EndBy} : (∀ i ∈ A, ok Q i) → s.fin = 0 → Shape Q s (A ++ [.exit e]) []

/-- The finalizers registered are those of the list, the one being started, those started and those lost. -/
structure Inv (Q O : Prop) (s : St) : Prop where
  disp : DispOk s
  fresh : 0 < s.fresh
  nodup : (registered s.log).Nodup
  range : ∀ n ∈ registered s.log, n ≠ 0 ∧ n < s.fresh
  order : O → (.act .reg ∈ s.code ∨ ∃ f, .link f ∈ s.code) → started s.log = []
  list : ∃ xs mid lost, Chain s.next s.fin xs ∧ (registered s.log).Perm (xs ++ mid ++ started s.log ++ lost) ∧ (Q → lost = []) ∧
    (O → (registered s.log).reverse = started s.log ++ mid ++ xs) ∧ Shape Q s s.code mid

/-- How it ended. -/
structure Final (Q O : Prop) (s : St) : Prop where
  nodup : (registered s.log).Nodup
  perm : ∃ lost, (registered s.log).Perm (started s.log ++ lost) ∧ (Q → lost = [])
  order : O → (registered s.log).reverse = started s.log

/-- While it runs, or how it ended. -/
def OInv (Q O : Prop) (s : St) : Prop :=
  (∃ g, s.done = some (.killed g)) ∨ (s.done = none ∧ Inv Q O s) ∨ (s.done.isSome = true ∧ Final Q O s)

/-- After a step that leaves the list alone. -/
theorem harm_inv {Q Q' O : Prop} (hoq : O → Q) {s s' : St} {r : List Ins} {B : List Ins} (h : Harm Q' s s' r) (hcode : s.code = B ++ r)
    (inv : Inv Q O s) {xs mid lost : List Nat} (l1 : Chain s.next s.fin xs)
    (l2 : (registered s.log).Perm (xs ++ mid ++ started s.log ++ lost)) (l3 : Q → lost = [])
    (l4 : O → (registered s.log).reverse = started s.log ++ mid ++ xs) (hm : mid = [] ∨ (Q → Q'))
    (hsh : ∀ (A : List Ins), (∀ i ∈ A, ok Q' i) → s'.fin = s.fin → s'.next = s.next → s'.fresh = s.fresh →
      registered s'.log = registered s.log → Shape Q s' (A ++ r) mid) : OInv Q O s' := by
  rcases h with h | ⟨hq, hd, h1, h2, h3, h4, e, h5, h6⟩ | ⟨hd, h1, h2, h3, h4, A, hA, h5, h6, h7⟩
  · exact Or.inl h
  · have hr : registered s'.log = registered s.log := by rw [h6, registered_append]; simp [registered]
    have hst : started s'.log = started s.log := by rw [h6, started_append]; simp [started]
    have hm' : Q → mid = [] := by
      intro hQ
      rcases hm with hm | hm
      · exact hm
      · exact absurd (hm hQ) hq
    refine Or.inr (Or.inl ⟨hd, h4, by rw [h3]; exact inv.fresh, by rw [hr]; exact inv.nodup, by rw [hr, h3]; exact inv.range, ?_, ?_⟩)
    · intro _ hx
      rw [h5] at hx
      simp [ended] at hx
    · refine ⟨xs, [], mid ++ lost, by rw [h1, h2]; exact l1, ?_, fun hQ => by rw [hm' hQ, l3 hQ]; rfl,
        fun hO => by rw [hr, hst, l4 hO, hm' (hoq hO)], ?_⟩
      · rw [hr, hst]
        refine l2.trans ?_
        rw [List.append_nil, List.append_assoc, List.append_assoc, List.append_assoc]
        refine List.Perm.append_left _ ?_
        rw [← List.append_assoc, ← List.append_assoc]
        exact List.Perm.append_right _ List.perm_append_comm
      · rw [h5]
        exact Shape.prog (L := []) (fun i h => absurd h List.not_mem_nil)
  · refine Or.inr (Or.inl ⟨hd, h4, by rw [h3]; exact inv.fresh, by rw [h6]; exact inv.nodup, by rw [h6, h3]; exact inv.range, ?_, ?_⟩)
    · intro ho hx
      rw [h7]
      refine inv.order ho ?_
      rw [h5] at hx
      rw [hcode]
      rcases hx with hx | ⟨f, hx⟩
      · rw [List.mem_append] at hx
        rcases hx with hx | hx
        · exact absurd rfl (hA _ hx).1
        · exact Or.inl (List.mem_append_right _ hx)
      · rw [List.mem_append] at hx
        rcases hx with hx | hx
        · exact absurd (hA _ hx) id
        · exact Or.inr ⟨f, List.mem_append_right _ hx⟩
    · refine ⟨xs, mid, lost, by rw [h1, h2]; exact l1, by rw [h6, h7]; exact l2, l3, by rw [h6, h7]; exact l4, ?_⟩
      rw [h5]; exact hsh A hA h1 h2 h3 h6

theorem mem_two {P : Ins → Prop} {A B : List Ins} (hA : ∀ i ∈ A, P i) (hB : ∀ i ∈ B, P i) : ∀ i ∈ A ++ B, P i := by
  intro i h
  rw [List.mem_append] at h
  rcases h with h | h
  · exact hA i h
  · exact hB i h

theorem of_cons {P : Ins → Prop} {j : Ins} {A : List Ins} (h : ∀ i ∈ j :: A, P i) : P j ∧ ∀ i ∈ A, P i :=
  ⟨h j List.mem_cons_self, fun i hi => h i (List.mem_cons_of_mem _ hi)⟩

/-- The shape after a step of a signal handler. -/
theorem shape_harm {Q Q' : Prop} (hq : Q → Q') {s s' : St} {r : List Ins} {mid : List Nat} (h : Shape Q s r mid)
    (hf : s'.fin = s.fin) (hn : s'.next = s.next) (hfr : s'.fresh = s.fresh) (hreg : registered s'.log = registered s.log)
    {A : List Ins} (hA : ∀ i ∈ A, ok Q' i) : Shape Q s' (A ++ r) mid := by
  have hok : ∀ i ∈ A, ok Q i := by
    intro i hi
    have := hA i hi
    cases i with
    | act a => exact ⟨this.1, fun h => this.2 (hq h)⟩
    | sigret g => exact this
    | _ => exact absurd this id
  cases h with
  | prog h1 =>
    rw [← List.append_assoc]
    exact .prog (mem_two (fun i hi => (hok i hi).plain) h1)
  | link h1 h2 h3 h4 h5 h6 =>
    rw [← List.append_assoc]
    exact .link (mem_two hok h1) h2 h3 (by rw [hfr]; exact h4) (by rw [hn, hf]; exact h5) (by rw [hreg]; exact h6)
  | pop h1 h2 =>
    rw [← List.append_assoc, ← hf]
    exact .pop (mem_two hok h1) (by rw [hf]; exact h2)
  | call h1 =>
    rw [← List.append_assoc]
    exact .call (mem_two hok h1)
  | exit h1 h2 =>
    rw [← List.append_assoc]
    exact .exit (mem_two hok h1) (by rw [hf]; exact h2)

/-- A signal from outside. -/
theorem deliver_inv {Q O : Prop} (hoq : O → Q) {p : Prog} (hp : HdlOk Q p) {s : St} (hd : s.done = none) (inv : Inv Q O s) {sig : Nat}
    (hs : Q → sig ≠ 11) : OInv Q O (deliver p sig s) := by
  obtain ⟨xs, mid, lost, l1, l2, l3, l4, l5⟩ := inv.list
  exact harm_inv hoq (B := []) (harm_deliver hp hd inv.disp hs) rfl inv l1 l2 l3 l4 (Or.inr id)
    (fun A hA h1 h2 h3 h4 => shape_harm id l5 h1 h2 h3 h4 hA)

/-- One step, by the kind of the instruction. -/
def stepI (p : Prog) (s : St) (r : List Ins) : Ins → St
  | .act a => act p a { s with code := r }
  | .link f => { s with code := r, fin := f, log := s.log ++ [.reg f] }
  | .load => if s.fin = 0 then { s with code := r } else { s with code := .pop s.fin :: r }
  | .pop n => { s with code := .call n :: r, fin := s.next s.fin }
  | .call n => { s with code := (p.beh n).map .act ++ .load :: r, log := s.log ++ [.start n] }
  | .exit e => exit e s
  | .sigret sig =>
    let s := { s with code := r, blocked := s.blocked.erase sig }
    if sig ∈ s.pend then deliver p sig { s with pend := s.pend.erase sig } else s

theorem step_code {p : Prog} {s : St} (hd : s.done = none) {i : Ins} {r : List Ins} (hc : s.code = i :: r) : step p s = stepI p s r i := by
  rw [step, if_neg (by rw [hd]; simp), hc]
  cases i <;> rfl

theorem step_inv {Q O : Prop} (hoq : O → Q) {p : Prog} (hp : HdlOk Q p) (hb : O → ∀ n, Act.reg ∉ p.beh n) {s : St} (hd : s.done = none)
    (inv : Inv Q O s) : OInv Q O (step p s) := by
  obtain ⟨xs, mid, lost, l1, l2, l3, l4, l5⟩ := inv.list
  have hpf : HdlOk False p := fun h k a ha => ⟨(hp h k a ha).1, fun h => absurd h id⟩
  generalize hc : s.code = c at l5
  cases l5 with
  | @prog L e h1 =>
    cases L with
    | nil =>
      rw [step_code hd hc]
      dsimp only [stepI]
      by_cases hf : s.fin = 0
      · rw [if_pos hf]
        refine Or.inr (Or.inl ⟨hd, inv.disp, inv.fresh, inv.nodup, inv.range, ?_, xs, [], lost, l1, l2, l3, l4, ?_⟩)
        · intro _ hx; simp at hx
        · exact Shape.exit (A := []) (fun i h => absurd h List.not_mem_nil) hf
      · rw [if_neg hf]
        refine Or.inr (Or.inl ⟨hd, inv.disp, inv.fresh, inv.nodup, inv.range, ?_, xs, [], lost, l1, l2, l3, l4, ?_⟩)
        · intro _ hx; simp at hx
        · exact Shape.pop (s := { s with code := .pop s.fin :: [.exit e] }) (A := []) (fun i h => absurd h List.not_mem_nil) hf
    | cons i L =>
      obtain ⟨hi, hL⟩ := of_cons h1
      by_cases hreg : i = .act .reg
      · subst hreg
        rw [step_code hd hc]
        show OInv Q O { s with code := .link s.fresh :: (L ++ [.load, .exit e]), next := fun x => if x = s.fresh then s.fin else s.next x,
                               fresh := s.fresh + 1 }
        have hfr : ∀ x ∈ registered s.log, x ≠ s.fresh := fun x hx he => by have := (inv.range x hx).2; omega
        refine Or.inr (Or.inl ⟨hd, inv.disp, Nat.succ_pos _, inv.nodup, ?_, ?_, xs, [], lost, ?_, l2, l3, l4, ?_⟩)
        · intro n hn
          have := inv.range n hn
          exact ⟨this.1, Nat.lt_succ_of_lt this.2⟩
        · intro ho _
          exact inv.order ho (Or.inl (by rw [hc]; exact List.mem_cons_self))
        · refine Chain.congr ?_ l1
          intro x hx
          dsimp only
          rw [if_neg]
          refine hfr x (l2.mem_iff.mpr ?_)
          simp only [List.append_nil, List.mem_append]
          exact Or.inl (Or.inl hx)
        · refine Shape.link (A := []) (fun i h => absurd h List.not_mem_nil) hL ?_ (Nat.lt_succ_self _) ?_ ?_
          · have := inv.fresh; omega
          · dsimp only; rw [if_pos rfl]
          · intro hm; exact hfr _ hm rfl
      · have hok : ok False i := by
          cases i with
          | act a => exact ⟨fun h => hreg (by rw [h]), fun h => absurd h id⟩
          | sigret g => exact hi
          | _ => exact absurd hi id
        refine harm_inv hoq (B := [i]) (harm_step hpf hd inv.disp hc hok) hc inv l1 l2 l3 l4 (Or.inl rfl) ?_
        intro A hA h1 h2 h3 h4
        show Shape Q _ (A ++ (L ++ [.load, .exit e])) []
        rw [← List.append_assoc]
        exact .prog (mem_two (fun i hi => (hA i hi).plain) hL)
  | @link A L f e h1 h2 h3 h4 h5 h6 =>
    cases A with
    | nil =>
      rw [step_code hd hc]
      dsimp only [stepI]
      have hr : registered (s.log ++ [.reg f]) = registered s.log ++ [f] := by rw [registered_append]; rfl
      have hst : started (s.log ++ [.reg f]) = started s.log := by rw [started_append]; simp [started]
      refine Or.inr (Or.inl ⟨hd, inv.disp, inv.fresh, ?_, ?_, ?_, f :: xs, [], lost, ?_, ?_, l3, ?_, .prog h2⟩)
      · dsimp only; rw [hr]
        exact List.nodup_append.mpr ⟨inv.nodup, by simp, fun a ha b hb => by
          rw [List.mem_singleton] at hb; subst hb; intro he; subst he; exact h6 ha⟩
      · dsimp only; rw [hr]
        intro n hn
        rw [List.mem_append, List.mem_singleton] at hn
        rcases hn with hn | rfl
        · exact inv.range n hn
        · exact ⟨h3, h4⟩
      · intro ho _
        dsimp only; rw [hst]
        exact inv.order ho (Or.inr ⟨f, by rw [hc]; exact List.mem_cons_self⟩)
      · exact ⟨rfl, h3, by dsimp only; rw [h5]; exact l1⟩
      · dsimp only; rw [hr, hst]
        refine (List.perm_append_comm).trans ?_
        exact List.Perm.cons f l2
      · intro ho
        dsimp only; rw [hr, hst, List.reverse_append, l4 ho, inv.order ho (Or.inr ⟨f, by rw [hc]; exact List.mem_cons_self⟩)]
        rfl
    | cons i A =>
      obtain ⟨hi, hA⟩ := of_cons h1
      refine harm_inv hoq (B := [i]) (harm_step hp hd inv.disp hc hi) hc inv l1 l2 l3 l4 (Or.inl rfl) ?_
      intro A' hA' g1 g2 g3 g4
      exact shape_harm id (.link hA h2 h3 h4 h5 h6) g1 g2 g3 g4 hA'
  | @pop A e h1 h2 =>
    cases A with
    | nil =>
      rw [step_code hd hc]
      dsimp only [stepI]
      cases xs with
      | nil => exact absurd l1 h2
      | cons x xs =>
        obtain ⟨hx, hx0, hch⟩ := l1
        refine Or.inr (Or.inl ⟨hd, inv.disp, inv.fresh, inv.nodup, inv.range, ?_, xs, [s.fin], lost, ?_, ?_, l3, ?_, ?_⟩)
        · intro _ hm; simp at hm
        · dsimp only; rw [hx]; exact hch
        · refine l2.trans ?_
          dsimp only
          rw [hx, List.append_nil]
          refine List.Perm.append_right _ (List.Perm.append_right _ ?_)
          exact (List.perm_append_comm (l₁ := [x]))
        · intro ho
          dsimp only
          rw [l4 ho, hx]; simp
        · exact Shape.call (A := []) (fun i h => absurd h List.not_mem_nil)
    | cons i A =>
      obtain ⟨hi, hA⟩ := of_cons h1
      refine harm_inv hoq (B := [i]) (harm_step hp hd inv.disp hc hi) hc inv l1 l2 l3 l4 (Or.inl rfl) ?_
      intro A' hA' g1 g2 g3 g4
      exact shape_harm id (.pop hA h2) g1 g2 g3 g4 hA'
  | @call A n e h1 =>
    cases A with
    | nil =>
      rw [step_code hd hc]
      dsimp only [stepI]
      have hr : registered (s.log ++ [.start n]) = registered s.log := by rw [registered_append]; simp [registered]
      have hst : started (s.log ++ [.start n]) = started s.log ++ [n] := by rw [started_append]; rfl
      refine Or.inr (Or.inl ⟨hd, inv.disp, inv.fresh, by dsimp only; rw [hr]; exact inv.nodup, by dsimp only; rw [hr]; exact inv.range, ?_,
        xs, [], lost, l1, ?_, l3, ?_, ?_⟩)
      · intro ho hm
        exfalso
        dsimp only at hm
        simp at hm
        exact hb ho n hm
      · dsimp only; rw [hr, hst]
        refine l2.trans ?_
        rw [List.append_nil]
        refine List.Perm.append_right _ ?_
        rw [List.append_assoc]
        exact List.Perm.append_left _ List.perm_append_comm
      · intro ho
        dsimp only; rw [hr, hst, l4 ho]; simp
      · dsimp only
        refine Shape.prog ?_
        intro i hi
        rw [List.mem_map] at hi
        obtain ⟨a, _, rfl⟩ := hi
        trivial
    | cons i A =>
      obtain ⟨hi, hA⟩ := of_cons h1
      refine harm_inv hoq (B := [i]) (harm_step hp hd inv.disp hc hi) hc inv l1 l2 l3 l4 (Or.inr id) ?_
      intro A' hA' g1 g2 g3 g4
      exact shape_harm id (.call hA) g1 g2 g3 g4 hA'
  | @exit A e h1 h2 =>
    cases A with
    | nil =>
      rw [step_code hd hc]
      dsimp only [stepI]
      have hxs : xs = [] := by
        cases xs with
        | nil => rfl
        | cons x xs => exact absurd (l1.1.symm.trans h2) l1.2.1
      subst hxs
      obtain ⟨g1, _, g3⟩ := exit_log e s
      refine Or.inr (Or.inr ⟨g3, by rw [g1]; exact inv.nodup, ⟨lost, by rw [g1]; simpa using l2, l3⟩, fun ho => by rw [g1]; simpa using l4 ho⟩)
    | cons i A =>
      obtain ⟨hi, hA⟩ := of_cons h1
      refine harm_inv hoq (B := [i]) (harm_step hp hd inv.disp hc hi) hc inv l1 l2 l3 l4 (Or.inl rfl) ?_
      intro A' hA' g1 g2 g3 g4
      exact shape_harm id (.exit hA h2) g1 g2 g3 g4 hA'

theorem done_stays (p : Prog) (ev : Ev) {s : St} (h : s.done.isSome = true) : next1 p ev s = s := by
  cases ev with
  | tick => show step p s = s; rw [step, if_pos h]
  | sig g => show (if s.done.isSome = true then s else deliver p g s) = s; rw [if_pos h]

theorem next1_inv {Q O : Prop} (hoq : O → Q) {p : Prog} (hp : HdlOk Q p) (hb : O → ∀ n, Act.reg ∉ p.beh n) {s : St} (ev : Ev)
    (he : Q → ev ≠ .sig 11) (h : OInv Q O s) : OInv Q O (next1 p ev s) := by
  rcases h with ⟨g, hg⟩ | ⟨hd, h⟩ | ⟨hd, h⟩
  · rw [done_stays p ev (by rw [hg]; rfl)]; exact Or.inl ⟨g, hg⟩
  · cases ev with
    | tick => exact step_inv hoq hp hb hd h
    | sig g =>
      show OInv Q O (if s.done.isSome = true then s else deliver p g s)
      rw [if_neg (by rw [hd]; simp)]
      exact deliver_inv hoq hp hd h (fun hq h11 => he hq (by rw [h11]))
  · rw [done_stays p ev hd]; exact Or.inr (Or.inr ⟨hd, h⟩)

theorem run_inv {Q O : Prop} (hoq : O → Q) {p : Prog} (hp : HdlOk Q p) (hb : O → ∀ n, Act.reg ∉ p.beh n) : ∀ (evs : List Ev) {s : St},
    (Q → .sig 11 ∉ evs) → OInv Q O s → OInv Q O (run p evs s)
  | [], _, _, h => h
  | e :: r, _, he, h => run_inv hoq hp hb r (fun hq hm => he hq (List.mem_cons_of_mem _ hm))
      (next1_inv hoq hp hb e (fun hq h11 => he hq (by rw [h11]; exact List.mem_cons_self)) h)

theorem start_inv (Q O : Prop) (main : List Act) : OInv Q O (start main) := by
  refine Or.inr (Or.inl ⟨rfl, ?_, Nat.one_pos, List.nodup_nil, fun n h => absurd h List.not_mem_nil, fun _ _ => rfl, [], [], [], rfl,
    List.Perm.refl _, fun _ => rfl, fun _ => rfl, ?_⟩)
  · intro x
    by_cases h : x = 11
    · simp [start, h]
    · simp [start, h]
  · refine Shape.prog ?_
    intro i hi
    rw [List.mem_map] at hi
    obtain ⟨a, _, rfl⟩ := hi
    trivial

/-! ## Without signals the handlers do not matter -/

theorem ticks_same {p p' : Prog} (hb : p.beh = p'.beh) : ∀ (evs : List Ev) (s : St), (∀ e ∈ evs, e = .tick) → (∀ g, .sigret g ∉ s.code) →
    s.disp 11 = .segv → run p evs s = run p' evs s
  | [], _, _, _, _ => rfl
  | e :: r, s, he, hs, hdisp => by
    have h0 := he e List.mem_cons_self
    subst h0
    have hstep : step p s = step p' s ∧ (∀ g, .sigret g ∉ (step p s).code) ∧ (step p s).disp 11 = .segv := by
      by_cases hd : s.done.isSome = true
      · have := done_stays p .tick hd
        have h' := done_stays p' .tick hd
        simp only [next1] at this h'
        rw [this, h']; exact ⟨rfl, hs, hdisp⟩
      · have hd' : s.done = none := by simpa using hd
        cases hc : s.code with
        | nil =>
          have h1 : ∀ q : Prog, step q s = s := by intro q; rw [step, if_neg hd, hc]
          rw [h1, h1]; exact ⟨rfl, by rw [hc]; simp, hdisp⟩
        | cons i r =>
          have hr : ∀ g, .sigret g ∉ r := fun g hg => hs g (by rw [hc]; exact List.mem_cons_of_mem _ hg)
          rw [step_code hd' hc, step_code hd' hc]
          cases i with
          | act a =>
            dsimp only [stepI]
            cases a with
            | put c =>
              refine ⟨rfl, ?_, ?_⟩
              · show ∀ g, .sigret g ∉ (put c { s with code := r }).code
                unfold put; dsimp only; split <;> split <;> exact hr
              · show (put c { s with code := r }).disp 11 = _
                unfold put; dsimp only; split <;> split <;> exact hdisp
            | flush => exact ⟨rfl, hr, hdisp⟩
            | reg =>
              refine ⟨rfl, ?_, hdisp⟩
              intro g hg
              rcases List.mem_cons.mp hg with hg | hg
              · simp at hg
              · exact hr g hg
            | handler sig h =>
              refine ⟨rfl, ?_, ?_⟩
              · show ∀ g, .sigret g ∉ (setHandler sig h { s with code := r }).code
                unfold setHandler; split <;> exact hr
              · show (setHandler sig h { s with code := r }).disp 11 = _
                unfold setHandler
                split
                · dsimp only; rw [if_neg (by omega)]; exact hdisp
                · exact hdisp
            | halt c => exact ⟨rfl, by intro g; simp [act, stop, ended], hdisp⟩
            | assert c => exact ⟨rfl, by intro g; simp [act, stop, ended], hdisp⟩
            | nil =>
              by_cases hbl : 11 ∈ s.blocked
              · have h1 : ∀ q : Prog, act q .nil { s with code := r } = { s with code := [], done := some (.killed 11) } := by
                  intro q; simp only [act, hbl, if_true]
                rw [h1, h1]; exact ⟨rfl, by intro g; simp, hdisp⟩
              · have h1 : ∀ q : Prog, act q .nil { s with code := r } = stop (.halt (-10)) { s with code := r, blocked := 11 :: s.blocked } := by
                  intro q; simp only [act, hbl, if_false, deliver, hdisp]
                rw [h1, h1]; exact ⟨rfl, by intro g; simp [stop, ended], hdisp⟩
            | fault g => exact ⟨rfl, by intro g; simp [act], hdisp⟩
          | link f => exact ⟨rfl, hr, hdisp⟩
          | load =>
            dsimp only [stepI]
            split
            · exact ⟨rfl, hr, hdisp⟩
            · refine ⟨rfl, ?_, hdisp⟩
              intro g hg
              rcases List.mem_cons.mp hg with hg | hg
              · simp at hg
              · exact hr g hg
          | pop n =>
            refine ⟨rfl, ?_, hdisp⟩
            intro g hg
            rcases List.mem_cons.mp hg with hg | hg
            · simp at hg
            · exact hr g hg
          | call n =>
            refine ⟨by dsimp only [stepI]; rw [hb], ?_, hdisp⟩
            intro g hg
            rcases List.mem_append.mp hg with hg | hg
            · rw [List.mem_map] at hg
              obtain ⟨a, _, ha⟩ := hg
              simp at ha
            · rcases List.mem_cons.mp hg with hg | hg
              · simp at hg
              · exact hr g hg
          | exit e =>
            refine ⟨rfl, ?_, ?_⟩
            · have : (exit e s).code = [] := by
                cases e with
                | none => rfl
                | some e => cases e <;> (unfold exit; dsimp only; split <;> rfl)
              dsimp only [stepI]; rw [this]; intro g; simp
            · have : (exit e s).disp = s.disp := by
                cases e with
                | none => rfl
                | some e => cases e <;> (unfold exit; dsimp only; split <;> rfl)
              dsimp only [stepI]; rw [this]; exact hdisp
          | sigret g => exact absurd (by rw [hc]; exact List.mem_cons_self) (hs g)
    show run p r (step p s) = run p' r (step p' s)
    rw [← hstep.1]
    exact ticks_same hb r _ (fun e h => he e (List.mem_cons_of_mem _ h)) hstep.2.1 hstep.2.2

end Verif.Ending
