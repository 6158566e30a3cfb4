import Verif.Share.Lemmas

/-!
# C88: programs that use files at the same time
-/
namespace Verif.Share

open Verif.Names
open Verif.Names.Spec (Temp Good Live OpenAt)
open Verif.Share.Spec (Disturbs Undisturbed Illegal Safe)

/-- A call that does not disturb a name does not change what is visible under it. -/
theorem vis_same {cwd : Name} {a b : Names.Spec.State} {op : Op} {o : Out} (h : Names.Spec.Step cwd a op b o) {m : Name} (hd : ¬ Disturbs cwd a op m) :
    b.vis m = a.vis m := by
  have hpub : ∀ f c, ¬ ((a.handles f).at_ = some m ∧ a.vis m ≠ some c) → (Names.Spec.publish a f c).vis m = a.vis m := by
    intro f c hc
    unfold Names.Spec.publish
    split
    · rfl
    · next n hn =>
      simp only [Names.Spec.show_]
      by_cases hm : m = n
      · subst hm
        rw [if_pos rfl]
        by_contra h
        exact hc ⟨hn, fun h' => h h'.symm⟩
      · rw [if_neg hm]
  cases h with
  | new n => rfl
  | oldNil n _ => rfl
  | oldOpen n f _ _ => rfl
  | old n c _ _ _ => rfl
  | write f c _ => rfl
  | swap f c _ => exact hpub f c hd
  | close f _ => exact hpub f _ hd
  | register f n _ hp =>
    simp only [Names.Spec.show_, Names.Spec.setHandle, Names.Spec.release]
    rw [if_neg]
    rintro rfl
    exact hd (Or.inl hp)
  | registerNone f _ hp => exact hpub f _ (fun h => hd (Or.inr h))
  | delete n r _ =>
    simp only [Names.Spec.show_, Names.Spec.release]
    rw [if_neg]
    exact hd
  | renameNone n n' r _ _ => rfl
  | rename n n' c _ =>
    simp only [Disturbs, not_or] at hd
    simp only [Names.Spec.show_]
    rw [if_neg hd.2, if_neg hd.1]
  | drop f _ => rfl
  | content f _ => rfl
  | look n => rfl

/-- The names a call is concerned with are no temporary names. -/
theorem concerned_good {s : State} {a : Names.Spec.State} (r : R none s a) {op : Op} (hleg : ¬ Names.Spec.Illegal s.cwd a op) {m : Name}
    (h : Concerned s.cwd a op m) : ¬ Temp m := by
  cases op with
  | register f =>
    have hl : Live a f := by simpa [Names.Spec.Illegal] using hleg
    have hh := r.h f hl
    simp only [Concerned] at h
    rw [hh.pending] at h
    by_cases hr : (s.files f).reg = []
    · rw [if_pos hr] at h; cases h
    · rw [if_neg hr] at h
      cases h
      exact hh.reg hr
  | delete n =>
    have hg : Good s.cwd n := by simpa [Names.Spec.Illegal] using hleg
    simp only [Concerned] at h
    rw [h]; exact hg.2
  | rename n n' =>
    simp only [Names.Spec.Illegal, not_or, not_not] at hleg
    rcases h with h | h
    · rw [h]; exact hleg.1.2
    · rw [h]; exact hleg.2.1.2
  | _ => exact absurd h (by simp [Concerned])

theorem concerned_disturbs {cwd : Name} {a : Names.Spec.State} {op : Op} {m : Name} (h : Concerned cwd a op m) : Disturbs cwd a op m := by
  cases op with
  | register f => exact Or.inl h
  | delete n => exact h
  | rename n n' => exact h
  | _ => exact absurd h (by simp [Concerned])

/-- The relation for one process, when the disk was changed by another one. -/
theorem other {s : State} {a : Names.Spec.State} (r : R none s a) (d : Name → Option Nat) (t : Nat → List Nat) (n : Nat) (v : Name → Option (List Nat))
    (hv : ∀ m, ¬ Temp m → v m = (d m).map t) (hinj : ∀ m m' i, d m = some i → d m' = some i → m = m') (hlt : ∀ m i, d m = some i → i < n)
    (hd : ∀ f, Live a f → (s.files f).fd ≠ none → d (full s.cwd (s.files f).work) = s.dir (full s.cwd (s.files f).work)) :
    R none { s with dir := d, data := t, next := n } { a with vis := v } where
  cwd := r.cwd
  tn := r.tn
  n := r.n
  vis := hv
  inj := hinj
  lt := hlt
  list := r.list
  mem := r.mem
  h := fun f hl => (r.h f hl).frame rfl rfl rfl (by exact le_refl _) (hd f hl)
  fdinj := r.fdinj

/-- The processes and the specification. -/
structure Inv (y : Sys) (a : Spec.Sys) (t : Int) : Prop where
  vis : ∀ m, ¬ Temp m → a.vis m = (y.dir m).map y.data
  inj : ∀ m m' i, y.dir m = some i → y.dir m' = some i → m = m'
  lt : ∀ m i, y.dir m = some i → i < y.next
  dom : ∀ p, y.procs p = none ↔ a.procs p = none
  rel : ∀ p P A, y.procs p = some P → a.procs p = some A → P.cwd = A.cwd ∧ P.pid = A.pid ∧ P.tempno ≤ t ∧ R none (view y P) (Spec.view a A)
  pids : ∀ p q P Q, p ≠ q → y.procs p = some P → y.procs q = some Q → stored P.pid ≠ stored Q.pid

theorem Inv.partner {y : Sys} {a : Spec.Sys} {t : Int} (v : Inv y a t) {p : Nat} {A : Spec.Proc} (h : a.procs p = some A) : ∃ P, y.procs p = some P := by
  cases hp : y.procs p with
  | none => rw [(v.dom p).1 hp] at h; cases h
  | some P => exact ⟨P, rfl⟩

theorem Inv.partner' {y : Sys} {a : Spec.Sys} {t : Int} (v : Inv y a t) {p : Nat} {P : Proc} (h : y.procs p = some P) : ∃ A, a.procs p = some A := by
  cases hp : a.procs p with
  | none => rw [(v.dom p).2 hp] at h; cases h
  | some A => exact ⟨A, rfl⟩

/-- A call of a process: the files of the other processes. -/
theorem call_other {y : Sys} {a : Spec.Sys} {t : Int} (v : Inv y a t) (hn : y.next ≤ 2 ^ 32) {p q : Nat} (hpq : q ≠ p) {P Q : Proc} {A B : Spec.Proc}
    (hP : y.procs p = some P) (hA : a.procs p = some A) (hQ : y.procs q = some Q) (hB : a.procs q = some B) {op : Op}
    (hleg : ¬ Names.Spec.Illegal A.cwd (Spec.view a A) op) (hdis : ∀ m f, Disturbs A.cwd (Spec.view a A) op m → ¬ OpenAt (Spec.view a B) m f)
    {s' : State} {o : Out} {b : Names.Spec.State}
    (e1 : Names.step (view y P) op = some (s', o)) (e2 : Names.Spec.Step A.cwd (Spec.view a A) op b o) (e3 : R none s' b)
    {f i : Nat} (hl : Live (Spec.view a B) f) (hfd : (Q.files f).fd = some i) :
    s'.dir (full Q.cwd (Q.files f).work) = some i ∧ s'.data i = y.data i := by
  obtain ⟨c1, c2, _, rP⟩ := v.rel p P A hP hA
  obtain ⟨c3, c4, _, rQ⟩ := v.rel q Q B hQ hB
  have hleg' : ¬ Names.Spec.Illegal (view y P).cwd (Spec.view a A) op := by
    show ¬ Names.Spec.Illegal P.cwd _ op
    rw [c1]; exact hleg
  have lv := step_leaves rP hn hleg' e1
  have hh := rQ.h f hl
  have hdW : y.dir (full Q.cwd (Q.files f).work) = some i := (hh.fd i hfd).2
  have hne : ((view y Q).files f).fd ≠ none := by
    show (Q.files f).fd ≠ none
    rw [hfd]; simp
  cases ht : (Q.files f).temp with
  | false =>
    obtain ⟨n1, n2, _, _⟩ := hh.named hne ht
    have hop : OpenAt (Spec.view a B) (full Q.cwd (Q.files f).work) f := ⟨hl, n1⟩
    have hnd : ¬ Disturbs A.cwd (Spec.view a A) op (full Q.cwd (Q.files f).work) := fun h => hdis _ f h hop
    have hd' : s'.dir (full Q.cwd (Q.files f).work) = some i := by
      rw [lv.rest _ ?_ ?_]
      · exact hdW
      · intro h
        have := concerned_disturbs h
        rw [show (view y P).cwd = A.cwd from c1] at this
        exact hnd this
      · intro h; exact n2 h.temp
    refine ⟨hd', ?_⟩
    have h1 : b.vis (full Q.cwd (Q.files f).work) = (s'.dir (full Q.cwd (Q.files f).work)).map s'.data := e3.vis _ n2
    have h2 : a.vis (full Q.cwd (Q.files f).work) = (y.dir (full Q.cwd (Q.files f).work)).map y.data := v.vis _ n2
    have h3 := vis_same e2 hnd
    rw [show (Spec.view a A).vis = a.vis from rfl] at h3
    rw [hd', Option.map_some, h3, h2, hdW, Option.map_some] at h1
    exact (Option.some.inj h1).symm
  | true =>
    obtain ⟨_, k, _, hk⟩ := hh.tmp hne ht
    have hown : Own (stored Q.pid) (full Q.cwd (Q.files f).work) := ⟨k, hk⟩
    have hnown : ¬ Own (stored P.pid) (full Q.cwd (Q.files f).work) := fun h => v.pids p q P Q (Ne.symm hpq) hP hQ (h.pid hown)
    refine ⟨?_, ?_⟩
    · rw [lv.rest _ ?_ hnown]
      · exact hdW
      · intro h; exact concerned_good rP hleg' h hown.temp
    · refine lv.data i (v.lt _ _ hdW) ?_
      intro g hg hgi
      have hgh := rP.h g hg
      have hdg : y.dir (full P.cwd (P.files g).work) = some i := (hgh.fd i hgi).2
      have hw := v.inj _ _ i hdg hdW
      have hgne : ((view y P).files g).fd ≠ none := by rw [hgi]; simp
      cases hgt : (P.files g).temp with
      | true =>
        obtain ⟨_, k', _, hk'⟩ := hgh.tmp hgne hgt
        have : Own (stored P.pid) (full P.cwd (P.files g).work) := ⟨k', hk'⟩
        rw [hw] at this
        exact hnown this
      | false =>
        have := (hgh.named hgne hgt).2.1
        rw [show full (view y P).cwd ((view y P).files g).work = full P.cwd (P.files g).work from rfl, hw] at this
        exact this hown.temp

theorem start_R (y : Sys) (a : Spec.Sys) (t : Int) (v : Inv y a t) (cwd : Name) (pid : Nat) (hc : CwdOk cwd) :
    R none (view y (fresh cwd pid)) (Spec.view a ⟨cwd, pid, 0, fun _ => ⟨[], none, none, false⟩⟩) := by
  have hno : ∀ f, ¬ Live (Spec.view a ⟨cwd, pid, 0, fun _ => ⟨[], none, none, false⟩⟩) f := by
    intro f h; exact absurd h.1 (Nat.not_lt_zero _)
  refine ⟨hc, by simp [view, fresh], rfl, v.vis, v.inj, v.lt, ?_, fun f h => absurd h (hno f), fun f h => absurd h (hno f), fun f _ _ h => absurd h (hno f)⟩
  intro f hf
  simp [view, fresh] at hf

/-- One event. -/
theorem event_ok {y : Sys} {a : Spec.Sys} {t : Int} (v : Inv y a t) (hn : y.next < 2 ^ 32) (ht : t < 32767) (ht1 : -1 ≤ t) (e : Event) (hleg : ¬ Illegal stored a e) :
    ∃ y' o a', step y e = some (y', o) ∧ Spec.Step a e a' o ∧ Inv y' a' (t + 1) ∧ y'.next ≤ y.next + 1 ∧ Undisturbed y y' a e := by
  cases e with
  | start p pid cwd =>
    unfold Illegal at hleg
    have l2 : CwdOk cwd := by
      by_contra h; exact hleg (Or.inr (Or.inl h))
    have l3 : ∀ q Q, a.procs q = some Q → stored Q.pid ≠ stored pid := fun q Q h1 h2 => hleg (Or.inr (Or.inr ⟨q, Q, h1, h2⟩))
    refine ⟨_, _, _, rfl, Spec.Step.start p pid cwd, ⟨v.vis, v.inj, v.lt, ?_, ?_, ?_⟩, Nat.le_succ _, ?_⟩
    · intro q
      by_cases hq : q = p
      · subst hq; simp only [upd_same]; simp
      · simp only [upd_ne _ _ hq]; exact v.dom q
    · intro q Q B hQ hB
      by_cases hq : q = p
      · subst hq
        simp only [upd_same, Option.some.injEq] at hQ hB
        subst hQ; subst hB
        refine ⟨rfl, rfl, ?_, start_R y a t v cwd pid l2⟩
        simp only [fresh]; omega
      · simp only [upd_ne _ _ hq] at hQ hB
        obtain ⟨c1, c2, c3, c4⟩ := v.rel q Q B hQ hB
        exact ⟨c1, c2, by omega, c4⟩
    · intro q q' Q Q' hqq hQ hQ'
      have key : ∀ r S, r ≠ p → y.procs r = some S → stored S.pid ≠ stored pid := by
        intro r S _ hS
        obtain ⟨B, hB⟩ := v.partner' hS
        rw [(v.rel r S B hS hB).2.1]
        exact l3 r B hB
      by_cases hq : q = p
      · subst hq
        simp only [upd_same, upd_ne _ _ (Ne.symm hqq), Option.some.injEq] at hQ hQ'
        subst hQ
        exact fun h => key q' Q' (Ne.symm hqq) hQ' h.symm
      · by_cases hq' : q' = p
        · subst hq'
          simp only [upd_same, upd_ne _ _ hqq, Option.some.injEq] at hQ hQ'
          subst hQ'
          exact key q Q hqq hQ
        · simp only [upd_ne _ _ hq, upd_ne _ _ hq'] at hQ hQ'
          exact v.pids q q' Q Q' hqq hQ hQ'
    · intro q Q B f i hq hQ hB hl hfd
      have hq : q ≠ p := hq
      refine ⟨by simp only []; rw [upd_ne _ _ hq]; exact hQ, ?_, rfl⟩
      exact (((v.rel q Q B hQ hB).2.2.2.h f hl).fd i hfd).2
  | kill p =>
    refine ⟨_, _, _, rfl, Spec.Step.kill p, ⟨v.vis, v.inj, v.lt, ?_, ?_, ?_⟩, Nat.le_succ _, ?_⟩
    · intro q
      by_cases hq : q = p
      · subst hq; simp only [upd_same]
      · simp only [upd_ne _ _ hq]; exact v.dom q
    · intro q Q B hQ hB
      by_cases hq : q = p
      · subst hq; simp only [upd_same] at hQ; cases hQ
      · simp only [upd_ne _ _ hq] at hQ hB
        obtain ⟨c1, c2, c3, c4⟩ := v.rel q Q B hQ hB
        exact ⟨c1, c2, by omega, c4⟩
    · intro q q' Q Q' hqq hQ hQ'
      by_cases hq : q = p
      · subst hq; simp only [upd_same] at hQ; cases hQ
      · by_cases hq' : q' = p
        · subst hq'; simp only [upd_same] at hQ'; cases hQ'
        · simp only [upd_ne _ _ hq, upd_ne _ _ hq'] at hQ hQ'
          exact v.pids q q' Q Q' hqq hQ hQ'
    · intro q Q B f i hq hQ hB hl hfd
      have hq : q ≠ p := hq
      refine ⟨by simp only []; rw [upd_ne _ _ hq]; exact hQ, ?_, rfl⟩
      exact (((v.rel q Q B hQ hB).2.2.2.h f hl).fd i hfd).2
  | call p op =>
    simp only [Illegal, not_forall, not_or, not_exists, not_and] at hleg
    obtain ⟨A, hA, hleg1, hleg2⟩ := hleg
    obtain ⟨P, hP⟩ := v.partner hA
    obtain ⟨c1, c2, c3, rP⟩ := v.rel p P A hP hA
    obtain ⟨s', o, b, e1, e2, e3, e4, e5, e6⟩ := step_ok rP (by exact hn) (by show P.tempno < 32767; omega) op
      (by show ¬ Names.Spec.Illegal P.cwd _ op; rw [c1]; exact hleg1)
    have lv := step_leaves rP (Nat.le_of_lt hn) (by show ¬ Names.Spec.Illegal P.cwd _ op; rw [c1]; exact hleg1) e1
    have e2' : Names.Spec.Step A.cwd (Spec.view a A) op b o := by
      have : (view y P).cwd = A.cwd := c1
      rw [this] at e2; exact e2
    have oth : ∀ q Q B f i, q ≠ p → y.procs q = some Q → a.procs q = some B → Live (Spec.view a B) f → (Q.files f).fd = some i →
        s'.dir (full Q.cwd (Q.files f).work) = some i ∧ s'.data i = y.data i := by
      intro q Q B f i hq hQ hB hl hfd
      exact call_other v (Nat.le_of_lt hn) hq hP hA hQ hB hleg1 (fun m g h1 h2 => hleg2 q B m g hq hB h1 h2) e1 e2' e3 hl hfd
    refine ⟨put y p P s', o, _, by simp only [step, hP, e1, Option.map_some], Spec.Step.call p op A b o hA e2', ⟨e3.vis, e3.inj, e3.lt, ?_, ?_, ?_⟩, e6, ?_⟩
    · intro q
      by_cases hq : q = p
      · subst hq; simp only [put, upd_same]; simp
      · simp only [put, upd_ne _ _ hq]; exact v.dom q
    · intro q Q B hQ hB
      by_cases hq : q = p
      · subst hq
        simp only [put, upd_same, Option.some.injEq] at hQ hB
        subst hQ; subst hB
        refine ⟨c1, c2, ?_, ?_⟩
        · have : (view y P).tempno = P.tempno := rfl
          simp only []
          omega
        · have hv : view (put y q P s') { P with tempno := s'.tempno, nfiles := s'.nfiles, files := s'.files, list := s'.list } = s' := by
            have h1 : s'.cwd = P.cwd := e4
            have h2 : s'.pid = stored P.pid := lv.pid
            unfold view put
            simp only []
            rw [← h1, ← h2]
          rw [hv]
          exact e3
      · simp only [put, upd_ne _ _ hq] at hQ hB
        obtain ⟨k1, k2, k3, k4⟩ := v.rel q Q B hQ hB
        refine ⟨k1, k2, by omega, ?_⟩
        refine other k4 s'.dir s'.data s'.next b.vis e3.vis e3.inj e3.lt ?_
        intro f hl hfd
        obtain ⟨i, hi⟩ := Option.ne_none_iff_exists'.1 hfd
        have h1 := (oth q Q B f i hq hQ hB hl hi).1
        have h2 := ((k4.h f hl).fd i hi).2
        rw [h2]; exact h1
    · intro q q' Q Q' hqq hQ hQ'
      have key : ∀ r S, (put y p P s').procs r = some S → ∃ S', y.procs r = some S' ∧ S'.pid = S.pid := by
        intro r S hS
        by_cases hr : r = p
        · subst hr
          simp only [put, upd_same, Option.some.injEq] at hS
          subst hS
          exact ⟨P, hP, rfl⟩
        · simp only [put, upd_ne _ _ hr] at hS
          exact ⟨S, hS, rfl⟩
      obtain ⟨S, h1, h2⟩ := key q Q hQ
      obtain ⟨S', h3, h4⟩ := key q' Q' hQ'
      rw [← h2, ← h4]
      exact v.pids q q' S S' hqq h1 h3
    · intro q Q B f i hq hQ hB hl hfd
      have hq : q ≠ p := hq
      refine ⟨by simp only [put]; rw [upd_ne _ _ hq]; exact hQ, oth q Q B f i hq hQ hB hl hfd⟩

theorem run_all : ∀ (es : List Event) (y : Sys) (a : Spec.Sys) (t : Int), Inv y a t → -1 ≤ t → y.next + es.length ≤ 2 ^ 32 → t + es.length ≤ 32767 →
    Spec.Run stored a es (run y es).1 (run y es).2 ∧ Safe stored y a es
  | [], y, a, _, _, _, _, _ => ⟨Spec.Run.nil a, Safe.nil y a⟩
  | e :: es, y, a, t, v, h0, h1, h2 => by
    simp only [List.length_cons] at h1 h2
    by_cases hill : Illegal stored a e
    · exact ⟨Spec.Run.illegal _ _ _ _ _ hill, Safe.illegal _ _ _ _ hill⟩
    · obtain ⟨y', o, a', e1, e2, e3, e4, e5⟩ := event_ok v (by omega) (by omega) h0 e hill
      have := run_all es y' a' (t + 1) e3 (by omega) (by omega) (by omega)
      refine ⟨?_, Safe.step _ _ _ _ _ _ _ e1 e2 e5 this.2⟩
      simp only [run, e1]
      exact Spec.Run.step _ _ _ _ _ _ _ e2 this.1

theorem init_inv (dir : Name → Option Nat) (data : Nat → List Nat) (next : Nat)
    (hinj : ∀ m m' i, dir m = some i → dir m' = some i → m = m') (hlt : ∀ m i, dir m = some i → i < next) :
    Inv (init dir data next) (Spec.init dir data) (-1) :=
  ⟨fun _ _ => rfl, hinj, hlt, fun _ => by simp [init, Spec.init], fun p P A h => by simp [init] at h, fun p q P Q _ h => by simp [init] at h⟩

/-- **C88**, for processes whose numbers differ in what `Platform.PID` keeps of them, and for fewer than 32768 events.  The disk is any one on which different names stand
for different files.  Processes begin, call procedures of Files, and are stopped (even in the middle of writing a file), in any order.  What each of them sees is what the
specification says: files being written by one process are not seen by the others before they are registered, and a file registered by a process has the bytes
this process wrote, whatever the other ones do at the same time under other names.

What is missing: processes whose numbers are different, but not what is kept of them (see `C88_mixed`: then it is false). -/
theorem C88_processes_partial (dir : Name → Option Nat) (data : Nat → List Nat) (next : Nat)
    (hinj : ∀ m m' i, dir m = some i → dir m' = some i → m = m') (hlt : ∀ m i, dir m = some i → i < next) (es : List Event)
    (h1 : es.length ≤ 32767) (h2 : next + es.length ≤ 2 ^ 32) :
    Spec.Run stored (Spec.init dir data) es (run (init dir data next) es).1 (run (init dir data next) es).2 :=
  (run_all es _ _ (-1) (init_inv dir data next hinj hlt) (le_refl _) h2 (by omega)).1

/-- **C88**, the disk: no call of one process changes the bytes on the disk of a file another process has open, or the name the other process finds it under.  What is missing
is the same as in `C88_processes_partial`. -/
theorem C88_undisturbed_partial (dir : Name → Option Nat) (data : Nat → List Nat) (next : Nat)
    (hinj : ∀ m m' i, dir m = some i → dir m' = some i → m = m') (hlt : ∀ m i, dir m = some i → i < next) (es : List Event)
    (h1 : es.length ≤ 32767) (h2 : next + es.length ≤ 2 ^ 32) :
    Safe stored (init dir data next) (Spec.init dir data) es :=
  (run_all es _ _ (-1) (init_inv dir data next hinj hlt) (le_refl _) h2 (by omega)).2

/-! ## A concrete case -/

/-- Two processes in the directory `/d` write the files `a` and `b` at the same time; both need temporary files. -/
def both (pid pid' : Nat) : List Event :=
  [.start 1 pid [47, 100], .start 2 pid' [47, 100], .call 1 (.new [97]), .call 2 (.new [98]), .call 1 (.write 0 [3]), .call 1 (.swap 0 [3]),
    .call 2 (.write 0 [4]), .call 2 (.swap 0 [4]), .call 1 (.register 0), .call 2 (.look [97]), .call 1 (.look [98])]

/-- With the numbers 1000 and 1001 the file `a` has the bytes of the first process. -/
example : run (init (fun _ => none) (fun _ => []) 0) (both 1000 1001) =
    ([.none, .none, .file (some 0), .file (some 0), .none, .none, .none, .none, .none, .seen (some [3]), .seen none], false) := by
  decide +kernel

/-- All hypotheses hold in this case, and the two numbers differ in what is kept. -/
example : (∀ m m' i, (fun _ => none : Name → Option Nat) m = some i → (fun _ => none : Name → Option Nat) m' = some i → m = m') ∧
    (both 1000 1001).length ≤ 32767 ∧ stored 1000 ≠ stored 1001 := by
  exact ⟨(fun _ _ _ h => by cases h), by decide, by decide⟩

/-- A process is stopped while it writes `a`: its temporary file stays, nothing is visible under `a`, and a process that gets the same number can write `a`. -/
example : run (init (fun _ => none) (fun _ => []) 0)
    [.start 1 1000 [47, 100], .call 1 (.new [97]), .call 1 (.write 0 [3]), .call 1 (.swap 0 [3]), .kill 1, .start 1 1000 [47, 100], .call 1 (.look [97]),
      .call 1 (.new [97]), .call 1 (.write 0 [4]), .call 1 (.swap 0 [4]), .call 1 (.register 0), .call 1 (.look [97])] =
    ([.none, .file (some 0), .none, .none, .none, .none, .seen none, .file (some 0), .none, .none, .none, .seen (some [4])], false) := by
  decide +kernel

/-! ## What is not as a user expects -/

/-- Processes with the numbers 40000 and 50000 (`Platform.PID` is negative for both, and is not written to the names of temporary files) use the same name for their
temporary files: the file `a` gets the bytes of the other process, and the other process is stopped when it registers its file. -/
theorem C88_mixed : (40000 : Nat) ≠ 50000 ∧
    run (init (fun _ => none) (fun _ => []) 0) (both 40000 50000 ++ [.call 2 (.register 0)]) =
    ([.none, .none, .file (some 0), .file (some 0), .none, .none, .none, .none, .none, .seen (some [4]), .seen none], true) := by
  refine ⟨by decide, by decide +kernel⟩

end Verif.Share
