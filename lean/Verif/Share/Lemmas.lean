import Verif.Common
import Verif.Share.Spec
import Verif.Names.Props

/-!
# What a call of one process leaves as it is
-/
namespace Verif.Share

open Verif.Names
open Verif.Names.Spec (Temp Good Live OpenAt)
open Verif.Share.Spec (Disturbs)

/-- A name of a temporary file of the process with the number `pid`. -/
def Own (pid : Nat) (m : Name) : Prop := ∃ k, TempName pid k m

theorem Own.temp {pid : Nat} {m : Name} (h : Own pid m) : Temp m := h.choose_spec.temp

/-- The names of two processes with different numbers are different. -/
theorem Own.pid {p q : Nat} {m : Name} (h : Own p m) (h' : Own q m) : p = q := by
  obtain ⟨k, d, hd⟩ := h
  obtain ⟨k', d', hd'⟩ := h'
  rw [hd] at hd'
  rw [List.append_assoc (d ++ [47]), List.append_assoc (d' ++ [47])] at hd'
  have hns : ∀ r j, 47 ∉ [46, 116, 109, 112, 46] ++ (digits (j + 1) j ++ [46] ++ digits (r + 1) r) := by
    intro r j hh
    rcases List.mem_append.1 hh with hh | hh
    · simp at hh
    · exact no_slash r j hh
  have e := split_last (hns p k) (hns q k') hd'
  have e2 := List.append_cancel_left e
  have hd1 : ∀ j, 46 ∉ digits (j + 1) j := by
    intro j hh
    have := digits_mem _ _ _ hh; omega
  have e3 := split_last (hd1 p) (hd1 q) e2
  exact digits_inj _ _ _ _ (by omega) (by omega) e3

theorem getTemp_own {s : State} {n : Name} (hc : CwdOk s.cwd) :
    ∃ w k, getTempName s n = ({ s with tempno := k }, w) ∧ full s.cwd w = w ∧ Own s.pid w := by
  unfold getTempName
  have hname : (if n.head? = some 47 then n else makeFileName s.cwd n) = full s.cwd n := by
    unfold full
    rw [makeFileName_ok hc]
  rw [hname]
  obtain ⟨m, hm⟩ : ∃ m, m = full s.cwd n := ⟨_, rfl⟩
  have hh := full_head (n := n) hc
  rw [← hm] at hh ⊢
  have h0 : m[0]? = some 47 := by rw [← List.head?_eq_getElem?]; exact hh
  have hlen : 0 < m.length := by
    cases m with
    | nil => simp at hh
    | cons a t => simp
  obtain ⟨l1, l2⟩ := lastSlash_ok h0 (m.length - 1) (by omega)
  obtain ⟨i, hi'⟩ : ∃ i, i = lastSlash m (m.length - 1) := ⟨_, rfl⟩
  dsimp only
  rw [← hi'] at l1 l2 ⊢
  have ht : m.take (i + 1) = m.take i ++ [47] := by rw [List.take_add_one, l1]; rfl
  refine ⟨_, _, rfl, ?_, (inc16 s.tempno).toNat, m.take i, ?_⟩
  · unfold full
    rw [if_pos]
    rw [ht]
    cases i with
    | zero => simp
    | succ j =>
      cases m with
      | nil => simp at hh
      | cons a t => simpa using hh
  · rw [ht]; simp only [List.append_assoc]

/-- What the process knows about its files is true of the disk. -/
structure Known (s : State) : Prop where
  cwd : CwdOk s.cwd
  inj : ∀ m m' i, s.dir m = some i → s.dir m' = some i → m = m'
  lt : ∀ m i, s.dir m = some i → i < 2 ^ 32
  fd : ∀ f, f ∈ s.list → ∀ i, (s.files f).fd = some i → s.dir (full s.cwd (s.files f).work) = some i

theorem known {x : Option Nat} {s : State} {a : Names.Spec.State} (r : R x s a) (hn : s.next ≤ 2 ^ 32) : Known s :=
  ⟨r.cwd, r.inj, fun m i h => by have := r.lt m i h; omega, fun f hf i hi => ((r.h f (r.list f hf).1).fd i hi).2⟩

/-- The names that are not concerned are as before. -/
def Rest (P : Name → Prop) (s s' : State) : Prop := ∀ m, ¬ P m → ¬ Own s.pid m → s'.dir m = s.dir m

theorem dereg_rest {s s' : State} (k : Known s) {n : Name} (e : deregister s n = some s') :
    s'.pid = s.pid ∧ s'.cwd = s.cwd ∧ s'.data = s.data ∧ s'.next = s.next ∧ Rest (· = full s.cwd n) s s' ∧
      ∀ g, s'.files g = s.files g ∨ ((s.files g).temp = false ∧ (s.files g).fd ≠ none) := by
  unfold deregister at e
  cases hd : s.dir (full s.cwd n) with
  | none =>
    rw [hd] at e
    cases e
    exact ⟨rfl, rfl, rfl, rfl, fun _ _ _ => rfl, fun _ => Or.inl rfl⟩
  | some i =>
    rw [hd] at e
    dsimp only at e
    cases hf : find s i with
    | none =>
      rw [hf] at e
      cases e
      exact ⟨rfl, rfl, rfl, rfl, fun _ _ _ => rfl, fun _ => Or.inl rfl⟩
    | some f =>
      rw [hf] at e
      dsimp only at e
      by_cases hc : (s.files f).temp = true ∨ (s.files f).fd = none
      · rw [if_pos hc] at e; cases e
      · rw [if_neg hc] at e
        have hc1 : (s.files f).temp = false := by
          cases h : (s.files f).temp
          · rfl
          · exact absurd (Or.inl h) hc
        have hc2 : (s.files f).fd ≠ none := fun h => hc (Or.inr h)
        obtain ⟨w, t, hw1, hw2, hw3⟩ := getTemp_own (s := s) (n := (s.files f).work) k.cwd
        rw [hw1] at e
        dsimp only at e
        have hwork : full s.cwd (s.files f).work = full s.cwd n := by
          have hm := List.mem_of_find?_eq_some hf
          have hp := List.find?_some hf
          obtain ⟨j, hj⟩ := Option.ne_none_iff_exists'.1 hc2
          have hdj := k.fd f hm j hj
          rw [hj] at hp
          simp only [Option.map_some, beq_iff_eq, Option.some.injEq, ident] at hp
          rw [Nat.mod_eq_of_lt (k.lt _ _ hdj), Nat.mod_eq_of_lt (k.lt _ _ hd)] at hp
          subst hp
          exact k.inj _ _ _ hdj hd
        unfold osRename at e
        dsimp only at e
        rw [hwork, hd, Option.map_some, hw2] at e
        have hfiles : ∀ g, upd s.files f { s.files f with work := w, reg := (s.files f).work, temp := true, st := .opn } g = s.files g ∨
            ((s.files g).temp = false ∧ (s.files g).fd ≠ none) := by
          intro g
          by_cases hg : g = f
          · subst hg; exact Or.inr ⟨hc1, hc2⟩
          · rw [upd_ne _ _ hg]; exact Or.inl rfl
        by_cases hi : s.dir w = some i
        · rw [if_pos hi] at e
          cases e
          exact ⟨rfl, rfl, rfl, rfl, fun _ _ _ => rfl, hfiles⟩
        · rw [if_neg hi] at e
          cases e
          refine ⟨rfl, rfl, rfl, rfl, ?_, hfiles⟩
          intro m h1 h2
          dsimp only
          rw [upd_ne, upd_ne]
          · exact h1
          · rintro rfl; exact h2 hw3

/-- The names a call is concerned with, beside the temporary ones. -/
def Concerned (cwd : Name) (a : Names.Spec.State) : Op → Name → Prop
  | .register f, m => (a.handles f).pending = some m
  | .delete n, m => m = full cwd n
  | .rename n n', m => m = full cwd n ∨ m = full cwd n'
  | _, _ => False

/-- What a call leaves as it is. -/
structure Leaves (P : Name → Prop) (s : State) (a : Names.Spec.State) (s' : State) : Prop where
  pid : s'.pid = s.pid
  cwd : s'.cwd = s.cwd
  rest : Rest P s s'
  data : ∀ i, i < s.next → (∀ f, Live a f → (s.files f).fd ≠ some i) → s'.data i = s.data i

theorem Leaves.refl (P : Name → Prop) (s : State) (a : Names.Spec.State) : Leaves P s a s := ⟨rfl, rfl, fun _ _ _ => rfl, fun _ _ _ => rfl⟩

theorem store_leaves {P : Name → Prop} {s s' : State} {a : Names.Spec.State} (r : R none s a) {f : Nat} (hl : Live a f) {c : List Nat}
    (e : store s f c = some s') : Leaves P s a s' := by
  unfold store at e
  cases hfd : (s.files f).fd with
  | some i =>
    have : create s f = some s := by unfold create; rw [if_neg (by rw [hfd]; simp)]
    rw [this, Option.bind_some, hfd, Option.map_some] at e
    cases e
    refine ⟨rfl, rfl, fun _ _ _ => rfl, fun j _ h => ?_⟩
    dsimp only
    rw [upd_ne]
    rintro rfl
    exact h f hl hfd
  | none =>
    have hst : (s.files f).st = .create := by
      rcases ((r.h f hl).nofd hfd).1 with h | h
      · exact h
      · cases h
    obtain ⟨w, t, hw1, hw2, hw3⟩ := getTemp_own (s := s) (n := (s.files f).reg) r.cwd
    unfold create at e
    rw [if_pos hfd, if_pos hst, hw1] at e
    simp only [Option.map_some, Option.bind_some, upd_same] at e
    cases e
    refine ⟨rfl, rfl, fun m _ h2 => ?_, fun j hj _ => ?_⟩
    · dsimp only
      rw [upd_ne]
      rw [hw2]
      rintro rfl; exact h2 hw3
    · dsimp only
      rw [upd_ne _ _ (by omega), upd_ne _ _ (by omega)]

theorem register_leaves {s s' : State} {a : Names.Spec.State} (r : R none s a) (hn : s.next ≤ 2 ^ 32) {f : Nat} (hl : Live a f)
    (e : register s f = some s') : Leaves (fun m => (a.handles f).pending = some m) s a s' := by
  have h := r.h f hl
  have k := known r hn
  unfold register at e
  cases hfd : (s.files f).fd with
  | none =>
    have hst : (s.files f).st = .create := by
      rcases (h.nofd hfd).1 with h | h
      · exact h
      · cases h
    by_cases hreg : (s.files f).reg = []
    · rw [if_neg (by rw [hreg]; simp)] at e
      have hc : close s f = some s := by
        unfold close; rw [if_neg]; rw [hst, hreg]; simp
      simp only [hc, Option.bind_some] at e
      rw [if_neg (by rw [hreg]; simp)] at e
      cases e
      exact Leaves.refl _ _ _
    · rw [if_pos ⟨hst, hreg⟩] at e
      have hpend := h.pending
      rw [if_neg hreg] at hpend
      obtain ⟨s1, hs1⟩ : ∃ s1 : State, s1 = { s with files := upd s.files f { s.files f with st := .close } } := ⟨_, rfl⟩
      simp only [] at e
      rw [← hs1] at e
      have hf1 : s1.files f = { s.files f with st := .close } := by rw [hs1]; simp only [upd_same]
      have k1 : Known s1 := by
        refine ⟨by rw [hs1]; exact k.cwd, by rw [hs1]; exact k.inj, by rw [hs1]; exact k.lt, ?_⟩
        intro g hg i hi
        by_cases hgf : g = f
        · subst hgf; rw [hf1] at hi; simp only [] at hi; rw [hfd] at hi; cases hi
        · have e1 : s1.files g = s.files g := by rw [hs1]; simp only []; rw [upd_ne _ _ hgf]
          rw [e1] at hi ⊢
          rw [hs1] at hg ⊢
          exact k.fd g hg i hi
      unfold close store create at e
      rw [if_pos (by rw [hf1]; simp), if_pos (by rw [hf1]; exact hfd), if_neg (by rw [hf1]; simp), if_pos (by rw [hf1])] at e
      rw [hf1] at e
      simp only [] at e
      cases hdr : deregister s1 (s.files f).reg with
      | none => rw [hdr] at e; cases e
      | some s2 =>
        obtain ⟨d1, d2, d3, d4, d5, d6⟩ := dereg_rest k1 hdr
        have hf2 : s2.files f = { s.files f with st := .close } := by
          rcases d6 f with h6 | h6
          · rw [h6, hf1]
          · rw [hf1] at h6; exact absurd hfd h6.2
        rw [hdr] at e
        simp only [Option.map_some, Option.bind_some, upd_same, hf2] at e
        rw [if_neg (by simp)] at e
        cases e
        refine ⟨by simp only []; rw [d1, hs1], by simp only []; rw [d2, hs1], fun m h1 h2 => ?_, fun j hj _ => ?_⟩
        · simp only []
          have hmn : m ≠ full s.cwd (s.files f).reg := by
            rintro rfl; exact h1 hpend
          rw [d2, show s1.cwd = s.cwd by rw [hs1], upd_ne _ _ hmn]
          rw [d5 m (by rw [show s1.cwd = s.cwd by rw [hs1]]; exact hmn) (by rw [show s1.pid = s.pid by rw [hs1]]; exact h2), hs1]
        · simp only []
          rw [d4, show s1.next = s.next by rw [hs1], upd_ne _ _ (by omega), upd_ne _ _ (by omega), d3, hs1]
  | some i =>
    obtain ⟨hst, hdW⟩ := h.fd i hfd
    rw [if_neg (by rw [hst]; simp)] at e
    have hcl : close s f = some { s with data := upd s.data i (s.files f).mem } := by
      unfold close
      rw [if_pos (by rw [hst]; simp)]
      unfold store create
      rw [if_neg (by rw [hfd]; simp), Option.bind_some, hfd, Option.map_some]
    simp only [hcl, Option.bind_some] at e
    have hdata : ∀ j, (∀ g, Live a g → (s.files g).fd ≠ some j) → upd s.data i (s.files f).mem j = s.data j := by
      intro j hj
      rw [upd_ne]
      rintro rfl; exact hj f hl hfd
    by_cases hreg : (s.files f).reg = []
    · rw [if_neg (by rw [hreg]; simp)] at e
      cases e
      exact ⟨rfl, rfl, fun _ _ _ => rfl, fun j _ hj => hdata j hj⟩
    · rw [if_pos hreg] at e
      have hpend := h.pending
      rw [if_neg hreg] at hpend
      have htm : (s.files f).temp = true := by
        cases htt : (s.files f).temp with
        | true => rfl
        | false => exact absurd (h.named (by rw [hfd]; simp) htt).2.2.1 hreg
      obtain ⟨hat, t, _, hk⟩ := h.tmp (by rw [hfd]; simp) htm
      obtain ⟨s1, hs1⟩ : ∃ s1 : State, s1 = { s with data := upd s.data i (s.files f).mem } := ⟨_, rfl⟩
      rw [← hs1] at e
      have k1 : Known s1 := by rw [hs1]; exact ⟨k.cwd, k.inj, k.lt, k.fd⟩
      cases hdr : deregister s1 (s.files f).reg with
      | none => rw [hdr] at e; cases e
      | some s2 =>
        obtain ⟨d1, d2, d3, d4, d5, d6⟩ := dereg_rest k1 hdr
        have hf2 : s2.files f = s.files f := by
          rcases d6 f with h6 | h6
          · rw [h6, hs1]
          · rw [hs1] at h6; rw [htm] at h6; cases h6.1
        rw [hdr] at e
        simp only [Option.bind_some, hf2] at e
        have hc2 : s2.cwd = s.cwd := by rw [d2, hs1]
        have hrest : ∀ m, m ≠ full s.cwd (s.files f).reg → ¬ Own s.pid m → s2.dir m = s.dir m := by
          intro m h1 h2
          rw [d5 m (by rw [show s1.cwd = s.cwd by rw [hs1]]; exact h1) (by rw [show s1.pid = s.pid by rw [hs1]]; exact h2), hs1]
        have hdat : ∀ j, (∀ g, Live a g → (s.files g).fd ≠ some j) → s2.data j = s.data j := by
          intro j hj
          rw [d3, hs1]; exact hdata j hj
        unfold rename osRename at e
        rw [hc2] at e
        cases hdw : s2.dir (full s.cwd (s.files f).work) with
        | none => rw [hdw] at e; simp at e
        | some j =>
          rw [hdw] at e
          simp only [Option.map_some] at e
          by_cases hj : s2.dir (full s.cwd (s.files f).reg) = some j
          · rw [if_pos hj] at e
            cases e
            refine ⟨by simp only []; rw [d1, hs1], hc2, fun m h1 h2 => ?_, fun j' _ h' => hdat j' h'⟩
            exact hrest m (by rintro rfl; exact h1 hpend) h2
          · rw [if_neg hj] at e
            cases e
            refine ⟨by simp only []; rw [d1, hs1], rfl, fun m h1 h2 => ?_, fun j' _ h' => hdat j' h'⟩
            have hm : m ≠ full s.cwd (s.files f).reg := by rintro rfl; exact h1 hpend
            simp only []
            rw [upd_ne _ _ hm, upd_ne, hrest m hm h2]
            rintro rfl
            exact h2 ⟨t, hk⟩

theorem step_leaves {s s' : State} {a : Names.Spec.State} (r : R none s a) (hn : s.next ≤ 2 ^ 32) {op : Op} {o : Out}
    (hleg : ¬ Names.Spec.Illegal s.cwd a op) (e : Names.step s op = some (s', o)) : Leaves (Concerned s.cwd a op) s a s' := by
  cases op with
  | new n => cases e; exact ⟨rfl, rfl, fun _ _ _ => rfl, fun _ _ _ => rfl⟩
  | old n =>
    simp only [Names.step] at e
    have hs : s' = (old s n).1 := by
      cases e; rfl
    unfold old at hs
    split at hs
    · rw [hs]; exact Leaves.refl _ _ _
    · split at hs
      · rw [hs]; exact Leaves.refl _ _ _
      · split at hs
        · rw [hs]; exact Leaves.refl _ _ _
        · rw [hs]; exact ⟨rfl, rfl, fun _ _ _ => rfl, fun _ _ _ => rfl⟩
  | write f c => cases e; exact ⟨rfl, rfl, fun _ _ _ => rfl, fun _ _ _ => rfl⟩
  | swap f c =>
    have hl : Live a f := by simpa [Names.Spec.Illegal] using hleg
    simp only [Names.step] at e
    cases hs : store s f c with
    | none => rw [hs] at e; cases e
    | some s1 => rw [hs] at e; cases e; exact store_leaves r hl hs
  | close f =>
    have hl : Live a f := by simpa [Names.Spec.Illegal] using hleg
    simp only [Names.step, close] at e
    split at e
    · cases hs : store s f (s.files f).mem with
      | none => rw [hs] at e; cases e
      | some s1 => rw [hs] at e; cases e; exact store_leaves r hl hs
    · cases e; exact Leaves.refl _ _ _
  | register f =>
    have hl : Live a f := by simpa [Names.Spec.Illegal] using hleg
    simp only [Names.step] at e
    cases hs : register s f with
    | none => rw [hs] at e; cases e
    | some s1 => rw [hs] at e; cases e; exact register_leaves r hn hl hs
  | delete n =>
    simp only [Names.step, delete] at e
    cases hs : deregister s n with
    | none => rw [hs] at e; cases e
    | some s1 =>
      obtain ⟨d1, d2, d3, d4, d5, d6⟩ := dereg_rest (known r hn) hs
      rw [hs] at e
      simp only [Option.map_some, unlink] at e
      rw [d2] at e
      cases hd : s1.dir (full s.cwd n) with
      | none =>
        rw [hd] at e; cases e
        exact ⟨d1, d2, fun m h1 h2 => d5 m h1 h2, fun i _ _ => by rw [d3]⟩
      | some i =>
        rw [hd] at e; cases e
        refine ⟨d1, by simp only [], fun m h1 h2 => ?_, fun i _ _ => by simp only []; rw [d3]⟩
        simp only []
        rw [upd_ne _ _ h1]; exact d5 m h1 h2
  | rename n n' =>
    simp only [Names.step] at e
    have hs : s' = (rename s n n').1 := by cases e; rfl
    unfold rename osRename at hs
    cases hd : s.dir (full s.cwd n) with
    | none => rw [hd] at hs; rw [hs]; exact Leaves.refl _ _ _
    | some i =>
      rw [hd] at hs
      simp only [Option.map_some] at hs
      split at hs
      · rw [hs]; exact Leaves.refl _ _ _
      · rw [hs]
        refine ⟨rfl, rfl, fun m h1 _ => ?_, fun _ _ _ => rfl⟩
        simp only [Concerned, not_or] at h1
        simp only []
        rw [upd_ne _ _ h1.2, upd_ne _ _ h1.1]
  | drop f =>
    have hl : Live a f := by simpa [Names.Spec.Illegal] using hleg
    simp only [Names.step] at e
    cases e
    unfold finalize
    cases hfd : (s.files f).fd with
    | none => exact Leaves.refl _ _ _
    | some i =>
      simp only [upd_same]
      cases ht : (s.files f).temp with
      | false => exact ⟨rfl, rfl, fun _ _ _ => rfl, fun _ _ _ => rfl⟩
      | true =>
        obtain ⟨_, t, _, hk⟩ := (r.h f hl).tmp (by rw [hfd]; simp) ht
        simp only [if_true, unlink]
        split
        · exact ⟨rfl, rfl, fun _ _ _ => rfl, fun _ _ _ => rfl⟩
        · refine ⟨rfl, rfl, fun m _ h2 => ?_, fun _ _ _ => rfl⟩
          simp only []
          rw [upd_ne]
          rintro rfl
          exact h2 ⟨t, hk⟩
  | content f => cases e; exact Leaves.refl _ _ _
  | look n => cases e; exact Leaves.refl _ _ _

end Verif.Share
