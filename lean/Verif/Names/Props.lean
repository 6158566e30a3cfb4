import Verif.Common
import Verif.Names.Lemmas

/-!
# C27: the names of files

`Spec.Run` (Spec.lean) tells what a program and other programs see when a file gets visible under its name by `Register`,
and only then.  The theorem says: what is seen of the module Files is always one of these.
-/
namespace Verif.Names

open Spec (Temp Good Live OpenAt show_ setHandle release publish Illegal)

theorem upd_upd {α β : Type} [DecidableEq α] (g : α → β) (k : α) (u v : β) : upd (upd g k u) k v = upd g k v := by
  funext i; unfold upd; split <;> rfl

/-- A file gets new bytes. -/
theorem R.setMem {s : State} {a : Spec.State} (r : R none s a) {f : Nat} (hl : Live a f) (c : List Nat) :
    R none { s with files := upd s.files f { s.files f with mem := c } } (setHandle a f { a.handles f with mem := c }) := by
  have hlive : ∀ g, Live (setHandle a f { a.handles f with mem := c }) g ↔ Live a g := by
    intro g
    unfold Live setHandle
    simp only []
    by_cases hgf : g = f
    · subst hgf; rw [if_pos rfl]
    · rw [if_neg hgf]
  have hfds : ∀ g, (upd s.files f { s.files f with mem := c } g).fd = (s.files g).fd := by
    intro g
    by_cases hgf : g = f
    · subst hgf; rw [upd_same]
    · rw [upd_ne _ _ hgf]
  constructor
  · exact r.cwd
  · exact r.tn
  · exact r.n
  · exact r.vis
  · exact r.inj
  · exact r.lt
  · intro g hg
    obtain ⟨h1, h2⟩ := r.list g hg
    refine ⟨(hlive g).2 h1, ?_⟩
    simp only []
    rw [hfds]; exact h2
  · intro g hg h2
    simp only [] at h2 ⊢
    rw [hfds] at h2
    exact r.mem g ((hlive g).1 hg) h2
  · intro g hg
    have hg' := (hlive g).1 hg
    have q := r.h g hg'
    by_cases hgf : g = f
    · subst hgf
      have e : (setHandle a g { a.handles g with mem := c }).handles g = { a.handles g with mem := c } := by simp [setHandle]
      rw [e]
      constructor <;> simp only [upd_same]
      · exact q.nofd
      · exact q.fd
      · exact q.named
      · exact q.tmp
      · exact q.pending
      · exact q.reg
    · have e : (setHandle a f { a.handles f with mem := c }).handles g = a.handles g := by simp [setHandle, hgf]
      rw [e]
      exact q.frame (by simp only []; rw [upd_ne _ _ hgf]) rfl rfl (Int.le_refl _) (fun _ => rfl)
  · intro g g' j h1 h2 h3 h4
    simp only [] at h3 h4
    rw [hfds] at h3 h4
    exact r.fdinj g g' j ((hlive g).1 h1) ((hlive g').1 h2) h3 h4

/-- A file is forgotten; the entry of a temporary file is removed from the disk. -/
theorem finalize_ok {s : State} {a : Spec.State} (r : R none s a) {f : Nat} (hl : Live a f) :
    R none (finalize s f) (setHandle a f { a.handles f with alive := false }) ∧ (finalize s f).cwd = s.cwd ∧
      (finalize s f).tempno = s.tempno ∧ (finalize s f).next = s.next := by
  have hlive : ∀ g, Live (setHandle a f { a.handles f with alive := false }) g ↔ g ≠ f ∧ Live a g := by
    intro g
    unfold Live setHandle
    simp only []
    by_cases hgf : g = f
    · simp [hgf]
    · simp [hgf]
  have hhan : ∀ g, g ≠ f → (setHandle a f { a.handles f with alive := false }).handles g = a.handles g := by
    intro g hg; simp [setHandle, hg]
  have h := r.h f hl
  cases hfd : (s.files f).fd with
  | none =>
    have hfin : finalize s f = s := by unfold finalize; rw [hfd]
    rw [hfin]
    refine ⟨?_, rfl, rfl, rfl⟩
    constructor
    · exact r.cwd
    · exact r.tn
    · exact r.n
    · exact r.vis
    · exact r.inj
    · exact r.lt
    · intro g hg
      obtain ⟨h1, h2⟩ := r.list g hg
      refine ⟨(hlive g).2 ⟨?_, h1⟩, h2⟩
      rintro rfl; exact h2 hfd
    · intro g hg h2; exact r.mem g ((hlive g).1 hg).2 h2
    · intro g hg
      rw [hhan g ((hlive g).1 hg).1]
      exact r.h g ((hlive g).1 hg).2
    · intro g g' j h1 h2; exact r.fdinj g g' j ((hlive g).1 h1).2 ((hlive g').1 h2).2
  | some i =>
    have hdW := (h.fd i hfd).2
    have hworkW : ∀ g, Live a g → g ≠ f → (s.files g).fd ≠ none → full s.cwd (s.files g).work ≠ full s.cwd (s.files f).work := by
      intro g hg hgf hne e
      cases hfd' : (s.files g).fd with
      | none => exact hne hfd'
      | some j =>
        have := ((r.h g hg).fd j hfd').2
        rw [e, hdW] at this
        rw [← Option.some.inj this] at hfd'
        exact hgf (r.fdinj g f i hg hl hfd' hfd)
    have key : ∀ D : Name → Option Nat, (∀ m, ¬ Temp m → D m = s.dir m) → (∀ m j, D m = some j → s.dir m = some j) →
        (∀ g, Live a g → g ≠ f → (s.files g).fd ≠ none → D (full s.cwd (s.files g).work) = s.dir (full s.cwd (s.files g).work)) →
        R none { s with dir := D, list := s.list.filter (· ≠ f), files := upd s.files f { s.files f with fd := none, st := .create } }
          (setHandle a f { a.handles f with alive := false }) := by
      intro D hD1 hD2 hD3
      constructor
      · exact r.cwd
      · exact r.tn
      · exact r.n
      · intro m hm
        simp only []
        rw [hD1 m hm]
        exact r.vis m hm
      · intro m m' j h1 h2; exact r.inj _ _ j (hD2 _ _ h1) (hD2 _ _ h2)
      · intro m j h1; exact r.lt _ _ (hD2 _ _ h1)
      · intro g hg
        simp only [] at hg ⊢
        obtain ⟨h1, h2⟩ := List.mem_filter.1 hg
        have hgf : g ≠ f := by simpa using h2
        obtain ⟨h3, h4⟩ := r.list g h1
        exact ⟨(hlive g).2 ⟨hgf, h3⟩, by rw [upd_ne _ _ hgf]; exact h4⟩
      · intro g hg h2
        obtain ⟨h3, h4⟩ := (hlive g).1 hg
        simp only [] at h2 ⊢
        rw [upd_ne _ _ h3] at h2
        exact List.mem_filter.2 ⟨r.mem g h4 h2, by simpa using h3⟩
      · intro g hg
        obtain ⟨h3, h4⟩ := (hlive g).1 hg
        rw [hhan g h3]
        exact (r.h g h4).frame (by simp only []; rw [upd_ne _ _ h3]) rfl rfl (Int.le_refl _) (fun hfg => hD3 g h4 h3 hfg)
      · intro g g' j h1 h2 h3 h4
        obtain ⟨n1, l1⟩ := (hlive g).1 h1
        obtain ⟨n2, l2⟩ := (hlive g').1 h2
        simp only [] at h3 h4
        rw [upd_ne _ _ n1] at h3
        rw [upd_ne _ _ n2] at h4
        exact r.fdinj g g' j l1 l2 h3 h4
    cases ht : (s.files f).temp with
    | false =>
      have hfin : finalize s f = { s with dir := s.dir, list := s.list.filter (· ≠ f), files := upd s.files f { s.files f with fd := none, st := .create } } := by
        unfold finalize; rw [hfd]; simp [upd_same, ht]
      rw [hfin]
      exact ⟨key s.dir (fun _ _ => rfl) (fun _ _ h => h) (fun _ _ _ _ => rfl), rfl, rfl, rfl⟩
    | true =>
      have hfin : finalize s f = { s with dir := upd s.dir (full s.cwd (s.files f).work) none, list := s.list.filter (· ≠ f), files := upd s.files f { s.files f with fd := none, st := .create } } := by
        unfold finalize; rw [hfd]; simp [upd_same, ht, unlink, hdW]
      rw [hfin]
      obtain ⟨_, k, _, hk⟩ := h.tmp (by rw [hfd]; simp) ht
      refine ⟨key _ ?_ ?_ ?_, rfl, rfl, rfl⟩
      · intro m hm
        rw [upd_ne]
        rintro rfl
        exact hm hk.temp
      · intro m j hm
        by_cases hmW : m = full s.cwd (s.files f).work
        · rw [hmW, upd_same] at hm; simp at hm
        · rw [upd_ne _ _ hmW] at hm; exact hm
      · intro g hg hgf hfg
        rw [upd_ne _ _ (hworkW g hg hgf hfg)]

/-- `Register`. -/
theorem register_ok {s : State} {a : Spec.State} (r : R none s a) (hn : s.next < 2 ^ 32) (ht : s.tempno < 32767) {f : Nat} (hl : Live a f) :
    ∃ s' a', register s f = some s' ∧ Spec.Step s.cwd a (.register f) a' .none ∧ R none s' a' ∧ s'.cwd = s.cwd ∧
      s'.tempno ≤ s.tempno + 1 ∧ s'.next ≤ s.next + 1 := by
  have h := r.h f hl
  have hpend := h.pending
  unfold register
  cases hfd : (s.files f).fd with
  | none =>
    obtain ⟨hst, hat⟩ := h.nofd hfd
    have hst : (s.files f).st = .create := by
      rcases hst with hst | hst
      · exact hst
      · simp at hst
    by_cases hreg : (s.files f).reg = []
    · rw [if_neg (by rw [hreg]; simp)]
      have hc : close s f = some s := by
        unfold close; rw [if_neg]; rw [hst, hreg]; simp
      simp only [hc, Option.bind_some]
      rw [if_neg (by rw [hreg]; simp)]
      rw [if_pos hreg] at hpend
      refine ⟨s, _, rfl, Spec.Step.registerNone f hl hpend, ?_, rfl, by omega, by omega⟩
      unfold publish; rw [hat]; exact r
    · rw [if_pos ⟨hst, hreg⟩]
      rw [if_neg hreg] at hpend
      obtain ⟨N, hNe⟩ : ∃ N, N = full s.cwd (s.files f).reg := ⟨_, rfl⟩
      rw [← hNe] at hpend
      have hN : ¬ Temp N := by rw [hNe]; exact h.reg hreg
      obtain ⟨s1, hs1⟩ : ∃ s1 : State, s1 = { s with files := upd s.files f { s.files f with st := .close } } := ⟨_, rfl⟩
      simp only []
      rw [← hs1]
      have hf1 : s1.files f = { s.files f with st := .close } := by rw [hs1]; simp only [upd_same]
      have hcwd1 : s1.cwd = s.cwd := by rw [hs1]
      have r1 : R (some f) s1 a := by
        have hfds : ∀ g, (s1.files g).fd = (s.files g).fd := by
          intro g
          by_cases hgf : g = f
          · subst hgf; rw [hf1]
          · rw [hs1]; simp only []; rw [upd_ne _ _ hgf]
        refine ⟨by rw [hs1]; exact r.cwd, by rw [hs1]; exact r.tn, by rw [hs1]; exact r.n, by rw [hs1]; exact r.vis,
          by rw [hs1]; exact r.inj, by rw [hs1]; exact r.lt, ?_, ?_, ?_, ?_⟩
        · intro g hg
          rw [hs1] at hg
          rw [hfds]; exact r.list g hg
        · intro g hg h2
          rw [hfds] at h2
          rw [hs1]; exact r.mem g hg h2
        · intro g hg
          have q := r.h g hg
          by_cases hgf : g = f
          · subst hgf
            constructor
            · rw [hf1]; exact q.mem
            · intro _; exact ⟨Or.inr rfl, hat⟩
            · rw [hf1]; simp only []; rw [hfd]; simp
            · rw [hf1]; simp only []; rw [hfd]; simp
            · rw [hf1]; simp only []; rw [hfd]; simp
            · rw [hf1, hcwd1]; exact q.pending
            · rw [hf1, hcwd1]; exact q.reg
          · have e : s1.files g = s.files g := by rw [hs1]; simp only []; rw [upd_ne _ _ hgf]
            have q' : H (some f) s g (a.handles g) :=
              ⟨q.mem, fun h0 => ⟨by
                rcases (q.nofd h0).1 with q1 | q1
                · exact Or.inl q1
                · simp at q1, (q.nofd h0).2⟩, q.fd, q.named, q.tmp, q.pending, q.reg⟩
            exact q'.frame e hcwd1 (by rw [hs1]) (by rw [hs1]) (fun _ => by rw [hs1])
        · intro g g' j l1 l2 h3 h4
          rw [hfds] at h3 h4
          exact r.fdinj g g' j l1 l2 h3 h4
      obtain ⟨s2, d1, d2, d3, d4, d5, d6, d7⟩ := dereg_ok r1 (by rw [hs1]; simp only []; omega) (by rw [hs1]; exact ht) (s.files f).reg
        (by rw [hcwd1, ← hNe]; exact hN)
      rw [hcwd1, ← hNe] at d6 d7
      have hnop : ¬ OpenAt a N f := by
        rintro ⟨_, h2⟩; rw [hat] at h2; simp at h2
      have hf2 : s2.files f = { s.files f with st := .close } := by rw [d6 f hnop, hf1]
      have hfd2 : (s2.files f).fd = none := by rw [hf2]; exact hfd
      have hN2 : full s2.cwd (s.files f).reg = N := by rw [d2, hcwd1, ← hNe]
      have hfin : close s1 f = some { s2 with
          dir := upd s2.dir N (some s2.next)
          data := upd s2.data s2.next (s.files f).mem
          next := s2.next + 1
          list := f :: s2.list
          files := upd s2.files f ⟨(s.files f).reg, [], false, some s2.next, .opn, (s.files f).mem⟩ } := by
        unfold close
        rw [if_pos (by rw [hf1]; simp)]
        unfold store create
        rw [if_pos (by rw [hf1]; exact hfd), if_neg (by rw [hf1]; simp), if_pos (by rw [hf1])]
        rw [hf1]
        simp only []
        rw [d1]
        simp only [Option.map_some, Option.bind_some, upd_same, upd_upd, hf2, hN2]
      rw [hfin, Option.bind_some]
      simp only [upd_same]
      rw [if_neg (by simp)]
      refine ⟨_, _, rfl, Spec.Step.register f N hl hpend, ?_, by simp only []; rw [d2, hcwd1], ?_, ?_⟩
      · have hrel : (release a N).handles f = a.handles f := by
          unfold release
          simp only []
          rw [if_neg]
          rintro ⟨h1, h2, h3⟩
          exact hnop ⟨⟨h1, h2⟩, h3⟩
        rcases d7 with ⟨e1, e2⟩ | ⟨e1, e2, e3⟩
        · have r2 : R (some f) s2 a := by rw [e1]; exact r1
          have := r2.bind hl hfd2 hreg (by rw [hN2]; exact hN) (by rw [hN2]; exact e2) (s.files f).mem
            ⟨(s.files f).reg, [], false, some s2.next, .opn, (s.files f).mem⟩ (by rw [hf2])
          rw [hN2] at this
          rw [release_none e2, h.mem]
          exact this
        · have hl2 : Live (show_ (release a N) N none) f := by
            show Live (release a N) f; exact (release_live f).2 hl
          have hop2 : ∀ g, ¬ OpenAt (show_ (release a N) N none) N g := by
            intro g hg
            obtain ⟨_, j, _, h2⟩ := (e3.openAt hN g).1 hg
            rw [e2] at h2; simp at h2
          have := e3.bind hl2 hfd2 hreg (by rw [hN2]; exact hN) (by rw [hN2]; exact hop2) (s.files f).mem
            ⟨(s.files f).reg, [], false, some s2.next, .opn, (s.files f).mem⟩ (by rw [hf2])
          rw [hN2] at this
          refine this.congr rfl ?_ ?_
          · show (setHandle (release a N) f { a.handles f with pending := none, at_ := some N }).handles =
              (setHandle (release a N) f { (release a N).handles f with pending := none, at_ := some N }).handles
            rw [hrel]
          · intro m _
            simp only [show_, setHandle]
            rw [h.mem]
            by_cases hm : m = N
            · rw [if_pos hm, if_pos hm]
            · rw [if_neg hm, if_neg hm, if_neg hm]
      · simp only []
        have : s1.tempno = s.tempno := by rw [hs1]
        omega
      · simp only []
        have : s1.next = s.next := by rw [hs1]
        omega
  | some i =>
    obtain ⟨hst, hdW⟩ := h.fd i hfd
    rw [if_neg (by rw [hst]; simp)]
    have hcl : close s f = some { s with data := upd s.data i (s.files f).mem } := by
      unfold close
      rw [if_pos (by rw [hst]; simp)]
      unfold store create
      rw [if_neg (by rw [hfd]; simp), Option.bind_some, hfd, Option.map_some]
    have r1 := r.data hl hfd (s.files f).mem
    simp only [hcl, Option.bind_some]
    by_cases hreg : (s.files f).reg = []
    · rw [if_neg (by rw [hreg]; simp)]
      rw [if_pos hreg] at hpend
      refine ⟨_, _, rfl, Spec.Step.registerNone f hl hpend, ?_, rfl, by simp only []; omega, by simp only []; omega⟩
      rw [h.mem]; exact r1
    · rw [if_pos hreg]
      rw [if_neg hreg] at hpend
      have htm : (s.files f).temp = true := by
        cases htt : (s.files f).temp with
        | true => rfl
        | false => exact absurd (h.named (by rw [hfd]; simp) htt).2.2.1 hreg
      obtain ⟨hat, k, _, hk⟩ := h.tmp (by rw [hfd]; simp) htm
      have hpub : publish a f (s.files f).mem = a := by unfold publish; rw [hat]
      rw [hpub] at r1
      obtain ⟨N, hNe⟩ : ∃ N, N = full s.cwd (s.files f).reg := ⟨_, rfl⟩
      rw [← hNe] at hpend
      have hN : ¬ Temp N := by rw [hNe]; exact h.reg hreg
      obtain ⟨s1, hs1⟩ : ∃ s1 : State, s1 = { s with data := upd s.data i (s.files f).mem } := ⟨_, rfl⟩
      rw [← hs1] at r1 ⊢
      have hcwd1 : s1.cwd = s.cwd := by rw [hs1]
      obtain ⟨s2, d1, d2, d3, d4, d5, d6, d7⟩ := dereg_ok r1 (by rw [hs1]; simp only []; omega) (by rw [hs1]; exact ht) (s.files f).reg
        (by rw [hcwd1, ← hNe]; exact hN)
      rw [hcwd1, ← hNe] at d6 d7
      have hnop : ¬ OpenAt a N f := by
        rintro ⟨_, h2⟩; rw [hat] at h2; simp at h2
      have hf2 : s2.files f = s.files f := by rw [d6 f hnop, hs1]
      have hN2 : full s2.cwd (s.files f).reg = N := by rw [d2, hcwd1, ← hNe]
      have hdata : s2.data i = (s.files f).mem := by rw [d4, hs1]; simp only [upd_same]
      rw [d1, Option.bind_some]
      -- whatever Deregister did
      have key : ∀ a2 : Spec.State, R none s2 a2 → Live a2 f → (∀ g, ¬ OpenAt a2 N g) →
          ∃ s', rename s2 (s2.files f).work (s2.files f).reg = (s', 0) ∧
            (s'.files f) = s.files f ∧ s'.cwd = s.cwd ∧ s'.tempno = s2.tempno ∧ s'.next = s2.next ∧
            R none { s' with files := upd s'.files f { s.files f with work := (s.files f).reg, reg := [], temp := false } }
              (show_ (setHandle a2 f { a2.handles f with pending := none, at_ := some N }) N (some (s.files f).mem)) := by
        intro a2 r2 hl2 hop2
        have hfd2 : (s2.files f).fd = some i := by rw [hf2]; exact hfd
        have hd2 := ((r2.h f hl2).fd i hfd2).2
        have hWN : full s2.cwd (s2.files f).work ≠ N := by
          rw [hf2, d2, hcwd1]
          intro e; rw [e] at hk; exact hN hk.temp
        have hdN : s2.dir N ≠ some i := fun he => hWN (r2.inj _ _ i hd2 he)
        have hmv := r2.move hl2 hfd2 (by rw [hf2]; exact htm) hreg (by rw [hN2]; exact hN) (by rw [hN2]; exact hop2)
          { s.files f with work := (s.files f).reg, reg := [], temp := false } (by rw [hf2])
        rw [hN2, hdata] at hmv
        refine ⟨{ s2 with dir := upd (upd s2.dir (full s2.cwd (s2.files f).work) none) N (some i) }, ?_, hf2, by simp only []; rw [d2, hcwd1], rfl, rfl, ?_⟩
        · unfold rename osRename
          rw [hd2]
          simp only [Option.map_some]
          rw [hf2] at *
          rw [hN2, if_neg hdN]
        · exact hmv
      have htn1 : s1.tempno = s.tempno := by rw [hs1]
      have hnx1 : s1.next = s.next := by rw [hs1]
      have hrel : (release a N).handles f = a.handles f := by
        unfold release
        simp only []
        rw [if_neg]
        rintro ⟨h1, h2, h3⟩
        exact hnop ⟨⟨h1, h2⟩, h3⟩
      rcases d7 with ⟨e1, e2⟩ | ⟨e1, e2, e3⟩
      · have r2 : R none s2 a := by rw [e1]; exact r1
        obtain ⟨s', k1, k2, k3, k4, k5, k6⟩ := key a r2 hl e2
        rw [k1]
        simp only [k2]
        refine ⟨_, _, rfl, Spec.Step.register f N hl hpend, ?_, k3, by simp only []; omega, by simp only []; omega⟩
        rw [release_none e2, h.mem]
        exact k6
      · have hl2 : Live (show_ (release a N) N none) f := by
          show Live (release a N) f; exact (release_live f).2 hl
        have hop2 : ∀ g, ¬ OpenAt (show_ (release a N) N none) N g := by
          intro g hg
          obtain ⟨_, j, _, h2⟩ := (e3.openAt hN g).1 hg
          rw [e2] at h2; simp at h2
        obtain ⟨s', k1, k2, k3, k4, k5, k6⟩ := key _ e3 hl2 hop2
        rw [k1]
        simp only [k2]
        refine ⟨_, _, rfl, Spec.Step.register f N hl hpend, ?_, k3, by simp only []; omega, by simp only []; omega⟩
        refine k6.congr rfl ?_ ?_
        · show (setHandle (release a N) f { a.handles f with pending := none, at_ := some N }).handles =
            (setHandle (release a N) f { (release a N).handles f with pending := none, at_ := some N }).handles
          rw [hrel]
        · intro m _
          simp only [show_, setHandle]
          rw [h.mem]
          by_cases hm : m = N
          · rw [if_pos hm, if_pos hm]
          · rw [if_neg hm, if_neg hm, if_neg hm]

theorem step_ok {s : State} {a : Spec.State} (r : R none s a) (hn : s.next < 2 ^ 32) (ht : s.tempno < 32767) (op : Op)
    (hleg : ¬ Illegal s.cwd a op) :
    ∃ s' o a', step s op = some (s', o) ∧ Spec.Step s.cwd a op a' o ∧ R none s' a' ∧ s'.cwd = s.cwd ∧
      s'.tempno ≤ s.tempno + 1 ∧ s'.next ≤ s.next + 1 := by
  cases op with
  | new n =>
    simp only [step]
    refine ⟨_, _, { a with n := a.n + 1, handles := fun i => if i = a.n then ⟨[], if n = [] then none else some (full s.cwd n), none, true⟩ else a.handles i }, rfl, ?_, ?_, ?_, ?_, ?_⟩
    rotate_left 1
    · unfold newFile
      refine r.add _ ⟨[], if n = [] then none else some (full s.cwd n), none, true⟩ s.list rfl ?_ (by simp) (by simp)
      constructor <;> simp only [upd_same] <;> try simp
      intro hne
      by_contra hc
      exact hleg ⟨hne, fun g => g.2 hc⟩
    · rfl
    · simp only [newFile]; omega
    · simp only [newFile]; omega
    · rw [← r.n]
      exact Spec.Step.new n
  | old n =>
    simp only [step, old]
    by_cases hn0 : n = []
    · rw [if_pos hn0]
      exact ⟨_, _, _, rfl, Spec.Step.oldNil n (Or.inl hn0), r, rfl, by simp only []; omega, by simp only []; omega⟩
    · rw [if_neg hn0]
      have hN : ¬ Temp (full s.cwd n) := by
        intro hc; exact hleg ⟨hn0, fun g => g.2 hc⟩
      have hv := r.vis _ hN
      cases hd : s.dir (full s.cwd n) with
      | none =>
        rw [hd] at hv
        exact ⟨_, _, _, rfl, Spec.Step.oldNil n (Or.inr hv), r, rfl, by simp only []; omega, by simp only []; omega⟩
      | some i =>
        simp only []
        rw [hd] at hv
        rcases find_ok r (by omega) hd with ⟨f, hf, hl, hfd⟩ | ⟨hf, hnone⟩
        · rw [hf]
          exact ⟨_, _, _, rfl, Spec.Step.oldOpen n f hn0 ((r.openAt hN f).2 ⟨hl, i, hfd, hd⟩), r, rfl, by simp only []; omega, by simp only []; omega⟩
        · rw [hf]
          simp only []
          have hop : ∀ f, ¬ OpenAt a (full s.cwd n) f := by
            intro f hf
            obtain ⟨l, j, h1, h2⟩ := (r.openAt hN f).1 hf
            rw [hd] at h2
            rw [← Option.some.inj h2] at h1
            exact hnone f l h1
          have hstep := Spec.Step.old (cwd := s.cwd) (a := a) n (s.data i) hn0 hv hop
          rw [r.n] at hstep
          refine ⟨_, _, _, rfl, hstep, ?_, rfl, by simp only []; omega, by simp only []; omega⟩
          have := r.add ⟨n, [], false, some i, .opn, s.data i⟩ ⟨s.data i, none, some (full s.cwd n), true⟩ (s.nfiles :: s.list) rfl
            (by
              constructor <;> simp only [upd_same] <;> try simp
              · exact hd
              · exact ⟨hN, hn0⟩)
            (by
              intro j hj g hg
              simp only [Option.some.injEq] at hj
              rw [← hj]; exact hnone g hg)
            (by simp)
          rw [r.n] at this
          exact this
  | write f c =>
    have hl : Live a f := by simpa [Illegal] using hleg
    exact ⟨_, _, _, rfl, Spec.Step.write f c hl, r.setMem hl c, rfl, by simp only []; omega, by simp only []; omega⟩
  | swap f c =>
    have hl : Live a f := by simpa [Illegal] using hleg
    obtain ⟨s', h1, h2, h3, h4, h5, _⟩ := store_ok r ht hl c
    simp only [step, h1, Option.map_some]
    exact ⟨_, _, _, rfl, Spec.Step.swap f c hl, h2, h5, h3, h4⟩
  | close f =>
    have hl : Live a f := by simpa [Illegal] using hleg
    simp only [step, close]
    by_cases hc : (s.files f).st ≠ .create ∨ (s.files f).reg ≠ []
    · rw [if_pos hc]
      obtain ⟨s', h1, h2, h3, h4, h5, _⟩ := store_ok r ht hl (s.files f).mem
      simp only [h1, Option.map_some]
      refine ⟨_, _, _, rfl, Spec.Step.close f hl, ?_, h5, h3, h4⟩
      rw [(r.h f hl).mem]; exact h2
    · rw [if_neg hc]
      simp only [Option.map_some]
      refine ⟨_, _, _, rfl, Spec.Step.close f hl, ?_, rfl, by omega, by omega⟩
      have hst : (s.files f).st = .create := by
        by_contra h; exact hc (Or.inl h)
      have hfd : (s.files f).fd = none := by
        cases hfd : (s.files f).fd with
        | none => rfl
        | some i =>
          rw [((r.h f hl).fd i hfd).1] at hst; simp at hst
      unfold publish
      rw [((r.h f hl).nofd hfd).2]
      exact r
  | register f =>
    have hl : Live a f := by simpa [Illegal] using hleg
    obtain ⟨s', a', h1, h2, h3, h4, h5, h6⟩ := register_ok r hn ht hl
    simp only [step, h1, Option.map_some]
    exact ⟨_, _, _, rfl, h2, h3, h4, h5, h6⟩
  | delete n =>
    have hg : Good s.cwd n := by simpa [Illegal] using hleg
    have hN := hg.2
    obtain ⟨s1, d1, d2, d3, d4, d5, d6, d7⟩ := dereg_ok r (by omega) ht n hN
    simp only [step, delete, d1, Option.map_some, unlink]
    rw [d2]
    rcases d7 with ⟨e1, e2⟩ | ⟨e1, e2, e3⟩
    · rw [e1]
      have hv := r.vis _ hN
      cases hd : s.dir (full s.cwd n) with
      | none =>
        simp only []
        rw [hd] at hv
        refine ⟨_, _, _, rfl, Spec.Step.delete n 2 (by simp [hv]), ?_, rfl, by omega, by omega⟩
        rw [release_none e2]
        refine r.congr rfl rfl ?_
        intro m _
        simp only [show_]
        by_cases hm : m = full s.cwd n
        · rw [if_pos hm, hm, hv]; rfl
        · rw [if_neg hm]
      | some i =>
        simp only []
        rw [hd] at hv
        refine ⟨_, _, _, rfl, Spec.Step.delete n 0 (by simp only [hv, true_iff]; exact ⟨by simp, e2⟩), ?_, rfl, by simp only []; omega, by simp only []; omega⟩
        rw [release_none e2]
        exact r.unlink hN e2
    · rw [e2]
      simp only []
      refine ⟨_, _, _, rfl, Spec.Step.delete n 2 ?_, e3, d2, d5, by omega⟩
      constructor
      · intro h; omega
      · rintro ⟨_, h⟩
        obtain ⟨g, hg⟩ := e1
        exact absurd hg (h g)
  | rename n m =>
    have hleg : Good s.cwd n ∧ Good s.cwd m ∧ (∀ f, ¬ OpenAt a (full s.cwd n) f) ∧ ∀ f, ¬ OpenAt a (full s.cwd m) f := by
      simp only [Illegal, not_or, not_not, not_exists] at hleg; exact hleg
    obtain ⟨g1, g2, o1, o2⟩ := hleg
    simp only [step, rename]
    have hv := r.vis _ g1.2
    cases hd : s.dir (full s.cwd n) with
    | none =>
      rw [hd] at hv
      simp only []
      exact ⟨_, _, _, rfl, Spec.Step.renameNone n m 2 hv (by omega), r, rfl, by omega, by omega⟩
    | some i =>
      rw [hd] at hv
      simp only [osRename, hd, Option.map_some]
      by_cases he : s.dir (full s.cwd m) = some i
      · rw [if_pos he]
        refine ⟨_, _, _, rfl, Spec.Step.rename n m (s.data i) hv, ?_, rfl, by omega, by omega⟩
        have hnm : full s.cwd n = full s.cwd m := r.inj _ _ i hd he
        refine r.congr rfl rfl ?_
        intro k _
        simp only [show_]
        by_cases hk : k = full s.cwd m
        · rw [if_pos hk, hk, ← hnm, hv]; rfl
        · rw [if_neg hk, if_neg (by rw [hnm]; exact hk)]
      · rw [if_neg he]
        have hnm : full s.cwd n ≠ full s.cwd m := by intro e; rw [← e] at he; exact he hd
        exact ⟨_, _, _, rfl, Spec.Step.rename n m (s.data i) hv, r.renamed g1.2 g2.2 hnm o1 o2 hd, rfl, by simp only []; omega, by simp only []; omega⟩
  | drop f =>
    have hl : Live a f := by simpa [Illegal] using hleg
    obtain ⟨h1, h2, h3, h4⟩ := finalize_ok r hl
    exact ⟨_, _, _, rfl, Spec.Step.drop f hl, h1, h2, by omega, by omega⟩
  | content f =>
    have hl : Live a f := by simpa [Illegal] using hleg
    refine ⟨_, _, a, rfl, ?_, r, rfl, by omega, by omega⟩
    rw [← (r.h f hl).mem]
    exact Spec.Step.content f hl
  | look n =>
    have hg : Good s.cwd n := by simpa [Illegal] using hleg
    refine ⟨_, _, a, rfl, ?_, r, rfl, by omega, by omega⟩
    rw [← r.vis _ hg.2]
    exact Spec.Step.look n

theorem run_ok : ∀ (ops : List Op) (s : State) (a : Spec.State), R none s a → s.next + ops.length ≤ 2 ^ 32 →
    s.tempno + ops.length ≤ 32767 → Spec.Run s.cwd a ops (run s ops).1 (run s ops).2
  | [], s, a, _, _, _ => Spec.Run.nil a
  | op :: ops, s, a, r, h1, h2 => by
    simp only [List.length_cons] at h1 h2
    by_cases hill : Illegal s.cwd a op
    · exact Spec.Run.illegal _ _ _ _ _ hill
    · obtain ⟨s', o, a', e1, e2, e3, e4, e5, e6⟩ := step_ok r (by omega) (by omega) op hill
      simp only [run, e1]
      have := run_ok ops s' a' e3 (by omega) (by omega)
      rw [e4] at this
      exact Spec.Run.step _ _ _ _ _ _ _ e2 this

/-- **C27**, for fewer than 32768 operations.  A program starts in the directory `cwd` with any disk on which different names
stand for different files, and creates, opens, writes, closes, registers, deletes, renames and forgets files in any order;
buffers are written to the disk at any time.  What it and other programs see is what the specification says: in particular a
file being written becomes visible under its name exactly by `Register`, with all its bytes, and never before; the file that
had the name stays readable by those who have it open.

What is missing: more operations (see `C27_temp_wrap`), files of which the operating system's numbers exceed 32 bits (see
`C27_inode_truncated`), and renaming open files (see `C27_rename_stale`). -/
theorem C27_history_partial (cwd : Name) (pid : Nat) (dir : Name → Option Nat) (data : Nat → List Nat) (next : Nat)
    (hcwd : cwd.head? = some 47 ∧ cwd.getLast? ≠ some 47)
    (hinj : ∀ m m' i, dir m = some i → dir m' = some i → m = m') (hlt : ∀ m i, dir m = some i → i < next) (ops : List Op)
    (h1 : ops.length ≤ 32767) (h2 : next + ops.length ≤ 2 ^ 32) :
    Spec.Run cwd (Spec.init dir data) ops (run (init cwd pid dir data next) ops).1 (run (init cwd pid dir data next) ops).2 := by
  refine run_ok ops (init cwd pid dir data next) (Spec.init dir data) ?_ h2 (by simp only [init]; omega)
  have hno : ∀ f, ¬ Live (Spec.init dir data) f := by
    intro f h; exact absurd h.1 (Nat.not_lt_zero _)
  refine ⟨hcwd, by simp [init], rfl, fun _ _ => rfl, hinj, hlt, ?_, fun f h => absurd h (hno f), fun f h => absurd h (hno f), fun f _ _ h => absurd h (hno f)⟩
  intro f hf
  simp [init] at hf


/-! ## A concrete case -/

/-- A disk with one file, `/d/a`. -/
def disk0 : Name → Option Nat := fun n => if n = [47, 100, 47, 97] then some 7 else none

/-- While a new file `a` is written, closed and partly on the disk, the old bytes stay visible, to other programs and to this
one; then the new ones are, but the file opened before still has the old ones. -/
example :
    (run (init [47, 100] 12 disk0 (fun _ => [1, 2]) 8)
      [.old [97], .new [97], .write 1 [3], .swap 1 [3], .close 1, .look [97], .register 1, .look [97], .content 0, .register 0, .look [97], .content 1]) =
    ([.file (some 0), .file (some 1), .none, .none, .none, .seen (some [1, 2]), .none, .seen (some [3]), .bytes [1, 2], .none, .seen (some [1, 2]), .bytes [3]], false) := by
  decide +kernel

/-- The hypotheses of `C27_history_partial` are met in this case, and none of the operations is illegal. -/
example : Spec.Run [47, 100] (Spec.init disk0 fun _ => [1, 2]) [.new [97], .register 0, .look [97]]
    [.file (some 0), .none, .seen (some [])] false := by
  have := C27_history_partial [47, 100] 12 disk0 (fun _ => [1, 2]) 8 (by decide)
    (by intro m m' i h h'; unfold disk0 at h h'; split at h <;> split at h' <;> simp_all)
    (by intro m i h; unfold disk0 at h; split at h <;> simp_all; omega)
    [.new [97], .register 0, .look [97]] (by decide) (by decide)
  have e : run (init [47, 100] 12 disk0 (fun _ => [1, 2]) 8) [.new [97], .register 0, .look [97]] =
    ([.file (some 0), .none, .seen (some [])], false) := by decide +kernel
  rw [e] at this
  exact this

/-! ## What is not as a user expects -/

/-- An open file is renamed, and another file gets its old name; deleting the file under its new name makes the other file
disappear, not the one renamed: `Rename` does not change the name kept with the open file. -/
theorem C27_rename_stale :
    run (init [47, 100] 12 disk0 (fun _ => [1, 2]) 8)
      [.old [97], .rename [97] [98], .new [97], .write 1 [3], .register 1, .look [97], .look [98], .delete [98], .look [97], .look [98]] =
    ([.file (some 0), .res 0, .file (some 1), .none, .none, .seen (some [3]), .seen (some [1, 2]), .res 0, .seen none, .seen none], false) := by
  decide +kernel

/-- Deleting a file that is open removes it, but an error is reported. -/
theorem C27_delete_res :
    run (init [47, 100] 12 disk0 (fun _ => [1, 2]) 8) [.old [97], .delete [97], .look [97]] =
    ([.file (some 0), .res 2, .seen none], false) := by
  decide +kernel

/-- The counter for temporary names has 16 bits and the numbers below 1 are not written: from a count of -32768 on all names
are the same.  So two files being written at the same time share one name, and the first is lost: what becomes visible
under the name `a` are the bytes written to `b`. -/
theorem C27_temp_wrap (pid : Nat) :
    (getTempName { init [47] pid disk0 (fun _ => []) 8 with tempno := 32767 } [97]).2 =
    (getTempName { init [47] pid disk0 (fun _ => []) 8 with tempno := -32768 } [97]).2 ∧
    run { init [47, 100] 12 (fun _ => none) (fun _ => []) 0 with tempno := 32767 }
      [.new [97], .new [98], .write 0 [3], .swap 0 [3], .write 1 [4], .swap 1 [4], .register 0, .look [97], .look [98]] =
    ([.file (some 0), .file (some 1), .none, .none, .none, .none, .none, .seen (some [4]), .seen none], false) := by
  refine ⟨?_, by decide +kernel⟩
  unfold getTempName
  rfl

/-- Only the last 32 bits of the number of a file are kept: opening `b` gives the file `a`, if their numbers differ by 2^32. -/
theorem C27_inode_truncated :
    run (init [47, 100] 12 (fun n => if n = [47, 100, 47, 97] then some 7 else if n = [47, 100, 47, 98] then some 4294967303 else none)
      (fun i => if i = 7 then [1] else [2]) 4294967304) [.old [97], .old [98], .content 0, .look [98]] =
    ([.file (some 0), .file (some 0), .bytes [1], .seen (some [2])], false) := by
  decide +kernel

/-- `Register` is not atomic: between the two steps of `Flush` (the file is created, its bytes are written) the file is
visible under its name, without its bytes.  `create` is the first step. -/
theorem C27_register_not_atomic :
    ∃ s s' : State, s.files 0 = ⟨[], [97], false, none, .close, [1, 2, 3]⟩ ∧ create s 0 = some s' ∧
      (s.dir [47, 100, 47, 97]).map s.data = some [1, 2] ∧ (s'.dir [47, 100, 47, 97]).map s'.data = some [] := by
  refine ⟨{ init [47, 100] 12 disk0 (fun _ => [1, 2]) 8 with nfiles := 1, files := fun _ => ⟨[], [97], false, none, .close, [1, 2, 3]⟩ }, _, rfl, rfl, ?_, ?_⟩
  · decide +kernel
  · decide +kernel

end Verif.Names
