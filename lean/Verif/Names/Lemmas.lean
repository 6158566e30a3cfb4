import Verif.Common
import Verif.Names.Model
import Verif.Names.Spec

/-!
# Names: the invariant
-/
namespace Verif.Names

open Spec (Temp Good Live OpenAt show_ setHandle release publish)

theorem upd_same {α β : Type} [DecidableEq α] (g : α → β) (k : α) (v : β) : upd g k v k = v := by simp [upd]

theorem upd_ne {α β : Type} [DecidableEq α] (g : α → β) {k i : α} (v : β) (h : i ≠ k) : upd g k v i = g i := by simp [upd, h]

theorem upd_id {α β : Type} [DecidableEq α] (g : α → β) {k : α} {v : β} (h : g k = v) : upd g k v = g := by
  funext i
  by_cases hi : i = k
  · subst hi; rw [upd_same, h]
  · rw [upd_ne _ _ hi]

/-! ## Temporary names -/

/-- The current directory: an absolute name, not the root. -/
def CwdOk (cwd : Name) : Prop := cwd.head? = some 47 ∧ cwd.getLast? ≠ some 47

theorem digits_mem : ∀ (f n : Nat) (c : Nat), c ∈ digits f n → 48 ≤ c ∧ c < 58
  | 0, _, c, h => by simp [digits] at h
  | f + 1, n, c, h => by
    simp only [digits] at h
    by_cases h0 : 0 < n
    · rw [if_pos h0] at h
      rcases List.mem_cons.1 h with rfl | h
      · have := Nat.mod_lt n (show 0 < 10 by decide); omega
      · exact digits_mem f _ c h
    · rw [if_neg h0] at h; simp at h

theorem digits_inj : ∀ (f g m n : Nat), m < f → n < g → digits f m = digits g n → m = n
  | 0, _, m, _, h, _, _ => by omega
  | _, 0, _, n, _, h, _ => by omega
  | f + 1, g + 1, m, n, hf, hg, h => by
    simp only [digits] at h
    by_cases h0 : 0 < m
    · by_cases h1 : 0 < n
      · rw [if_pos h0, if_pos h1] at h
        have := List.cons.inj h
        have := digits_inj f g (m / 10) (n / 10) (by omega) (by omega) this.2
        omega
      · rw [if_pos h0, if_neg h1] at h; simp at h
    · by_cases h1 : 0 < n
      · rw [if_neg h0, if_pos h1] at h; simp at h
      · omega

/-- The temporary name with number `k`. -/
def TempName (pid k : Nat) (m : Name) : Prop :=
  ∃ d, m = d ++ [47] ++ [46, 116, 109, 112, 46] ++ (digits (k + 1) k ++ [46] ++ digits (pid + 1) pid)

theorem no_slash (pid k : Nat) : 47 ∉ digits (k + 1) k ++ [46] ++ digits (pid + 1) pid := by
  intro h
  rcases List.mem_append.1 h with h | h
  · rcases List.mem_append.1 h with h | h
    · have := digits_mem _ _ _ h; omega
    · simp at h
  · have := digits_mem _ _ _ h; omega

theorem TempName.temp {pid k : Nat} {m : Name} (h : TempName pid k m) : Temp m := by
  obtain ⟨d, hd⟩ := h
  exact ⟨d, _, hd, no_slash pid k⟩

/-- The text behind the first `c` is determined. -/
theorem split_at {c : Nat} : ∀ (x y x' y' : List Nat), c ∉ x → c ∉ x' → x ++ c :: y = x' ++ c :: y' → x = x' ∧ y = y'
  | [], _, [], _, _, _, h => by simpa using h
  | [], _, a :: x', _, _, hx', h => by
    simp at h
    exact absurd (by rw [← h.1]; simp) hx'
  | a :: x, _, [], _, hx, _, h => by
    simp at h
    exact absurd (by rw [h.1]; simp) hx
  | a :: x, y, b :: x', y', hx, hx', h => by
    simp only [List.cons_append, List.cons.injEq] at h
    have := split_at x y x' y' (fun hh => hx (List.mem_cons_of_mem _ hh)) (fun hh => hx' (List.mem_cons_of_mem _ hh)) h.2
    exact ⟨by rw [h.1, this.1], this.2⟩

/-- The text behind the last `c` is determined. -/
theorem split_last {c : Nat} {x y x' y' : List Nat} (h1 : c ∉ y) (h2 : c ∉ y') (h : x ++ [c] ++ y = x' ++ [c] ++ y') : y = y' := by
  have := congrArg List.reverse h
  simp only [List.reverse_append, List.reverse_cons, List.reverse_nil, List.nil_append, List.singleton_append] at this
  have := (split_at _ _ _ _ (by simpa using h1) (by simpa using h2) this).1
  exact List.reverse_injective this

theorem TempName.num {pid k k' : Nat} {m : Name} (h : TempName pid k m) (h' : TempName pid k' m) : k = k' := by
  obtain ⟨d, hd⟩ := h
  obtain ⟨d', hd'⟩ := h'
  rw [hd] at hd'
  rw [List.append_assoc (d ++ [47]), List.append_assoc (d' ++ [47])] at hd'
  have hns : ∀ j, 47 ∉ [46, 116, 109, 112, 46] ++ (digits (j + 1) j ++ [46] ++ digits (pid + 1) pid) := by
    intro j hh
    rcases List.mem_append.1 hh with hh | hh
    · simp at hh
    · exact no_slash pid j hh
  have e := split_last (hns k) (hns k') hd'
  have e2 := List.append_cancel_left e
  rw [List.append_assoc, List.append_assoc] at e2
  have hd1 : ∀ j, 46 ∉ digits (j + 1) j := by
    intro j hh
    have := digits_mem _ _ _ hh; omega
  have e3 := (split_at _ _ _ _ (hd1 k) (hd1 k') e2).1
  exact digits_inj _ _ _ _ (by omega) (by omega) e3

theorem stripEnd_full {c : Name} (h : c.getLast? ≠ some 47) : stripEnd c c.length = c.length := by
  cases hl : c.length with
  | zero => rfl
  | succ n =>
    simp only [stripEnd]
    rw [List.getLast?_eq_getElem?, hl] at h
    rw [if_neg (by simpa using h)]

theorem makeFileName_ok {c n : Name} (h : CwdOk c) : makeFileName c n = c ++ [47] ++ n := by
  unfold makeFileName
  rw [stripEnd_full h.2]
  have : 0 < c.length := by
    cases c with
    | nil => simp [CwdOk] at h
    | cons a t => simp
  simp only []
  rw [if_pos this, List.take_length]

theorem full_head {c n : Name} (h : CwdOk c) : (full c n).head? = some 47 := by
  unfold full
  split
  · assumption
  · have := h.1
    cases c with
    | nil => simp at this
    | cons a t => simpa using this

theorem full_full {c n : Name} (h : CwdOk c) : full c (full c n) = full c n := by
  conv => lhs; rw [full]
  rw [if_pos (full_head h)]

theorem lastSlash_ok {m : Name} (h : m[0]? = some 47) : ∀ i, i < m.length → (m[lastSlash m i]? = some 47 ∧ lastSlash m i ≤ i)
  | 0, _ => ⟨h, Nat.le_refl _⟩
  | i + 1, hi => by
    simp only [lastSlash]
    by_cases hc : m[i + 1]? ≠ some 47
    · rw [if_pos hc]
      obtain ⟨h1, h2⟩ := lastSlash_ok h i (by omega)
      exact ⟨h1, by omega⟩
    · rw [if_neg hc]
      exact ⟨by simpa using hc, Nat.le_refl _⟩

theorem getTemp_ok {s : State} {n : Name} (hc : CwdOk s.cwd) (h1 : -1 ≤ s.tempno) (h2 : s.tempno < 32767) :
    ∃ w, getTempName s n = ({ s with tempno := s.tempno + 1 }, w) ∧ full s.cwd w = w ∧ TempName s.pid (s.tempno + 1).toNat w := by
  unfold getTempName
  have hi : inc16 s.tempno = s.tempno + 1 := by
    unfold inc16; rw [if_neg (by omega)]
  simp only [hi]
  have hname : (if n.head? = some 47 then n else makeFileName s.cwd n) = full s.cwd n := by
    unfold full
    rw [makeFileName_ok hc]
  rw [hname]
  obtain ⟨m, hm⟩ : ∃ m, m = full s.cwd n := ⟨_, rfl⟩
  have hh := full_head (n := n) hc
  rw [← hm] at hh ⊢
  have h0 : m[0]? = some 47 := by rw [← List.head?_eq_getElem?]; exact hh
  have hlen : 0 < m.length := by
    cases m with
    | nil => simp at hh
    | cons a t => simp
  obtain ⟨l1, l2⟩ := lastSlash_ok h0 (m.length - 1) (by omega)
  obtain ⟨i, hi'⟩ : ∃ i, i = lastSlash m (m.length - 1) := ⟨_, rfl⟩
  rw [← hi'] at l1 l2 ⊢
  have ht : m.take (i + 1) = m.take i ++ [47] := by rw [List.take_add_one, l1]; rfl
  refine ⟨_, rfl, ?_, m.take i, ?_⟩
  · unfold full
    rw [if_pos]
    rw [ht]
    cases i with
    | zero => simp
    | succ j =>
      cases m with
      | nil => simp at hh
      | cons a t => simpa using hh
  · rw [ht]; simp only [List.append_assoc]

/-! ## The invariant -/

/-- An open file. -/
structure H (x : Option Nat) (s : State) (f : Nat) (h : Spec.Handle) : Prop where
  mem : h.mem = (s.files f).mem
  nofd : (s.files f).fd = none → ((s.files f).st = .create ∨ x = some f) ∧ h.at_ = none
  fd : ∀ i, (s.files f).fd = some i → (s.files f).st = .opn ∧ s.dir (full s.cwd (s.files f).work) = some i
  named : (s.files f).fd ≠ none → (s.files f).temp = false →
    h.at_ = some (full s.cwd (s.files f).work) ∧ ¬ Temp (full s.cwd (s.files f).work) ∧ (s.files f).reg = [] ∧ (s.files f).work ≠ []
  tmp : (s.files f).fd ≠ none → (s.files f).temp = true →
    h.at_ = none ∧ ∃ k : Nat, k ≤ s.tempno ∧ TempName s.pid k (full s.cwd (s.files f).work)
  pending : h.pending = if (s.files f).reg = [] then none else some (full s.cwd (s.files f).reg)
  reg : (s.files f).reg ≠ [] → ¬ Temp (full s.cwd (s.files f).reg)

/-- The program and what the specification says.  `x`: a file just being registered. -/
structure R (x : Option Nat) (s : State) (a : Spec.State) : Prop where
  cwd : CwdOk s.cwd
  tn : -1 ≤ s.tempno
  n : a.n = s.nfiles
  vis : ∀ m, ¬ Temp m → a.vis m = (s.dir m).map s.data
  inj : ∀ m m' i, s.dir m = some i → s.dir m' = some i → m = m'
  lt : ∀ m i, s.dir m = some i → i < s.next
  list : ∀ f, f ∈ s.list → Live a f ∧ (s.files f).fd ≠ none
  mem : ∀ f, Live a f → (s.files f).fd ≠ none → f ∈ s.list
  h : ∀ f, Live a f → H x s f (a.handles f)
  fdinj : ∀ f g i, Live a f → Live a g → (s.files f).fd = some i → (s.files g).fd = some i → f = g

theorem R.openAt {x : Option Nat} {s : State} {a : Spec.State} (r : R x s a) {N : Name} (hN : ¬ Temp N) (f : Nat) :
    OpenAt a N f ↔ Live a f ∧ ∃ i, (s.files f).fd = some i ∧ s.dir N = some i := by
  constructor
  · rintro ⟨hl, ha⟩
    refine ⟨hl, ?_⟩
    have h := r.h f hl
    cases hfd : (s.files f).fd with
    | none => rw [(h.nofd hfd).2] at ha; simp at ha
    | some i =>
      refine ⟨i, rfl, ?_⟩
      cases ht : (s.files f).temp with
      | true => rw [(h.tmp (by rw [hfd]; simp) ht).1] at ha; simp at ha
      | false =>
        rw [(h.named (by rw [hfd]; simp) ht).1] at ha
        rw [← Option.some.inj ha]
        exact (h.fd i hfd).2
  · rintro ⟨hl, i, hfd, hd⟩
    refine ⟨hl, ?_⟩
    have h := r.h f hl
    have e : full s.cwd (s.files f).work = N := r.inj _ _ i (h.fd i hfd).2 hd
    cases ht : (s.files f).temp with
    | true =>
      obtain ⟨_, k, _, hk⟩ := h.tmp (by rw [hfd]; simp) ht
      rw [e] at hk
      exact absurd hk.temp hN
    | false => rw [(h.named (by rw [hfd]; simp) ht).1, e]

theorem R.openAt_named {x : Option Nat} {s : State} {a : Spec.State} (r : R x s a) {N : Name} (hN : ¬ Temp N) {f i : Nat}
    (hl : Live a f) (hfd : (s.files f).fd = some i) (hd : s.dir N = some i) :
    full s.cwd (s.files f).work = N ∧ (s.files f).temp = false ∧ (s.files f).reg = [] ∧ (s.files f).work ≠ [] := by
  have h := r.h f hl
  have e : full s.cwd (s.files f).work = N := r.inj _ _ i (h.fd i hfd).2 hd
  refine ⟨e, ?_⟩
  cases ht : (s.files f).temp with
  | true =>
    obtain ⟨_, k, _, hk⟩ := h.tmp (by rw [hfd]; simp) ht
    rw [e] at hk
    exact absurd hk.temp hN
  | false => exact ⟨rfl, (h.named (by rw [hfd]; simp) ht).2.2⟩

theorem find_ok {x : Option Nat} {s : State} {a : Spec.State} (r : R x s a) (hn : s.next ≤ 2 ^ 32) {m : Name} {i : Nat} (hd : s.dir m = some i) :
    (∃ f, find s i = some f ∧ Live a f ∧ (s.files f).fd = some i) ∨ (find s i = none ∧ ∀ f, Live a f → (s.files f).fd ≠ some i) := by
  have hid : ∀ f, f ∈ s.list → ((s.files f).fd.map ident = some (ident i) ↔ (s.files f).fd = some i) := by
    intro f hf
    obtain ⟨hl, hne⟩ := r.list f hf
    cases hfd : (s.files f).fd with
    | none => simp
    | some j =>
      have h1 := r.lt _ _ ((r.h f hl).fd j hfd).2
      have h2 := r.lt _ _ hd
      simp only [Option.map_some, Option.some.injEq, ident]
      rw [Nat.mod_eq_of_lt (by omega), Nat.mod_eq_of_lt (by omega)]
  unfold find
  cases hf : s.list.find? fun f => (s.files f).fd.map ident == some (ident i) with
  | none =>
    right
    refine ⟨rfl, fun f hl he => ?_⟩
    have hm := r.mem f hl (by rw [he]; simp)
    have := List.find?_eq_none.1 hf f hm
    exact this (by rw [beq_iff_eq]; exact (hid f hm).2 he)
  | some f =>
    left
    have hm := List.mem_of_find?_eq_some hf
    have := List.find?_some hf
    exact ⟨f, rfl, (r.list f hm).1, (hid f hm).1 (by simpa using this)⟩

/-- An open file is not affected by changes elsewhere. -/
theorem H.frame {x : Option Nat} {s s' : State} {f : Nat} {h : Spec.Handle} (hh : H x s f h) (hf : s'.files f = s.files f)
    (hc : s'.cwd = s.cwd) (hp : s'.pid = s.pid) (ht : s.tempno ≤ s'.tempno)
    (hd : (s.files f).fd ≠ none → s'.dir (full s.cwd (s.files f).work) = s.dir (full s.cwd (s.files f).work)) : H x s' f h where
  mem := by rw [hf]; exact hh.mem
  nofd := by rw [hf]; exact hh.nofd
  fd := by
    rw [hf, hc]
    intro i hi
    rw [hd (by rw [hi]; simp)]
    exact hh.fd i hi
  named := by rw [hf, hc]; exact hh.named
  tmp := by
    rw [hf, hc, hp]
    intro h1 h2
    obtain ⟨a, k, hk, b⟩ := hh.tmp h1 h2
    exact ⟨a, k, by omega, b⟩
  pending := by rw [hf, hc]; exact hh.pending
  reg := by rw [hf, hc]; exact hh.reg

/-- A new temporary name is not the name of an open file. -/
theorem R.fresh {x : Option Nat} {s : State} {a : Spec.State} (r : R x s a) {w : Name} (hw : TempName s.pid (s.tempno + 1).toNat w) {f : Nat}
    (hl : Live a f) (hfd : (s.files f).fd ≠ none) : full s.cwd (s.files f).work ≠ w := by
  intro e
  have h := r.h f hl
  cases ht : (s.files f).temp with
  | true =>
    obtain ⟨_, k, hk, hk2⟩ := h.tmp hfd ht
    rw [e] at hk2
    have := hk2.num hw
    have := r.tn
    omega
  | false =>
    have := (h.named hfd ht).2.1
    rw [e] at this
    exact this hw.temp

theorem R.congr {x : Option Nat} {s : State} {a a' : Spec.State} (r : R x s a) (hn : a'.n = a.n) (hh : a'.handles = a.handles)
    (hv : ∀ m, ¬ Temp m → a'.vis m = a.vis m) : R x s a' := by
  have hl : ∀ f, Live a' f ↔ Live a f := by intro f; unfold Live; rw [hn, hh]
  exact ⟨r.cwd, r.tn, by rw [hn]; exact r.n, fun m hm => by rw [hv m hm]; exact r.vis m hm, r.inj, r.lt,
    fun f hf => ⟨(hl f).2 (r.list f hf).1, (r.list f hf).2⟩, fun f h => r.mem f ((hl f).1 h), fun f h => by rw [hh]; exact r.h f ((hl f).1 h),
    fun f g i h1 h2 => r.fdinj f g i ((hl f).1 h1) ((hl g).1 h2)⟩

/-! ## Deregister -/

theorem release_none {a : Spec.State} {N : Name} (h : ∀ f, ¬ OpenAt a N f) : release a N = a := by
  unfold release
  have : (fun i => if i < a.n ∧ (a.handles i).alive = true ∧ (a.handles i).at_ = some N then
      { a.handles i with at_ := none, pending := some N } else a.handles i) = a.handles := by
    funext i
    rw [if_neg]
    rintro ⟨h1, h2, h3⟩
    exact h i ⟨⟨h1, h2⟩, h3⟩
  rw [this]

theorem release_live {a : Spec.State} {N : Name} (f : Nat) : Live (release a N) f ↔ Live a f := by
  unfold Live release
  simp only []
  split <;> rfl

/-- `Deregister`: the file with the name, if there is one that is open, loses its name. -/
theorem dereg_ok {x : Option Nat} {s : State} {a : Spec.State} (r : R x s a) (hn : s.next ≤ 2 ^ 32) (ht : s.tempno < 32767) (n : Name)
    (hN : ¬ Temp (full s.cwd n)) :
    ∃ s', deregister s n = some s' ∧ s'.cwd = s.cwd ∧ s'.next = s.next ∧ s'.data = s.data ∧ s'.tempno ≤ s.tempno + 1 ∧
      (∀ f, ¬ OpenAt a (full s.cwd n) f → s'.files f = s.files f) ∧
      ((s' = s ∧ ∀ f, ¬ OpenAt a (full s.cwd n) f) ∨
       ((∃ f, OpenAt a (full s.cwd n) f) ∧ s'.dir (full s.cwd n) = none ∧ R x s' (show_ (release a (full s.cwd n)) (full s.cwd n) none))) := by
  obtain ⟨N, hNe⟩ : ∃ N, N = full s.cwd n := ⟨_, rfl⟩
  unfold deregister
  rw [← hNe] at hN ⊢
  cases hd : s.dir N with
  | none =>
    refine ⟨s, rfl, rfl, rfl, rfl, by omega, fun _ _ => rfl, Or.inl ⟨rfl, fun f hf => ?_⟩⟩
    obtain ⟨_, i, _, h2⟩ := (r.openAt hN f).1 hf
    rw [hd] at h2; simp at h2
  | some i =>
    simp only []
    rcases find_ok r hn hd with ⟨f, hf, hl, hfd⟩ | ⟨hf, hnone⟩
    · rw [hf]
      simp only []
      obtain ⟨e1, e2, e3, e4⟩ := r.openAt_named hN hl hfd hd
      have hop : OpenAt a N f := (r.openAt hN f).2 ⟨hl, i, hfd, hd⟩
      rw [if_neg (by rw [e2, hfd]; simp)]
      obtain ⟨w, hw1, hw2, hw3⟩ := getTemp_ok (s := s) (n := (s.files f).work) r.cwd r.tn ht
      rw [hw1]
      simp only []
      have hwN : N ≠ w := by rintro rfl; exact hN hw3.temp
      have hdw : s.dir w ≠ some i := fun he => hwN (r.inj _ _ i hd he)
      unfold osRename
      simp only []
      rw [e1, hd, hw2]
      simp only [Option.map_some]
      rw [if_neg hdw]
      have huniq : ∀ g, OpenAt a N g → g = f := by
        intro g hg
        obtain ⟨l, j, h1, h2⟩ := (r.openAt hN g).1 hg
        rw [hd] at h2
        rw [← Option.some.inj h2] at h1
        exact r.fdinj g f i l hl h1 hfd
      refine ⟨_, rfl, rfl, rfl, rfl, by simp only []; omega, ?_, Or.inr ⟨⟨f, hop⟩, ?_, ?_⟩⟩
      · intro g hg
        have : g ≠ f := by rintro rfl; exact hg hop
        simp only []
        rw [upd_ne _ _ this]
      · simp only []
        rw [upd_ne _ _ hwN, upd_same]
      · have hlive : ∀ g, Live (show_ (release a N) N none) g ↔ Live a g := by
          intro g; show Live (release a N) g ↔ _; exact release_live g
        have hhf : (show_ (release a N) N none).handles f = { a.handles f with at_ := none, pending := some N } := by
          simp only [show_, release]
          rw [if_pos ⟨hl.1, hl.2, hop.2⟩]
        have hhg : ∀ g, Live a g → g ≠ f → (show_ (release a N) N none).handles g = a.handles g := by
          intro g hg hne
          simp only [show_, release]
          rw [if_neg]
          rintro ⟨h1, h2, h3⟩
          exact hne (huniq g ⟨⟨h1, h2⟩, h3⟩)
        constructor
        · exact r.cwd
        · have := r.tn; simp only []; omega
        · exact r.n
        · intro m hm
          have hmw : m ≠ w := by rintro rfl; exact hm hw3.temp
          simp only [show_]
          rw [upd_ne _ _ hmw]
          by_cases hmN : m = N
          · subst hmN; rw [upd_same, if_pos rfl]; rfl
          · rw [upd_ne _ _ hmN, if_neg hmN]
            exact r.vis m hm
        · intro m m' j h1 h2
          simp only [] at h1 h2
          by_cases hm : m = w
          · by_cases hm' : m' = w
            · rw [hm, hm']
            · subst hm
              rw [upd_same] at h1
              rw [upd_ne _ _ hm'] at h2
              by_cases hmN : m' = N
              · rw [hmN, upd_same] at h2; simp at h2
              · rw [upd_ne _ _ hmN] at h2
                rw [← Option.some.inj h1] at h2
                exact absurd (r.inj _ _ i h2 hd) hmN
          · rw [upd_ne _ _ hm] at h1
            by_cases hmN : m = N
            · rw [hmN, upd_same] at h1; simp at h1
            · rw [upd_ne _ _ hmN] at h1
              by_cases hm' : m' = w
              · subst hm'
                rw [upd_same] at h2
                rw [← Option.some.inj h2] at h1
                exact absurd (r.inj _ _ i h1 hd) hmN
              · rw [upd_ne _ _ hm'] at h2
                by_cases hmN' : m' = N
                · rw [hmN', upd_same] at h2; simp at h2
                · rw [upd_ne _ _ hmN'] at h2
                  exact r.inj _ _ j h1 h2
        · intro m j h1
          simp only [] at h1 ⊢
          by_cases hm : m = w
          · subst hm; rw [upd_same] at h1
            rw [← Option.some.inj h1]
            exact r.lt _ _ hd
          · rw [upd_ne _ _ hm] at h1
            by_cases hmN : m = N
            · rw [hmN, upd_same] at h1; simp at h1
            · rw [upd_ne _ _ hmN] at h1; exact r.lt _ _ h1
        · intro g hg
          obtain ⟨h1, h2⟩ := r.list g hg
          refine ⟨(hlive g).2 h1, ?_⟩
          simp only []
          by_cases hgf : g = f
          · subst hgf; rw [upd_same]; exact h2
          · rw [upd_ne _ _ hgf]; exact h2
        · intro g hg h2
          refine r.mem g ((hlive g).1 hg) ?_
          simp only [] at h2
          by_cases hgf : g = f
          · subst hgf; rw [upd_same] at h2; exact h2
          · rw [upd_ne _ _ hgf] at h2; exact h2
        · intro g hg
          have hg' := (hlive g).1 hg
          by_cases hgf : g = f
          · subst hgf
            rw [hhf]
            have hG := r.h g hg'
            constructor
            · simp only [upd_same]; exact hG.mem
            · simp only [upd_same]; intro h0; rw [hfd] at h0; simp at h0
            · simp only [upd_same]
              intro j hj
              refine ⟨trivial, ?_⟩
              rw [hw2, upd_same, ← hj, hfd]
            · simp only [upd_same]; simp
            · simp only [upd_same]
              intro _ _
              refine ⟨trivial, (s.tempno + 1).toNat, ?_, ?_⟩
              · have := r.tn; omega
              · rw [hw2]; exact hw3
            · simp only [upd_same]
              rw [if_neg e4, e1]
            · simp only [upd_same]; rw [e1]; intro _; exact hN
          · rw [hhg g hg' hgf]
            refine (r.h g hg').frame ?_ rfl rfl (by simp only []; omega) ?_
            · simp only []; rw [upd_ne _ _ hgf]
            · intro hfg
              simp only []
              rw [upd_ne _ _ (r.fresh hw3 hg' hfg), upd_ne]
              intro e
              cases hfd' : (s.files g).fd with
              | none => exact hfg hfd'
              | some j =>
                have := ((r.h g hg').fd j hfd').2
                rw [e, hd] at this
                rw [← Option.some.inj this] at hfd'
                exact hgf (r.fdinj g f i hg' hl hfd' hfd)
        · intro g g' j h1 h2 h3 h4
          refine r.fdinj g g' j ((hlive g).1 h1) ((hlive g').1 h2) ?_ ?_
          · simp only [] at h3
            by_cases hgf : g = f
            · subst hgf; rw [upd_same] at h3; exact h3
            · rw [upd_ne _ _ hgf] at h3; exact h3
          · simp only [] at h4
            by_cases hgf : g' = f
            · subst hgf; rw [upd_same] at h4; exact h4
            · rw [upd_ne _ _ hgf] at h4; exact h4
    · rw [hf]
      refine ⟨s, rfl, rfl, rfl, rfl, by omega, fun _ _ => rfl, Or.inl ⟨rfl, fun f hop => ?_⟩⟩
      obtain ⟨l, j, h1, h2⟩ := (r.openAt hN f).1 hop
      rw [hd] at h2
      rw [← Option.some.inj h2] at h1
      exact hnone f l h1


/-! ## Bytes get to the disk -/

theorem R.data {s : State} {a : Spec.State} {x : Option Nat} (r : R x s a) {f i : Nat} (hl : Live a f) (hfd : (s.files f).fd = some i) (c : List Nat) :
    R x { s with data := upd s.data i c } (publish a f c) := by
  have h := r.h f hl
  have hdir := (h.fd i hfd).2
  have hlive : ∀ g, Live (publish a f c) g ↔ Live a g := by
    intro g; unfold publish; split <;> rfl
  have hh : (publish a f c).handles = a.handles := by unfold publish; split <;> rfl
  have hn : (publish a f c).n = a.n := by unfold publish; split <;> rfl
  constructor
  · exact r.cwd
  · exact r.tn
  · rw [hn]; exact r.n
  · intro m hm
    show _ = (s.dir m).map (upd s.data i c)
    have hother : s.dir m ≠ some i → (s.dir m).map (upd s.data i c) = (s.dir m).map s.data := by
      intro hne
      cases hd : s.dir m with
      | none => rfl
      | some j =>
        have : j ≠ i := by rintro rfl; exact hne hd
        simp only [Option.map_some]
        rw [upd_ne _ _ this]
    cases ht : (s.files f).temp with
    | true =>
      obtain ⟨h1, k, _, hk⟩ := h.tmp (by rw [hfd]; simp) ht
      unfold publish
      rw [h1]
      simp only []
      rw [hother, r.vis m hm]
      intro he
      rw [r.inj _ _ i he hdir] at hm
      exact hm hk.temp
    | false =>
      obtain ⟨h1, h2, _⟩ := h.named (by rw [hfd]; simp) ht
      unfold publish
      rw [h1]
      simp only [show_]
      by_cases hmN : m = full s.cwd (s.files f).work
      · rw [if_pos hmN, hmN, hdir, Option.map_some, upd_same]
      · rw [if_neg hmN, hother, r.vis m hm]
        intro he
        exact hmN (r.inj _ _ i he hdir)
  · exact r.inj
  · exact r.lt
  · intro g hg
    exact ⟨(hlive g).2 (r.list g hg).1, (r.list g hg).2⟩
  · intro g hg; exact r.mem g ((hlive g).1 hg)
  · intro g hg
    rw [hh]
    exact (r.h g ((hlive g).1 hg)).frame rfl rfl rfl (Int.le_refl _) (fun _ => rfl)
  · intro g g' j h1 h2; exact r.fdinj g g' j ((hlive g).1 h1) ((hlive g').1 h2)

/-- `Create` of a file not being registered makes a temporary file. -/
theorem create_temp {s : State} {a : Spec.State} (r : R none s a) (ht : s.tempno < 32767) {f : Nat} (hl : Live a f) (hfd : (s.files f).fd = none) :
    ∃ s', create s f = some s' ∧ R none s' a ∧ s'.tempno ≤ s.tempno + 1 ∧ s'.next = s.next + 1 ∧ s'.cwd = s.cwd ∧
      (s'.files f).fd = some s.next ∧ (s'.files f).reg = (s.files f).reg ∧ (s'.files f).temp = true ∧ (s'.files f).mem = (s.files f).mem := by
  have h := r.h f hl
  obtain ⟨hst, hat⟩ := h.nofd hfd
  have hst : (s.files f).st = .create := by
    rcases hst with hst | hst
    · exact hst
    · simp at hst
  unfold create
  rw [if_pos hfd, if_pos hst]
  obtain ⟨w, hw1, hw2, hw3⟩ := getTemp_ok (s := s) (n := (s.files f).reg) r.cwd r.tn ht
  rw [hw1]
  simp only [Option.map_some, upd_same, hw2]
  have hnl : f ∉ s.list := fun hm => (r.list f hm).2 hfd
  refine ⟨_, rfl, ?_, by simp only []; omega, rfl, rfl, by simp only [upd_same], by simp only [upd_same], by simp only [upd_same], by simp only [upd_same]⟩
  have hfo : ∀ (F G : File) (g : Nat), g ≠ f → upd (upd s.files f F) f G g = s.files g := by
    intro F G g hg; rw [upd_ne _ _ hg, upd_ne _ _ hg]
  have hfdn : ∀ g, Live a g → (s.files g).fd ≠ some s.next := by
    intro g hg he
    have := r.lt _ _ ((r.h g hg).fd _ he).2
    omega
  constructor
  · exact r.cwd
  · have := r.tn; simp only []; omega
  · exact r.n
  · intro m hm
    have hmw : m ≠ w := by rintro rfl; exact hm hw3.temp
    simp only []
    rw [upd_ne _ _ hmw, r.vis m hm]
    cases hd : s.dir m with
    | none => rfl
    | some j =>
      have := r.lt _ _ hd
      simp only [Option.map_some]
      rw [upd_ne _ _ (by omega)]
  · intro m m' j h1 h2
    simp only [] at h1 h2
    by_cases hm : m = w
    · by_cases hm' : m' = w
      · rw [hm, hm']
      · rw [hm, upd_same] at h1
        rw [upd_ne _ _ hm'] at h2
        have := r.lt _ _ h2
        have := Option.some.inj h1
        omega
    · rw [upd_ne _ _ hm] at h1
      by_cases hm' : m' = w
      · rw [hm', upd_same] at h2
        have := r.lt _ _ h1
        have := Option.some.inj h2
        omega
      · rw [upd_ne _ _ hm'] at h2
        exact r.inj _ _ j h1 h2
  · intro m j h1
    simp only [] at h1 ⊢
    by_cases hm : m = w
    · rw [hm, upd_same] at h1
      have := Option.some.inj h1
      omega
    · rw [upd_ne _ _ hm] at h1
      have := r.lt _ _ h1
      omega
  · intro g hg
    simp only [] at hg ⊢
    rcases List.mem_cons.1 hg with hgf | hg
    · exact ⟨hgf ▸ hl, by rw [hgf, upd_same]; simp⟩
    · have : g ≠ f := fun e => hnl (e ▸ hg)
      rw [hfo _ _ g this]
      exact r.list g hg
  · intro g hg h2
    simp only [] at h2 ⊢
    by_cases hgf : g = f
    · subst hgf; exact List.mem_cons_self
    · rw [hfo _ _ g hgf] at h2
      exact List.mem_cons_of_mem _ (r.mem g hg h2)
  · intro g hg
    by_cases hgf : g = f
    · subst hgf
      constructor
      · simp only [upd_same]; exact h.mem
      · simp only [upd_same]; simp
      · simp only [upd_same]
        intro j hj
        refine ⟨trivial, ?_⟩
        rw [hw2, upd_same, ← hj]
      · simp only [upd_same]; simp
      · simp only [upd_same]
        intro _ _
        refine ⟨hat, (s.tempno + 1).toNat, ?_, ?_⟩
        · have := r.tn; omega
        · rw [hw2]; exact hw3
      · simp only [upd_same]; exact h.pending
      · simp only [upd_same]; exact h.reg
    · refine (r.h g hg).frame (hfo _ _ g hgf) rfl rfl (by simp only []; omega) ?_
      intro hfg
      simp only []
      rw [upd_ne _ _ (r.fresh hw3 hg hfg)]
  · intro g g' j h1 h2 h3 h4
    simp only [] at h3 h4
    by_cases hgf : g = f
    · by_cases hgf' : g' = f
      · rw [hgf, hgf']
      · rw [hgf, upd_same] at h3
        rw [hfo _ _ g' hgf'] at h4
        simp only [] at h3
        rw [← h3] at h4
        exact absurd h4 (hfdn g' h2)
    · rw [hfo _ _ g hgf] at h3
      by_cases hgf' : g' = f
      · rw [hgf', upd_same] at h4
        simp only [] at h4
        rw [← h4] at h3
        exact absurd h3 (hfdn g h1)
      · rw [hfo _ _ g' hgf'] at h4
        exact r.fdinj g g' j h1 h2 h3 h4

/-- `Flush` with `Create`. -/
theorem store_ok {s : State} {a : Spec.State} (r : R none s a) (ht : s.tempno < 32767) {f : Nat} (hl : Live a f) (c : List Nat) :
    ∃ s', store s f c = some s' ∧ R none s' (publish a f c) ∧ s'.tempno ≤ s.tempno + 1 ∧ s'.next ≤ s.next + 1 ∧ s'.cwd = s.cwd ∧
      (s'.files f).reg = (s.files f).reg ∧ (∃ i, (s'.files f).fd = some i ∧ s'.data i = c) ∧
      ((s.files f).fd ≠ none → s'.tempno = s.tempno ∧ s'.next = s.next ∧ (s'.files f).temp = (s.files f).temp) := by
  unfold store
  cases hfd : (s.files f).fd with
  | none =>
    obtain ⟨s1, h1, h2, h3, h4, h5, h6, h7, h8, h9⟩ := create_temp r ht hl hfd
    rw [h1, Option.bind_some, h6, Option.map_some]
    exact ⟨_, rfl, h2.data hl h6 c, h3, by simp only []; omega, h5, h7, ⟨s.next, h6, by simp only [upd_same]⟩, fun hn => absurd rfl hn⟩
  | some i =>
    have : create s f = some s := by unfold create; rw [if_neg (by rw [hfd]; simp)]
    rw [this, Option.bind_some, hfd, Option.map_some]
    exact ⟨_, rfl, r.data hl hfd c, by simp only []; omega, by simp only []; omega, rfl, rfl, ⟨i, hfd, by simp only [upd_same]⟩, fun _ => ⟨rfl, rfl, rfl⟩⟩

/-! ## A file gets its name -/

/-- A file that is on the disk only in memory gets a name nobody has. -/
theorem R.bind {s : State} {a : Spec.State} {f : Nat} (r : R (some f) s a) (hl : Live a f) (hfd : (s.files f).fd = none) {n : Name}
    (hn0 : n ≠ []) (hN : ¬ Temp (full s.cwd n)) (hop : ∀ g, ¬ OpenAt a (full s.cwd n) g) (c : List Nat) (F : File)
    (hF : F = ⟨n, [], false, some s.next, .opn, (s.files f).mem⟩) :
    R none { s with
        dir := upd s.dir (full s.cwd n) (some s.next)
        data := upd s.data s.next c
        next := s.next + 1
        list := f :: s.list
        files := upd s.files f F }
      (show_ (setHandle a f { a.handles f with pending := none, at_ := some (full s.cwd n) }) (full s.cwd n) (some c)) := by
  obtain ⟨N, hNe⟩ : ∃ N, N = full s.cwd n := ⟨_, rfl⟩
  rw [← hNe] at hN hop ⊢
  have h := r.h f hl
  have hlive : ∀ g, Live (show_ (setHandle a f { a.handles f with pending := none, at_ := some N }) N (some c)) g ↔ Live a g := by
    intro g
    unfold Live show_ setHandle
    simp only []
    by_cases hgf : g = f
    · subst hgf; rw [if_pos rfl]
    · rw [if_neg hgf]
  have hnl : f ∉ s.list := fun hm => (r.list f hm).2 hfd
  have hfdn : ∀ g, Live a g → (s.files g).fd ≠ some s.next := by
    intro g hg he
    have := r.lt _ _ ((r.h g hg).fd _ he).2
    omega
  have hworkN : ∀ g, Live a g → (s.files g).fd ≠ none → full s.cwd (s.files g).work ≠ N := by
    intro g hg hne e
    cases hfd' : (s.files g).fd with
    | none => exact hne hfd'
    | some i =>
      have := ((r.h g hg).fd i hfd').2
      rw [e] at this
      exact hop g ((r.openAt hN g).2 ⟨hg, i, hfd', this⟩)
  constructor
  · exact r.cwd
  · exact r.tn
  · exact r.n
  · intro m hm
    simp only [show_, setHandle]
    by_cases hmN : m = N
    · rw [if_pos hmN, hmN, upd_same, Option.map_some, upd_same]
    · rw [if_neg hmN, upd_ne _ _ hmN, r.vis m hm]
      cases hd : s.dir m with
      | none => rfl
      | some j =>
        have := r.lt _ _ hd
        simp only [Option.map_some]
        rw [upd_ne _ _ (by omega)]
  · intro m m' j h1 h2
    simp only [] at h1 h2
    by_cases hm : m = N
    · by_cases hm' : m' = N
      · rw [hm, hm']
      · rw [hm, upd_same] at h1
        rw [upd_ne _ _ hm'] at h2
        have := r.lt _ _ h2
        have := Option.some.inj h1
        omega
    · rw [upd_ne _ _ hm] at h1
      by_cases hm' : m' = N
      · rw [hm', upd_same] at h2
        have := r.lt _ _ h1
        have := Option.some.inj h2
        omega
      · rw [upd_ne _ _ hm'] at h2
        exact r.inj _ _ j h1 h2
  · intro m j h1
    simp only [] at h1 ⊢
    by_cases hm : m = N
    · rw [hm, upd_same] at h1
      have := Option.some.inj h1
      omega
    · rw [upd_ne _ _ hm] at h1
      have := r.lt _ _ h1
      omega
  · intro g hg
    simp only [] at hg ⊢
    rcases List.mem_cons.1 hg with hgf | hg
    · exact ⟨(hlive g).2 (hgf ▸ hl), by rw [hgf, upd_same, hF]; simp⟩
    · have : g ≠ f := fun e => hnl (e ▸ hg)
      rw [upd_ne _ _ this]
      exact ⟨(hlive g).2 (r.list g hg).1, (r.list g hg).2⟩
  · intro g hg h2
    simp only [] at h2 ⊢
    by_cases hgf : g = f
    · subst hgf; exact List.mem_cons_self
    · rw [upd_ne _ _ hgf] at h2
      exact List.mem_cons_of_mem _ (r.mem g ((hlive g).1 hg) h2)
  · intro g hg
    have hg' := (hlive g).1 hg
    by_cases hgf : g = f
    · subst hgf
      have e : (show_ (setHandle a g { a.handles g with pending := none, at_ := some N }) N (some c)).handles g =
          { a.handles g with pending := none, at_ := some N } := by simp [show_, setHandle]
      rw [e]
      constructor
      · simp only [upd_same, hF]; exact h.mem
      · simp only [upd_same, hF]; simp
      · simp only [upd_same, hF]
        intro j hj
        refine ⟨trivial, ?_⟩
        rw [← hNe, upd_same, ← hj]
      · simp only [upd_same, hF]
        intro _ _
        exact ⟨by rw [hNe], by rw [← hNe]; exact hN, trivial, hn0⟩
      · simp only [upd_same, hF]; simp
      · simp only [upd_same, hF]; simp
      · simp only [upd_same, hF]; simp
    · have e : (show_ (setHandle a f { a.handles f with pending := none, at_ := some N }) N (some c)).handles g = a.handles g := by
        simp [show_, setHandle, hgf]
      rw [e]
      have h0 : H none s g (a.handles g) := by
        have q := r.h g hg'
        refine ⟨q.mem, fun h0 => ⟨?_, (q.nofd h0).2⟩, q.fd, q.named, q.tmp, q.pending, q.reg⟩
        rcases (q.nofd h0).1 with q1 | q1
        · exact Or.inl q1
        · exact absurd (Option.some.inj q1).symm hgf
      refine h0.frame (by simp only []; rw [upd_ne _ _ hgf]) rfl rfl (Int.le_refl _) ?_
      intro hfg
      simp only []
      rw [upd_ne _ _ (hworkN g hg' hfg)]
  · intro g g' j h1 h2 h3 h4
    have h1 := (hlive g).1 h1
    have h2 := (hlive g').1 h2
    simp only [] at h3 h4
    by_cases hgf : g = f
    · by_cases hgf' : g' = f
      · rw [hgf, hgf']
      · rw [hgf, upd_same, hF] at h3
        rw [upd_ne _ _ hgf'] at h4
        simp only [] at h3
        rw [← h3] at h4
        exact absurd h4 (hfdn g' h2)
    · rw [upd_ne _ _ hgf] at h3
      by_cases hgf' : g' = f
      · rw [hgf', upd_same, hF] at h4
        simp only [] at h4
        rw [← h4] at h3
        exact absurd h3 (hfdn g h1)
      · rw [upd_ne _ _ hgf'] at h4
        exact r.fdinj g g' j h1 h2 h3 h4

/-- A temporary file gets a name nobody has. -/
theorem R.move {s : State} {a : Spec.State} {f i : Nat} (r : R none s a) (hl : Live a f) (hfd : (s.files f).fd = some i)
    (htm : (s.files f).temp = true) {n : Name}
    (hn0 : n ≠ []) (hN : ¬ Temp (full s.cwd n)) (hop : ∀ g, ¬ OpenAt a (full s.cwd n) g) (F : File)
    (hF : F = { s.files f with work := n, reg := [], temp := false }) :
    R none { s with
        dir := upd (upd s.dir (full s.cwd (s.files f).work) none) (full s.cwd n) (some i)
        files := upd s.files f F }
      (show_ (setHandle a f { a.handles f with pending := none, at_ := some (full s.cwd n) }) (full s.cwd n) (some (s.data i))) := by
  obtain ⟨N, hNe⟩ : ∃ N, N = full s.cwd n := ⟨_, rfl⟩
  obtain ⟨W, hWe⟩ : ∃ W, W = full s.cwd (s.files f).work := ⟨_, rfl⟩
  have h := r.h f hl
  obtain ⟨hst, hdW⟩ := h.fd i hfd
  obtain ⟨hat, k, hk, hkW⟩ := h.tmp (by rw [hfd]; simp) htm
  rw [← hWe] at hdW hkW
  rw [← hNe] at hN hop
  rw [← hNe, ← hWe]
  have hWN : W ≠ N := by rintro rfl; exact hN hkW.temp
  have hlive : ∀ g, Live (show_ (setHandle a f { a.handles f with pending := none, at_ := some N }) N (some (s.data i))) g ↔ Live a g := by
    intro g
    unfold Live show_ setHandle
    simp only []
    by_cases hgf : g = f
    · subst hgf; rw [if_pos rfl]
    · rw [if_neg hgf]
  have hworkN : ∀ g, Live a g → (s.files g).fd ≠ none → full s.cwd (s.files g).work ≠ N := by
    intro g hg hne e
    cases hfd' : (s.files g).fd with
    | none => exact hne hfd'
    | some i =>
      have := ((r.h g hg).fd i hfd').2
      rw [e] at this
      exact hop g ((r.openAt hN g).2 ⟨hg, i, hfd', this⟩)
  have hworkW : ∀ g, Live a g → g ≠ f → (s.files g).fd ≠ none → full s.cwd (s.files g).work ≠ W := by
    intro g hg hgf hne e
    cases hfd' : (s.files g).fd with
    | none => exact hne hfd'
    | some j =>
      have := ((r.h g hg).fd j hfd').2
      rw [e, hdW] at this
      rw [← Option.some.inj this] at hfd'
      exact hgf (r.fdinj g f i hg hl hfd' hfd)
  have hfds : ∀ g, (upd s.files f F g).fd = (s.files g).fd := by
    intro g
    by_cases hgf : g = f
    · subst hgf; rw [upd_same, hF]
    · rw [upd_ne _ _ hgf]
  -- the directory afterwards
  have hdir : ∀ m j, upd (upd s.dir W none) N (some i) m = some j → (m = N ∧ j = i) ∨ (m ≠ N ∧ m ≠ W ∧ s.dir m = some j) := by
    intro m j hm
    by_cases hmN : m = N
    · rw [hmN, upd_same] at hm
      exact Or.inl ⟨hmN, (Option.some.inj hm).symm⟩
    · rw [upd_ne _ _ hmN] at hm
      by_cases hmW : m = W
      · rw [hmW, upd_same] at hm; simp at hm
      · rw [upd_ne _ _ hmW] at hm
        exact Or.inr ⟨hmN, hmW, hm⟩
  constructor
  · exact r.cwd
  · exact r.tn
  · exact r.n
  · intro m hm
    simp only [show_, setHandle]
    by_cases hmN : m = N
    · rw [if_pos hmN, hmN, upd_same, Option.map_some]
    · have hmW : m ≠ W := by rintro rfl; exact hm hkW.temp
      rw [if_neg hmN, upd_ne _ _ hmN, upd_ne _ _ hmW, r.vis m hm]
  · intro m m' j h1 h2
    rcases hdir m j h1 with ⟨a1, a2⟩ | ⟨a1, a2, a3⟩
    · rcases hdir m' j h2 with ⟨b1, b2⟩ | ⟨b1, b2, b3⟩
      · rw [a1, b1]
      · rw [a2] at b3
        exact absurd (r.inj _ _ i b3 hdW) b2
    · rcases hdir m' j h2 with ⟨b1, b2⟩ | ⟨b1, b2, b3⟩
      · rw [b2] at a3
        exact absurd (r.inj _ _ i a3 hdW) a2
      · exact r.inj _ _ j a3 b3
  · intro m j h1
    rcases hdir m j h1 with ⟨a1, a2⟩ | ⟨a1, a2, a3⟩
    · rw [a2]; exact r.lt _ _ hdW
    · exact r.lt _ _ a3
  · intro g hg
    obtain ⟨h1, h2⟩ := r.list g hg
    refine ⟨(hlive g).2 h1, ?_⟩
    simp only []
    rw [hfds]; exact h2
  · intro g hg h2
    simp only [] at h2 ⊢
    rw [hfds] at h2
    exact r.mem g ((hlive g).1 hg) h2
  · intro g hg
    have hg' := (hlive g).1 hg
    by_cases hgf : g = f
    · subst hgf
      have e : (show_ (setHandle a g { a.handles g with pending := none, at_ := some N }) N (some (s.data i))).handles g =
          { a.handles g with pending := none, at_ := some N } := by simp [show_, setHandle]
      rw [e]
      constructor
      · simp only [upd_same, hF]; exact h.mem
      · simp only [upd_same, hF]; rw [hfd]; simp
      · simp only [upd_same, hF]
        intro j hj
        refine ⟨hst, ?_⟩
        rw [← hNe, upd_same, ← hj, hfd]
      · simp only [upd_same, hF]
        intro _ _
        exact ⟨by rw [hNe], by rw [← hNe]; exact hN, trivial, hn0⟩
      · simp only [upd_same, hF]; simp
      · simp only [upd_same, hF]; simp
      · simp only [upd_same, hF]; simp
    · have e : (show_ (setHandle a f { a.handles f with pending := none, at_ := some N }) N (some (s.data i))).handles g = a.handles g := by
        simp [show_, setHandle, hgf]
      rw [e]
      refine (r.h g hg').frame (by simp only []; rw [upd_ne _ _ hgf]) rfl rfl (Int.le_refl _) ?_
      intro hfg
      simp only []
      rw [upd_ne _ _ (hworkN g hg' hfg), upd_ne _ _ (hworkW g hg' hgf hfg)]
  · intro g g' j h1 h2 h3 h4
    simp only [] at h3 h4
    rw [hfds] at h3 h4
    exact r.fdinj g g' j ((hlive g).1 h1) ((hlive g').1 h2) h3 h4

/-! ## Names that no open file has -/

theorem R.unlink {s : State} {a : Spec.State} (r : R none s a) {N : Name} (hN : ¬ Temp N) (hop : ∀ g, ¬ OpenAt a N g) :
    R none { s with dir := upd s.dir N none } (show_ a N none) := by
  have hdir : ∀ m j, upd s.dir N none m = some j → m ≠ N ∧ s.dir m = some j := by
    intro m j hm
    by_cases hmN : m = N
    · rw [hmN, upd_same] at hm; simp at hm
    · rw [upd_ne _ _ hmN] at hm; exact ⟨hmN, hm⟩
  constructor
  · exact r.cwd
  · exact r.tn
  · exact r.n
  · intro m hm
    simp only [show_]
    by_cases hmN : m = N
    · rw [if_pos hmN, hmN, upd_same]; rfl
    · rw [if_neg hmN, upd_ne _ _ hmN]; exact r.vis m hm
  · intro m m' j h1 h2; exact r.inj _ _ j (hdir m j h1).2 (hdir m' j h2).2
  · intro m j h1; exact r.lt _ _ (hdir m j h1).2
  · exact r.list
  · exact r.mem
  · intro g hg
    refine (r.h g hg).frame rfl rfl rfl (Int.le_refl _) ?_
    intro hfg
    simp only []
    rw [upd_ne]
    intro e
    cases hfd' : (s.files g).fd with
    | none => exact hfg hfd'
    | some i =>
      have := ((r.h g hg).fd i hfd').2
      rw [e] at this
      exact hop g ((r.openAt hN g).2 ⟨hg, i, hfd', this⟩)
  · exact r.fdinj

theorem R.renamed {s : State} {a : Spec.State} (r : R none s a) {N M : Name} (hN : ¬ Temp N) (hM : ¬ Temp M) (hNM : N ≠ M)
    (hopN : ∀ g, ¬ OpenAt a N g) (hopM : ∀ g, ¬ OpenAt a M g) {i : Nat} (hd : s.dir N = some i) :
    R none { s with dir := upd (upd s.dir N none) M (some i) } (show_ (show_ a N none) M (some (s.data i))) := by
  have hdir : ∀ m j, upd (upd s.dir N none) M (some i) m = some j → (m = M ∧ j = i) ∨ (m ≠ M ∧ m ≠ N ∧ s.dir m = some j) := by
    intro m j hm
    by_cases hmN : m = M
    · rw [hmN, upd_same] at hm
      exact Or.inl ⟨hmN, (Option.some.inj hm).symm⟩
    · rw [upd_ne _ _ hmN] at hm
      by_cases hmW : m = N
      · rw [hmW, upd_same] at hm; simp at hm
      · rw [upd_ne _ _ hmW] at hm
        exact Or.inr ⟨hmN, hmW, hm⟩
  have hwork : ∀ K, ¬ Temp K → (∀ g, ¬ OpenAt a K g) → ∀ g, Live a g → (s.files g).fd ≠ none → full s.cwd (s.files g).work ≠ K := by
    intro K hK hop g hg hne e
    cases hfd' : (s.files g).fd with
    | none => exact hne hfd'
    | some i =>
      have := ((r.h g hg).fd i hfd').2
      rw [e] at this
      exact hop g ((r.openAt hK g).2 ⟨hg, i, hfd', this⟩)
  constructor
  · exact r.cwd
  · exact r.tn
  · exact r.n
  · intro m hm
    simp only [show_]
    by_cases hmM : m = M
    · rw [if_pos hmM, hmM, upd_same]; rfl
    · rw [if_neg hmM, upd_ne _ _ hmM]
      by_cases hmN : m = N
      · rw [if_pos hmN, hmN, upd_same]; rfl
      · rw [if_neg hmN, upd_ne _ _ hmN]; exact r.vis m hm
  · intro m m' j h1 h2
    rcases hdir m j h1 with ⟨a1, a2⟩ | ⟨a1, a2, a3⟩
    · rcases hdir m' j h2 with ⟨b1, b2⟩ | ⟨b1, b2, b3⟩
      · rw [a1, b1]
      · rw [a2] at b3
        exact absurd (r.inj _ _ i b3 hd) b2
    · rcases hdir m' j h2 with ⟨b1, b2⟩ | ⟨b1, b2, b3⟩
      · rw [b2] at a3
        exact absurd (r.inj _ _ i a3 hd) a2
      · exact r.inj _ _ j a3 b3
  · intro m j h1
    rcases hdir m j h1 with ⟨a1, a2⟩ | ⟨a1, a2, a3⟩
    · rw [a2]; exact r.lt _ _ hd
    · exact r.lt _ _ a3
  · exact r.list
  · exact r.mem
  · intro g hg
    refine (r.h g hg).frame rfl rfl rfl (Int.le_refl _) ?_
    intro hfg
    simp only []
    rw [upd_ne _ _ (hwork M hM hopM g hg hfg), upd_ne _ _ (hwork N hN hopN g hg hfg)]
  · exact r.fdinj

/-- A file is added. -/
theorem R.add {s : State} {a : Spec.State} (r : R none s a) (F : File) (h : Spec.Handle) (l : List Nat) (ha : h.alive = true)
    (hH : H none { s with nfiles := s.nfiles + 1, files := upd s.files s.nfiles F, list := l } s.nfiles h)
    (hfd : ∀ i, F.fd = some i → ∀ g, Live a g → (s.files g).fd ≠ some i) (hl1 : l = if F.fd = none then s.list else s.nfiles :: s.list) :
    R none { s with nfiles := s.nfiles + 1, files := upd s.files s.nfiles F, list := l }
      { a with n := a.n + 1, handles := fun i => if i = a.n then h else a.handles i } := by
  have hlive : ∀ g, Live { a with n := a.n + 1, handles := fun i => if i = a.n then h else a.handles i } g ↔ g = s.nfiles ∨ (g ≠ s.nfiles ∧ Live a g) := by
    intro g
    unfold Live
    simp only []
    rw [r.n]
    by_cases hg : g = s.nfiles
    · simp [hg, ha]
    · simp only [if_neg hg]
      constructor
      · rintro ⟨h1, h2⟩; exact Or.inr ⟨hg, by omega, h2⟩
      · rintro (h1 | ⟨_, h1, h2⟩)
        · exact absurd h1 hg
        · exact ⟨by omega, h2⟩
  have hlt : ∀ g, Live a g → g ≠ s.nfiles := by
    intro g hg
    have := hg.1
    rw [r.n] at this
    omega
  constructor
  · exact r.cwd
  · exact r.tn
  · show a.n + 1 = s.nfiles + 1; rw [r.n]
  · exact r.vis
  · exact r.inj
  · exact r.lt
  · intro g hg
    simp only [] at hg ⊢
    rw [hl1] at hg
    have hcase : (g = s.nfiles ∧ F.fd ≠ none) ∨ g ∈ s.list := by
      by_cases hF : F.fd = none
      · rw [if_pos hF] at hg; exact Or.inr hg
      · rw [if_neg hF] at hg
        rcases List.mem_cons.1 hg with h1 | h1
        · exact Or.inl ⟨h1, hF⟩
        · exact Or.inr h1
    rcases hcase with ⟨h1, h2⟩ | h1
    · exact ⟨(hlive g).2 (Or.inl h1), by rw [h1, upd_same]; exact h2⟩
    · obtain ⟨h2, h3⟩ := r.list g h1
      have := hlt g h2
      exact ⟨(hlive g).2 (Or.inr ⟨this, h2⟩), by rw [upd_ne _ _ this]; exact h3⟩
  · intro g hg h2
    simp only [] at h2 ⊢
    rcases (hlive g).1 hg with h1 | ⟨h1, h3⟩
    · rw [h1, upd_same] at h2
      rw [hl1, if_neg h2, h1]
      exact List.mem_cons_self
    · rw [upd_ne _ _ h1] at h2
      have := r.mem g h3 h2
      rw [hl1]
      split
      · exact this
      · exact List.mem_cons_of_mem _ this
  · intro g hg
    rcases (hlive g).1 hg with h1 | ⟨h1, h3⟩
    · subst h1
      have e : ({ a with n := a.n + 1, handles := fun i => if i = a.n then h else a.handles i } : Spec.State).handles s.nfiles = h := by
        simp only []; rw [if_pos r.n.symm]
      rw [e]
      exact hH
    · have e : ({ a with n := a.n + 1, handles := fun i => if i = a.n then h else a.handles i } : Spec.State).handles g = a.handles g := by
        simp only []; rw [if_neg (by rw [r.n]; exact h1)]
      rw [e]
      exact (r.h g h3).frame (by simp only []; rw [upd_ne _ _ h1]) rfl rfl (Int.le_refl _) (fun _ => rfl)
  · intro g g' j h1 h2 h3 h4
    simp only [] at h3 h4
    rcases (hlive g).1 h1 with h1 | ⟨h1, l1⟩
    · rcases (hlive g').1 h2 with h2 | ⟨h2, l2⟩
      · rw [h1, h2]
      · rw [h1, upd_same] at h3
        rw [upd_ne _ _ h2] at h4
        exact absurd h4 (hfd j h3 g' l2)
    · rw [upd_ne _ _ h1] at h3
      rcases (hlive g').1 h2 with h2 | ⟨h2, l2⟩
      · rw [h2, upd_same] at h4
        exact absurd h3 (hfd j h4 g l1)
      · rw [upd_ne _ _ h2] at h4
        exact r.fdinj g g' j l1 l2 h3 h4

end Verif.Names
