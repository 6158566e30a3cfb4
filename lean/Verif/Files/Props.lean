import Verif.Common
import Verif.Files.Ops

/-!
# C26: files behave as byte arrays

`Spec.Run a ops outs stopped` (Spec.lean) tells which results a program can see when it makes the calls `ops` and files
are nothing but lists of bytes.  The theorem says: what the program sees of the buffered files is always one of these.
-/
namespace Verif.Files

open Spec (overwrite)

/-! ## Close -/

theorem flushAll_ok {B N : Nat} {f : Nat} {L : List Nat} (hB : 0 < B) : ∀ (k i : Nat) (s : State), FI B N s f L N → GI N s → i + k = N →
    (∀ j, j < i → (s.files f).bufs j ≠ 0 → (s.bufs ((s.files f).bufs j)).chg = false) →
    ∃ s', flushAll none f k i s = some s' ∧ FI B N s' f L N ∧ GI N s' ∧ Ext s s' f ∧
      ∀ j, j < N → (s'.files f).bufs j ≠ 0 → (s'.bufs ((s'.files f).bufs j)).chg = false
  | 0, i, s, h, g, hi, hc => ⟨s, rfl, h, g, Ext.refl s f, fun j hj h0 => hc j (by omega) h0⟩
  | k + 1, i, s, h, g, hi, hc => by
    simp only [flushAll]
    by_cases h0 : (s.files f).bufs i ≠ 0
    · rw [if_pos h0]
      obtain ⟨s1, e1, e2, e3, e4, e5, e6, e7, e8, e9⟩ := flush_ok hB h g (k := i) (by omega) h0
      rw [e1, Option.bind_some]
      obtain ⟨s2, q1, q2, q3, q4, q5⟩ := flushAll_ok hB k (i + 1) s1 e2 e3 (by omega) (by
        intro j hj hj0
        rw [e7] at hj0 ⊢
        rw [e5]
        by_cases hb : (s.files f).bufs j = (s.files f).bufs i
        · rw [hb, upd_same]
        · rw [upd_ne _ _ hb]
          have : j ≠ i := by rintro rfl; exact hb rfl
          exact hc j (by omega) hj0)
      exact ⟨s2, q1, q2, q3, e4.trans q4, q5⟩
    · rw [if_neg h0]
      refine ⟨s, rfl, h, g, Ext.refl s f, fun j hj hj0 => ?_⟩
      by_cases hji : j < i
      · exact hc j hji hj0
      · exact absurd (h.nil i j (by omega) hj (by simpa using h0)) hj0

/-- When no buffer is dirty, the disk has the content. -/
theorem clean {B N : Nat} {s : State} {f : Nat} {L : List Nat} (h : FI B N s f L N)
    (hc : ∀ j, j < N → (s.files f).bufs j ≠ 0 → (s.bufs ((s.files f).bufs j)).chg = false) :
    bytesAt (s.files f).os 0 (s.files f).osLen = L := by
  have hcov : ∀ i, i < L.length → i < (s.files f).osLen ∧ L[i]? = some ((s.files f).os i) := by
    intro i hi
    rcases h.cover i hi with ⟨k, o, a1, _, a3, a4, _⟩ | a
    · rw [hc k a1 a3] at a4; simp at a4
    · exact a
  have hle := h.osle
  have heq : (s.files f).osLen = L.length := by
    by_contra hne
    have := (hcov (s.files f).osLen (by omega)).1
    omega
  apply List.ext_getElem?
  intro i
  by_cases hi : i < L.length
  · rw [bytesAt_get _ _ _ (by omega), Nat.zero_add, (hcov i hi).2]
  · rw [List.getElem?_eq_none (by rw [bytesAt_length]; omega), List.getElem?_eq_none (by omega)]

theorem close_ok {B N : Nat} {s : State} {f : Nat} {L : List Nat} (hB : 0 < B) (h : FI B N s f L N) (g : GI N s) :
    ∃ s', close N none s f = some s' ∧ FI B N s' f L N ∧ GI N s' ∧ Ext s s' f ∧
      (((s'.files f).created = true ∧ bytesAt (s'.files f).os 0 (s'.files f).osLen = L) ∨
       ((s'.files f).created = false ∧ (s.files f).anon = true)) := by
  unfold close
  by_cases hc : (s.files f).created = true ∨ (s.files f).anon = false
  · rw [if_pos hc]
    obtain ⟨c1, c2, c3, _⟩ := create_ok h
    obtain ⟨s', q1, q2, q3, q4, q5⟩ := flushAll_ok hB N 0 (create s f) c1 (create_gi g) (by omega) (by intro j hj; omega)
    exact ⟨s', q1, q2, q3, c2.trans q4, Or.inl ⟨q4.created c3, clean q2 q5⟩⟩
  · rw [if_neg hc]
    refine ⟨s, rfl, h, g, Ext.refl s f, Or.inr ?_⟩
    constructor
    · cases hcc : (s.files f).created with
      | false => rfl
      | true => exact absurd (Or.inl hcc) hc
    · cases hcc : (s.files f).anon with
      | true => rfl
      | false => exact absurd (Or.inr hcc) hc

/-! ## Files that are not concerned -/

theorem FI.frame' {B N : Nat} {s s' : State} {g : Nat} {L : List Nat} (h : FI B N s g L N) (ef : s'.files g = s.files g)
    (eb : ∀ k, k < N → (s.files g).bufs k ≠ 0 → s'.bufs ((s.files g).bufs k) = s.bufs ((s.files g).bufs k))
    (en : s.next ≤ s'.next) : FI B N s' g L N := by
  constructor
  · rw [ef]; exact h.len
  · rw [ef]; exact h.osle
  · rw [ef]; exact h.nc
  · rw [ef]; exact h.pos
  · rw [ef]; exact h.nil
  · rw [ef]
    intro k hk hx h0
    rw [eb k hk h0]
    obtain ⟨h1, h2, h3⟩ := h.buf k hk hx h0
    exact ⟨Nat.lt_of_lt_of_le h1 en, h2, h3⟩
  · rw [ef]
    intro k k' hk hk' hx hx' h0 h0'
    rw [eb k hk h0, eb k' hk' h0']
    exact h.orgs k k' hk hk' hx hx' h0 h0'
  · rw [ef]
    intro i hi
    rcases h.cover i hi with ⟨k, org, hk, hx, h0, h1⟩ | h1
    · left; exact ⟨k, org, hk, hx, h0, by rw [eb k hk h0]; exact h1⟩
    · right; exact h1
  · rw [ef]; exact h.sw

/-! ## Purge -/

theorem dropBufs_ok {f : Nat} : ∀ (k i : Nat) (s : State),
    (dropBufs f k i s).next = s.next ∧ (dropBufs f k i s).nfiles = s.nfiles ∧ (dropBufs f k i s).riders = s.riders ∧
    (∀ g, g ≠ f → (dropBufs f k i s).files g = s.files g) ∧
    (∃ q, (dropBufs f k i s).files f = { s.files f with bufs := q } ∧ (∀ j, i ≤ j → j < i + k → q j = 0) ∧
      ∀ j, j < i → q j = (s.files f).bufs j) ∧
    (∀ b, ((dropBufs f k i s).bufs b).f = (s.bufs b).f) ∧
    (∀ b, (s.bufs b).org = none → ((dropBufs f k i s).bufs b).org = none) ∧
    (∀ j, i ≤ j → j < i + k → (s.files f).bufs j ≠ 0 → ((dropBufs f k i s).bufs ((s.files f).bufs j)).org = none) ∧
    (∀ b, (∀ j, i ≤ j → j < i + k → (s.files f).bufs j ≠ 0 → (s.files f).bufs j ≠ b) → (dropBufs f k i s).bufs b = s.bufs b)
  | 0, i, s => by
    refine ⟨rfl, rfl, rfl, fun _ _ => rfl, ⟨(s.files f).bufs, rfl, fun j _ _ => by omega, fun _ _ => rfl⟩, fun _ => rfl, fun _ h => h,
      fun j _ _ => by omega, fun _ _ => rfl⟩
  | k + 1, i, s => by
    simp only [dropBufs]
    by_cases h0 : (s.files f).bufs i ≠ 0
    · rw [if_pos h0]
      obtain ⟨t, ht⟩ : ∃ t : State, t = { s with
          bufs := upd s.bufs ((s.files f).bufs i) { s.bufs ((s.files f).bufs i) with org := none }
          files := upd s.files f { s.files f with bufs := upd (s.files f).bufs i 0 } } := ⟨_, rfl⟩
      rw [← ht]
      have tb : t.bufs = upd s.bufs ((s.files f).bufs i) { s.bufs ((s.files f).bufs i) with org := none } := by rw [ht]
      have tf : t.files f = { s.files f with bufs := upd (s.files f).bufs i 0 } := by rw [ht]; simp only [upd_same]
      obtain ⟨a1, a2, a3, a4, ⟨q, a5, a6, a7⟩, a8, a9, a10, a11⟩ := dropBufs_ok k (i + 1) t (f := f)
      refine ⟨by rw [a1, ht], by rw [a2, ht], by rw [a3, ht], ?_, ⟨q, ?_, ?_, ?_⟩, ?_, ?_, ?_, ?_⟩
      · intro g hg; rw [a4 g hg, ht]; simp only []; rw [upd_ne _ _ hg]
      · rw [a5, tf]
      · intro j h1 h2
        by_cases hj : j = i
        · subst hj; rw [a7 j (by omega), tf]; simp only [upd_same]
        · exact a6 j (by omega) (by omega)
      · intro j h1
        rw [a7 j (by omega), tf]
        simp only []
        rw [upd_ne _ _ (by omega)]
      · intro b
        rw [a8, tb]
        by_cases hb : b = (s.files f).bufs i
        · subst hb; rw [upd_same]
        · rw [upd_ne _ _ hb]
      · intro b hb
        apply a9
        rw [tb]
        by_cases hbi : b = (s.files f).bufs i
        · subst hbi; rw [upd_same]
        · rw [upd_ne _ _ hbi]; exact hb
      · intro j h1 h2 h3
        by_cases hj : (s.files f).bufs j = (s.files f).bufs i
        · rw [hj]
          apply a9
          rw [tb, upd_same]
        · have hji : j ≠ i := by rintro rfl; exact hj rfl
          have := a10 j (by omega) (by omega)
          rw [tf] at this
          simp only [] at this
          rw [upd_ne _ _ hji] at this
          exact this h3
      · intro b hb
        rw [a11 b (by
          intro j h1 h2
          rw [tf]
          simp only []
          rw [upd_ne _ _ (by omega)]
          exact hb j (by omega) (by omega)), tb, upd_ne]
        exact fun e => hb i (by omega) (by omega) h0 e.symm
    · rw [if_neg h0]
      obtain ⟨a1, a2, a3, a4, ⟨q, a5, a6, a7⟩, a8, a9, a10, a11⟩ := dropBufs_ok k (i + 1) s (f := f)
      refine ⟨a1, a2, a3, a4, ⟨q, a5, ?_, ?_⟩, a8, a9, ?_, ?_⟩
      · intro j h1 h2
        by_cases hj : j = i
        · subst hj; rw [a7 j (by omega)]; simpa using h0
        · exact a6 j (by omega) (by omega)
      · intro j h1; exact a7 j (by omega)
      · intro j h1 h2 h3
        have : j ≠ i := by rintro rfl; exact h0 h3
        exact a10 j (by omega) (by omega) h3
      · intro b hb
        exact a11 b (fun j h1 h2 => hb j (by omega) (by omega))

/-! ## The relation -/

def RI (B : Nat) (s : State) (r : Rider) (ar : Spec.Rider) : Prop :=
  ar.pos = r.org + r.offset ∧ r.offset ≤ B ∧ ar.eof = r.eof ∧ ar.res = r.res ∧
    ((r.buf = 0 ∧ ar.file = none) ∨ ∃ f, RV B s r f ∧ ar.file = some f)

structure R (B N : Nat) (s : State) (a : Spec.State) : Prop where
  nfiles : a.nfiles = s.nfiles
  anon : ∀ f, f < s.nfiles → a.anon f = (s.files f).anon
  gi : GI N s
  fi : ∀ f, f < s.nfiles → FI B N s f (a.content f) N
  ri : ∀ r, RI B s (s.riders r) (a.riders r)

theorem RV.lt {B N : Nat} {s : State} {r : Rider} {f : Nat} (v : RV B s r f) (g : GI N s) : f < s.nfiles := by
  rw [← v.file]; exact (g.buf _ v.ne v.next).1

theorem RI.ext {B : Nat} {s s' : State} {r : Rider} {ar : Spec.Rider} {g : Nat} (h : RI B s r ar) (e : Ext s s' g) : RI B s' r ar := by
  obtain ⟨h1, h2, h3, h4, h5⟩ := h
  refine ⟨h1, h2, h3, h4, ?_⟩
  rcases h5 with h5 | ⟨f, h5, h6⟩
  · left; exact h5
  · right; exact ⟨f, h5.ext e, h6⟩

/-- An operation on file `f` by rider `r`. -/
theorem R.op {B N : Nat} {s s1 : State} {a : Spec.State} {f r : Nat} {rd : Rider} {ar : Spec.Rider} {L : List Nat} (h : R B N s a)
    (e : Ext s s1 f) (fi : FI B N s1 f L N) (g : GI N s1) (ri : RI B s1 rd ar) :
    R B N { s1 with riders := upd s1.riders r rd } (Spec.setContent (Spec.setRider a r ar) f L) where
  nfiles := by rw [show ({ s1 with riders := upd s1.riders r rd } : State).nfiles = s1.nfiles from rfl, e.nfiles]; exact h.nfiles
  anon := by
    intro k hk
    have hk' : k < s.nfiles := by rw [← e.nfiles]; exact hk
    show a.anon k = (s1.files k).anon
    rw [h.anon k hk']
    by_cases hkf : k = f
    · subst hkf; rw [e.anon]
    · rw [e.files k hkf]
  gi := ⟨g.next, g.buf⟩
  fi := by
    intro k hk
    have hk' : k < s.nfiles := by rw [← e.nfiles]; exact hk
    have : FI B N s1 k ((Spec.setContent (Spec.setRider a r ar) f L).content k) N := by
      by_cases hkf : k = f
      · subst hkf
        simpa [Spec.setContent] using fi
      · have := (h.fi k hk').frame hkf e
        simpa [Spec.setContent, Spec.setRider, hkf] using this
    exact ⟨this.len, this.osle, this.nc, this.pos, this.nil, this.buf, this.orgs, this.cover, this.sw⟩
  ri := by
    intro k
    have : RI B s1 (upd s1.riders r rd k) ((Spec.setContent (Spec.setRider a r ar) f L).riders k) := by
      by_cases hkr : k = r
      · subst hkr
        rw [upd_same]
        simpa [Spec.setContent, Spec.setRider] using ri
      · rw [upd_ne _ _ hkr, e.riders]
        have := (h.ri k).ext e
        simpa [Spec.setContent, Spec.setRider, hkr] using this
    obtain ⟨h1, h2, h3, h4, h5⟩ := this
    refine ⟨h1, h2, h3, h4, ?_⟩
    rcases h5 with h5 | ⟨f', h5, h6⟩
    · left; exact h5
    · right; exact ⟨f', ⟨h5.ne, h5.next, h5.file, h5.mod, h5.le, h5.pos⟩, h6⟩

theorem setContent_same (a : Spec.State) (f : Nat) : Spec.setContent a f (a.content f) = a := by
  unfold Spec.setContent
  have : (fun i => if i = f then a.content f else a.content i) = a.content := by
    funext i
    split
    · rename_i h; rw [h]
    · rfl
  rw [this]

theorem setContent_rider (a : Spec.State) (r f : Nat) (ar : Spec.Rider) :
    Spec.setContent (Spec.setRider a r ar) f (a.content f) = Spec.setRider a r ar :=
  setContent_same (Spec.setRider a r ar) f

theorem upd_id {α : Type} (g : Nat → α) (k : Nat) : upd g k (g k) = g := by
  funext i
  by_cases h : i = k
  · subst h; rw [upd_same]
  · rw [upd_ne _ _ h]

theorem setRider_same (a : Spec.State) (r : Nat) : Spec.setRider a r (a.riders r) = a := by
  unfold Spec.setRider
  have : (fun i => if i = r then a.riders r else a.riders i) = a.riders := by
    funext i
    split
    · rename_i h; rw [h]
    · rfl
  rw [this]

/-- A rider that is moved without touching any file. -/
theorem R.rider {B N : Nat} {s : State} {a : Spec.State} {r : Nat} {rd : Rider} {ar : Spec.Rider} (h : R B N s a) (ri : RI B s rd ar) :
    R B N { s with riders := upd s.riders r rd } (Spec.setRider a r ar) where
  nfiles := h.nfiles
  anon := h.anon
  gi := ⟨h.gi.next, h.gi.buf⟩
  fi := by
    intro k hk
    have := h.fi k hk
    exact ⟨this.len, this.osle, this.nc, this.pos, this.nil, this.buf, this.orgs, this.cover, this.sw⟩
  ri := by
    intro k
    have : RI B s (upd s.riders r rd k) ((Spec.setRider a r ar).riders k) := by
      by_cases hkr : k = r
      · subst hkr
        rw [upd_same]
        simpa [Spec.setRider] using ri
      · rw [upd_ne _ _ hkr]
        simpa [Spec.setRider, hkr] using h.ri k
    obtain ⟨h1, h2, h3, h4, h5⟩ := this
    refine ⟨h1, h2, h3, h4, ?_⟩
    rcases h5 with h5 | ⟨f', h5, h6⟩
    · left; exact h5
    · right; exact ⟨f', ⟨h5.ne, h5.next, h5.file, h5.mod, h5.le, h5.pos⟩, h6⟩

/-- A file is added. -/
theorem R.add {B N : Nat} {s : State} {a : Spec.State} (F : File) (L : List Nat) (an : Bool) (h : R B N s a)
    (fi : FI B N { s with nfiles := s.nfiles + 1, files := upd s.files s.nfiles F } s.nfiles L N) (ha : F.anon = an) :
    R B N { s with nfiles := s.nfiles + 1, files := upd s.files s.nfiles F }
      { a with nfiles := a.nfiles + 1, content := fun i => if i = a.nfiles then L else a.content i,
               anon := fun i => if i = a.nfiles then an else a.anon i } where
  nfiles := by show a.nfiles + 1 = s.nfiles + 1; rw [h.nfiles]
  anon := by
    intro k hk
    simp only [] at hk ⊢
    rw [h.nfiles]
    by_cases hkn : k = s.nfiles
    · subst hkn; rw [if_pos rfl, upd_same, ha]
    · rw [if_neg hkn, upd_ne _ _ hkn]; exact h.anon k (by omega)
  gi := by
    refine ⟨h.gi.next, fun b h0 hb => ?_⟩
    obtain ⟨h1, h2⟩ := h.gi.buf b h0 hb
    refine ⟨by simp only []; omega, fun hn => ?_⟩
    obtain ⟨k, hk, e⟩ := h2 hn
    refine ⟨k, hk, ?_⟩
    simp only []
    rw [upd_ne _ _ (by omega)]
    exact e
  fi := by
    intro k hk
    simp only [] at hk ⊢
    rw [h.nfiles]
    by_cases hkn : k = s.nfiles
    · subst hkn; rw [if_pos rfl]; exact fi
    · rw [if_neg hkn]
      refine (h.fi k (by omega)).frame' ?_ (fun _ _ _ => rfl) (Nat.le_refl _)
      simp only []
      rw [upd_ne _ _ hkn]
  ri := by
    intro k
    obtain ⟨h1, h2, h3, h4, h5⟩ := h.ri k
    refine ⟨h1, h2, h3, h4, ?_⟩
    rcases h5 with h5 | ⟨f', h5, h6⟩
    · left; exact h5
    · right
      refine ⟨f', ⟨h5.ne, h5.next, h5.file, h5.mod, h5.le, fun hn => ?_⟩, h6⟩
      simp only []
      have := h5.lt h.gi
      rw [upd_ne _ _ (by omega)]
      exact h5.pos hn

/-- A file is purged. -/
theorem R.purge {B N : Nat} {s : State} {a : Spec.State} {f : Nat} (h : R B N s a) (hf : f < s.nfiles) :
    R B N (purge N s f) (Spec.setContent a f []) := by
  obtain ⟨a1, a2, a3, a4, ⟨q, a5, a6, a7⟩, a8, a9, a10, a11⟩ := dropBufs_ok (f := f) N 0 s
  obtain ⟨t, ht⟩ : ∃ t, t = dropBufs f N 0 s := ⟨_, rfl⟩
  rw [← ht] at a1 a2 a3 a4 a5 a8 a9 a10 a11
  obtain ⟨u, hu⟩ : ∃ u, u = Files.purge N s f := ⟨_, rfl⟩
  rw [← hu]
  have hF := h.fi f hf
  have un : u.next = s.next ∧ u.nfiles = s.nfiles ∧ u.riders = s.riders ∧ u.bufs = t.bufs := by
    rw [hu]; unfold Files.purge
    rw [← ht]
    simp only []
    split
    · exact ⟨a1, a2, a3, rfl⟩
    · exact ⟨a1, a2, a3, rfl⟩
  have uf : ∀ g, g ≠ f → u.files g = s.files g := by
    intro g hg
    rw [hu]; unfold Files.purge
    rw [← ht]
    simp only []
    split
    · rw [upd_ne _ _ hg]
      simp only []
      rw [upd_ne _ _ hg, a4 g hg]
    · rw [upd_ne _ _ hg, a4 g hg]
  have uff : u.files f = ⟨(s.files f).created, (s.files f).anon, (s.files f).os, 0, if (s.files f).created then 0 else (s.files f).osPos, 0, 0, q, -1⟩ := by
    rw [hu]; unfold Files.purge
    rw [← ht]
    simp only []
    rw [a5]
    simp only []
    by_cases hc : (s.files f).created = true
    · simp only [if_pos hc, upd_same]
    · simp only [if_neg hc, upd_same]
      rw [a5]
      have hc' : (s.files f).created = false := by simpa using hc
      rw [hF.nc hc']
  have hdrop : ∀ b, b ≠ 0 → b < s.next → (s.bufs b).f = f → (u.bufs b).org = none := by
    intro b h0 hb hbf
    rw [un.2.2.2]
    cases ho : (s.bufs b).org with
    | none => exact a9 b ho
    | some o =>
      obtain ⟨k, hk, e⟩ := (h.gi.buf b h0 hb).2 (by rw [ho]; simp)
      rw [hbf] at e
      rw [← e]
      exact a10 k (by omega) (by omega) (by rw [e]; exact h0)
  have hkeep : ∀ b, b < s.next → (s.bufs b).f ≠ f → u.bufs b = s.bufs b := by
    intro b hb hbf
    rw [un.2.2.2]
    apply a11
    intro j _ hj h0 e
    obtain ⟨_, h2, _⟩ := hF.buf j (by omega) (by omega) h0
    rw [e] at h2
    exact hbf h2
  constructor
  · rw [un.2.1]; exact h.nfiles
  · intro k hk
    rw [un.2.1] at hk
    show a.anon k = _
    rw [h.anon k hk]
    by_cases hkf : k = f
    · subst hkf; rw [uff]
    · rw [uf k hkf]
  · refine ⟨by rw [un.1]; exact h.gi.next, fun b h0 hb => ?_⟩
    rw [un.1] at hb
    obtain ⟨h1, h2⟩ := h.gi.buf b h0 hb
    have hbf : (u.bufs b).f = (s.bufs b).f := by rw [un.2.2.2]; exact a8 b
    rw [hbf, un.2.1]
    refine ⟨h1, fun hn => ?_⟩
    by_cases hbb : (s.bufs b).f = f
    · exact absurd (hdrop b h0 hb hbb) hn
    · rw [hkeep b hb hbb] at hn
      rw [uf _ hbb]
      exact h2 hn
  · intro k hk
    rw [un.2.1] at hk
    by_cases hkf : k = f
    · subst hkf
      simp only [Spec.setContent, if_pos]
      constructor
      · rw [uff]; rfl
      · rw [uff]; exact Nat.le_refl _
      · rw [uff]; intro _; rfl
      · rw [uff]; simp only []; intro hc; rw [if_pos hc]
      · rw [uff]; intro i j h1 h2 _; exact a6 j (by omega) (by omega)
      · rw [uff]; intro j hj _ h0; exact absurd (a6 j (by omega) (by omega)) h0
      · rw [uff]; intro j _ hj _ _ _ h0; exact absurd (a6 j (by omega) (by omega)) h0
      · intro i hi; simp at hi
      · rw [uff]
    · simp only [Spec.setContent, if_neg hkf]
      refine (h.fi k hk).frame' (uf k hkf) (fun j hj h0 => ?_) (by rw [un.1])
      obtain ⟨h1, h2, _⟩ := (h.fi k hk).buf j hj (by omega) h0
      exact hkeep _ h1 (by rw [h2]; exact hkf)
  · intro k
    rw [un.2.2.1]
    obtain ⟨h1, h2, h3, h4, h5⟩ := h.ri k
    refine ⟨h1, h2, h3, h4, ?_⟩
    rcases h5 with h5 | ⟨f', h5, h6⟩
    · left; exact h5
    · right
      refine ⟨f', ⟨h5.ne, by rw [un.1]; exact h5.next, by rw [un.2.2.2, a8]; exact h5.file, h5.mod, h5.le, fun hn => ?_⟩, h6⟩
      by_cases hff : f' = f
      · subst hff
        exact absurd (hdrop _ h5.ne h5.next h5.file) hn
      · rw [hkeep _ h5.next (by rw [h5.file]; exact hff)] at hn
        rw [uf _ hff]
        exact h5.pos hn

/-- Every call does what the specification says, or is illegal. -/
theorem step_ok {B N : Nat} (hB : 0 < B) (hN : 0 < N) {s : State} {a : Spec.State} (h : R B N s a) (op : Op) :
    (Spec.Illegal a op ∧ step B N none s op = none) ∨
    ∃ s' a' o, step B N none s op = some (s', o) ∧ Spec.Step a op a' o ∧ R B N s' a' := by
  cases op with
  | new anon =>
    right
    refine ⟨_, _, _, rfl, Spec.Step.new anon, ?_⟩
    refine R.add _ [] anon h ?_ rfl
    constructor <;> simp [upd_same]
  | old content =>
    right
    refine ⟨_, _, _, rfl, Spec.Step.old content, ?_⟩
    refine R.add _ content false h ?_ rfl
    constructor
    · simp only [upd_same]
    · simp only [upd_same]; exact Nat.le_refl _
    · simp [upd_same]
    · simp [upd_same]
    · simp [upd_same]
    · simp [upd_same]
    · simp [upd_same]
    · intro i hi
      right
      simp only [upd_same]
      refine ⟨hi, ?_⟩
      rw [List.getD_eq_getElem?_getD, List.getElem?_eq_getElem hi]
      rfl
    · simp only [upd_same]; exact Int.le_refl _
  | set r f p =>
    right
    simp only [step]
    by_cases hf : f < s.nfiles
    · rw [if_pos hf]
      obtain ⟨s1, b, e1, e2, e3, e4, e5, e6, e7, e8, e9⟩ := set_ok (p := p) hB hN (h.fi f hf) h.gi hf
      rw [e1, Option.map_some]
      refine ⟨_, _, _, rfl, Spec.Step.set r f p (by rw [h.nfiles]; exact hf), ?_⟩
      rw [← setContent_rider a r f]
      have hcl : clamp (a.content f).length p = (max 0 (min p (a.content f).length)).toNat := by
        unfold clamp
        split
        · omega
        · split <;> omega
      rw [← hcl]
      obtain ⟨q, hq⟩ : ∃ q, q = clamp (a.content f).length p := ⟨_, rfl⟩
      have hqL : q ≤ (a.content f).length := by rw [hq]; exact clamp_le _ _
      rw [← hq] at e9 ⊢
      have hml := Nat.mod_lt q hB
      have hmle := Nat.mod_le q B
      refine h.op e4 e2 e3 ⟨?_, Nat.le_of_lt hml, rfl, rfl, Or.inr ⟨f, ⟨e6, e7, e8, ?_, Nat.le_of_lt hml, fun _ => ?_⟩, rfl⟩⟩
      · show q = q - q % B + q % B; omega
      · show (q - q % B) % B = 0
        have e0 := Nat.mod_add_div q B
        have : q - q % B = B * (q / B) := by omega
        rw [this, Nat.mul_mod_right]
      · show q - q % B + q % B ≤ _
        rw [e5, (h.fi f hf).len]; omega
    · rw [if_neg hf]
      refine ⟨_, _, _, rfl, Spec.Step.setNil r f p (by rw [h.nfiles]; omega), ?_⟩
      exact h.rider ⟨rfl, Nat.zero_le _, rfl, rfl, Or.inl ⟨rfl, rfl⟩⟩
  | read r =>
    simp only [step]
    obtain ⟨h1, h2, h3, h4, h5⟩ := h.ri r
    rcases h5 with ⟨h5, h6⟩ | ⟨f, v, h6⟩
    · left
      exact ⟨h6, by unfold read; rw [if_pos h5]; rfl⟩
    · right
      have hf := v.lt h.gi
      obtain ⟨s1, r1, c, e1, e2, e3, e4, e5, e6, e7⟩ := read_ok hB hN (h.fi f hf) h.gi hf v
      rw [e1, Option.map_some]
      have hat : Spec.at_ a r f = min ((s.riders r).org + (s.riders r).offset) (a.content f).length := by rw [Spec.at_, h1]
      rcases e7 with ⟨q1, q2, q3⟩ | ⟨q1, q2, q3, q4⟩
      · refine ⟨_, _, _, rfl, Spec.Step.read r f c r1.eof r1.res h6 (by rw [hat]; exact q1) (by rw [h3]; exact q3.symm) (by rw [h4]; exact e6.symm), ?_⟩
        rw [← setContent_rider a r f]
        refine h.op e4 e2 e3 ⟨?_, e5.le, rfl, rfl, Or.inr ⟨f, e5, rfl⟩⟩
        show Spec.at_ a r f + 1 = _
        rw [hat, q2]
      · refine ⟨_, Spec.setRider a r ⟨some f, Spec.at_ a r f, true, r1.res⟩, _, rfl, ?_, ?_⟩
        · subst q2
          rw [q4]
          exact Spec.Step.readEnd r f r1.res h6 (by rw [hat]; omega) (by rw [h4]; exact e6.symm)
        · rw [← setContent_rider a r f]
          refine h.op e4 e2 e3 ⟨?_, e5.le, q4.symm, rfl, Or.inr ⟨f, e5, rfl⟩⟩
          show Spec.at_ a r f = _
          rw [hat, q3]; omega
  | readBytes r x n =>
    simp only [step]
    obtain ⟨h1, h2, h3, h4, h5⟩ := h.ri r
    unfold readBytes
    by_cases hx : n > x.length
    · left
      rw [if_pos hx]
      exact ⟨Or.inl hx, rfl⟩
    · rw [if_neg hx]
      by_cases hn : n = 0
      · right
        subst hn
        have key : ∃ rd, (if (s.riders r).buf = 0 then if 0 < 0 then none else some (s, { s.riders r with res := 0, eof := false }, x)
            else Option.map (fun (s, r, got) => (s, r, got ++ List.drop got.length x)) (readLoop B N none (0 + 1) s (s.riders r) 0 [])) =
            some (s, rd, x) ∧ rd = { s.riders r with res := 0, eof := false } := by
          by_cases hb : (s.riders r).buf = 0
          · exact ⟨_, by rw [if_pos hb]; rfl, rfl⟩
          · exact ⟨_, by rw [if_neg hb]; rfl, rfl⟩
        obtain ⟨rd, k1, k2⟩ := key
        rw [k1, Option.map_some]
        subst k2
        refine ⟨_, _, _, rfl, Spec.Step.readBytes0 r x, ?_⟩
        refine h.rider ⟨h1, h2, rfl, rfl, ?_⟩
        rcases h5 with h5 | ⟨f, h5, h6⟩
        · left; exact h5
        · right; exact ⟨f, ⟨h5.ne, h5.next, h5.file, h5.mod, h5.le, h5.pos⟩, h6⟩
      · rcases h5 with ⟨h5, h6⟩ | ⟨f, v, h6⟩
        · left
          rw [if_pos h5, if_pos (by omega)]
          exact ⟨Or.inr ⟨by omega, h6⟩, rfl⟩
        · right
          rw [if_neg v.ne]
          have hf := v.lt h.gi
          obtain ⟨s1, r1, y, e1, e2, e3, e4, e5, e6, e7, e8, e9⟩ := readLoop_ok hB hN (n + 1) s (s.riders r) n [] (h.fi f hf) h.gi hf v (by omega)
          rw [e1, Option.map_some, Option.map_some]
          simp only [List.nil_append]
          have hat : Spec.at_ a r f = min ((s.riders r).org + (s.riders r).offset) (a.content f).length := by rw [Spec.at_, h1]
          rw [if_neg hn] at e7
          rw [e8, e9]
          refine ⟨_, _, _, rfl, Spec.Step.readBytes r f x n y (by omega) (by omega) h6 (by rw [hat]; exact e6), ?_⟩
          rw [← setContent_rider a r f]
          refine h.op e4 e2 e3 ⟨?_, e5.le, e8.symm, e9.symm, Or.inr ⟨f, e5, rfl⟩⟩
          show Spec.at_ a r f + y.length = _
          rw [hat, e7]
  | write r c =>
    simp only [step]
    obtain ⟨h1, h2, h3, h4, h5⟩ := h.ri r
    rcases h5 with ⟨h5, h6⟩ | ⟨f, v, h6⟩
    · left
      exact ⟨h6, by unfold write; rw [if_pos (Or.inl h5)]; rfl⟩
    · right
      have hf := v.lt h.gi
      obtain ⟨s1, r1, e1, e2, e3, e4, e5, e6, e7, e8⟩ := write_ok c hB hN (h.fi f hf) h.gi hf v
      rw [e1, Option.map_some]
      have hat : Spec.at_ a r f = min ((s.riders r).org + (s.riders r).offset) (a.content f).length := by rw [Spec.at_, h1]
      refine ⟨_, _, _, rfl, Spec.Step.write r f c r1.eof h6 (by rw [h3]; exact e8.symm), ?_⟩
      rw [hat]
      refine h.op e4 e2 e3 ⟨?_, e5.le, rfl, e7.symm, Or.inr ⟨f, e5, rfl⟩⟩
      exact e6.symm
  | writeBytes r x n =>
    simp only [step]
    obtain ⟨h1, h2, h3, h4, h5⟩ := h.ri r
    unfold writeBytes
    by_cases hx : n > x.length
    · left
      rw [if_pos hx]
      exact ⟨Or.inl hx, rfl⟩
    · rw [if_neg hx]
      by_cases hn : n = 0
      · right
        subst hn
        have key : (if (s.riders r).buf = 0 then if 0 < 0 then none else some (s, { s.riders r with res := 0 })
            else writeLoop B N none (0 + 1) s (s.riders r) (x.take 0)) = some (s, { s.riders r with res := 0 }) := by
          by_cases hb : (s.riders r).buf = 0
          · rw [if_pos hb]; rfl
          · rw [if_neg hb]; rfl
        rw [key, Option.map_some]
        refine ⟨_, _, _, rfl, Spec.Step.writeBytes0 r x, ?_⟩
        refine h.rider ⟨h1, h2, h3, rfl, ?_⟩
        rcases h5 with h5 | ⟨f, h5, h6⟩
        · left; exact h5
        · right; exact ⟨f, ⟨h5.ne, h5.next, h5.file, h5.mod, h5.le, h5.pos⟩, h6⟩
      · rcases h5 with ⟨h5, h6⟩ | ⟨f, v, h6⟩
        · left
          rw [if_pos h5, if_pos (by omega)]
          exact ⟨Or.inr ⟨by omega, h6⟩, rfl⟩
        · right
          rw [if_neg v.ne]
          have hf := v.lt h.gi
          have hlen : (x.take n).length = n := by simp; omega
          obtain ⟨s1, r1, e1, e2, e3, e4, e5, e6, e7, e8⟩ := writeLoop_ok hB hN (n + 1) s (s.riders r) (x.take n) (a.content f)
            (h.fi f hf) h.gi hf v (by omega)
          rw [e1, Option.map_some]
          have hat : Spec.at_ a r f = min ((s.riders r).org + (s.riders r).offset) (a.content f).length := by rw [Spec.at_, h1]
          refine ⟨_, _, _, rfl, Spec.Step.writeBytes r f x n r1.eof (by omega) (by omega) h6 (by rw [h3]; exact e8.symm), ?_⟩
          rw [hat]
          refine h.op e4 e2 e3 ⟨?_, e5.le, rfl, e7.symm, Or.inr ⟨f, e5, rfl⟩⟩
          rw [hlen, if_neg hn] at e6
          exact e6.symm
  | pos r =>
    right
    simp only [step]
    obtain ⟨h1, h2, _⟩ := h.ri r
    unfold pos
    rw [if_pos h2, Option.map_some, ← h1]
    exact ⟨_, _, _, rfl, Spec.Step.pos r, h⟩
  | length f =>
    simp only [step]
    by_cases hf : f < s.nfiles
    · right
      rw [if_pos hf, (h.fi f hf).len]
      exact ⟨_, _, _, rfl, Spec.Step.length f (by rw [h.nfiles]; exact hf), h⟩
    · left
      rw [if_neg hf]
      exact ⟨by show a.nfiles ≤ f; rw [h.nfiles]; omega, rfl⟩
  | close f =>
    simp only [step]
    by_cases hf : f < s.nfiles
    · right
      rw [if_pos hf]
      obtain ⟨s1, e1, e2, e3, e4, e5⟩ := close_ok hB (h.fi f hf) h.gi
      rw [e1, Option.map_some]
      have hR : R B N s1 a := by
        have := h.op (r := 0) (rd := s1.riders 0) (ar := a.riders 0) e4 e2 e3 (by rw [e4.riders]; exact (h.ri 0).ext e4)
        rw [setRider_same, setContent_same, upd_id] at this
        exact this
      rcases e5 with ⟨q1, q2⟩ | ⟨q1, q2⟩
      · rw [if_pos q1, q2]
        exact ⟨_, _, _, rfl, Spec.Step.close f (by rw [h.nfiles]; exact hf), hR⟩
      · rw [if_neg (by rw [q1]; simp)]
        exact ⟨_, _, _, rfl, Spec.Step.closeAnon f (by rw [h.nfiles]; exact hf) (by rw [h.anon f hf]; exact q2), hR⟩
    · left
      rw [if_neg hf]
      exact ⟨by show a.nfiles ≤ f; rw [h.nfiles]; omega, rfl⟩
  | purge f =>
    simp only [step]
    by_cases hf : f < s.nfiles
    · right
      rw [if_pos hf]
      exact ⟨_, _, _, rfl, Spec.Step.purge f (by rw [h.nfiles]; exact hf), h.purge hf⟩
    · left
      rw [if_neg hf]
      exact ⟨by show a.nfiles ≤ f; rw [h.nfiles]; omega, rfl⟩

theorem init_ok (B N : Nat) : R B N init Spec.init where
  nfiles := rfl
  anon := by intro f hf; simp [init] at hf
  gi := ⟨by decide, fun b h0 hb => by simp [init] at hb; omega⟩
  fi := by intro f hf; simp [init] at hf
  ri := by intro r; exact ⟨rfl, Nat.zero_le _, rfl, rfl, Or.inl ⟨rfl, rfl⟩⟩

theorem run_ok {B N : Nat} (hB : 0 < B) (hN : 0 < N) : ∀ (ops : List Op) (s : State) (a : Spec.State), R B N s a →
    Spec.Run a ops (run B N none s ops).1 (run B N none s ops).2
  | [], _, a, _ => Spec.Run.nil a
  | op :: ops, s, a, h => by
    simp only [run]
    rcases step_ok hB hN h op with ⟨h1, h2⟩ | ⟨s', a', o, h1, h2, h3⟩
    · rw [h2]
      exact Spec.Run.stop a op ops h1
    · rw [h1]
      exact Spec.Run.step a a' op ops o _ _ h2 (run_ok hB hN ops s' a' h3)

/-- **C26.** Whatever calls a program makes, with any number of files and riders: what it sees (bytes, positions,
lengths, numbers of bytes missing, the bytes on the disk after `Close`) is what it would see if files were lists of
bytes, without buffers; and it is stopped only by a call that is illegal there.  For every size and number of buffers.
Partial: see `C26_eof_kept` for the flag `eof`, which the specification leaves open after a successful `Read`, and
`C26_short_write` for disks that fill up. -/
theorem C26_history_partial (B N : Nat) (hB : 0 < B) (hN : 0 < N) (ops : List Op) :
    Spec.Run Spec.init ops (run B N none init ops).1 (run B N none init ops).2 :=
  run_ok hB hN ops init Spec.init (init_ok B N)

/-- The sizes of the code: 4 buffers of 4096 bytes. -/
theorem C26_history_4096_partial (ops : List Op) :
    Spec.Run Spec.init ops (run 4096 4 none init ops).1 (run 4096 4 none init ops).2 :=
  C26_history_partial 4096 4 (by decide) (by decide) ops

/-- The specification determines what is seen, apart from `eof` after `Read`, the disk of a file without name, and
`eof`/`res` where a rider keeps them: in particular the bytes read and the bytes on the disk are determined. -/
theorem C26_read_determined (a a1 a2 : Spec.State) (r c1 c2 : Nat) (e1 e2 : Bool)
    (h1 : Spec.Step a (.read r) a1 (.byte c1 e1)) (h2 : Spec.Step a (.read r) a2 (.byte c2 e2)) :
    c1 = c2 ∧ a1.content = a2.content ∧ (a1.riders r).pos = (a2.riders r).pos := by
  cases h1 with
  | read _ f _ _ res q1 q2 q3 q4 =>
    cases h2 with
    | read _ f' _ _ res' p1 p2 p3 p4 =>
      have : f = f' := by rw [q1] at p1; exact Option.some.inj p1
      subst this
      refine ⟨by rw [q2] at p2; exact Option.some.inj p2, rfl, by simp [Spec.setRider]⟩
    | readEnd _ f' res' p1 p2 p3 =>
      have : f = f' := by rw [q1] at p1; exact Option.some.inj p1
      subst this
      rw [p2, List.getElem?_eq_none (Nat.le_refl _)] at q2
      simp at q2
  | readEnd _ f res q1 q2 q3 =>
    cases h2 with
    | read _ f' _ _ res' p1 p2 p3 p4 =>
      have : f = f' := by rw [q1] at p1; exact Option.some.inj p1
      subst this
      rw [q2, List.getElem?_eq_none (Nat.le_refl _)] at p2
      simp at p2
    | readEnd _ f' res' p1 p2 p3 =>
      have : f = f' := by rw [q1] at p1; exact Option.some.inj p1
      subst this
      exact ⟨rfl, rfl, by simp [Spec.setRider]⟩

/-- Two riders on one file: rider 1 appends, rider 0 reads; small buffers, many swaps. -/
example : run 4 2 none init [.new false, .set 0 0 0, .set 1 0 0, .writeBytes 1 [1, 2, 3, 4, 5, 6, 7, 8, 9, 10, 11] 11, .readBytes 0 [0, 0, 0, 0, 0, 0] 6,
    .pos 0, .set 1 0 2, .write 1 33, .set 0 0 1, .read 0, .read 0, .length 0, .close 0] =
    ([.none, .none, .none, .none, .bytes [1, 2, 3, 4, 5, 6] false 0, .num 6, .none, .none, .none, .byte 2 false, .byte 33 false, .num 11,
      .disk [1, 2, 33, 4, 5, 6, 7, 8, 9, 10, 11]], false) := by decide +kernel

/-- **C26, deviation.** After a `Read` that returned a byte, `eof` may be TRUE or FALSE: it is kept from an earlier read
at the end, unless the buffer of the rider was used for another block in between.  The two histories differ only in the
number of bytes another rider appends. -/
theorem C26_eof_kept :
    (run 4 2 none init [.new false, .set 0 0 0, .set 1 0 0, .read 0, .writeBytes 1 [1, 2] 2, .read 0]).1 =
      [.none, .none, .none, .byte 0 true, .none, .byte 1 true] ∧
    (run 4 2 none init [.new false, .set 0 0 0, .set 1 0 0, .read 0, .writeBytes 1 [1, 2, 3, 4, 5, 6, 7, 8, 9] 9, .read 0]).1 =
      [.none, .none, .none, .byte 0 true, .none, .byte 1 false] := by decide +kernel

/-- **C26, deviation.** When the disk is full the operating system writes a part of a buffer and reports how much;
`Platform.Write` does not look at it.  `Close` returns as if all was well, and bytes are missing on the disk. -/
theorem C26_short_write :
    run 4 2 (some 6) init [.new false, .set 0 0 0, .writeBytes 0 [1, 2, 3, 4, 5, 6, 7, 8] 8, .length 0, .close 0] =
      ([.none, .none, .none, .num 8, .disk [1, 2, 3, 4, 5, 6]], false) := by decide +kernel

end Verif.Files
