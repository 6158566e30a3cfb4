import Verif.Common
import Verif.Files.Model
import Verif.Files.Spec

/-!
# The invariant of the buffers
-/
namespace Verif.Files

theorem upd_same {α : Type} (g : Nat → α) (k : Nat) (v : α) : upd g k v k = v := by simp [upd]

theorem upd_ne {α : Type} (g : Nat → α) {k i : Nat} (v : α) (h : i ≠ k) : upd g k v i = g i := by simp [upd, h]

/-- Buffer `b` has the block of `L` at `org`. -/
structure BufOk (B : Nat) (L : List Nat) (b : Buf) (org : Nat) : Prop where
  horg : b.org = some org
  mod : org % B = 0
  le : org ≤ L.length
  size : b.size = min B (L.length - org)
  data : ∀ i, i < b.size → L[org + i]? = some (b.data i)

/-- File `f` has the content `L`; slot `x` of its buffers is left out (`x = N`: none is). -/
structure FI (B N : Nat) (s : State) (f : Nat) (L : List Nat) (x : Nat) : Prop where
  len : (s.files f).len = L.length
  osle : (s.files f).osLen ≤ L.length
  nc : (s.files f).created = false → (s.files f).osLen = 0
  pos : (s.files f).created = true → (s.files f).pos = (s.files f).osPos
  nil : ∀ i j, i ≤ j → j < N → (s.files f).bufs i = 0 → (s.files f).bufs j = 0
  buf : ∀ k, k < N → k ≠ x → (s.files f).bufs k ≠ 0 →
    (s.files f).bufs k < s.next ∧ (s.bufs ((s.files f).bufs k)).f = f ∧ ∃ org, BufOk B L (s.bufs ((s.files f).bufs k)) org
  orgs : ∀ k k', k < N → k' < N → k ≠ x → k' ≠ x → (s.files f).bufs k ≠ 0 → (s.files f).bufs k' ≠ 0 →
    (s.bufs ((s.files f).bufs k)).org = (s.bufs ((s.files f).bufs k')).org → k = k'
  cover : ∀ i, i < L.length →
    (∃ k org, k < N ∧ k ≠ x ∧ (s.files f).bufs k ≠ 0 ∧ (s.bufs ((s.files f).bufs k)).chg = true ∧
      (s.bufs ((s.files f).bufs k)).org = some org ∧ org ≤ i ∧ i < org + (s.bufs ((s.files f).bufs k)).size) ∨
    (i < (s.files f).osLen ∧ L[i]? = some ((s.files f).os i))
  sw : -1 ≤ (s.files f).swapper

/-- Every buffer belongs to a file, and is in use there unless it was dropped. -/
structure GI (N : Nat) (s : State) : Prop where
  next : 0 < s.next
  buf : ∀ b, b ≠ 0 → b < s.next → (s.bufs b).f < s.nfiles ∧
    ((s.bufs b).org ≠ none → ∃ k, k < N ∧ (s.files (s.bufs b).f).bufs k = b)

/-- What an operation on file `f` leaves alone. -/
structure Ext (s s' : State) (f : Nat) : Prop where
  nfiles : s'.nfiles = s.nfiles
  riders : s'.riders = s.riders
  files : ∀ g, g ≠ f → s'.files g = s.files g
  anon : (s'.files f).anon = (s.files f).anon
  created : (s.files f).created = true → (s'.files f).created = true
  next : s.next ≤ s'.next
  bf : ∀ b, b < s.next → (s'.bufs b).f = (s.bufs b).f
  bufs : ∀ b, b < s.next → (s.bufs b).f ≠ f → s'.bufs b = s.bufs b
  gone : ∀ b, b < s.next → (s.bufs b).org = none → (s'.bufs b).org = none
  len : (s.files f).len ≤ (s'.files f).len

theorem Ext.refl (s : State) (f : Nat) : Ext s s f :=
  ⟨rfl, rfl, fun _ _ => rfl, rfl, id, Nat.le_refl _, fun _ _ => rfl, fun _ _ _ => rfl, fun _ _ h => h, Nat.le_refl _⟩

theorem Ext.trans {s s1 s2 : State} {f : Nat} (h1 : Ext s s1 f) (h2 : Ext s1 s2 f) : Ext s s2 f where
  nfiles := h2.nfiles.trans h1.nfiles
  riders := h2.riders.trans h1.riders
  files g hg := (h2.files g hg).trans (h1.files g hg)
  anon := h2.anon.trans h1.anon
  created h := h2.created (h1.created h)
  next := Nat.le_trans h1.next h2.next
  bf b hb := (h2.bf b (Nat.lt_of_lt_of_le hb h1.next)).trans (h1.bf b hb)
  bufs b hb hf := (h2.bufs b (Nat.lt_of_lt_of_le hb h1.next) (by rw [h1.bf b hb]; exact hf)).trans (h1.bufs b hb hf)
  gone b hb h := h2.gone b (Nat.lt_of_lt_of_le hb h1.next) (h1.gone b hb h)
  len := Nat.le_trans h1.len h2.len

/-- Other files keep their contents. -/
theorem FI.frame {B N : Nat} {s s' : State} {f g : Nat} {L : List Nat} (h : FI B N s g L N) (hg : g ≠ f) (e : Ext s s' f) :
    FI B N s' g L N := by
  have ef := e.files g hg
  have eb : ∀ k, k < N → (s.files g).bufs k ≠ 0 → s'.bufs ((s.files g).bufs k) = s.bufs ((s.files g).bufs k) := by
    intro k hk h0
    obtain ⟨h1, h2, _⟩ := h.buf k hk (by omega) h0
    exact e.bufs _ h1 (by rw [h2]; exact hg)
  constructor
  · rw [ef]; exact h.len
  · rw [ef]; exact h.osle
  · rw [ef]; exact h.nc
  · rw [ef]; exact h.pos
  · rw [ef]; exact h.nil
  · rw [ef]
    intro k hk hx h0
    rw [eb k hk h0]
    obtain ⟨h1, h2, h3⟩ := h.buf k hk hx h0
    exact ⟨Nat.lt_of_lt_of_le h1 e.next, h2, h3⟩
  · rw [ef]
    intro k k' hk hk' hx hx' h0 h0'
    rw [eb k hk h0, eb k' hk' h0']
    exact h.orgs k k' hk hk' hx hx' h0 h0'
  · rw [ef]
    intro i hi
    rcases h.cover i hi with ⟨k, org, hk, hx, h0, h1⟩ | h1
    · left; exact ⟨k, org, hk, hx, h0, by rw [eb k hk h0]; exact h1⟩
    · right; exact h1
  · rw [ef]; exact h.sw

/-! ## Create -/

theorem create_ok {B N : Nat} {s : State} {f : Nat} {L : List Nat} {x : Nat} (h : FI B N s f L x) :
    FI B N (create s f) f L x ∧ Ext s (create s f) f ∧ ((create s f).files f).created = true ∧
    (create s f).bufs = s.bufs ∧ (create s f).next = s.next ∧ ((create s f).files f).bufs = (s.files f).bufs ∧
    ((create s f).files f).len = (s.files f).len ∧ ((create s f).files f).swapper = (s.files f).swapper := by
  unfold create
  by_cases hc : (s.files f).created = true
  · rw [if_pos hc]
    exact ⟨h, Ext.refl s f, hc, rfl, rfl, rfl, rfl, rfl⟩
  · rw [if_neg hc]
    have hc' : (s.files f).created = false := by simpa using hc
    have h0 := h.nc hc'
    refine ⟨?_, ?_, by simp [upd_same], rfl, rfl, by simp [upd_same], by simp [upd_same], by simp [upd_same]⟩
    · constructor
      · simpa [upd_same] using h.len
      · simp [upd_same]
      · simp [upd_same]
      · simp [upd_same]
      · simpa [upd_same] using h.nil
      · simpa [upd_same] using h.buf
      · simpa [upd_same] using h.orgs
      · intro i hi
        rcases h.cover i hi with h1 | ⟨h1, _⟩
        · left; simpa [upd_same] using h1
        · omega
      · simpa [upd_same] using h.sw
    · constructor <;> first | rfl | simp [upd_same]
      intro g hg; exact upd_ne _ _ hg

theorem create_gi {N : Nat} {s : State} {f : Nat} (h : GI N s) : GI N (create s f) := by
  unfold create
  split
  · exact h
  · refine ⟨h.next, fun b h0 hb => ⟨(h.buf b h0 hb).1, fun hn => ?_⟩⟩
    obtain ⟨k, hk, e⟩ := (h.buf b h0 hb).2 hn
    refine ⟨k, hk, ?_⟩
    show (upd s.files f _ (s.bufs b).f).bufs k = b
    by_cases hf : (s.bufs b).f = f
    · rw [hf, upd_same]; rw [hf] at e; exact e
    · rw [upd_ne _ _ hf]; exact e

/-! ## Flush -/

/-- The result of `Flush`. -/
theorem flush_ok {B N : Nat} {s : State} {f : Nat} {L : List Nat} {k : Nat} (hB : 0 < B) (h : FI B N s f L N) (g : GI N s) (hk : k < N)
    (h0 : (s.files f).bufs k ≠ 0) :
    ∃ s', flush none s ((s.files f).bufs k) = some s' ∧ FI B N s' f L N ∧ GI N s' ∧ Ext s s' f ∧
      s'.bufs = upd s.bufs ((s.files f).bufs k) { s.bufs ((s.files f).bufs k) with chg := false } ∧ s'.next = s.next ∧
      (s'.files f).bufs = (s.files f).bufs ∧ (s'.files f).len = (s.files f).len ∧ (s'.files f).swapper = (s.files f).swapper := by
  obtain ⟨b, hb⟩ : ∃ b, b = (s.files f).bufs k := ⟨_, rfl⟩
  rw [← hb]
  have hbuf := h.buf k hk (by omega) h0
  rw [← hb] at hbuf h0
  obtain ⟨hbn, hbf, org, hok⟩ := hbuf
  unfold flush
  by_cases hc : (s.bufs b).chg = true
  · rw [if_pos hc, hok.horg, Option.bind_some]
    simp only [hbf]
    obtain ⟨c1, c2, c3, c4, c5, c6, c7, c8⟩ := create_ok h
    have c9 := create_gi (f := f) g
    obtain ⟨s1, hs1⟩ : ∃ s1, s1 = create s f := ⟨_, rfl⟩
    rw [← hs1] at c1 c2 c3 c4 c5 c6 c7 c8 c9 ⊢
    -- after the seek
    have hseek : ∃ s2 : State, s2 = (if org ≠ (s1.files f).pos then seek s1 f org else s1) ∧
        s2 = { s1 with files := upd s1.files f { s1.files f with osPos := org } } := by
      by_cases hp : org ≠ (s1.files f).pos
      · exact ⟨_, rfl, by rw [if_pos hp]; rfl⟩
      · refine ⟨_, rfl, ?_⟩
        rw [if_neg hp]
        have e : (s1.files f).osPos = org := by rw [← c1.pos c3]; omega
        have e2 : upd s1.files f { s1.files f with osPos := org } = s1.files := by
          funext i
          by_cases hi : i = f
          · subst hi; rw [upd_same, ← e]
          · rw [upd_ne _ _ hi]
        rw [e2]
    obtain ⟨s2, hs2, es2⟩ := hseek
    rw [← hs2]
    have hb2 : s2.bufs = s.bufs := by rw [es2, ← c4]
    have hf2 : s2.files f = { s1.files f with osPos := org } := by rw [es2]; simp [upd_same]
    have hsz : (s.bufs b).size = min B (L.length - org) := hok.size
    by_cases hz : (s.bufs b).size = 0
    · -- nothing to write
      have hw : osWrite none s2 f (s2.bufs b).data (s2.bufs b).size = some s2 := by
        unfold osWrite written
        rw [hb2, hz]
        simp
      rw [hw, Option.map_some]
      refine ⟨_, rfl, ?_⟩
      simp only [hb2]
      have hbufeq : ∀ c, (upd s.bufs b { s.bufs b with chg := false } c).f = (s.bufs c).f ∧
          (upd s.bufs b { s.bufs b with chg := false } c).org = (s.bufs c).org ∧
          (upd s.bufs b { s.bufs b with chg := false } c).size = (s.bufs c).size ∧
          (upd s.bufs b { s.bufs b with chg := false } c).data = (s.bufs c).data := by
        intro c
        by_cases hcb : c = b
        · subst hcb; simp [upd_same]
        · simp [upd_ne _ _ hcb]
      refine ⟨?_, ?_, ?_, by simp only [hbf], by rw [es2]; exact c5, by simp [upd_same, hf2, c6], by simp [upd_same, hf2, c7],
        by simp [upd_same, hf2, c8]⟩
      · constructor
        · simp [upd_same, hf2]; rw [c7]; exact h.len
        · simp [upd_same, hf2]; exact c1.osle
        · simp [upd_same, hf2, c3]
        · simp [upd_same, hf2, hz]
        · simp only [upd_same, hf2, c6]; exact h.nil
        · simp only [upd_same, hf2, c6]
          intro k' hk' hx' h0'
          obtain ⟨b1, b2, o, b3⟩ := h.buf k' hk' hx' h0'
          obtain ⟨q1, q2, q3, q4⟩ := hbufeq ((s.files f).bufs k')
          refine ⟨by rw [es2]; show _ < s1.next; rw [c5]; exact b1, by rw [q1]; exact b2, o, ?_⟩
          exact ⟨by rw [q2]; exact b3.horg, b3.mod, b3.le, by rw [q3]; exact b3.size, by rw [q3, q4]; exact b3.data⟩
        · simp only [upd_same, hf2, c6]
          intro k1 k2 a1 a2 a3 a4 a5 a6 a7
          rw [(hbufeq _).2.1, (hbufeq _).2.1] at a7
          exact h.orgs k1 k2 a1 a2 a3 a4 a5 a6 a7
        · simp only [upd_same, hf2, c6]
          intro i hi
          rcases c1.cover i hi with ⟨k1, o, a1, a2, a3, a4, a5, a6, a7⟩ | a
          · rw [c6] at a3 a4 a5 a7
            rw [c4] at a4 a5 a7
            left
            refine ⟨k1, o, a1, a2, a3, ?_, by rw [(hbufeq _).2.1]; exact a5, a6, by rw [(hbufeq _).2.2.1]; exact a7⟩
            have hne : (s.files f).bufs k1 ≠ b := by
              intro he
              rw [he, hz] at a7
              omega
            rw [upd_ne _ _ hne]; exact a4
          · right; exact a
        · simp only [upd_same, hf2, c8]; exact h.sw
      · refine ⟨by rw [es2]; exact c9.next, fun c hc0 hcn => ?_⟩
        have hcn' : c < s1.next := by rw [es2] at hcn; exact hcn
        obtain ⟨d1, d2⟩ := c9.buf c hc0 hcn'
        rw [c4] at d1 d2
        simp only [(hbufeq c).1, (hbufeq c).2.1]
        refine ⟨by rw [es2]; exact d1, fun hn => ?_⟩
        obtain ⟨k', hk', e⟩ := d2 hn
        refine ⟨k', hk', ?_⟩
        by_cases hff : (s.bufs c).f = f
        · rw [hff, upd_same, hf2]; rw [hff] at e; exact e
        · rw [upd_ne _ _ hff, es2]
          show (upd s1.files f _ (s.bufs c).f).bufs k' = c
          rw [upd_ne _ _ hff]; exact e
      · constructor
        · rw [es2]; exact c2.nfiles
        · rw [es2]; exact c2.riders
        · intro g' hg'
          show upd s2.files f _ g' = _
          rw [upd_ne _ _ hg', es2]
          show upd s1.files f _ g' = _
          rw [upd_ne _ _ hg']; exact c2.files g' hg'
        · simp only [upd_same, hf2]; exact c2.anon
        · simp only [upd_same, hf2]; intro _; exact c3
        · rw [es2]; exact c2.next
        · intro c _; exact (hbufeq c).1
        · intro c _ hcf
          have : c ≠ b := by rintro rfl; exact hcf hbf
          exact upd_ne _ _ this
        · intro c _ hcn; rw [← hcn]; exact (hbufeq c).2.1
        · simp only [upd_same, hf2, c7]; exact Nat.le_refl _
    · -- the bytes are written
      have hw : osWrite none s2 f (s2.bufs b).data (s2.bufs b).size = some { s2 with files := upd s2.files f { s2.files f with
          os := fun i => if org ≤ i ∧ i < org + (s.bufs b).size then (s.bufs b).data (i - org) else if i < (s1.files f).osLen then (s1.files f).os i else 0
          osLen := max (s1.files f).osLen (org + (s.bufs b).size)
          osPos := org + (s.bufs b).size } } := by
        unfold osWrite written
        rw [hb2]
        simp only []
        rw [if_neg (by omega), if_neg hz, hf2]
      rw [hw, Option.map_some]
      refine ⟨_, rfl, ?_⟩
      simp only [upd_same, hb2, hf2]
      have hbufeq : ∀ c, (upd s.bufs b { s.bufs b with chg := false } c).f = (s.bufs c).f ∧
          (upd s.bufs b { s.bufs b with chg := false } c).org = (s.bufs c).org ∧
          (upd s.bufs b { s.bufs b with chg := false } c).size = (s.bufs c).size ∧
          (upd s.bufs b { s.bufs b with chg := false } c).data = (s.bufs c).data := by
        intro c
        by_cases hcb : c = b
        · subst hcb; simp [upd_same]
        · simp [upd_ne _ _ hcb]
      have hle := hok.le
      refine ⟨?_, ?_, ?_, by simp only [hbf], by rw [es2]; exact c5, c6, c7, c8⟩
      · constructor
        · simp only [upd_same]; rw [c7]; exact h.len
        · simp only [upd_same]
          have := c1.osle
          omega
        · simp only [upd_same]; rw [c3]; simp
        · simp only [upd_same]; intro _; trivial
        · simp only [upd_same, c6]; exact h.nil
        · simp only [upd_same, c6]
          intro k' hk' hx' h0'
          obtain ⟨b1, b2, o, b3⟩ := h.buf k' hk' hx' h0'
          obtain ⟨q1, q2, q3, q4⟩ := hbufeq ((s.files f).bufs k')
          refine ⟨by rw [es2]; show _ < s1.next; rw [c5]; exact b1, by rw [q1]; exact b2, o, ?_⟩
          exact ⟨by rw [q2]; exact b3.horg, b3.mod, b3.le, by rw [q3]; exact b3.size, by rw [q3, q4]; exact b3.data⟩
        · simp only [upd_same, c6]
          intro k1 k2 a1 a2 a3 a4 a5 a6 a7
          rw [(hbufeq _).2.1, (hbufeq _).2.1] at a7
          exact h.orgs k1 k2 a1 a2 a3 a4 a5 a6 a7
        · simp only [upd_same, c6]
          intro i hi
          by_cases hin : org ≤ i ∧ i < org + (s.bufs b).size
          · right
            refine ⟨by omega, ?_⟩
            rw [if_pos hin]
            have := hok.data (i - org) (by omega)
            rw [show org + (i - org) = i by omega] at this
            exact this
          · rcases c1.cover i hi with ⟨k1, o, a1, a2, a3, a4, a5, a6, a7⟩ | a
            · rw [c6] at a3 a4 a5 a7
              rw [c4] at a4 a5 a7
              left
              refine ⟨k1, o, a1, a2, a3, ?_, by rw [(hbufeq _).2.1]; exact a5, a6, by rw [(hbufeq _).2.2.1]; exact a7⟩
              have hne : (s.files f).bufs k1 ≠ b := by
                intro he
                rw [he] at a7 a5
                rw [hok.horg] at a5
                have := Option.some.inj a5
                omega
              rw [upd_ne _ _ hne]; exact a4
            · right
              refine ⟨by omega, ?_⟩
              rw [if_neg hin, if_pos a.1]; exact a.2
        · simp only [upd_same, c8]; exact h.sw
      · refine ⟨by rw [es2]; exact c9.next, fun c hc0 hcn => ?_⟩
        have hcn' : c < s1.next := by rw [es2] at hcn; exact hcn
        obtain ⟨d1, d2⟩ := c9.buf c hc0 hcn'
        rw [c4] at d1 d2
        simp only [(hbufeq c).1, (hbufeq c).2.1]
        refine ⟨by rw [es2]; exact d1, fun hn => ?_⟩
        obtain ⟨k', hk', e⟩ := d2 hn
        refine ⟨k', hk', ?_⟩
        by_cases hff : (s.bufs c).f = f
        · rw [hff, upd_same]; rw [hff] at e; exact e
        · rw [upd_ne _ _ hff, upd_ne _ _ hff, es2]
          show (upd s1.files f _ (s.bufs c).f).bufs k' = c
          rw [upd_ne _ _ hff]; exact e
      · constructor
        · rw [es2]; exact c2.nfiles
        · rw [es2]; exact c2.riders
        · intro g' hg'
          show upd (upd s2.files f _) f _ g' = _
          rw [upd_ne _ _ hg', upd_ne _ _ hg', es2]
          show upd s1.files f _ g' = _
          rw [upd_ne _ _ hg']; exact c2.files g' hg'
        · simp only [upd_same]; exact c2.anon
        · simp only [upd_same]; intro _; exact c3
        · rw [es2]; exact c2.next
        · intro c _; exact (hbufeq c).1
        · intro c _ hcf
          have : c ≠ b := by rintro rfl; exact hcf hbf
          exact upd_ne _ _ this
        · intro c _ hcn; rw [← hcn]; exact (hbufeq c).2.1
        · simp only [upd_same, c7]; exact Nat.le_refl _
  · rw [if_neg hc]
    refine ⟨s, rfl, h, g, Ext.refl s f, ?_, rfl, rfl, rfl, rfl⟩
    funext i
    by_cases hi : i = b
    · subst hi
      rw [upd_same]
      have : (s.bufs i).chg = false := by simpa using hc
      cases hq : s.bufs i
      rw [hq] at this
      simp at this
      simp [this]
    · rw [upd_ne _ _ hi]

/-! ## Set -/

/-- An unchanged buffer can be left out. -/
theorem FI.excl {B N : Nat} {s : State} {f : Nat} {L : List Nat} {k : Nat} (h : FI B N s f L N)
    (hc : (s.bufs ((s.files f).bufs k)).chg = false) : FI B N s f L k where
  len := h.len
  osle := h.osle
  nc := h.nc
  pos := h.pos
  nil := h.nil
  buf k' hk' _ := h.buf k' hk' (by omega)
  orgs k1 k2 h1 h2 _ _ := h.orgs k1 k2 h1 h2 (by omega) (by omega)
  cover i hi := by
    rcases h.cover i hi with ⟨k1, o, a1, a2, a3, a4, a5⟩ | a
    · left
      refine ⟨k1, o, a1, ?_, a3, a4, a5⟩
      rintro rfl
      rw [hc] at a4
      exact absurd a4 (by simp)
    · right; exact a
  sw := h.sw

theorem block_eq {B a b i : Nat} (hB : 0 < B) (ha : a % B = 0) (hb : b % B = 0) (h1 : a ≤ i) (h2 : i < a + B) (h3 : b ≤ i) (h4 : i < b + B) : a = b := by
  have ea : a = B * (a / B) := by have := Nat.div_add_mod a B; omega
  have eb : b = B * (b / B) := by have := Nat.div_add_mod b B; omega
  have key : ∀ x y : Nat, B * x < B * y + B → x < y + 1 := by
    intro x y h
    have : B * x < B * (y + 1) := by rw [Nat.mul_add, Nat.mul_one]; exact h
    exact Nat.lt_of_mul_lt_mul_left this
  have h5 := key (a / B) (b / B) (by omega)
  have h6 := key (b / B) (a / B) (by omega)
  have : a / B = b / B := by omega
  rw [ea, eb, this]

/-- The hypotheses under which a buffer is filled. -/
structure Slot (N : Nat) (s : State) (f k org : Nat) : Prop where
  lt : k < N
  ne : (s.files f).bufs k ≠ 0
  next : (s.files f).bufs k < s.next
  file : (s.bufs ((s.files f).bufs k)).f = f
  stale : (s.bufs ((s.files f).bufs k)).org ≠ some org
  alone : ∀ k', k' < N → k' ≠ k → (s.files f).bufs k' ≠ 0 → (s.files f).bufs k' ≠ (s.files f).bufs k ∧
    (s.bufs ((s.files f).bufs k')).org ≠ some org

/-- A buffer of the file gets new contents. -/
theorem FI.fill {B N : Nat} {s s' : State} {f : Nat} {L : List Nat} {k org : Nat} (h : FI B N s f L k) (hs : Slot N s f k org)
    (hb : BufOk B L (s'.bufs ((s.files f).bufs k)) org) (hbf : (s'.bufs ((s.files f).bufs k)).f = f)
    (hother : ∀ c, c ≠ (s.files f).bufs k → s'.bufs c = s.bufs c) (hn : s'.next = s.next)
    (e1 : (s'.files f).bufs = (s.files f).bufs) (e2 : (s'.files f).len = (s.files f).len) (e3 : (s'.files f).osLen = (s.files f).osLen)
    (e4 : (s'.files f).os = (s.files f).os) (e5 : (s'.files f).created = (s.files f).created)
    (e6 : (s'.files f).created = true → (s'.files f).pos = (s'.files f).osPos)
    (e7 : (s'.files f).swapper = (s.files f).swapper) : FI B N s' f L N where
  len := by rw [e2]; exact h.len
  osle := by rw [e3]; exact h.osle
  nc := by rw [e3, e5]; exact h.nc
  pos := e6
  nil := by rw [e1]; exact h.nil
  buf := by
    rw [e1, hn]
    intro k' hk' _ h0
    by_cases hkk : k' = k
    · subst hkk; exact ⟨hs.next, hbf, org, hb⟩
    · rw [hother _ (hs.alone k' hk' hkk h0).1]
      exact h.buf k' hk' hkk h0
  orgs := by
    rw [e1]
    intro k1 k2 h1 h2 _ _ h3 h4 heq
    by_cases hk1 : k1 = k
    · by_cases hk2 : k2 = k
      · omega
      · subst hk1
        rw [hother _ (hs.alone k2 h2 hk2 h4).1, hb.horg] at heq
        exact absurd heq.symm (hs.alone k2 h2 hk2 h4).2
    · by_cases hk2 : k2 = k
      · subst hk2
        rw [hother _ (hs.alone k1 h1 hk1 h3).1, hb.horg] at heq
        exact absurd heq (hs.alone k1 h1 hk1 h3).2
      · rw [hother _ (hs.alone k1 h1 hk1 h3).1, hother _ (hs.alone k2 h2 hk2 h4).1] at heq
        exact h.orgs k1 k2 h1 h2 hk1 hk2 h3 h4 heq
  cover := by
    rw [e1, e3, e4]
    intro i hi
    rcases h.cover i hi with ⟨k1, o, a1, a2, a3, a4⟩ | a
    · left
      refine ⟨k1, o, a1, by omega, a3, ?_⟩
      rw [hother _ (hs.alone k1 a1 a2 a3).1]
      exact a4
    · right; exact a
  sw := by rw [e7]; exact h.sw

theorem loadBuf_ok {B N : Nat} {s0 s : State} {f : Nat} {L : List Nat} {k org : Nat} (hB : 0 < B) (h : FI B N s f L k)
    (hs : Slot N s f k org) (hmod : org % B = 0) (hle : org ≤ L.length) (g : GI N s) (hx : Ext s0 s f)
    (hnew : (s.files f).bufs k < s0.next → (s0.bufs ((s.files f).bufs k)).org ≠ none)
    (hold : (s.files f).bufs k < s0.next → (s0.bufs ((s.files f).bufs k)).f = f) :
    FI B N (loadBuf B s f ((s.files f).bufs k) org) f L N ∧ GI N (loadBuf B s f ((s.files f).bufs k) org) ∧
    Ext s0 (loadBuf B s f ((s.files f).bufs k) org) f ∧
    ((loadBuf B s f ((s.files f).bufs k) org).bufs ((s.files f).bufs k)).org = some org ∧
    ((loadBuf B s f ((s.files f).bufs k) org).bufs ((s.files f).bufs k)).f = f ∧
    (loadBuf B s f ((s.files f).bufs k) org).next = s.next ∧
    ((loadBuf B s f ((s.files f).bufs k) org).files f).len = (s.files f).len := by
  obtain ⟨b, hb⟩ : ∃ b, b = (s.files f).bufs k := ⟨_, rfl⟩
  have hs' := hs
  rw [← hb] at hnew hold ⊢
  obtain ⟨hlt, hne, hnext, hfile, hstale, halone⟩ := hs
  rw [← hb] at hne hnext hfile hstale
  have hgi : ∀ s' : State, s'.nfiles = s.nfiles → s'.next = s.next → (∀ c, c ≠ b → s'.bufs c = s.bufs c) → (s'.bufs b).f = f →
      (s'.files f).bufs = (s.files f).bufs → (∀ g, g ≠ f → s'.files g = s.files g) → GI N s' := by
    intro s' q1 q2 q3 q4 q5 q6
    refine ⟨by rw [q2]; exact g.next, fun c hc0 hcn => ?_⟩
    rw [q2] at hcn
    by_cases hcb : c = b
    · subst hcb
      rw [q4, q1]
      refine ⟨by rw [← hfile]; exact (g.buf c hc0 hcn).1, fun _ => ⟨k, hlt, by rw [q5]; exact hb.symm⟩⟩
    · rw [q3 c hcb, q1]
      refine ⟨(g.buf c hc0 hcn).1, fun hn => ?_⟩
      obtain ⟨k', hk', e⟩ := (g.buf c hc0 hcn).2 hn
      refine ⟨k', hk', ?_⟩
      by_cases hff : (s.bufs c).f = f
      · rw [hff, q5]; rw [hff] at e; exact e
      · rw [q6 _ hff]; exact e
  have hext : ∀ s' : State, s'.nfiles = s.nfiles → s'.riders = s.riders → s'.next = s.next → (∀ c, c ≠ b → s'.bufs c = s.bufs c) →
      (s'.bufs b).f = f → (s'.files f).len = (s.files f).len → (s'.files f).anon = (s.files f).anon →
      ((s.files f).created = true → (s'.files f).created = true) →
      (∀ g, g ≠ f → s'.files g = s.files g) → Ext s0 s' f := by
    intro s' q1 q2 q3 q4 q5 q6 q7 q8 q9
    constructor
    · rw [q1]; exact hx.nfiles
    · rw [q2]; exact hx.riders
    · intro g' hg'; rw [q9 g' hg']; exact hx.files g' hg'
    · rw [q7]; exact hx.anon
    · exact fun hh => q8 (hx.created hh)
    · rw [q3]; exact hx.next
    · intro c hc
      by_cases hcb : c = b
      · subst hcb; rw [q5, hold hc]
      · rw [q4 c hcb]; exact hx.bf c hc
    · intro c hc hcf
      by_cases hcb : c = b
      · subst hcb; exact absurd (hold hc) hcf
      · rw [q4 c hcb]; exact hx.bufs c hc hcf
    · intro c hc hcn
      by_cases hcb : c = b
      · subst hcb; exact absurd hcn (hnew hc)
      · rw [q4 c hcb]; exact hx.gone c hc hcn
    · rw [q6]; exact hx.len
  unfold loadBuf
  rw [if_pos hstale]
  by_cases hend : org = (s.files f).len
  · simp only [if_pos hend]
    simp only [upd_same]
    have hot : ∀ (u v : Buf) c, c ≠ b → upd (upd s.bufs b u) b v c = s.bufs c := by
      intro u v c hc; rw [upd_ne _ _ hc, upd_ne _ _ hc]
    refine ⟨?_, hgi _ rfl rfl (hot _ _) (by simp [upd_same, hfile]) rfl (fun _ _ => rfl),
      hext _ rfl rfl rfl (hot _ _) (by simp [upd_same, hfile]) rfl rfl id (fun _ _ => rfl), trivial, hfile, trivial, trivial⟩
    refine h.fill hs' ?_ (by rw [← hb]; simp [upd_same, hfile]) (by rw [← hb]; exact hot _ _) rfl rfl rfl rfl rfl rfl h.pos rfl
    rw [← hb]
    simp only [upd_same]
    have hl := h.len
    refine ⟨rfl, hmod, hle, by show 0 = _; omega, fun i hi => ?_⟩
    simp at hi
  · simp only [if_neg hend]
    obtain ⟨c1, c2, c3, c4, c5, c6, c7, c8⟩ := create_ok h
    obtain ⟨s1, hs1⟩ : ∃ s1, s1 = create s f := ⟨_, rfl⟩
    rw [← hs1] at c1 c2 c3 c4 c5 c6 c7 c8 ⊢
    have hseek : ∃ s2 : State, s2 = (if (s1.files f).pos ≠ org then seek s1 f org else s1) ∧
        s2 = { s1 with files := upd s1.files f { s1.files f with osPos := org } } := by
      by_cases hp : (s1.files f).pos ≠ org
      · exact ⟨_, rfl, by rw [if_pos hp]; rfl⟩
      · refine ⟨_, rfl, ?_⟩
        rw [if_neg hp]
        have e : (s1.files f).osPos = org := by rw [← c1.pos c3]; omega
        have e2 : upd s1.files f { s1.files f with osPos := org } = s1.files := by
          funext i
          by_cases hi : i = f
          · subst hi; rw [upd_same, ← e]
          · rw [upd_ne _ _ hi]
        rw [e2]
    obtain ⟨s2, hs2, es2⟩ := hseek
    rw [← hs2]
    have hb2 : s2.bufs = s.bufs := by rw [es2, ← c4]
    have hf2 : s2.files f = { s1.files f with osPos := org } := by rw [es2]; simp [upd_same]
    have hg2 : ∀ g, g ≠ f → s2.files g = s.files g := by
      intro g' hg'
      rw [es2]
      show upd s1.files f _ g' = _
      rw [upd_ne _ _ hg']; exact c2.files g' hg'
    have hn2 : s2.next = s.next := by rw [es2]; exact c5
    have hnf2 : s2.nfiles = s.nfiles := by rw [es2]; exact c2.nfiles
    have hr2 : s2.riders = s.riders := by rw [es2]; exact c2.riders
    simp only [hb2, hf2, upd_same]
    -- the whole block is on the disk
    have hblock : ∀ i, org ≤ i → i < org + B → i < L.length → i < (s1.files f).osLen ∧ L[i]? = some ((s1.files f).os i) := by
      intro i h1 h2 h3
      rcases c1.cover i h3 with ⟨k1, o, a1, a2, a3, a4, a5, a6, a7⟩ | a
      · exfalso
        obtain ⟨_, _, o', ok⟩ := c1.buf k1 a1 a2 a3
        rw [ok.horg] at a5
        have ho := Option.some.inj a5
        subst ho
        have hsz := ok.size
        have := block_eq hB hmod ok.mod h1 h2 a6 (by omega)
        rw [c6] at a3
        refine (halone k1 a1 a2 a3).2 ?_
        have := ok.horg
        rw [c6, c4] at this
        rw [this]
        congr 1
        omega
      · exact a
    have hosle := c1.osle
    have hl := h.len
    have hn : min B ((s1.files f).osLen - org) = min B (L.length - org) := by
      by_cases hle2 : org + B ≤ L.length
      · have := (hblock (org + B - 1) (by omega) (by omega) (by omega)).1
        omega
      · have := (hblock (L.length - 1) (by omega) (by omega) (by omega)).1
        omega
    have hot : ∀ (u v : Buf) c, c ≠ b → upd (upd s.bufs b u) b v c = s.bufs c := by
      intro u v c hc; rw [upd_ne _ _ hc, upd_ne _ _ hc]
    refine ⟨?_, ?_, ?_, trivial, hfile, hn2, c7⟩
    · have h1 : Slot N s1 f k org := by
        constructor
        · exact hlt
        · rw [c6, ← hb]; exact hne
        · rw [c6, ← hb, c5]; exact hnext
        · rw [c6, ← hb, c4]; exact hfile
        · rw [c6, ← hb, c4]; exact hstale
        · rw [c6, c4]; exact halone
      refine c1.fill h1 ?_ (by rw [c6, ← hb]; simp [upd_same, hfile]) (by rw [c6, ← hb, c4]; exact hot _ _) (by rw [c5]; exact hn2)
        (by simp [upd_same]) (by simp [upd_same]) (by simp [upd_same]) (by simp [upd_same]) (by simp [upd_same]) (by simp [upd_same])
        (by simp [upd_same])
      rw [c6, ← hb]
      simp only [upd_same]
      refine ⟨rfl, hmod, hle, hn, fun i hi => ?_⟩
      simp only [] at hi ⊢
      rw [if_pos hi]
      exact (hblock (org + i) (by omega) (by omega) (by omega)).2
    · exact hgi _ hnf2 hn2 (hot _ _) (by simp [upd_same, hfile]) (by simp [upd_same, c6])
        (fun g' hg' => by show upd s2.files f _ g' = _; rw [upd_ne _ _ hg']; exact hg2 g' hg')
    · exact hext _ hnf2 hr2 hn2 (hot _ _) (by simp [upd_same, hfile]) (by simp [upd_same, c7]) (by simp [upd_same]; exact c2.anon)
        (by simp [upd_same, c3]) (fun g' hg' => by show upd s2.files f _ g' = _; rw [upd_ne _ _ hg']; exact hg2 g' hg')

theorem search_ok (N : Nat) (s : State) (f org : Nat) : ∀ k i, i + k = N →
    i ≤ search s f org k i ∧ search s f org k i ≤ N ∧
    (∀ j, i ≤ j → j < search s f org k i → (s.files f).bufs j ≠ 0 ∧ (s.bufs ((s.files f).bufs j)).org ≠ some org) ∧
    (search s f org k i < N → (s.files f).bufs (search s f org k i) = 0 ∨
      (s.bufs ((s.files f).bufs (search s f org k i))).org = some org)
  | 0, i, h => by
    simp only [search]
    exact ⟨Nat.le_refl _, by omega, by omega, by omega⟩
  | k + 1, i, h => by
    simp only [search]
    by_cases hc : (s.files f).bufs i ≠ 0 ∧ some org ≠ (s.bufs ((s.files f).bufs i)).org
    · rw [if_pos hc]
      obtain ⟨h1, h2, h3, h4⟩ := search_ok N s f org k (i + 1) (by omega)
      refine ⟨by omega, h2, ?_, h4⟩
      intro j hj1 hj2
      by_cases hij : j = i
      · subst hij; exact ⟨hc.1, fun e => hc.2 e.symm⟩
      · exact h3 j (by omega) hj2
    · rw [if_neg hc]
      refine ⟨Nat.le_refl _, by omega, by omega, fun _ => ?_⟩
      by_cases h0 : (s.files f).bufs i = 0
      · left; exact h0
      · right
        by_contra hne
        exact hc ⟨h0, fun e => hne e.symm⟩

/-- Set, for a position `q` in the file. -/
theorem set_core {B N : Nat} {s : State} {f : Nat} {L : List Nat} {q : Nat} (hB : 0 < B) (hN : 0 < N) (h : FI B N s f L N) (g : GI N s)
    (hf : f < s.nfiles) (hq : q ≤ L.length) :
    ∃ s' b, (getBuf N none s f (q - q % B)).bind (fun r => some (loadBuf B r.1 f r.2 (q - q % B), r.2)) = some (s', b) ∧
      FI B N s' f L N ∧ GI N s' ∧ Ext s s' f ∧ (s'.files f).len = (s.files f).len ∧
      b ≠ 0 ∧ b < s'.next ∧ (s'.bufs b).f = f ∧ (s'.bufs b).org = some (q - q % B) := by
  obtain ⟨org, horg⟩ : ∃ org, org = q - q % B := ⟨_, rfl⟩
  rw [← horg]
  have hmod : org % B = 0 := by
    rw [horg, ← Nat.mod_add_div q B, Nat.add_mul_mod_self_left, Nat.mod_mod, Nat.add_sub_cancel_left, Nat.mul_mod_right]
  have hle : org ≤ L.length := by omega
  obtain ⟨s1, s2, s3, s4⟩ := search_ok N s f org N 0 (by omega)
  unfold getBuf
  obtain ⟨i, hi⟩ : ∃ i, i = search s f org N 0 := ⟨_, rfl⟩
  simp only [← hi]
  rw [← hi] at s1 s2 s3 s4
  by_cases hlt : i < N
  · rw [if_pos hlt]
    by_cases h0 : (s.files f).bufs i = 0
    · -- a new buffer
      rw [if_pos h0, Option.bind_some]
      simp only []
      have hn0 := g.next
      obtain ⟨t, ht⟩ : ∃ t : State, t = { s with
        next := s.next + 1
        bufs := upd s.bufs s.next ⟨f, false, none, 0, fun _ => 0⟩
        files := upd s.files f { s.files f with bufs := upd (s.files f).bufs i s.next } } := ⟨_, rfl⟩
      rw [← ht]
      have tf : t.files f = { s.files f with bufs := upd (s.files f).bufs i s.next } := by rw [ht]; simp [upd_same]
      have tg : ∀ g, g ≠ f → t.files g = s.files g := by
        intro g' hg'; rw [ht]; exact upd_ne _ _ hg'
      have tb : ∀ c, c ≠ s.next → t.bufs c = s.bufs c := by
        intro c hc; rw [ht]; exact upd_ne _ _ hc
      have tbn : t.bufs s.next = ⟨f, false, none, 0, fun _ => 0⟩ := by rw [ht]; simp [upd_same]
      have tn : t.next = s.next + 1 := by rw [ht]
      have tfi : (t.files f).bufs i = s.next := by rw [tf]; simp [upd_same]
      have tfk : ∀ k, k ≠ i → (t.files f).bufs k = (s.files f).bufs k := by
        intro k hk; rw [tf]; exact upd_ne _ _ hk
      have hnil : ∀ k, k < N → i ≤ k → (s.files f).bufs k = 0 := fun k hk hik => h.nil i k hik hk h0
      have hbk : ∀ k, k < N → k ≠ i → (s.files f).bufs k ≠ 0 → t.bufs ((s.files f).bufs k) = s.bufs ((s.files f).bufs k) := by
        intro k hk _ hk0
        have := (h.buf k hk (by omega) hk0).1
        exact tb _ (by omega)
      have hFI : FI B N t f L i := by
        constructor
        · rw [tf]; exact h.len
        · rw [tf]; exact h.osle
        · rw [tf]; exact h.nc
        · rw [tf]; exact h.pos
        · intro a c hac hc ha0
          by_cases hai : a = i
          · subst hai; rw [tfi] at ha0; omega
          · rw [tfk a hai] at ha0
            by_cases hci : c = i
            · subst hci
              have := (s3 a (by omega) (by omega)).1
              exact absurd ha0 this
            · rw [tfk c hci]; exact h.nil a c hac hc ha0
        · intro k hk hki hk0
          rw [tfk k hki] at hk0 ⊢
          rw [hbk k hk hki hk0, tn]
          obtain ⟨d1, d2, d3⟩ := h.buf k hk (by omega) hk0
          exact ⟨by omega, d2, d3⟩
        · intro k k' hk hk' hki hki' h1 h2
          rw [tfk k hki] at h1 ⊢
          rw [tfk k' hki'] at h2 ⊢
          rw [hbk k hk hki h1, hbk k' hk' hki' h2]
          exact h.orgs k k' hk hk' (by omega) (by omega) h1 h2
        · intro j hj
          rcases h.cover j hj with ⟨k1, o, a1, a2, a3, a4⟩ | a
          · left
            have hki : k1 ≠ i := by rintro rfl; exact a3 h0
            refine ⟨k1, o, a1, hki, ?_⟩
            rw [tfk k1 hki, hbk k1 a1 hki a3]
            exact ⟨a3, a4⟩
          · right; rw [tf]; exact a
        · rw [tf]; exact h.sw
      have hSlot : Slot N t f i org := by
        constructor
        · exact hlt
        · rw [tfi]; omega
        · rw [tfi, tn]; omega
        · rw [tfi, tbn]
        · rw [tfi, tbn]; simp
        · intro k' hk' hki hk0
          rw [tfk k' hki] at hk0 ⊢
          rw [tfi, hbk k' hk' hki hk0]
          have d1 := (h.buf k' hk' (by omega) hk0).1
          refine ⟨by omega, ?_⟩
          have : k' < i := by
            by_contra hge
            exact hk0 (hnil k' hk' (by omega))
          exact (s3 k' (by omega) this).2
      have hG : GI N t := by
        refine ⟨by omega, fun c hc0 hcn => ?_⟩
        by_cases hcs : c = s.next
        · subst hcs
          rw [tbn]
          exact ⟨by rw [ht]; exact hf, fun hh => absurd rfl hh⟩
        · rw [tb c hcs]
          have hcn' : c < s.next := by omega
          refine ⟨by rw [ht]; exact (g.buf c hc0 hcn').1, fun hn => ?_⟩
          obtain ⟨k, hk, e⟩ := (g.buf c hc0 hcn').2 hn
          refine ⟨k, hk, ?_⟩
          by_cases hff : (s.bufs c).f = f
          · rw [hff] at e ⊢
            have : k ≠ i := by rintro rfl; rw [h0] at e; omega
            rw [tfk k this]; exact e
          · rw [tg _ hff]; exact e
      have hX : Ext s t f := by
        constructor
        · rw [ht]
        · rw [ht]
        · exact tg
        · rw [tf]
        · rw [tf]; exact id
        · omega
        · intro c hc; rw [tb c (by omega)]
        · intro c hc _; exact tb c (by omega)
        · intro c hc hn; rw [tb c (by omega)]; exact hn
        · rw [tf]
      have key := loadBuf_ok (s0 := s) hB hFI hSlot hmod hle hG hX (by rw [tfi]; intro hh; omega) (by rw [tfi]; intro hh; omega)
      rw [tfi] at key
      obtain ⟨k1, k2, k3, k4, k5, k6, k7⟩ := key
      exact ⟨_, _, rfl, k1, k2, k3, by rw [k7, tf], by omega, by rw [k6]; omega, k5, k4⟩
    · rw [if_neg h0, Option.bind_some]
      have ho := (s4 hlt).resolve_left h0
      have e1 : loadBuf B s f ((s.files f).bufs i) org = s := by
        unfold loadBuf
        rw [if_neg (by simpa using ho)]
      simp only [e1]
      obtain ⟨d1, d2, _⟩ := h.buf i hlt (by omega) h0
      exact ⟨_, _, rfl, h, g, Ext.refl s f, rfl, h0, d1, d2, ho⟩
  · rw [if_neg hlt]
    have hiN : i = N := by omega
    subst hiN
    -- all buffers are in use: one is taken
    obtain ⟨sw, hsw⟩ : ∃ sw : Int, sw = ((s.files f).swapper + 1) % (i : Int) := ⟨_, rfl⟩
    rw [← hsw]
    have hsw0 : 0 ≤ sw := by rw [hsw]; exact Int.emod_nonneg _ (by omega)
    have hsw1 : sw < i := by rw [hsw]; exact Int.emod_lt_of_pos _ (by omega)
    obtain ⟨k, hk⟩ : ∃ k, k = sw.toNat := ⟨_, rfl⟩
    have hkN : k < i := by omega
    obtain ⟨t, ht⟩ : ∃ t : State, t = { s with files := upd s.files f { s.files f with swapper := sw } } := ⟨_, rfl⟩
    rw [← ht, ← hk]
    have tf : t.files f = { s.files f with swapper := sw } := by rw [ht]; simp [upd_same]
    have tg : ∀ g, g ≠ f → t.files g = s.files g := by
      intro g' hg'; rw [ht]; exact upd_ne _ _ hg'
    have tb : t.bufs = s.bufs := by rw [ht]
    have tn : t.next = s.next := by rw [ht]
    have hFI : FI B i t f L i := by
      constructor
      · rw [tf]; exact h.len
      · rw [tf]; exact h.osle
      · rw [tf]; exact h.nc
      · rw [tf]; exact h.pos
      · rw [tf]; exact h.nil
      · rw [tf, tb, tn]; exact h.buf
      · rw [tf, tb]; exact h.orgs
      · rw [tf, tb]; exact h.cover
      · rw [tf]; show -1 ≤ sw; omega
    have hG : GI i t := by
      refine ⟨by rw [tn]; exact g.next, fun c hc0 hcn => ?_⟩
      rw [tn] at hcn
      rw [tb]
      refine ⟨by rw [ht]; exact (g.buf c hc0 hcn).1, fun hn => ?_⟩
      obtain ⟨k', hk', e⟩ := (g.buf c hc0 hcn).2 hn
      refine ⟨k', hk', ?_⟩
      by_cases hff : (s.bufs c).f = f
      · rw [hff] at e ⊢; rw [tf]; exact e
      · rw [tg _ hff]; exact e
    have hX : Ext s t f := by
      constructor
      · rw [ht]
      · rw [ht]
      · exact tg
      · rw [tf]
      · rw [tf]; exact id
      · rw [tn]
      · intro c hc; rw [tb]
      · intro c hc _; rw [tb]
      · intro c hc hn; rw [tb]; exact hn
      · rw [tf]
    have hk0 : (t.files f).bufs k ≠ 0 := by rw [tf]; exact (s3 k (by omega) hkN).1
    obtain ⟨u, f1, f2, f3, f4, f5, f6, f7, f8, f9⟩ := flush_ok hB hFI hG hkN hk0
    rw [show (upd s.files f { s.files f with swapper := sw } f).bufs k = (t.files f).bufs k by rw [tf, upd_same]]
    rw [f1, Option.map_some, Option.bind_some]
    simp only []
    obtain ⟨b, hb⟩ : ∃ b, b = (t.files f).bufs k := ⟨_, rfl⟩
    rw [← hb] at f5 hk0 ⊢
    have hbs : b = (s.files f).bufs k := by rw [hb, tf]
    have hub : (u.files f).bufs k = b := by rw [f7]; exact hb.symm
    have hchg : (u.bufs ((u.files f).bufs k)).chg = false := by rw [hub, f5]; simp [upd_same]
    obtain ⟨d1, d2, o, d3⟩ := h.buf k hkN (by omega) (by rw [← hbs]; exact hk0)
    rw [← hbs] at d1 d2 d3
    have hufs : (u.files f).bufs = (s.files f).bufs := by rw [f7, tf]
    have huorg : ∀ c, (u.bufs c).org = (s.bufs c).org ∧ (u.bufs c).f = (s.bufs c).f := by
      intro c
      rw [f5, tb]
      by_cases hcb : c = b
      · subst hcb; simp [upd_same]
      · simp [upd_ne _ _ hcb]
    have hSlot : Slot i u f k org := by
      constructor
      · exact hkN
      · rw [hub]; exact hk0
      · rw [hub, f6, tn]; exact d1
      · rw [hub, (huorg b).2]; exact d2
      · rw [hub, (huorg b).1, hbs]; exact (s3 k (by omega) hkN).2
      · intro k' hk' hkk hk0'
        rw [hufs] at hk0' ⊢
        rw [(huorg _).1]
        refine ⟨fun e => hkk (h.orgs k' k hk' hkN (by omega) (by omega) hk0' (by rw [← hbs]; exact hk0) (by rw [e])), (s3 k' (by omega) hk').2⟩
    have key := loadBuf_ok (s0 := s) hB (f2.excl hchg) hSlot hmod hle f3 (hX.trans f4)
      (by rw [hub]; intro _; rw [d3.horg]; simp) (by rw [hub]; intro _; exact d2)
    rw [hub] at key
    obtain ⟨k1, k2, k3, k4, k5, k6, k7⟩ := key
    exact ⟨_, _, rfl, k1, k2, k3, by rw [k7, f8, tf], hk0, by rw [k6, f6, tn]; exact d1, k5, k4⟩

/-- The position Set chooses. -/
def clamp (len : Nat) (p : Int) : Nat := if len < p then len else if p < 0 then 0 else p.toNat

theorem clamp_le (len : Nat) (p : Int) : clamp len p ≤ len := by
  unfold clamp
  split
  · omega
  · split <;> omega

theorem set_ok {B N : Nat} {s : State} {f : Nat} {L : List Nat} {p : Int} (hB : 0 < B) (hN : 0 < N) (h : FI B N s f L N) (g : GI N s)
    (hf : f < s.nfiles) :
    ∃ s' b, set B N none s f p = some (s', ⟨b, clamp L.length p - clamp L.length p % B, clamp L.length p % B, false, 0⟩) ∧
      FI B N s' f L N ∧ GI N s' ∧ Ext s s' f ∧ (s'.files f).len = (s.files f).len ∧
      b ≠ 0 ∧ b < s'.next ∧ (s'.bufs b).f = f ∧ (s'.bufs b).org = some (clamp L.length p - clamp L.length p % B) := by
  obtain ⟨s', b, e, h1⟩ := set_core (q := clamp L.length p) hB hN h g hf (clamp_le _ _)
  refine ⟨s', b, ?_, h1⟩
  unfold set
  have hq : (if ((s.files f).len : Int) < p then (s.files f).len else if p < 0 then 0 else p.toNat) = clamp L.length p := by
    rw [h.len]; rfl
  simp only [hq]
  rw [Option.bind_eq_some_iff] at e
  obtain ⟨⟨t, c⟩, e1, e2⟩ := e
  rw [e1, Option.bind_some]
  simp only [Option.some.injEq, Prod.mk.injEq] at e2
  simp only []
  rw [if_pos (Nat.le_of_lt (Nat.mod_lt _ hB)), e2.1, e2.2]

end Verif.Files
