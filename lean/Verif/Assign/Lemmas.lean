import Verif.Assign.Model

/-! Lemmas for C72. -/
namespace Verif.Assign
open Verif.Layout Verif.Layout.CSpec

theorem read_length (m : Mem) (a n : Nat) : (read m a n).length = n := by simp [read]

theorem read_congr {m m' : Mem} {a b n : Nat} (h : ∀ i, i < n → m (a + i) = m' (b + i)) : read m a n = read m' b n := by
  unfold read
  exact List.map_congr_left fun i hi => h i (List.mem_range.1 hi)

theorem write_in {m : Mem} {a : Nat} {bs : List Nat} {i : Nat} (h : i < bs.length) : write m a bs (a + i) = bs.getD i 0 := by
  unfold write
  rw [if_pos ⟨by omega, by omega⟩, show a + i - a = i from by omega]

theorem write_out {m : Mem} {a : Nat} {bs : List Nat} {i : Nat} (h : i < a ∨ a + bs.length ≤ i) : write m a bs i = m i := by
  unfold write
  rw [if_neg (by omega)]

theorem read_write (m : Mem) (a : Nat) (bs : List Nat) : read (write m a bs) a bs.length = bs := by
  apply List.ext_getElem
  · simp [read]
  · intro i h1 h2
    simp only [read, List.getElem_map, List.getElem_range]
    rw [write_in h2]
    simp [List.getD, List.getElem?_eq_getElem h2]

theorem read_getD {m : Mem} {a n i : Nat} (h : i < n) : (read m a n).getD i 0 = m (a + i) := by
  simp [read, List.getD, h]

/-- Copied components. -/
theorem read_copied (m : Mem) (src dst n o s : Nat) (h : o + s ≤ n) :
    read (write m dst (read m src n)) (dst + o) s = read m (src + o) s := by
  apply read_congr
  intro i hi
  rw [Nat.add_assoc, write_in (by rw [read_length]; omega), read_getD (by omega), Nat.add_assoc]

/-- Components behind. -/
theorem read_behind (m : Mem) (dst : Nat) (bs : List Nat) (o s : Nat) (h : bs.length ≤ o) :
    read (write m dst bs) (dst + o) s = read m (dst + o) s := by
  apply read_congr
  intro i hi
  exact write_out (Or.inr (by omega))

theorem only_write (m : Mem) (a : Nat) (bs : List Nat) (n : Nat) (h : bs.length ≤ n) : Only a n m (write m a bs) := by
  intro i hi
  exact write_out (by omega)

/-- The first components are copied, the others are behind them. -/
theorem value_copied (m : Mem) (src dst n : Nat) (s1 s2 : List (Nat × Nat)) (h1 : ∀ x ∈ s1, x.1 + x.2 ≤ n) (h2 : ∀ x ∈ s2, n ≤ x.1) :
    (s1 ++ s2).map (fun x => read (write m dst (read m src n)) (dst + x.1) x.2) =
      s1.map (fun x => read m (src + x.1) x.2) ++ s2.map (fun x => read m (dst + x.1) x.2) := by
  rw [List.map_append]
  congr 1
  · exact List.map_congr_left fun x hx => read_copied m src dst n x.1 x.2 (h1 x hx)
  · exact List.map_congr_left fun x hx => read_behind m dst _ x.1 x.2 (by rw [read_length]; exact h2 x hx)

theorem overlay_short {s1 s2 : List (Nat × Nat)} (f g : Nat × Nat → List Nat) :
    overlay (s1.map f) ((s1 ++ s2).map g) = s1.map f ++ s2.map g := by
  unfold overlay
  rw [List.length_map, List.length_map, List.take_of_length_le (by simp), List.map_append, List.drop_append]
  simp

theorem overlay_long {s1 s2 : List (Nat × Nat)} (f g : Nat × Nat → List Nat) :
    overlay ((s1 ++ s2).map f) (s1.map g) = s1.map f := by
  unfold overlay
  rw [List.length_map, List.length_map, List.map_append, List.take_append_of_le_length (by simp), List.take_of_length_le (by simp)]
  rw [List.drop_of_length_le (by simp)]
  simp

/-- The components of an array. -/
def comps (s : Nat) (ss : List (Nat × Nat)) (l : List Nat) : List (Nat × Nat) := l.flatMap fun i => shift (i * s) ss

theorem range_split {k n : Nat} (h : k ≤ n) : List.range n = List.range k ++ (List.range (n - k)).map (k + ·) := by
  rw [← List.range_add, Nat.add_sub_cancel' h]

theorem comps_lt {s : Nat} {ss : List (Nat × Nat)} (h : ∀ x ∈ ss, x.1 + x.2 ≤ s) {k : Nat} :
    ∀ x ∈ comps s ss (List.range k), x.1 + x.2 ≤ k * s := by
  intro x hx
  unfold comps shift at hx
  simp only [List.mem_flatMap, List.mem_range, List.mem_map] at hx
  obtain ⟨i, hi, y, hy, rfl⟩ := hx
  have h1 := h y hy
  have h2 : (i + 1) * s ≤ k * s := Nat.mul_le_mul_right _ hi
  rw [Nat.add_mul, Nat.one_mul] at h2
  show y.1 + i * s + y.2 ≤ k * s
  omega

theorem comps_ge {s : Nat} {ss : List (Nat × Nat)} {k : Nat} {l : List Nat} :
    ∀ x ∈ comps s ss (l.map (k + ·)), k * s ≤ x.1 := by
  intro x hx
  unfold comps shift at hx
  simp only [List.mem_flatMap, List.mem_map] at hx
  obtain ⟨i, ⟨j, _, rfl⟩, y, hy, rfl⟩ := hx
  show k * s ≤ y.1 + (k + j) * s
  have : k * s ≤ (k + j) * s := Nat.mul_le_mul_right _ (by omega)
  omega

theorem scalars_array {al n : Nat} {e : Typ} {ss : List (Nat × Nat)} {s a : Nat} (h1 : scalars al e = some ss)
    (h2 : layoutTyp al e = some (s, a)) : scalars al (.array n e) = some (comps s ss (List.range n)) := by
  rw [scalars, h1, h2]; rfl

theorem layout_array {al n : Nat} {e : Typ} {s a : Nat} (h : layoutTyp al (.array n e) = some (s, a)) :
    ∃ s0 a0, layoutTyp al e = some (s0, a0) ∧ s = n * s0 := by
  simp only [layoutTyp, Option.bind_eq_bind, Option.bind_eq_some_iff, Prod.exists, Option.some.injEq, Prod.mk.injEq] at h
  obtain ⟨s0, a0, h0, s', h1, rfl, rfl⟩ := h
  exact ⟨s0, a0, h0, (ck_some h1).1⟩

/-- Types of which a record is an extension have their components first. -/
theorem up_scalars {al : Nat} (y x : Rc) (h : x ∈ y.up) {sy : List (Nat × Nat)} (hy : recScalars al y.lay = some sy) :
    ∃ sx rest, recScalars al x.lay = some sx ∧ sy = sx ++ rest := by
  induction y generalizing sy with
  | root i n p fs =>
    simp only [Rc.up, List.mem_singleton] at h
    subst h
    exact ⟨sy, [], hy, by simp⟩
  | ext b i n p fs ih =>
    simp only [Rc.up, List.mem_cons] at h
    rcases h with rfl | h
    · exact ⟨sy, [], hy, by simp⟩
    · rw [Rc.lay, recScalars] at hy
      simp only [Option.bind_eq_bind, Option.bind_eq_some_iff, Option.some.injEq] at hy
      obtain ⟨sb, hb, _, _, w, _, rfl⟩ := hy
      obtain ⟨sx, rest, e1, rfl⟩ := ih h hb
      exact ⟨sx, rest ++ w, e1, by simp⟩

theorem natOf_toBytes (n v : Nat) : natOf (toBytes n v) = v % 256 ^ n := by
  induction n generalizing v with
  | zero => simp [toBytes, natOf, Nat.mod_one]
  | succ n ih =>
    rw [toBytes, natOf, ih, Nat.pow_succ, Nat.mul_comm (256 ^ n), Nat.mod_mul]

theorem toBytes_length (n v : Nat) : (toBytes n v).length = n := by
  induction n generalizing v with
  | zero => rfl
  | succ n ih => simp [toBytes, ih]

theorem natOf_lt (bs : List Nat) (h : ∀ b ∈ bs, b < 256) : natOf bs < 256 ^ bs.length := by
  induction bs with
  | nil => simp [natOf]
  | cons b r ih =>
    have h1 := h b (by simp)
    have h2 := ih (fun x hx => h x (by simp [hx]))
    rw [natOf, List.length_cons, Nat.pow_succ]
    omega

/-- Reducing a number to `s` bytes and reading them gives the number if it fits. -/
theorem intOf_toBytes (s : Nat) (v : Int) (h1 : 2 * v < (256 ^ s : Nat)) (h2 : -((256 ^ s : Nat) : Int) ≤ 2 * v) :
    intOf (toBytes s (v % (256 ^ s : Nat)).toNat) = v := by
  unfold intOf
  rw [natOf_toBytes, toBytes_length]
  generalize 256 ^ s = P at *
  have hP : (0 : Int) < P := by omega
  by_cases hv : 0 ≤ v
  · have e : v % P = v := Int.emod_eq_of_lt hv (by omega)
    rw [e, Nat.mod_eq_of_lt (by omega)]
    split <;> omega
  · have e : v % P = v + P := by
      have h3 : (v + P) % P = v % P := Int.add_emod_right v P
      rw [← h3, Int.emod_eq_of_lt (by omega) (by omega)]
    rw [e, Nat.mod_eq_of_lt (by omega)]
    split <;> omega

theorem intOf_range (bs : List Nat) (h : ∀ b ∈ bs, b < 256) :
    2 * intOf bs < (256 ^ bs.length : Nat) ∧ -((256 ^ bs.length : Nat) : Int) ≤ 2 * intOf bs := by
  have := natOf_lt bs h
  unfold intOf
  generalize 256 ^ bs.length = P at *
  split <;> omega

theorem mult_le {a x y o : Nat} (hx : a ∣ x) (hy : a ∣ y) (h1 : x < o + a) (h2 : o ≤ y) : x ≤ y := by
  obtain ⟨c, rfl⟩ := hx
  obtain ⟨d, rfl⟩ := hy
  by_contra h
  have h3 : d < c := by
    by_contra h4
    exact h (Nat.mul_le_mul_left a (by omega))
  have h5 : a * (d + 1) ≤ a * c := Nat.mul_le_mul_left a h3
  rw [Nat.mul_add, Nat.mul_one] at h5
  omega

/-- An extension is not smaller than its base type. -/
theorem ext_size {al : Nat} (hal : al = 4 ∨ al = 8) {b : Rec} {imp : Bool} {fs : Fields} (wf : Rec.WF (.ext b imp fs)) {ls : List Level}
    {l : Level} (h : layoutRec al (.ext b imp fs) = some (ls, l)) :
    ∃ lsb lb, layoutRec al b = some (lsb, lb) ∧ lb.size ≤ l.size := by
  have hl := rec_ok al hal _ wf h
  simp only [layoutRec, Option.bind_eq_bind, Option.bind_eq_some_iff, Prod.exists, Option.some.injEq] at h
  obtain ⟨lsb, lb, hb, o, bs, pfs, hf, l', hcl, e⟩ := h
  simp only [Prod.mk.injEq] at e
  obtain ⟨rfl, rfl⟩ := e
  refine ⟨lsb, lb, hb, ?_⟩
  have hbo := rec_ok al hal b wf.1 hb
  obtain ⟨pb, hle, hlal, ok⟩ := fields_ok al hal fs wf.2 hbo.p2 hbo.leal hf
  obtain ⟨_, e2, e3, e4, e5, e6, e7, e8⟩ := close_ok hcl pb
  have h1 := align_spec hbo.p2 (if lb.size - lb.gap = 0 then 1 else lb.size - lb.gap)
  have h2 := align_spec pb (if o = 0 then 1 else o)
  rw [← e8] at h2
  have hs := hbo.sz
  dsimp only at hs h1 hle
  rw [← hs] at h1
  have hd : lb.align ∣ l'.size := Nat.dvd_trans (hbo.p2.dvd_of_le pb hle) h2.1
  refine mult_le h1.1 hd h1.2.2 (Nat.le_trans ?_ h2.2.1)
  have := ok.le
  split <;> split <;> omega

theorem up_size {al : Nat} (hal : al = 4 ∨ al = 8) (y x : Rc) (h : x ∈ y.up) (wf : y.lay.WF) {ls : List Level} {l : Level}
    (hy : layoutRec al y.lay = some (ls, l)) : ∃ lsx lx, layoutRec al x.lay = some (lsx, lx) ∧ lx.size ≤ l.size := by
  induction y generalizing ls l with
  | root i n p fs =>
    simp only [Rc.up, List.mem_singleton] at h
    subst h
    exact ⟨ls, l, hy, Nat.le_refl _⟩
  | ext b i n p fs ih =>
    simp only [Rc.up, List.mem_cons] at h
    rcases h with rfl | h
    · exact ⟨ls, l, hy, Nat.le_refl _⟩
    · obtain ⟨lsb, lb, hb, hle⟩ := ext_size hal wf hy
      obtain ⟨lsx, lx, hx, hle'⟩ := ih h wf.1 hb
      exact ⟨lsx, lx, hx, by omega⟩

end Verif.Assign
