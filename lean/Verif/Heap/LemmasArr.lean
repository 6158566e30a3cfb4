import Verif.Common
import Verif.Heap.LemmasRun
import Verif.Heap.ModelArr

/-!
# SYSTEM_NEWARR
-/
namespace Verif.Heap

/-- The number of elements. -/
def total : List Int → Int
  | [] => 1
  | l :: ls => l * total ls

/-- The offsets of the pointers in `n` elements of size `elemsz`, of which the first lies at `off` and each has pointers at
the offsets `po`. -/
def elemOffs (off elemsz n : Nat) (po : List Nat) : List Nat :=
  (List.range n).flatMap fun i => po.map fun o => off + i * elemsz + o

/-! ### Stores -/

theorem fillLens_other (L : List Int) : ∀ (m : Mem) (p a : Nat), (a < p ∨ p + 8 * L.length ≤ a) → fillLens m p L a = m a := by
  induction L with
  | nil => intros; rfl
  | cons l ls ih =>
    intro m p a h
    simp only [List.length_cons] at h
    rw [fillLens, ih _ _ _ (by omega)]
    simp only [put]; rw [if_neg (by omega)]

theorem fillLens_get (L : List Int) : ∀ (m : Mem) (p i : Nat) (v : Int), L[i]? = some v → fillLens m p L (p + 8 * i) = v := by
  induction L with
  | nil => intro m p i v h; simp at h
  | cons l ls ih =>
    intro m p i v h
    cases i with
    | zero =>
      simp only [List.getElem?_cons_zero, Option.some.injEq] at h
      rw [fillLens, fillLens_other _ _ _ _ (by omega)]
      simp [put, h]
    | succ i =>
      rw [fillLens, show p + 8 * (i + 1) = p + 8 + 8 * i by omega]
      exact ih _ _ _ _ (by simpa using h)

theorem fillLens_append (a b : List Int) : ∀ (m : Mem) (p : Nat),
    fillLens m p (a ++ b) = fillLens (fillLens m p a) (p + 8 * a.length) b := by
  induction a with
  | nil => intros; rfl
  | cons l ls ih =>
    intro m p
    simp only [List.cons_append, fillLens, ih, List.length_cons]
    rw [show p + 8 * (ls.length + 1) = p + 8 + 8 * ls.length by omega]

theorem fillPtr_eq (k : Nat) : ∀ (m : Mem) (p n : Nat),
    fillPtr m p n k = (fillLens m p ((List.range k).map fun i => (((n + i) * 8 : Nat) : Int)), p + 8 * k) := by
  induction k with
  | zero => intros; rfl
  | succ k ih =>
    intro m p n
    rw [fillPtr, ih, List.range_succ_eq_map, List.map_cons, List.map_map, fillLens]
    simp only [Nat.add_zero, Prod.mk.injEq]
    refine ⟨?_, by omega⟩
    congr 1
    apply List.map_congr_left; intro i _
    simp only [Function.comp]
    rw [show n + 1 + i = n + i.succ by omega]

theorem fillElem_eq (po : List Nat) : ∀ (m : Mem) (p off ptab i : Nat),
    (∀ j o, po[j]? = some o → m (ptab + 8 * (i + j)) = (o : Nat)) →
    (∀ j, j < po.length → ptab + 8 * (i + j) < p ∨ p + 8 * po.length ≤ ptab + 8 * (i + j)) →
    fillElem m p off ptab i po.length = (fillLens m p (po.map fun o => ((off + o : Nat) : Int)), p + 8 * po.length) := by
  induction po with
  | nil => intros; rfl
  | cons o po ih =>
    intro m p off ptab i hm hd
    simp only [List.length_cons] at hd ⊢
    have h0 := hm 0 o rfl
    rw [Nat.add_zero] at h0
    rw [fillElem, h0, ih, List.map_cons, fillLens]
    · simp only [Prod.mk.injEq]; exact ⟨by push_cast; rfl, by omega⟩
    · intro j o' ho'
      have := hm (j + 1) o' (by simpa using ho')
      have hj : j < po.length := (List.getElem?_eq_some_iff.1 ho').1
      have := hd (j + 1) (by omega)
      simp only [put]
      rw [if_neg (by omega), show i + 1 + j = i + (j + 1) by omega]; assumption
    · intro j hj
      have := hd (j + 1) (by omega)
      omega

theorem fillRec_eq (po : List Nat) (elemsz ptab k : Nat) : ∀ (m : Mem) (p off : Nat),
    (∀ j o, po[j]? = some o → m (ptab + 8 * j) = (o : Nat)) →
    (∀ j, j < po.length → ptab + 8 * j < p ∨ p + 8 * (k * po.length) ≤ ptab + 8 * j) →
    fillRec m p off ptab po.length elemsz k =
      (fillLens m p ((elemOffs off elemsz k po).map fun (o : Nat) => (o : Int)), p + 8 * (k * po.length)) := by
  induction k with
  | zero => intros; simp [fillRec, elemOffs, fillLens]
  | succ k ih =>
    intro m p off hm hd
    have hs : (k + 1) * po.length = k * po.length + po.length := Nat.succ_mul _ _
    rw [hs] at hd ⊢
    have e1 := fillElem_eq po m p off ptab 0 (by simpa using hm) (by
      intro j hj
      have := hd j hj
      rw [Nat.zero_add]; omega)
    simp only [fillRec, e1]
    rw [ih]
    · simp only [Prod.mk.injEq]
      refine ⟨?_, by omega⟩
      have : elemOffs off elemsz (k + 1) po = po.map (fun o => off + o) ++ elemOffs (off + elemsz) elemsz k po := by
        simp only [elemOffs]
        rw [List.range_succ_eq_map, List.flatMap_cons, List.flatMap_map]
        simp only [Nat.zero_mul, Nat.add_zero]
        congr 2; funext i
        apply List.map_congr_left; intro o _
        rw [Nat.succ_mul]; omega
      rw [this, List.map_append, fillLens_append, List.length_map, List.length_map, List.map_map]
      rfl
    · intro j o ho
      have hj : j < po.length := (List.getElem?_eq_some_iff.1 ho).1
      have := hd j hj
      rw [fillLens_other _ _ _ _ (by rw [List.length_map]; omega)]
      exact hm j o ho
    · intro j hj
      have := hd j hj
      omega

theorem countPtrs_eq {m : Mem} {ptab np : Nat} (h1 : ∀ j, j < np → 0 ≤ m (ptab + 8 * j)) (h2 : m (ptab + 8 * np) < 0) :
    ∀ (d n f : Nat), n + d = np → d < f → countPtrs m ptab f n = some np := by
  intro d
  induction d with
  | zero =>
    intro n f hn hf
    obtain ⟨g, rfl⟩ : ∃ g, f = g + 1 := ⟨f - 1, by omega⟩
    have : n = np := by omega
    subst this
    rw [countPtrs, if_neg (by omega)]
  | succ d ih =>
    intro n f hn hf
    obtain ⟨g, rfl⟩ : ∃ g, f = g + 1 := ⟨f - 1, by omega⟩
    rw [countPtrs, if_pos (h1 n (by omega))]
    exact ih (n + 1) g (by omega) (by omega)

/-! ### Offsets -/

theorem mem_elemOffs {off elemsz n : Nat} {po : List Nat} {x : Nat} :
    x ∈ elemOffs off elemsz n po ↔ ∃ i, i < n ∧ ∃ o ∈ po, x = off + i * elemsz + o := by
  simp only [elemOffs, List.mem_flatMap, List.mem_range, List.mem_map]
  constructor
  · rintro ⟨i, hi, o, ho, rfl⟩; exact ⟨i, hi, o, ho, rfl⟩
  · rintro ⟨i, hi, o, ho, rfl⟩; exact ⟨i, hi, o, ho, rfl⟩

theorem elemOffs_length (off elemsz n : Nat) (po : List Nat) : (elemOffs off elemsz n po).length = n * po.length := by
  simp only [elemOffs, List.length_flatMap, List.length_map]
  simp

theorem elemOffs_nodup {off elemsz n : Nat} {po : List Nat} (hn : po.Nodup) (h : ∀ o ∈ po, o + 8 ≤ elemsz) :
    (elemOffs off elemsz n po).Nodup := by
  induction n with
  | zero => simp [elemOffs]
  | succ n ih =>
    have : elemOffs off elemsz (n + 1) po = elemOffs off elemsz n po ++ po.map (fun o => off + n * elemsz + o) := by
      simp only [elemOffs, List.range_succ, List.flatMap_append, List.flatMap_cons, List.flatMap_nil, List.append_nil]
    rw [this, List.nodup_append]
    refine ⟨ih, ?_, ?_⟩
    · exact hn.map (fun a b h => by simpa using h)
    · intro x hx y hy hxy
      subst hxy
      obtain ⟨i, hi, o, ho, rfl⟩ := mem_elemOffs.1 hx
      obtain ⟨o', ho', he⟩ := List.mem_map.1 hy
      have := h o ho
      have : (i + 1) * elemsz ≤ n * elemsz := Nat.mul_le_mul_right _ hi
      rw [Nat.succ_mul] at this
      omega

theorem elemOffs_bound {off elemsz n : Nat} {po : List Nat} (h : ∀ o ∈ po, o + 8 ≤ elemsz) {x : Nat}
    (hx : x ∈ elemOffs off elemsz n po) : off ≤ x ∧ x + 8 ≤ off + n * elemsz := by
  obtain ⟨i, hi, o, ho, rfl⟩ := mem_elemOffs.1 hx
  have := h o ho
  have : (i + 1) * elemsz ≤ n * elemsz := Nat.mul_le_mul_right _ hi
  rw [Nat.succ_mul] at this
  omega

theorem elemOffs_ptr (n : Nat) : elemOffs 8 8 n [0] = (List.range n).map fun i => (1 + i) * 8 := by
  simp only [elemOffs, List.map_cons, List.map_nil]
  generalize List.range n = l
  induction l with
  | nil => rfl
  | cons a as ih =>
    rw [List.flatMap_cons, ih, List.map_cons, List.singleton_append, show 8 + a * 8 + 0 = (1 + a) * 8 by omega]

theorem in64_of {x : Nat} (h : (x : Int) < 2 ^ 63) : in64 x = true := by
  simp only [in64, decide_eq_true_eq]; omega

/-! ### The number of elements and the offset of the first -/

theorem total_pos {lens : List Int} (h : ∀ l ∈ lens, 1 ≤ l) : 1 ≤ total lens := by
  induction lens with
  | nil => simp [total]
  | cons l ls ih =>
    have h1 := h l (by simp)
    have h2 := ih (fun x hx => h x (by simp [hx]))
    simp only [total]; nlinarith

theorem prodLoop_ok : ∀ (lens : List Int) (n : Int), 1 ≤ n → (∀ l ∈ lens, 1 ≤ l) → n * total lens < 2 ^ 63 →
    prodLoop n lens = .ok (n * total lens) := by
  intro lens
  induction lens with
  | nil => intro n _ _ _; simp [prodLoop, total]
  | cons l ls ih =>
    intro n hn hl hb
    have h1 := hl l (by simp)
    have hls : ∀ x ∈ ls, 1 ≤ x := fun x hx => hl x (by simp [hx])
    have h2 := total_pos hls
    simp only [total] at hb ⊢
    have hp : 1 ≤ n * l := by nlinarith
    rw [← Int.mul_assoc] at hb ⊢
    have hle : n * l ≤ n * l * total ls := by nlinarith
    simp only [prodLoop]
    rw [if_pos (by simp only [in64, decide_eq_true_eq]; omega), if_neg (by omega)]
    exact ih _ hp hls hb

theorem prodLoop_halt : ∀ (pre : List Int) (n l : Int) (post : List Int), 1 ≤ n → (∀ x ∈ pre, 1 ≤ x) → l ≤ 0 →
    n * total pre < 2 ^ 63 → -(2 ^ 63) ≤ n * total pre * l → prodLoop n (pre ++ l :: post) = .halt := by
  intro pre
  induction pre with
  | nil =>
    intro n l post hn _ hl hb hb'
    simp only [total, Int.mul_one] at hb hb'
    have : n * l ≤ 0 := by nlinarith
    simp only [List.nil_append, prodLoop]
    rw [if_pos (by simp only [in64, decide_eq_true_eq]; omega), if_pos this]
  | cons x xs ih =>
    intro n l post hn hp hl hb hb'
    have h1 := hp x (by simp)
    have hxs : ∀ y ∈ xs, 1 ≤ y := fun y hy => hp y (by simp [hy])
    have h2 := total_pos hxs
    simp only [total] at hb hb'
    have hpx : 1 ≤ n * x := by nlinarith
    rw [← Int.mul_assoc] at hb hb'
    have hle : n * x ≤ n * x * total xs := by nlinarith
    simp only [List.cons_append, prodLoop]
    rw [if_pos (by simp only [in64, decide_eq_true_eq]; omega), if_neg (by omega)]
    exact ih _ l post hpx hxs hl hb hb'

theorem dataOff_spec {nofdyn elemalgn : Nat} (h : elemalgn ≤ 8 ∨ 8 ∣ elemalgn) :
    nofdyn * 8 ≤ dataOff nofdyn elemalgn ∧ dataOff nofdyn elemalgn % 8 = 0 ∧
    (8 < elemalgn → elemalgn ∣ dataOff nofdyn elemalgn ∧ dataOff nofdyn elemalgn < nofdyn * 8 + elemalgn) ∧
    (elemalgn ≤ 8 → dataOff nofdyn elemalgn = nofdyn * 8) := by
  simp only [dataOff]
  by_cases h8 : elemalgn > 8
  · rw [if_pos h8]
    have hd : 8 ∣ elemalgn := by rcases h with h | h <;> [omega; exact h]
    obtain ⟨q, hq⟩ : ∃ q, q = nofdyn * 8 / elemalgn := ⟨_, rfl⟩
    obtain ⟨r, hr⟩ : ∃ r, r = nofdyn * 8 % elemalgn := ⟨_, rfl⟩
    have hlt : r < elemalgn := by rw [hr]; exact Nat.mod_lt _ (by omega)
    have he : elemalgn * q + r = nofdyn * 8 := by rw [hq, hr]; exact Nat.div_add_mod _ _
    rw [← hr]
    by_cases hr0 : r ≠ 0
    · rw [if_pos hr0]
      have hdv : elemalgn ∣ nofdyn * 8 + (elemalgn - r) := ⟨q + 1, by
        have h1 : elemalgn * (q + 1) = elemalgn * q + elemalgn := Nat.mul_succ elemalgn q
        rw [h1]; clear hq hr; omega⟩
      refine ⟨by omega, ?_, fun _ => ⟨hdv, by omega⟩, fun h => by omega⟩
      exact Nat.mod_eq_zero_of_dvd (Nat.dvd_trans hd hdv)
    · rw [if_neg hr0]
      exact ⟨Nat.le_refl _, by omega, fun _ => ⟨⟨q, by omega⟩, by omega⟩, fun _ => rfl⟩
  · rw [if_neg h8]
    exact ⟨Nat.le_refl _, by omega, fun h => absurd h h8, fun _ => rfl⟩

/-- The arguments of a call: the elements have pointers at the offsets `po`. -/
inductive ArrArgs (St : Nat → Prop) (m : Mem) : ArrKind → Nat → Nat → List Nat → Prop where
  /-- Elements without pointers. -/
  | none (elemsz nofdyn : Nat) : ArrArgs St m .none elemsz nofdyn []
  /-- Pointers, in an array with one open dimension. -/
  | ptr : ArrArgs St m .ptr 8 1 [0]
  /-- Records whose descriptor is at `tag`. -/
  | rcd {tag k elemsz : Nat} (nofdyn : Nat) {po : List Nat} : Desc St m tag k po → elemsz % 8 = 0 →
      (∀ o ∈ po, o + 8 ≤ elemsz) → ArrArgs St m (.rcd tag) elemsz nofdyn po

theorem ArrArgs.inside {St : Nat → Prop} {m : Mem} {kind : ArrKind} {elemsz nofdyn : Nat} {po : List Nat}
    (h : ArrArgs St m kind elemsz nofdyn po) :
    po.Nodup ∧ (∀ o ∈ po, o + 8 ≤ elemsz ∧ o % 8 = 0) ∧ (po ≠ [] → elemsz % 8 = 0) := by
  cases h with
  | none => simp
  | ptr => simp
  | rcd _ hd h8 hin => exact ⟨hd.nodup, fun o ho => ⟨hin o ho, (hd.inside o ho).1⟩, fun _ => h8⟩

/-- A call of SYSTEM_NEWARR: the lengths are `lens`, of which `nofdyn` are stored with the array, `n` elements of size `elemsz`
have pointers at the offsets `po`. -/
structure ArrCall (St : Nat → Prop) (m : Mem) (kind : ArrKind) (elemsz elemalgn : Nat) (lens : List Int) (nofdyn : Nat)
    (po : List Nat) (n : Nat) : Prop where
  args : ArrArgs St m kind elemsz nofdyn po
  /-- The alignment of a pointer is at most 8, that of anything else at most 8 or a multiple of 8. -/
  algn : elemalgn ≤ 8 ∨ kind ≠ .ptr ∧ 8 ∣ elemalgn
  dyn : nofdyn ≤ lens.length
  pos : ∀ l ∈ lens, 1 ≤ l
  num : total lens = n
  /-- The array fits in the address space. -/
  fits : ((dataOff nofdyn elemalgn + n * elemsz + n * po.length * 8 : Nat) : Int) < 2 ^ 63
  num64 : (n : Int) < 2 ^ 63

/-- The block an array is allocated in. -/
def arrBlk (adr dataoff elemsz n : Nat) (po : List Nat) : Blk :=
  let sz := (dataoff + n * elemsz + n * po.length * 8 + 63) / 32 * 32
  ⟨adr, sz, adr + sz - 16 - 8 * (n * po.length), elemOffs dataoff elemsz n po, false⟩

/-- The table, put in place. -/
theorem table_put {m0 : Mem} {adr k np : Nat} {offs : List Nat} (hnp : offs.length = np) (hk : 8 * np + 32 ≤ 32 * k)
    (w0 : m0 adr = (adr + 32 * k - 16 : Nat)) (w16 : m0 (adr + 32 * k - 16) = (32 * k : Nat)) :
    ∃ m4, m4 = put (put (fillLens (put m0 (adr + 32 * k - 16 - 8 * np) (m0 (adr + 32 * k - 16)))
          (adr + 32 * k - 16 - 8 * np + 8) (offs.map fun (o : Nat) => (o : Int))) (adr + 32 * k - 8) (-((np : Int) + 1) * 8)) adr
          ((put (fillLens (put m0 (adr + 32 * k - 16 - 8 * np) (m0 (adr + 32 * k - 16)))
          (adr + 32 * k - 16 - 8 * np + 8) (offs.map fun (o : Nat) => (o : Int))) (adr + 32 * k - 8) (-((np : Int) + 1) * 8)) adr
            - 8 * (np : Int)) ∧
      (∀ a, (a < adr ∨ adr < a ∧ a < adr + 32 * k - 16 - 8 * np ∨ adr + 32 * k ≤ a) → m4 a = m0 a) ∧
      TableOK m4 ⟨adr, 32 * k, adr + 32 * k - 16 - 8 * np, offs, false⟩ ∧
      m4 adr = (adr + 32 * k - 16 - 8 * np : Nat) := by
  refine ⟨_, rfl, ?_, ?_, ?_⟩
  · intro a ha
    simp only [put]
    rw [if_neg (by omega), if_neg (by omega), fillLens_other _ _ _ _ (by rw [List.length_map]; omega), put]
    rw [if_neg (by omega)]
  · refine ⟨?_, ?_, ?_⟩
    · simp only [put]
      rw [if_neg (by omega), if_neg (by omega), fillLens_other _ _ _ _ (by rw [List.length_map]; omega), put]
      rw [if_pos rfl, w16]
    · intro i o ho
      have hi : i < offs.length := (List.getElem?_eq_some_iff.1 ho).1
      simp only at ho ⊢
      simp only [put]
      rw [if_neg (by omega), if_neg (by omega)]
      exact fillLens_get _ _ _ _ _ (by rw [List.getElem?_map, ho]; rfl)
    · simp only [put]
      rw [if_neg (by omega), if_pos (by omega), hnp]; ring
  · simp only [put]
    rw [if_pos trivial, if_neg (by omega), fillLens_other _ _ _ _ (by rw [List.length_map]; omega), put]
    rw [if_neg (by omega), w0]; omega

/-- From the block as the table is in place to the array with its lengths. -/
theorem arr_finish {St Sl : Nat → Prop} {s1 : HS} {live : List Blk} {adr k dataoff elemsz n : Nat} {po : List Nat}
    {m4 : Mem} {L : List Int}
    (hk1 : dataoff + n * elemsz + n * po.length * 8 + 32 ≤ 32 * k) (h8 : adr % 8 = 0)
    (hd8 : dataoff % 8 = 0) (hL : 8 * L.length ≤ dataoff)
    (hpo : po.Nodup ∧ (∀ o ∈ po, o + 8 ≤ elemsz ∧ o % 8 = 0) ∧ (po ≠ [] → elemsz % 8 = 0))
    (hz : ∀ a, adr + 8 ≤ a → a < adr + 8 + (dataoff + n * elemsz + n * po.length * 8) → a % 8 = 0 → s1.mem a = 0)
    (hnew : ∀ tg offs m', BlkOK St ⟨adr, 32 * k, tg, offs, false⟩ →
        (∀ a, (a < adr ∨ adr + 32 * k ≤ a) → m' a = s1.mem a) → TableOK m' ⟨adr, 32 * k, tg, offs, false⟩ →
        m' adr = tg → (∀ a ∈ (⟨adr, 32 * k, tg, offs, false⟩ : Blk).flds, m' a = 0) →
        Held St Sl { s1 with mem := m' } (⟨adr, 32 * k, tg, offs, false⟩ :: live))
    (hfr : ∀ a, (a < adr ∨ adr < a ∧ a < adr + 32 * k - 16 - 8 * (n * po.length) ∨ adr + 32 * k ≤ a) → m4 a = s1.mem a)
    (htab : TableOK m4 ⟨adr, 32 * k, adr + 32 * k - 16 - 8 * (n * po.length), elemOffs dataoff elemsz n po, false⟩)
    (htag : m4 adr = (adr + 32 * k - 16 - 8 * (n * po.length) : Nat)) :
    Held St Sl { s1 with mem := fillLens m4 (adr + 8) L }
      (⟨adr, 32 * k, adr + 32 * k - 16 - 8 * (n * po.length), elemOffs dataoff elemsz n po, false⟩ :: live) ∧
    (∀ i l, L[i]? = some l → fillLens m4 (adr + 8) L (adr + 8 + 8 * i) = l) ∧
    (∀ a, adr + 8 + dataoff ≤ a → a < adr + 8 + (dataoff + n * elemsz) → a % 8 = 0 → fillLens m4 (adr + 8) L a = 0) ∧
    (∀ a, (a < adr ∨ adr + 32 * k ≤ a) → fillLens m4 (adr + 8) L a = s1.mem a) := by
  have hlen := elemOffs_length dataoff elemsz n po
  have hb : ∀ x ∈ elemOffs dataoff elemsz n po, dataoff ≤ x ∧ x + 8 ≤ dataoff + n * elemsz :=
    fun x hx => elemOffs_bound (fun o ho => (hpo.2.1 o ho).1) hx
  have hx8 : ∀ x ∈ elemOffs dataoff elemsz n po, x % 8 = 0 := by
    intro x hx
    obtain ⟨i, hi, o, ho, rfl⟩ := mem_elemOffs.1 hx
    have h1 := (hpo.2.1 o ho).2
    have h2 := hpo.2.2 (List.ne_nil_of_mem ho)
    have : i * elemsz % 8 = 0 := Nat.mod_eq_zero_of_dvd (Dvd.dvd.mul_left (Nat.dvd_of_mod_eq_zero h2) i)
    omega
  have hzero : ∀ a, adr + 8 + dataoff ≤ a → a < adr + 8 + (dataoff + n * elemsz) → a % 8 = 0 →
      fillLens m4 (adr + 8) L a = 0 := by
    intro a h1 h2 h3
    rw [fillLens_other _ _ _ _ (by omega), hfr a (by omega)]
    exact hz a (by omega) (by omega) h3
  have hout : ∀ a, (a < adr ∨ adr + 32 * k ≤ a) → fillLens m4 (adr + 8) L a = s1.mem a := by
    intro a ha
    rw [fillLens_other _ _ _ _ (by omega), hfr a (by omega)]
  refine ⟨?_, fun i l hl => fillLens_get _ _ _ _ _ hl, hzero, hout⟩
  apply hnew
  · refine ⟨h8, ?_, ?_, ?_, elemOffs_nodup hpo.1 (fun o ho => (hpo.2.1 o ho).1), ?_, Or.inr ⟨?_, ?_, ?_⟩⟩
    · show 32 * k % 32 = 0; omega
    · show 0 < 32 * k; omega
    · show (adr + 32 * k - 16 - 8 * (n * po.length)) % 8 = 0; omega
    · intro o ho
      have := hb o ho
      have := hx8 o ho
      simp only at ho ⊢
      omega
    · show adr + 8 ≤ adr + 32 * k - 16 - 8 * (n * po.length); omega
    · show adr + 32 * k - 16 - 8 * (n * po.length) + 8 * ((elemOffs dataoff elemsz n po).length + 2) ≤ adr + 32 * k
      rw [hlen]; omega
    · intro o ho
      have := hb o ho
      show adr + 8 + o < adr + 32 * k - 16 - 8 * (n * po.length)
      omega
  · exact hout
  · refine tableOK_congr ?_ htab
    intro a ha
    simp only [Blk.table, List.mem_map, List.mem_range] at ha
    obtain ⟨i, hi, rfl⟩ := ha
    exact fillLens_other _ _ _ _ (by omega)
  · rw [fillLens_other _ _ _ _ (by omega)]; exact htag
  · intro a ha
    simp only [Blk.flds, Blk.ptr, List.mem_map] at ha
    obtain ⟨o, ho, rfl⟩ := ha
    have := hb o ho
    have := hx8 o ho
    exact hzero _ (by omega) (by omega) (by omega)

theorem newArr_eq {os : OS} {f : Nat} {e : Env} {s : HS} {slot : Nat} {kind : ArrKind} {elemsz elemalgn nofdyn n : Nat}
    {lens : List Int} (hp : prodLoop 1 lens = .ok n) (h : in64 (dataOff nofdyn elemalgn + n * elemsz : Nat) = true) :
    newArr os f e s slot kind elemsz elemalgn lens nofdyn =
      (arrBlock os f e s slot elemsz (dataOff nofdyn elemalgn) n (dataOff nofdyn elemalgn + n * elemsz) kind).bind
      fun r => some (.done { r.1 with mem := fillLens r.1.mem r.2 (lens.take nofdyn) } r.2) := by
  rw [newArr, hp]
  simp only []
  rw [Int.toNat_natCast, h]
  rfl

/-- SYSTEM_NEWARR. -/
theorem newArr_good {St Sl : Nat → Prop} {os : OS} (hos : OSOK os (fun a => St a ∨ Sl a)) {s : HS} {live : List Blk}
    (hg : Held St Sl s live) {e : Env} (hc : Covers e s.mem live) {slot : Nat} (hsl : Sl slot) (hns : ¬ St slot)
    {kind : ArrKind} {elemsz elemalgn nofdyn : Nat} {lens : List Int} {po : List Nat} {n : Nat}
    (hcall : ArrCall St s.mem kind elemsz elemalgn lens nofdyn po n) :
    (∃ F, ∀ f, F ≤ f → newArr os f e s slot kind elemsz elemalgn lens nofdyn = none ∧ ∃ regs q,
      dataOff nofdyn elemalgn + n * elemsz ≤ q ∧ os regs q = 0) ∨
    ∃ s' adr, Ev (fun f => newArr os f e s slot kind elemsz elemalgn lens nofdyn) (.done s' (adr + 8)) ∧
      Held St Sl s' (arrBlk adr (dataOff nofdyn elemalgn) elemsz n po :: live) ∧
      (∀ a, (St a ∨ Sl a) → a ≠ slot → s'.mem a = s.mem a) ∧ Same live s.mem s'.mem ∧
      Apart (arrBlk adr (dataOff nofdyn elemalgn) elemsz n po) live ∧
      (∀ i l, (lens.take nofdyn)[i]? = some l → s'.mem (adr + 8 + 8 * i) = l) ∧
      (∀ a, adr + 8 + dataOff nofdyn elemalgn ≤ a → a < adr + 8 + (dataOff nofdyn elemalgn + n * elemsz) → a % 8 = 0 →
        s'.mem a = 0) := by
  obtain ⟨hargs, halgn, hdyn, hlens, hn, hsz, hn64⟩ := hcall
  obtain ⟨d, hd⟩ : ∃ d, d = dataOff nofdyn elemalgn := ⟨_, rfl⟩
  have hds := dataOff_spec (nofdyn := nofdyn) (elemalgn := elemalgn) (by rcases halgn with h | h <;> [exact Or.inl h; exact Or.inr h.2])
  rw [← hd] at hsz hds ⊢
  have hprod : prodLoop 1 lens = .ok n := by
    rw [prodLoop_ok lens 1 (by omega) hlens (by rw [Int.one_mul, hn]; exact hn64), Int.one_mul, hn]
  have hin2 : in64 ((d + n * elemsz + n * po.length * 8 : Nat) : Int) = true := in64_of hsz
  have hin1 : in64 ((d + n * elemsz : Nat) : Int) = true :=
    in64_of (lt_of_le_of_lt (by exact_mod_cast Nat.le_add_right _ _) hsz)
  clear hsz hn64
  have hnat : ∀ q : Nat, (q : Int).toNat = q := fun q => Int.toNat_natCast q
  have hpo := hargs.inside
  have hLl : 8 * (lens.take nofdyn).length ≤ d := by rw [List.length_take]; omega
  obtain ⟨L, hL⟩ : ∃ L, L = lens.take nofdyn := ⟨_, rfl⟩
  rw [← hL] at hLl ⊢
  have hcommon := newBlk_gen hos hg hc hsl hns (d + n * elemsz + n * po.length * 8)
  rcases hcommon with ⟨F, hF⟩ | ⟨s1, adr, k, ⟨F, hF⟩, hk1, hk2, hprot, hsame, hheld, hap, hz, h8, w0, w16, w8, hnew⟩
  · left
    have hres : ∃ F', ∀ f, F' ≤ f → newArr os f e s slot kind elemsz elemalgn lens nofdyn = none := by
      cases hargs with
      | none =>
        simp only [List.length_nil, Nat.mul_zero, Nat.zero_mul, Nat.add_zero] at hF
        refine ⟨F, fun f hf => ?_⟩
        rw [newArr_eq hprod (hd ▸ hin1), ← hd, arrBlock, (hF f hf).1]; rfl
      | ptr =>
        simp only [List.length_singleton, Nat.mul_one] at hF hin2
        refine ⟨F, fun f hf => ?_⟩
        rw [newArr_eq hprod (hd ▸ hin1), ← hd, arrBlock, hin2, (hF f hf).1]; rfl
      | @rcd tag kk _ _ _ hdesc h8' hin =>
        refine ⟨max F (po.length + 1), fun f hf => ?_⟩
        have hcp := countPtrs_eq (m := s.mem) (ptab := tag + 8) (np := po.length) (by
          intro j hj
          rw [hdesc.ptrs j po[j] (List.getElem?_eq_getElem hj)]; omega) (by rw [hdesc.sentinel]; omega)
          po.length 0 f (by omega) (by omega)
        rw [newArr_eq hprod (hd ▸ hin1), ← hd, arrBlock, hcp, Option.bind_some, hin2, (hF f (by omega)).1]; rfl
    obtain ⟨F', hF'⟩ := hres
    refine ⟨max F F', fun f hf => ⟨hF' f (by omega), ?_⟩⟩
    obtain ⟨regs, q, hq, ho⟩ := (hF f (by omega)).2
    exact ⟨regs, q, by omega, ho⟩
  · right
    have hszk : (d + n * elemsz + n * po.length * 8 + 63) / 32 * 32 = 32 * k := by omega
    -- the memory when the table is in place
    have key : ∃ m4, Ev (fun f => newArr os f e s slot kind elemsz elemalgn lens nofdyn)
        (.done { s1 with mem := fillLens m4 (adr + 8) L } (adr + 8)) ∧
        (∀ a, (a < adr ∨ adr < a ∧ a < adr + 32 * k - 16 - 8 * (n * po.length) ∨ adr + 32 * k ≤ a) → m4 a = s1.mem a) ∧
        TableOK m4 ⟨adr, 32 * k, adr + 32 * k - 16 - 8 * (n * po.length), elemOffs d elemsz n po, false⟩ ∧
        m4 adr = (adr + 32 * k - 16 - 8 * (n * po.length) : Nat) := by
      cases hargs with
      | none =>
        simp only [List.length_nil, Nat.mul_zero, Nat.zero_mul, Nat.add_zero, Nat.sub_zero] at hF hk1 ⊢
        refine ⟨s1.mem, ⟨F, fun f hf => ?_⟩, fun _ _ => rfl, ⟨w16, ?_, ?_⟩, w0⟩
        · have := hF f hf; beta_reduce at this
          beta_reduce; rw [newArr_eq hprod (hd ▸ hin1), ← hd, arrBlock, this, hL]; rfl
        · intro i o ho
          simp [elemOffs] at ho
        · simp only [elemOffs_length, List.length_nil, Nat.mul_zero, Nat.add_zero]
          rw [show adr + 32 * k - 16 + 8 = adr + 32 * k - 8 by omega, w8]; rfl
      | ptr =>
        simp only [List.length_singleton, Nat.mul_one] at hF hk1 hin2 ⊢
        have ha8 : elemalgn ≤ 8 := by rcases halgn with h | ⟨h, _⟩; exact h; exact absurd rfl h
        have hd8 : d = 8 := by have := hds.2.2.2 ha8; omega
        have hoffs : elemOffs d 8 n [0] = (List.range n).map fun i => (1 + i) * 8 := by
          rw [hd8]; exact elemOffs_ptr n
        obtain ⟨m4, hm4, t1, t2, t3⟩ := table_put (m0 := s1.mem) (adr := adr) (k := k) (np := n) (offs := elemOffs d 8 n [0])
          (by rw [elemOffs_length]; simp) (by omega) w0 w16
        refine ⟨m4, ⟨F, fun f hf => ?_⟩, t1, t2, t3⟩
        have := hF f hf; beta_reduce at this
        beta_reduce; rw [newArr_eq hprod (hd ▸ hin1), ← hd, arrBlock, hin2, this]
        simp only [guardD, Option.bind_some, putTable, show adr + 8 - 8 = adr by omega, w0, hnat, fillPtr_eq]
        rw [show adr + 32 * k - 16 - 8 * n + 8 + 8 * n = adr + 32 * k - 8 by omega]
        have hl2 : ((List.range n).map fun i => (((1 + i) * 8 : Nat) : Int)) =
            (elemOffs d 8 n [0]).map fun (o : Nat) => (o : Int) := by
          rw [hoffs, List.map_map]; rfl
        rw [hl2, ← hm4, ← hL]
      | @rcd tag kk _ _ _ hdesc h8' hin =>
        obtain ⟨m4, hm4, t1, t2, t3⟩ := table_put (m0 := s1.mem) (adr := adr) (k := k) (np := n * po.length)
          (offs := elemOffs d elemsz n po) (elemOffs_length ..) (by omega) w0 w16
        -- the descriptor is outside the block
        obtain ⟨cks3, inv3, hl3, _⟩ := hheld
        have hstat : ∀ a, St a → a < adr ∨ adr + 32 * k ≤ a := fun a ha =>
          outside_blk inv3.ok (prot_outside inv3 (Or.inl ha)) (hl3 _ (List.mem_cons_self ..)).1
        have hw : ∀ j, j < po.length + 1 → St (tag + 8 + 8 * j) := by
          intro j hj
          have := hdesc.words (j + 1) (by omega)
          rwa [show tag + 8 * (j + 1) = tag + 8 + 8 * j by omega] at this
        refine ⟨m4, ⟨max F (po.length + 1), fun f hf => ?_⟩, t1, t2, t3⟩
        have hcp := countPtrs_eq (m := s.mem) (ptab := tag + 8) (np := po.length) (by
          intro j hj
          rw [hdesc.ptrs j po[j] (List.getElem?_eq_getElem hj)]; omega) (by rw [hdesc.sentinel]; omega)
          po.length 0 f (by omega) (by omega)
        have := hF f (by omega); beta_reduce at this
        have hfe := fillRec_eq po elemsz (tag + 8) n
          (put s1.mem (adr + 32 * k - 16 - 8 * (n * po.length)) (s1.mem (adr + 32 * k - 16)))
          (adr + 32 * k - 16 - 8 * (n * po.length) + 8) d (by
            intro j o ho
            have hj : j < po.length := (List.getElem?_eq_some_iff.1 ho).1
            have h1 := hstat _ (hw j (by omega))
            have h2 : tag + 8 + 8 * j ≠ slot := by
              intro h; exact hns (h ▸ hw j (by omega))
            simp only [put]
            rw [if_neg (by omega), hprot _ (Or.inl (hw j (by omega))) h2]
            exact hdesc.ptrs j o ho) (by
            intro j hj
            have h1 := hstat _ (hw j (by omega))
            omega)
        beta_reduce; rw [newArr_eq hprod (hd ▸ hin1), ← hd, arrBlock, hcp, Option.bind_some, hin2, this]
        simp only [guardD, Option.bind_some, putTable, show adr + 8 - 8 = adr by omega, w0, hnat, hfe]
        rw [show adr + 32 * k - 16 - 8 * (n * po.length) + 8 + 8 * (n * po.length) = adr + 32 * k - 8 by omega]
        rw [← hL]
        simp only [Option.some.injEq, ArrRes.done.injEq, and_true]
        rw [hm4]
    obtain ⟨m4, hev, t1, t2, t3⟩ := key
    obtain ⟨r1, r2, r3, r4⟩ := arr_finish hk1 h8 hds.2.1 hLl hpo hz hnew t1 t2 t3
    refine ⟨_, adr, hev, ?_, ?_, ?_, ?_, r2, r3⟩
    · simp only [arrBlk, hszk]; exact r1
    · intro a ha hne
      obtain ⟨cks3, inv3, hl3, _⟩ := hheld
      have ho : a < adr ∨ adr + 32 * k ≤ a := outside_blk inv3.ok (prot_outside inv3 ha) (hl3 _ (List.mem_cons_self ..)).1
      refine (r4 a ho).trans ?_; exact hprot a ha hne
    · intro c hc a h1 h2
      have := hap c hc
      simp only at this
      refine (r4 a (by omega)).trans ?_; exact hsame c hc a h1 h2
    · intro c hc
      have := hap c hc
      simp only [arrBlk, hszk]; exact this

end Verif.Heap
