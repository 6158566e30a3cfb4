import Verif.Common
import Verif.Dates.Spec
import Verif.Dates.Model

/-!
# C57: dates and times
-/
namespace Verif.Dates
open Verif.Sums (Out chk)
open Verif.Utf (short)

theorem bind_ok {α β : Type} (a : α) (f : α → Out β) : (Out.ok a).bind f = f a := rfl

theorem short_id {x : Int} (h1 : -32768 ≤ x) (h2 : x ≤ 32767) : short x = x := by
  unfold short
  rw [BitVec.toInt_ofInt]
  unfold Int.bmod
  simp only [Nat.reducePow, Nat.cast_ofNat]
  split <;> omega

theorem leap_iff (y : Nat) : isLeapYear (y : Int) = decide (leap y) := by
  unfold isLeapYear leap
  apply decide_eq_decide.mpr
  omega

theorem leap_four {y : Nat} (h1 : 1901 ≤ y) (h2 : y ≤ 2099) : leap y ↔ y % 4 = 0 := by
  unfold leap; omega

theorem lastDay_eq (y m : Nat) (h1 : 1 ≤ m) (h2 : m ≤ 12) : lastDay (y : Int) (m : Int) = (monthLen y m : Nat) := by
  unfold lastDay monthLen
  rw [leap_iff]
  by_cases hl : leap y
  · simp only [decide_eq_true hl, if_pos hl, if_true]
    clear hl
    interval_cases m <;> rfl
  · simp only [decide_eq_false hl, if_neg hl]
    clear hl
    interval_cases m <;> rfl

theorem monthLen_le (y m : Nat) : monthLen y m ≤ 31 := by unfold monthLen; repeat' split
                                                          all_goals omega
theorem monthLen_ge (y m : Nat) : 28 ≤ monthLen y m := by unfold monthLen; repeat' split
                                                          all_goals omega

/-! ### Parts of a date -/

theorem parts (t : Date) (hv : t.valid) (hy : 1900 ≤ t.y) (hy' : t.y ≤ 32767) :
    code t / 512 = (t.y : Int) - 1900 ∧ code t / 32 % 16 = t.m ∧ code t % 32 = t.d := by
  obtain ⟨h1, h2, h3, h4⟩ := hv
  have := monthLen_le t.y t.m
  unfold code
  refine ⟨?_, ?_, ?_⟩ <;> omega

/-- **C57**.  A date is taken apart into the year, month and day it was made of. -/
theorem C57_ymd (t : Date) (hv : t.valid) (hy : 1900 ≤ t.y) (hy' : t.y ≤ 32767) :
    toDate t.y t.m t.d = code t ∧ toYMD (code t) = ((t.y : Int), (t.m : Int), (t.d : Int)) ∧ daysOfMonth (code t) = (monthLen t.y t.m : Nat) := by
  obtain ⟨p1, p2, p3⟩ := parts t hv hy hy'
  obtain ⟨h1, h2, h3, h4⟩ := hv
  have hle := monthLen_le t.y t.m
  refine ⟨?_, ?_, ?_⟩
  · unfold toDate
    have hm : (1 + ((t.m : Int) - 1) % 12) = t.m := by omega
    simp only [hm, lastDay_eq t.y t.m h1 h2]
    have hd : (1 + ((t.d : Int) - 1) % ((monthLen t.y t.m : Nat) : Int)) = t.d := by
      rw [Int.emod_eq_of_lt (by omega) (by omega)]; omega
    rw [hd]
    unfold code; omega
  · unfold toYMD
    rw [p1, p2, p3, short_id (by omega) (by omega), short_id (by omega) (by omega), short_id (by omega) (by omega)]
    congr 1; omega
  · unfold daysOfMonth
    rw [p1, p2, short_id (by omega) (by omega), short_id (by omega) (by omega)]
    have : (t.y : Int) - 1900 + 1900 = t.y := by omega
    rw [this, lastDay_eq t.y t.m h1 h2]

/-! ### Counting days -/

/-- The days before a month in a year of 365 days. -/
def before (m : Nat) : Nat := [0, 31, 59, 90, 120, 151, 181, 212, 243, 273, 304, 334, 365].getD (m - 1) 0

/-- The number of a day, in closed form. -/
def num (t : Date) : Nat :=
  (t.y - 1901) * 365 + (t.y - 1901) / 4 + before t.m + t.d - 1 + if leap t.y ∧ 2 < t.m then 1 else 0

theorem elem_before (m : Nat) (h1 : 1 ≤ m) (h2 : m ≤ 12) : elem tabA (((m : Int) - 1) % 12) = .ok (before m : Nat) := by
  interval_cases m <;> rfl

theorem numberOfDays_eq (t : Date) (hv : t.valid) (hy : 1901 ≤ t.y) (hy' : t.y ≤ 32767) : numberOfDays (code t) = .ok (num t : Nat) := by
  obtain ⟨p1, p2, p3⟩ := parts t hv (by omega) hy'
  obtain ⟨h1, h2, h3, h4⟩ := hv
  unfold numberOfDays
  have hm : short (code t / 32) % 16 = t.m := by
    rw [← p2]
    unfold short
    rw [BitVec.toInt_ofInt]
    unfold Int.bmod
    simp only [Nat.reducePow, Nat.cast_ofNat]
    split <;> omega
  rw [hm, p1, p3, short_id (by omega) (by omega)]
  simp only
  rw [elem_before t.m h1 h2, bind_ok]
  have hy2 : (1901 + ((t.y : Int) - 1900 + 1900 - 1901)) = t.y := by omega
  simp only [hy2, leap_iff]
  unfold num
  by_cases hl : leap t.y ∧ 2 < t.m
  · rw [if_pos ⟨decide_eq_true hl.1, by omega⟩, if_pos hl]
    congr 1; omega
  · rw [if_neg (fun h => hl ⟨of_decide_eq_true h.1, by omega⟩), if_neg hl]
    congr 1; omega

theorem num_next (t : Date) (hv : t.valid) (hy : 1901 ≤ t.y) (hy' : t.y ≤ 2100) (hlast : t ≠ ⟨2100, 12, 31⟩) : t.next.valid ∧ num t.next = num t + 1 := by
  obtain ⟨y, m, d⟩ := t
  obtain ⟨h1, h2, h3, h4⟩ := hv
  simp only at h1 h2 h3 h4 hy hy'
  unfold Date.next
  simp only
  by_cases hd : d < monthLen y m
  · rw [if_pos hd]
    refine ⟨⟨h1, h2, by simp, by simp; omega⟩, ?_⟩
    unfold num; simp only; omega
  · rw [if_neg hd]
    have hd' : d = monthLen y m := by omega
    subst hd'
    by_cases hm : m < 12
    · rw [if_pos hm]
      refine ⟨⟨by simp, by simp; omega, by simp, ?_⟩, ?_⟩
      · have := monthLen_ge y (m + 1); simp; omega
      · unfold num monthLen
        simp only
        by_cases hl : leap y
        · simp only [if_pos hl, hl, true_and]
          clear hl h3 h4 hd
          interval_cases m <;> simp [before] <;> omega
        · simp only [if_neg hl, hl, false_and, if_false]
          clear hl h3 h4 hd
          interval_cases m <;> simp [before] <;> omega
    · rw [if_neg hm]
      have : m = 12 := by omega
      subst this
      refine ⟨⟨by simp, by simp, by simp, ?_⟩, ?_⟩
      · have := monthLen_ge (y + 1) 1; simp; omega
      · have hne : y ≠ 2100 := by
          rintro rfl
          exact hlast rfl
        clear hlast
        unfold num monthLen
        have hb1 : before 1 = 0 := rfl
        have hb12 : before 12 = 334 := rfl
        simp only [hb1, hb12]
        have hl : leap y ↔ y % 4 = 0 := leap_four hy (by omega)
        by_cases hly : leap y
        · have := hl.mp hly
          simp [hly]; omega
        · have : ¬ y % 4 = 0 := fun h => hly (hl.mpr h)
          simp [hly]; omega

theorem dateOf_num : ∀ n : Nat, n ≤ 73048 → (dateOf n).valid ∧ 1901 ≤ (dateOf n).y ∧ (dateOf n).y ≤ 2100 ∧ num (dateOf n) = n := by
  intro n
  induction n with
  | zero => intro _; exact ⟨⟨by decide, by decide, by decide, by decide⟩, by decide, by decide, by decide⟩
  | succ n ih =>
    intro h
    obtain ⟨hv, h1, h2, h3⟩ := ih (by omega)
    have hne : dateOf n ≠ ⟨2100, 12, 31⟩ := by
      intro he
      rw [he] at h3
      have : num ⟨2100, 12, 31⟩ = 73048 := by decide
      omega
    obtain ⟨hv', hn⟩ := num_next (dateOf n) hv h1 h2 hne
    simp only [dateOf]
    refine ⟨hv', ?_, ?_, by omega⟩
    · unfold Date.next; split
      · exact h1
      · split <;> simp <;> omega
    · by_contra hgt
      apply hne
      unfold Date.next at hgt
      obtain ⟨v1, v2, v3, v4⟩ := hv
      split at hgt
      · exact absurd h2 hgt
      · rename_i hd
        split at hgt
        · exact absurd h2 hgt
        · rename_i hm
          simp only [Nat.not_le] at hgt
          have hy : (dateOf n).y = 2100 := by omega
          have hm' : (dateOf n).m = 12 := by omega
          rw [hy, hm'] at hd v4
          have : monthLen 2100 12 = 31 := by decide
          rw [this] at hd v4
          have hd' : (dateOf n).d = 31 := by omega
          cases hx : dateOf n with
          | mk a b c => rw [hx] at hy hm' hd'; simp only at hy hm' hd'; subst hy hm' hd'; rfl

theorem elem_tabT_all : ((List.range 365).all fun M => (List.range 13).all fun m =>
    !(decide (1 ≤ m) && decide (before m ≤ M) && decide (M < before (m + 1))) || decide (elem tabT (M : Int) = Out.ok (m : Int))) = true := by
  decide +kernel

theorem elem_tabT (M : Nat) (hM : M < 365) (m : Nat) (hm : m < 13) (h1 : 1 ≤ m) (h2 : before m ≤ M) (h3 : M < before (m + 1)) :
    elem tabT (M : Int) = .ok (m : Int) := by
  have h := List.all_eq_true.mp (List.all_eq_true.mp elem_tabT_all M (List.mem_range.mpr hM)) m (List.mem_range.mpr hm)
  simpa [h1, h2, h3] using h

theorem before_le (m : Nat) (h1 : 1 ≤ m) (h2 : m ≤ 12) : before (m + 1) ≤ 365 := by interval_cases m <;> decide

theorem elem_tabA (m : Nat) (h1 : 1 ≤ m) (h2 : m ≤ 12) : elem tabA ((m : Int) - 1) = .ok ((before m : Nat) : Int) := by
  interval_cases m <;> rfl

theorem monthLen_before (y m : Nat) (h1 : 1 ≤ m) (h2 : m ≤ 12) :
    before m + monthLen y m = before (m + 1) + if leap y ∧ m = 2 then 1 else 0 := by
  unfold monthLen
  by_cases hl : leap y
  · simp only [if_pos hl, hl, true_and]
    clear hl
    interval_cases m <;> decide
  · simp only [if_neg hl, hl, false_and, if_false]
    clear hl
    interval_cases m <;> decide

theorem before_mono (m : Nat) (h1 : 1 ≤ m) (h2 : m ≤ 12) : (m ≤ 2 → before (m + 1) ≤ 59) ∧ (2 < m → 59 ≤ before m) := by
  interval_cases m <;> decide

theorem toDate_num (t : Date) (hv : t.valid) (hy : 1901 ≤ t.y) (hy' : t.y ≤ 2099 ∨ t.y = 2100 ∧ t.m ≤ 2) :
    numberOfDaysToDate (num t : Nat) = .ok (code t) := by
  obtain ⟨y, m, d⟩ := t
  obtain ⟨h1, h2, h3, h4⟩ := hv
  simp only at h1 h2 h3 h4 hy hy'
  have hb := monthLen_before y m h1 h2
  have hbl := before_le m h1 h2
  obtain ⟨hm1, hm2⟩ := before_mono m h1 h2
  have hb2 : m = 2 → before m = 31 ∧ before (m + 1) = 59 := by rintro rfl; decide
  have key : ∀ (N : Int) (dd : Int) (M : Nat), N = ((num ⟨y, m, d⟩ : Nat) : Int) →
      (if (N + 307) % 1461 = 0 then (2 : Int) else 1) = dd → N - (N + 307) / 1461 = ((y : Int) - 1901) * 365 + M → before m ≤ M → M < before (m + 1) →
      (M : Int) - (before m : Nat) + dd = d → numberOfDaysToDate (num ⟨y, m, d⟩ : Nat) = .ok (code ⟨y, m, d⟩) := by
    intro N dd M hN hdd hdays hM1 hM2 hd
    unfold numberOfDaysToDate
    rw [← hN]
    simp only [hdd, hdays]
    have e1 : (((y : Int) - 1901) * 365 + M) / 365 = (y : Int) - 1901 := by omega
    have e2 : (((y : Int) - 1901) * 365 + M) % 365 = M := by omega
    rw [e1, e2, if_neg (by omega), elem_tabT M (by omega) m (by omega) h1 hM1 hM2, bind_ok, elem_tabA m h1 h2, bind_ok, hd]
    congr 1
    unfold code
    simp only; omega
  by_cases hl : leap y
  · have hl4 : y % 4 = 0 := by unfold leap at hl; omega
    have hnum : num ⟨y, m, d⟩ = (y - 1901) * 365 + (y - 1901) / 4 + before m + d - 1 + if 2 < m then 1 else 0 := by
      unfold num; simp only [hl, true_and]
    simp only [hl, true_and] at hb
    by_cases h29 : m = 2 ∧ d = 29
    · obtain ⟨rfl, rfl⟩ := h29
      obtain ⟨b1, b2⟩ := hb2 rfl
      rw [if_neg (by omega)] at hnum
      refine key _ 2 58 rfl ?_ ?_ (by omega) (by omega) (by omega)
      · rw [if_pos]; omega
      · omega
    · have hd : d - 1 + before m < before (m + 1) := by
        by_cases hm : m = 2
        · rw [if_pos hm] at hb
          have : d ≠ 29 := fun h => h29 ⟨hm, h⟩
          obtain ⟨b1, b2⟩ := hb2 hm
          omega
        · rw [if_neg hm] at hb; omega
      refine key _ 1 (before m + d - 1) rfl ?_ ?_ (by omega) (by omega) (by omega)
      · rw [if_neg]
        by_cases hm : 2 < m
        · rw [if_pos hm] at hnum; have := hm2 hm; omega
        · rw [if_neg hm] at hnum; have := hm1 (by omega); omega
      · by_cases hm : 2 < m
        · rw [if_pos hm] at hnum; have := hm2 hm; omega
        · rw [if_neg hm] at hnum; have := hm1 (by omega); omega
  · have hl4 : y % 4 ≠ 0 ∨ y = 2100 := by
      by_cases hy2 : y = 2100
      · exact Or.inr hy2
      · left; intro h; exact hl ((leap_four hy (by omega)).mpr h)
    have hnum : num ⟨y, m, d⟩ = (y - 1901) * 365 + (y - 1901) / 4 + before m + d - 1 := by
      unfold num; simp only [hl, false_and, if_false]; omega
    simp only [hl, false_and, if_false] at hb
    obtain ⟨q, r, hr, hyq⟩ : ∃ q r, r < 4 ∧ y = 1901 + 4 * q + r := ⟨(y - 1901) / 4, (y - 1901) % 4, by omega, by omega⟩
    have e1 : (y - 1901) * 365 + (y - 1901) / 4 = 1461 * q + 365 * r := by omega
    rw [e1] at hnum
    have hsmall : 365 * r + (before m + d - 1) ≤ 1153 := by
      rcases hl4 with h | h
      · omega
      · have := hm1 (by omega); omega
    have hN : ((num ⟨y, m, d⟩ : Nat) : Int) = 1461 * q + 365 * r + (before m + d - 1 : Nat) := by omega
    have hdiv : (((num ⟨y, m, d⟩ : Nat) : Int) + 307) / 1461 = q := by omega
    refine key _ 1 (before m + d - 1) rfl ?_ ?_ (by omega) (by omega) (by omega)
    · rw [if_neg]; omega
    · rw [hdiv]; omega

/-- The day before the 29th of February 2100 that the module believes in. -/
theorem dateOf_bound (n : Nat) (h : n ≤ 72742) : (dateOf n).y ≤ 2099 ∨ (dateOf n).y = 2100 ∧ (dateOf n).m ≤ 2 := by
  obtain ⟨hv, h1, h2, h3⟩ := dateOf_num n (by omega)
  obtain ⟨v1, v2, v3, v4⟩ := hv
  by_cases hy : (dateOf n).y ≤ 2099
  · exact Or.inl hy
  · right
    refine ⟨by omega, ?_⟩
    by_contra hm
    have hb := (before_mono (dateOf n).m v1 v2).2 (by omega)
    unfold num at h3
    omega

/-- **C57** (partial).  `NumberOfDays` counts the days since the 1st of January 1901 up to the 31st of December 2100.  Missing: later
days (`C57_number_2101`). -/
theorem C57_number_partial (n : Nat) (h : n ≤ 73048) : numberOfDays (code (dateOf n)) = .ok (n : Int) := by
  obtain ⟨hv, h1, h2, h3⟩ := dateOf_num n h
  rw [numberOfDays_eq _ hv h1 (by omega), h3]

/-- **C57** (partial).  `NumberOfDaysToDate` gives the date of every day up to the 28th of February 2100.  Missing: later days
(`C57_date_2100`). -/
theorem C57_date_partial (n : Nat) (h : n ≤ 72742) : numberOfDaysToDate (n : Int) = .ok (code (dateOf n)) := by
  obtain ⟨hv, h1, h2, h3⟩ := dateOf_num n (by omega)
  have := toDate_num _ hv h1 (dateOf_bound n h)
  rwa [h3] at this

/-- **C57** (partial).  `DayOfWeek`, up to the 31st of December 2100. -/
theorem C57_weekday_partial (n : Nat) (h : n ≤ 73048) : dayOfWeek (code (dateOf n)) = .ok ((weekday n : Nat) : Int) := by
  unfold dayOfWeek weekday
  rw [C57_number_partial n h, bind_ok, short_id (by omega) (by omega)]
  congr 1; omega

/-- **C57** (partial).  `AddDay` moves a date by a number of days within 1901 and the 28th of February 2100. -/
theorem C57_add_day_partial (n : Nat) (k : Int) (h : n ≤ 73048) (h0 : 0 ≤ n + k) (h1 : n + k ≤ 72742) :
    addDay (code (dateOf n)) k = .ok (code (dateOf (n + k).toNat)) := by
  unfold addDay
  rw [C57_number_partial n h, bind_ok]
  have hc : chk ((n : Int) + k) = .ok ((n : Int) + k) := if_pos (by omega)
  rw [hc, bind_ok]
  have := C57_date_partial ((n : Int) + k).toNat (by omega)
  rwa [show ((((n : Int) + k).toNat : Nat) : Int) = (n : Int) + k by omega] at this

/-- Every day of 1901 to 2100 is the day of some number, so the theorems above speak of all of them. -/
theorem C57_all_days (t : Date) (hv : t.valid) (hy : 1901 ≤ t.y) (hy' : t.y ≤ 2100) : ∃ n, n ≤ 73048 ∧ dateOf n = t := by
  have hinj : ∀ a b : Date, a.valid → b.valid → 1901 ≤ a.y → 1901 ≤ b.y → a.y ≤ 2100 → b.y ≤ 2100 → num a = num b → a = b := by
    intro a b ha hb ya yb ya' yb' hn
    obtain ⟨y, m, d⟩ := a
    obtain ⟨z, k, e⟩ := b
    obtain ⟨a1, a2, a3, a4⟩ := ha
    obtain ⟨b1, b2, b3, b4⟩ := hb
    simp only at *
    have mA := monthLen_before y m a1 a2
    have mB := monthLen_before z k b1 b2
    have lA := before_le m a1 a2
    have lB := before_le k b1 b2
    obtain ⟨cA1, cA2⟩ := before_mono m a1 a2
    obtain ⟨cB1, cB2⟩ := before_mono k b1 b2
    have hA : leap y ↔ y % 4 = 0 ∧ y ≠ 2100 := by unfold leap; omega
    have hB : leap z ↔ z % 4 = 0 ∧ z ≠ 2100 := by unfold leap; omega
    unfold num at hn
    simp only [hA] at hn mA
    simp only [hB] at hn mB
    have hyz : y = z := by
      split at hn <;> split at hn <;> split at mA <;> split at mB <;> omega
    subst hyz
    have hmk : m = k := by
      have hmono : ∀ i j : Nat, 1 ≤ i → i < j → j ≤ 12 → before (i + 1) ≤ before j := by
        intro i j hi hij hj
        interval_cases j <;> interval_cases i <;> decide
      rcases Nat.lt_trichotomy m k with hlt | heq | hgt
      · have := hmono m k a1 hlt b2
        split at hn <;> split at hn <;> split at mA <;> split at mB <;> omega
      · exact heq
      · have := hmono k m b1 hgt a2
        split at hn <;> split at hn <;> split at mA <;> split at mB <;> omega
    subst hmk
    have : d = e := by split at hn <;> omega
    rw [this]
  have hb : num t ≤ 73048 := by
    obtain ⟨y, m, d⟩ := t
    obtain ⟨a1, a2, a3, a4⟩ := hv
    simp only at *
    have mA := monthLen_before y m a1 a2
    have lA := before_le m a1 a2
    have hA : leap y ↔ y % 4 = 0 ∧ y ≠ 2100 := by unfold leap; omega
    unfold num
    simp only [hA] at mA ⊢
    split <;> split at mA <;> omega
  obtain ⟨hv', h1, h2, h3⟩ := dateOf_num (num t) hb
  exact ⟨num t, hb, hinj _ _ hv' hv h1 hy h2 hy' h3⟩

/-! ### After 2100 -/

theorem dateOf_num' {n : Nat} {t : Date} (h : n ≤ 73048) (ht : t.valid) (h1 : 1901 ≤ t.y) (h2 : t.y ≤ 2100) (hn : num t = n) : dateOf n = t := by
  obtain ⟨k, hk, he⟩ := C57_all_days t ht h1 h2
  obtain ⟨_, _, _, h3⟩ := dateOf_num k hk
  rw [he, hn] at h3
  rw [h3, he]

example : dateOf 1154 = ⟨1904, 2, 29⟩ ∧ numberOfDays (code ⟨1904, 2, 29⟩) = .ok 1154 ∧
    dayOfWeek (code ⟨1904, 2, 29⟩) = .ok 0 ∧ addDay (code ⟨1904, 2, 29⟩) 366 = .ok (code ⟨1905, 3, 1⟩) :=
  ⟨dateOf_num' (by omega) ⟨by decide, by decide, by decide, by decide⟩ (by decide) (by decide) (by decide), by decide +kernel⟩

/-- The day after the 28th of February 2100 is the 1st of March, but the module gives a date that does not exist. -/
theorem C57_date_2100 : dateOf 72743 = ⟨2100, 3, 1⟩ ∧ numberOfDaysToDate 72743 = .ok (code ⟨2100, 2, 29⟩) ∧
    addDay (code ⟨2100, 2, 28⟩) 1 = .ok (code ⟨2100, 2, 29⟩) ∧ ¬ Date.valid ⟨2100, 2, 29⟩ := by
  refine ⟨dateOf_num' (by omega) ⟨by decide, by decide, by decide, by decide⟩ (by decide) (by decide) (by decide), by decide +kernel, by decide +kernel, ?_⟩
  unfold Date.valid; decide

/-- The 1st of January 2101 is the day after number 73048, but `NumberOfDays` skips a number. -/
theorem C57_number_2101 : dateOf 73049 = ⟨2101, 1, 1⟩ ∧ numberOfDays (code ⟨2101, 1, 1⟩) = .ok 73050 := by
  refine ⟨?_, by decide +kernel⟩
  have : dateOf 73048 = ⟨2100, 12, 31⟩ :=
    dateOf_num' (by omega) ⟨by decide, by decide, by decide, by decide⟩ (by decide) (by decide) (by decide)
  show (dateOf 73048).next = _
  rw [this]; decide

/-! ### Months and years -/

/-- The day of a month that has fewer days is its last day. -/
def clamp (y m d : Nat) : Date := ⟨y, m, min d (monthLen y m)⟩

theorem clamp_valid {y m d : Nat} (h1 : 1 ≤ m) (h2 : m ≤ 12) (hd : 1 ≤ d) : (clamp y m d).valid :=
  ⟨h1, h2, by have := monthLen_ge y m; simp only [clamp]; omega, by simp only [clamp]; omega⟩

theorem chk16_ok {x : Int} (h1 : -32768 ≤ x) (h2 : x ≤ 32767) : chk16 x = .ok x := if_pos ⟨h1, h2⟩

/-- **C57**.  `AddMonth` gives the same day, or the last day, of the month that many months away; before 1901 it gives the date back. -/
theorem C57_add_month (t : Date) (hv : t.valid) (hy : 1901 ≤ t.y) (k : Int) (hk : -32000 ≤ k) (hk' : k ≤ 32000) (hY : t.y ≤ 30000) :
    ∃ y' m' : Int, 12 * y' + (m' - 1) = 12 * t.y + (t.m - 1) + k ∧ 1 ≤ m' ∧ m' ≤ 12 ∧
      addMonth (code t) k = .ok (if 1901 ≤ y' then code (clamp y'.toNat m'.toNat t.d) else code t) := by
  obtain ⟨_, e2, _⟩ := C57_ymd t hv (by omega) (by omega)
  have hv' := hv
  obtain ⟨h1, h2, h3, h4⟩ := hv
  have h31 := monthLen_le t.y t.m
  refine ⟨(t.y : Int) + ((t.m : Int) + (k - 1)) / 12, ((t.m : Int) + (k - 1)) % 12 + 1, by omega, by omega, by omega, ?_⟩
  unfold addMonth
  rw [e2]
  simp only
  rw [chk16_ok (by omega) (by omega), bind_ok, chk16_ok (by omega) (by omega), bind_ok, chk16_ok (by omega) (by omega), bind_ok]
  by_cases hc : 1901 ≤ (t.y : Int) + ((t.m : Int) + (k - 1)) / 12
  · rw [if_pos hc, if_pos hc]
    obtain ⟨Y, hYd⟩ : ∃ Y : Nat, (t.y : Int) + ((t.m : Int) + (k - 1)) / 12 = Y := ⟨((t.y : Int) + ((t.m : Int) + (k - 1)) / 12).toNat, by omega⟩
    obtain ⟨M, hMd⟩ : ∃ M : Nat, ((t.m : Int) + (k - 1)) % 12 + 1 = M := ⟨(((t.m : Int) + (k - 1)) % 12 + 1).toNat, by omega⟩
    rw [hYd, hMd]
    have hM1 : 1 ≤ M := by omega
    have hM2 : M ≤ 12 := by omega
    simp only [Int.toNat_natCast, leap_iff]
    have hfin : ∀ dd : Int, dd = ((clamp Y M t.d).d : Nat) → toDate (Y : Int) (M : Int) dd = code (clamp Y M t.d) := by
      intro dd hdd
      rw [hdd]
      exact (C57_ymd (clamp Y M t.d) (clamp_valid hM1 hM2 h3) (by simp only [clamp]; omega) (by simp only [clamp]; omega)).1
    congr 1
    apply hfin
    have hdle : t.d ≤ 31 := by omega
    clear hfin hMd e2
    simp only [clamp, monthLen]
    by_cases hl : leap Y
    · simp only [if_pos hl, decide_eq_true hl]
      clear hl
      interval_cases M <;> simp <;> omega
    · simp only [if_neg hl, decide_eq_false hl]
      clear hl
      interval_cases M <;> simp <;> omega
  · rw [if_neg hc, if_neg hc]

/-- **C57**.  `AddYear` gives the same day, or for the 29th of February the 28th, of the year that many years away; before 1901 it
gives the date back. -/
theorem C57_add_year (t : Date) (hv : t.valid) (hy : 1901 ≤ t.y) (k : Int) (hY : t.y ≤ 32767) (h0 : -32768 ≤ t.y + k) (h1 : t.y + k ≤ 32767) :
    addYear (code t) k = .ok (if 1901 ≤ (t.y : Int) + k then code (clamp (t.y + k).toNat t.m t.d) else code t) := by
  obtain ⟨_, e2, _⟩ := C57_ymd t hv (by omega) (by omega)
  obtain ⟨v1, v2, v3, v4⟩ := hv
  unfold addYear
  rw [e2]
  simp only
  rw [chk16_ok (by omega) (by omega), bind_ok]
  by_cases hc : 1901 ≤ (t.y : Int) + k
  · rw [if_pos hc, if_pos hc]
    obtain ⟨Y, hYd⟩ : ∃ Y : Nat, (t.y : Int) + k = Y := ⟨((t.y : Int) + k).toNat, by omega⟩
    rw [hYd]
    simp only [Int.toNat_natCast, leap_iff]
    have hfin : ∀ dd : Int, dd = ((clamp Y t.m t.d).d : Nat) → toDate (Y : Int) (t.m : Int) dd = code (clamp Y t.m t.d) := by
      intro dd hdd
      rw [hdd]
      exact (C57_ymd (clamp Y t.m t.d) (clamp_valid v1 v2 v3) (by simp only [clamp]; omega) (by simp only [clamp]; omega)).1
    congr 1
    apply hfin
    simp only [clamp]
    by_cases hm : t.m = 2
    · rw [hm] at v4 ⊢
      by_cases ha : leap t.y <;> by_cases hb : leap Y <;> simp [monthLen, ha, hb] at v4 ⊢ <;> (try split) <;> omega
    · have hml : monthLen Y t.m = monthLen t.y t.m := by unfold monthLen; rw [if_neg hm, if_neg hm]
      rw [if_neg (by omega), hml, Nat.min_eq_left v4]
  · rw [if_neg hc, if_neg hc]

example : addMonth (code ⟨2000, 1, 31⟩) 1 = .ok (code ⟨2000, 2, 29⟩) ∧ addMonth (code ⟨2000, 1, 31⟩) (-11) = .ok (code ⟨1999, 2, 28⟩) ∧
    addYear (code ⟨2000, 2, 29⟩) 1 = .ok (code ⟨2001, 2, 28⟩) ∧ clamp 2001 2 29 = ⟨2001, 2, 28⟩ ∧ Date.valid ⟨2000, 1, 31⟩ :=
  ⟨by decide +kernel, by decide +kernel, by decide +kernel, by decide, by unfold Date.valid; decide⟩

/-! ### Times -/

theorem hms (s : Nat) (h : s < 86400) : toHMS (timeCode s) = (((s / 3600 : Nat) : Int), ((s / 60 % 60 : Nat) : Int), ((s % 60 : Nat) : Int)) := by
  unfold toHMS timeCode
  have e1 : ((s / 3600 * 4096 + s / 60 % 60 * 64 + s % 60 : Nat) : Int) / 4096 = ((s / 3600 : Nat) : Int) := by omega
  have e2 : ((s / 3600 * 4096 + s / 60 % 60 * 64 + s % 60 : Nat) : Int) / 64 % 64 = ((s / 60 % 60 : Nat) : Int) := by omega
  have e3 : ((s / 3600 * 4096 + s / 60 % 60 * 64 + s % 60 : Nat) : Int) % 64 = ((s % 60 : Nat) : Int) := by omega
  rw [e1, e2, e3, short_id (by omega) (by omega), short_id (by omega) (by omega), short_id (by omega) (by omega)]

theorem toTime_eq (h m s : Int) (t : Nat) (hs : s % 60 = (t % 60 : Nat)) (hm : m % 60 = (t / 60 % 60 : Nat)) (hh : h % 24 = (t / 3600 : Nat)) :
    toTime h m s = timeCode t := by
  unfold toTime timeCode
  rw [hs, hm, hh]; omega

/-- **C57**.  `ToTime` and `ToHMS` are inverse to each other. -/
theorem C57_hms (h m s : Nat) (hh : h < 24) (hm : m < 60) (hs : s < 60) :
    toTime h m s = timeCode (h * 3600 + m * 60 + s) ∧ toHMS (toTime h m s) = ((h : Int), (m : Int), (s : Int)) := by
  have e := toTime_eq h m s (h * 3600 + m * 60 + s) (by omega) (by omega) (by omega)
  refine ⟨e, ?_⟩
  rw [e, hms _ (by omega)]
  have e1 : (h * 3600 + m * 60 + s) / 3600 = h := by omega
  have e2 : (h * 3600 + m * 60 + s) / 60 % 60 = m := by omega
  have e3 : (h * 3600 + m * 60 + s) % 60 = s := by omega
  rw [e1, e2, e3]

/-- The seconds of the day `k` seconds from second `s`. -/
def later (s : Nat) (k : Int) : Nat := ((s + k) % 86400).toNat

/-- **C57**.  `AddHour`, `AddMinute` and `AddSecond` move a time of the day around the clock. -/
theorem C57_add_clock (s : Nat) (h : s < 86400) (k : Int) (h0 : -32700 ≤ k) (h1 : k ≤ 32700) :
    addHour (timeCode s) k = .ok (timeCode (later s (k * 3600))) ∧ addMinute (timeCode s) k = .ok (timeCode (later s (k * 60))) ∧
    addSecond (timeCode s) k = .ok (timeCode (later s k)) := by
  refine ⟨?_, ?_, ?_⟩
  · unfold addHour
    rw [hms s h]
    simp only
    rw [chk16_ok (by omega) (by omega), bind_ok]
    congr 1
    apply toTime_eq <;> unfold later <;> omega
  · unfold addMinute
    rw [hms s h]
    simp only
    rw [chk16_ok (by omega) (by omega), bind_ok]
    congr 1
    unfold carryHour
    split <;> (apply toTime_eq <;> unfold later <;> omega)
  · unfold addSecond
    rw [hms s h]
    simp only
    rw [chk16_ok (by omega) (by omega), bind_ok]
    congr 1
    unfold carryHour
    split
    · split <;> (apply toTime_eq <;> unfold later <;> omega)
    · apply toTime_eq <;> unfold later <;> omega

/-- **C57** (partial).  `AddTime` moves a date and time by any number of seconds, within 1901 and the 28th of February 2100. -/
theorem C57_add_time_partial (n s : Nat) (hs : s < 86400) (k : Int) (hn : n ≤ 72742) (hk : -2147483648 ≤ k) (hk' : k ≤ 2147483500)
    (h0 : 0 ≤ n * 86400 + s + k) (h1 : n * 86400 + s + k < 72743 * 86400) :
    addTime (timeCode s) (code (dateOf n)) k =
      .ok (timeCode ((n * 86400 + s + k) % 86400).toNat, code (dateOf ((n * 86400 + s + k) / 86400).toNat)) := by
  unfold addTime
  rw [hms s hs]
  simp only
  have hc : chk (k + ((s % 60 : Nat) : Int)) = .ok (k + ((s % 60 : Nat) : Int)) := if_pos (by omega)
  rw [hc, bind_ok]
  have same : ∀ d : Int, ((n * 86400 + s + k) / 86400).toNat = n → ∀ x : Int, x = timeCode ((n * 86400 + s + k) % 86400).toNat →
      (Out.ok (x, code (dateOf n)) : Out (Int × Int)) = .ok (timeCode ((n * 86400 + s + k) % 86400).toNat, code (dateOf ((n * 86400 + s + k) / 86400).toNat)) := by
    intro _ h1 x hx; rw [h1, hx]
  split
  · split
    · split
      · have hd : short ((((k + ((s % 60 : Nat) : Int)) / 60 + ((s / 60 % 60 : Nat) : Int)) / 60 + ((s / 3600 : Nat) : Int)) / 24) = (n * 86400 + s + k) / 86400 - n := by
          rw [short_id (by omega) (by omega)]; omega
        rw [hd, C57_add_day_partial n _ (by omega) (by omega) (by omega), bind_ok]
        have e1 : ((n : Int) + ((n * 86400 + s + k) / 86400 - n)).toNat = ((n * 86400 + s + k) / 86400).toNat := by omega
        rw [e1]
        congr 2
        rw [short_id (by omega) (by omega), short_id (by omega) (by omega), short_id (by omega) (by omega)]
        apply toTime_eq <;> omega
      · apply same 0 (by omega)
        rw [short_id (by omega) (by omega), short_id (by omega) (by omega), short_id (by omega) (by omega)]
        apply toTime_eq <;> omega
    · apply same 0 (by omega)
      rw [short_id (by omega) (by omega), short_id (by omega) (by omega), short_id (by omega) (by omega)]
      apply toTime_eq <;> omega
  · apply same 0 (by omega)
    rw [short_id (by omega) (by omega), short_id (by omega) (by omega), short_id (by omega) (by omega)]
    apply toTime_eq <;> omega

example : addTime (timeCode 86399) (code ⟨1904, 2, 28⟩) 1 = .ok (timeCode 0, code ⟨1904, 2, 29⟩) ∧
    addTime (timeCode 0) (code ⟨1904, 3, 1⟩) (-86401) = .ok (timeCode 86399, code ⟨1904, 2, 28⟩) ∧
    addSecond (timeCode 86399) 2 = .ok (timeCode 1) := by decide +kernel

end Verif.Dates
