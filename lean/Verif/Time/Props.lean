import Verif.Time.Model

/-!
# C94: arithmetic with points in time

The specification: a point in time, or an interval, is a number of milliseconds.
-/
namespace Verif.Time

/-- The number of milliseconds that a record stands for. -/
def T.total (t : T) : Int := t.days * 86400000 + t.msecs

/-- A number is a value of LONGINT. -/
def InRange (H x : Int) : Prop := -H ≤ x ∧ x < H

/-- A record as the procedures make it: less than a day of milliseconds. -/
structure T.Ok (H : Int) (t : T) : Prop where
  days : InRange H t.days
  low : 0 ≤ t.msecs
  high : t.msecs < 86400000

/-- The whole days of a number of milliseconds. -/
def dayOf (x : Int) : Int := x / 86400000

theorem wrap_id {H x : Int} (h : InRange H x) : wrap H x = x := by
  unfold wrap
  rw [Int.emod_eq_of_lt (by have := h.1; omega) (by have := h.2; omega)]
  omega

theorem wrap_range {H : Int} (x : Int) (h : 0 < H) : InRange H (wrap H x) := by
  unfold wrap InRange
  have := Int.emod_nonneg (x + H) (b := 2 * H) (by omega)
  have := Int.emod_lt_of_pos (x + H) (b := 2 * H) (by omega)
  omega

theorem wrap_add (H x y : Int) : wrap H (wrap H x + y) = wrap H (x + y) := by
  unfold wrap
  have e : (x + H) % (2 * H) - H + y + H = (x + H) % (2 * H) + y := by omega
  rw [e, Int.emod_add_emod]
  congr 2
  omega

theorem wrap_sub (H x y : Int) : wrap H (wrap H x - y) = wrap H (x - y) := wrap_add H x (-y)

theorem day : msecPerDay = 86400000 := rfl

/-- C94: the record for days and milliseconds stands for this time, for all numbers of milliseconds, if the days fit. -/
theorem C94_init (H d m : Int) (hr : InRange H (dayOf (d * 86400000 + m))) :
    (init H d m).Ok H ∧ (init H d m).total = d * 86400000 + m := by
  have e : dayOf (d * 86400000 + m) = d + m / 86400000 := by unfold dayOf; omega
  rw [e] at hr
  unfold init T.total
  rw [day, wrap_id hr]
  exact ⟨⟨hr, by dsimp only; omega, by dsimp only; omega⟩, by dsimp only; omega⟩

/-- C94: the current time is the time since 1970 (day 40587), in whole milliseconds. -/
theorem C94_get_time (H s u : Int) (hH : 2147483648 ≤ H) (hs : InRange H s) (h0 : 0 ≤ u) (h1 : u < 1000000) :
    (getTime H s u).Ok H ∧ (getTime H s u).total = 40587 * 86400000 + (s * 1000000 + u) / 1000 := by
  obtain ⟨hs1, hs2⟩ := hs
  unfold getTime T.total
  rw [wrap_id (x := 40587 + s / 86400) ⟨by omega, by omega⟩, wrap_id (x := s % 86400 * 1000) ⟨by omega, by omega⟩,
    wrap_id (x := s % 86400 * 1000 + u / 1000) ⟨by omega, by omega⟩]
  exact ⟨⟨⟨by dsimp only; omega, by dsimp only; omega⟩, by dsimp only; omega, by dsimp only; omega⟩, by dsimp only; omega⟩

theorem add_eq {H : Int} (hH : 2147483648 ≤ H) {a b : T} (ha : a.Ok H) (hb : b.Ok H) :
    add H a b = if a.msecs + b.msecs ≥ 86400000 then ⟨wrap H (a.days + b.days + 1), a.msecs + b.msecs - 86400000⟩
      else ⟨wrap H (a.days + b.days), a.msecs + b.msecs⟩ := by
  obtain ⟨_, a1, a2⟩ := ha
  obtain ⟨_, b1, b2⟩ := hb
  unfold add
  dsimp only
  rw [day, wrap_id (x := a.msecs + b.msecs) ⟨by omega, by omega⟩]
  by_cases h : a.msecs + b.msecs ≥ 86400000
  · rw [if_pos h, if_pos h, wrap_add, wrap_id (x := a.msecs + b.msecs - 86400000) ⟨by omega, by omega⟩]
  · rw [if_neg h, if_neg h]

theorem sub_eq {H : Int} (hH : 2147483648 ≤ H) {a b : T} (ha : a.Ok H) (hb : b.Ok H) :
    sub H a b = if a.msecs - b.msecs < 0 then ⟨wrap H (a.days - b.days - 1), a.msecs - b.msecs + 86400000⟩
      else ⟨wrap H (a.days - b.days), a.msecs - b.msecs⟩ := by
  obtain ⟨_, a1, a2⟩ := ha
  obtain ⟨_, b1, b2⟩ := hb
  unfold sub
  dsimp only
  rw [day, wrap_id (x := a.msecs - b.msecs) ⟨by omega, by omega⟩]
  by_cases h : a.msecs - b.msecs < 0
  · rw [if_pos h, if_pos h, wrap_sub, wrap_id (x := a.msecs - b.msecs + 86400000) ⟨by omega, by omega⟩]
  · rw [if_neg h, if_neg h]

/-- C94: the sum of records is a record as it should be, even if the days do not fit. -/
theorem C94_add_ok (H : Int) (hH : 2147483648 ≤ H) (a b : T) (ha : a.Ok H) (hb : b.Ok H) : (add H a b).Ok H := by
  rw [add_eq hH ha hb]
  obtain ⟨_, a1, a2⟩ := ha
  obtain ⟨_, b1, b2⟩ := hb
  split
  · exact ⟨wrap_range _ (by omega), by dsimp only; omega, by dsimp only; omega⟩
  · exact ⟨wrap_range _ (by omega), by dsimp only; omega, by dsimp only; omega⟩

/-- C94: the difference of records is a record as it should be, even if the days do not fit. -/
theorem C94_sub_ok (H : Int) (hH : 2147483648 ≤ H) (a b : T) (ha : a.Ok H) (hb : b.Ok H) : (sub H a b).Ok H := by
  rw [sub_eq hH ha hb]
  obtain ⟨_, a1, a2⟩ := ha
  obtain ⟨_, b1, b2⟩ := hb
  split
  · exact ⟨wrap_range _ (by omega), by dsimp only; omega, by dsimp only; omega⟩
  · exact ⟨wrap_range _ (by omega), by dsimp only; omega, by dsimp only; omega⟩

/-- C94: `Add` adds the times exactly, if the days of the sum fit. -/
theorem C94_add (H : Int) (hH : 2147483648 ≤ H) (a b : T) (ha : a.Ok H) (hb : b.Ok H) (hr : InRange H (dayOf (a.total + b.total))) :
    (add H a b).total = a.total + b.total := by
  rw [add_eq hH ha hb]
  obtain ⟨_, a1, a2⟩ := ha
  obtain ⟨_, b1, b2⟩ := hb
  unfold T.total at *
  by_cases h : a.msecs + b.msecs ≥ 86400000
  · rw [if_pos h]
    have e : dayOf (a.days * 86400000 + a.msecs + (b.days * 86400000 + b.msecs)) = a.days + b.days + 1 := by unfold dayOf; omega
    rw [e] at hr
    dsimp only
    rw [wrap_id hr]
    omega
  · rw [if_neg h]
    have e : dayOf (a.days * 86400000 + a.msecs + (b.days * 86400000 + b.msecs)) = a.days + b.days := by unfold dayOf; omega
    rw [e] at hr
    dsimp only
    rw [wrap_id hr]
    omega

/-- C94: `Sub` and `Delta` subtract the times exactly, if the days of the difference fit. -/
theorem C94_sub (H : Int) (hH : 2147483648 ≤ H) (a b : T) (ha : a.Ok H) (hb : b.Ok H) (hr : InRange H (dayOf (a.total - b.total))) :
    (sub H a b).total = a.total - b.total := by
  rw [sub_eq hH ha hb]
  obtain ⟨_, a1, a2⟩ := ha
  obtain ⟨_, b1, b2⟩ := hb
  unfold T.total at *
  by_cases h : a.msecs - b.msecs < 0
  · rw [if_pos h]
    have e : dayOf (a.days * 86400000 + a.msecs - (b.days * 86400000 + b.msecs)) = a.days - b.days - 1 := by unfold dayOf; omega
    rw [e] at hr
    dsimp only
    rw [wrap_id hr]
    omega
  · rw [if_neg h]
    have e : dayOf (a.days * 86400000 + a.msecs - (b.days * 86400000 + b.msecs)) = a.days - b.days := by unfold dayOf; omega
    rw [e] at hr
    dsimp only
    rw [wrap_id hr]
    omega

/-- C94: adding the difference of two points in time to the second gives the first, for all points in time: also if the
difference does not fit. -/
theorem C94_delta_add (H : Int) (hH : 2147483648 ≤ H) (a b : T) (ha : a.Ok H) (hb : b.Ok H) : add H b (sub H a b) = a := by
  have hs := C94_sub_ok H hH a b ha hb
  rw [add_eq hH hb hs]
  rw [sub_eq hH ha hb]
  obtain ⟨ad, am⟩ := a
  obtain ⟨bd, bm⟩ := b
  obtain ⟨a0, a1, a2⟩ := ha
  obtain ⟨_, b1, b2⟩ := hb
  dsimp only at *
  have key : ∀ x y, wrap H (bd + wrap H x + y) = wrap H (bd + x + y) := by
    intro x y
    have e1 : bd + wrap H x + y = wrap H x + (bd + y) := by omega
    have e2 : bd + x + y = x + (bd + y) := by omega
    rw [e1, e2, wrap_add]
  have key0 : ∀ x, wrap H (bd + wrap H x) = wrap H (bd + x) := by
    intro x
    have := key x 0
    simpa using this
  by_cases h : am - bm < 0
  · simp only [if_pos h]
    rw [if_pos (by omega), key]
    have e : bd + (ad - bd - 1) + 1 = ad := by omega
    rw [e, wrap_id a0]
    congr 1; omega
  · simp only [if_neg h]
    rw [if_neg (by omega), key0]
    have e : bd + (ad - bd) = ad := by omega
    rw [e, wrap_id a0]
    congr 1; omega

/-- C94: `Cmp` compares the times: its result is negative, zero or positive as the difference of the times is. -/
theorem C94_cmp (H : Int) (a b : T) (ha : a.Ok H) (hb : b.Ok H) : cmp a b = (a.total - b.total).sign := by
  obtain ⟨_, a1, a2⟩ := ha
  obtain ⟨_, b1, b2⟩ := hb
  unfold cmp T.total
  split
  · rename_i h
    exact (Int.sign_eq_one_of_pos (by omega)).symm
  · split
    · rename_i _ h
      have : a.days * 86400000 + a.msecs - (b.days * 86400000 + b.msecs) = 0 := by omega
      rw [this]; rfl
    · rename_i h1 h2
      exact (Int.sign_eq_neg_one_of_neg (by omega)).symm

/-- C94: a record is the only one for its time: two points in time are equal only if their records are. -/
theorem C94_unique (H : Int) (a b : T) (ha : a.Ok H) (hb : b.Ok H) (h : a.total = b.total) : a = b := by
  obtain ⟨ad, am⟩ := a
  obtain ⟨bd, bm⟩ := b
  obtain ⟨_, a1, a2⟩ := ha
  obtain ⟨_, b1, b2⟩ := hb
  unfold T.total at h
  dsimp only at *
  congr 1 <;> omega

/-- Deviation: days that do not fit wrap around without a trap: the time after the last moment is the first (oocTime.Mod 93-101). -/
theorem C94_wraps (H : Int) (hH : 2147483648 ≤ H) : add H ⟨H - 1, 86399999⟩ ⟨0, 1⟩ = ⟨-H, 0⟩ := by
  rw [add_eq hH ⟨⟨by dsimp only; omega, by dsimp only; omega⟩, by dsimp only; omega, by dsimp only; omega⟩
    ⟨⟨by dsimp only; omega, by dsimp only; omega⟩, by dsimp only; omega, by dsimp only; omega⟩]
  rw [if_pos (by dsimp only; omega)]
  have : wrap H (H - 1 + 0 + 1) = -H := by
    unfold wrap
    have e : H - 1 + 0 + 1 + H = 2 * H := by omega
    rw [e, Int.emod_self]; omega
  dsimp only
  rw [this]
  congr 1

/-! ## Examples -/

example : (init 2147483648 (-3) (-1)).total = -3 * 86400000 - 1 := by decide
example : add 2147483648 ⟨58000, 86399000⟩ ⟨1, 2000⟩ = ⟨58002, 1000⟩ := by decide
example : sub 2147483648 ⟨58002, 1000⟩ ⟨1, 2000⟩ = ⟨58000, 86399000⟩ := by decide
example : InRange 2147483648 (dayOf ((⟨58000, 86399000⟩ : T).total + (⟨1, 2000⟩ : T).total)) := by unfold InRange; decide
example : T.Ok 2147483648 ⟨58000, 86399000⟩ := ⟨⟨by decide, by decide⟩, by decide, by decide⟩

end Verif.Time
