import Verif.Common
import Verif.Files.Lemmas

/-!
# The operations on riders
-/
namespace Verif.Files

open Spec (overwrite)

/-- A rider on file `f`. -/
structure RV (B : Nat) (s : State) (r : Rider) (f : Nat) : Prop where
  ne : r.buf ≠ 0
  next : r.buf < s.next
  file : (s.bufs r.buf).f = f
  mod : r.org % B = 0
  le : r.offset ≤ B
  pos : (s.bufs r.buf).org ≠ none → r.org + r.offset ≤ (s.files f).len

theorem RV.ext {B : Nat} {s s' : State} {r : Rider} {f g : Nat} (h : RV B s r f) (e : Ext s s' g) : RV B s' r f where
  ne := h.ne
  next := Nat.lt_of_lt_of_le h.next e.next
  file := by rw [e.bf _ h.next]; exact h.file
  mod := h.mod
  le := h.le
  pos := by
    intro hn
    by_cases hfg : f = g
    · subst hfg
      have := h.pos (fun h0 => hn (e.gone _ h.next h0))
      have := e.len
      omega
    · rw [e.files f hfg]
      have : (s.bufs r.buf).f ≠ g := by rw [h.file]; exact hfg
      rw [e.bufs _ h.next this] at hn
      exact h.pos hn

/-- The buffer of a rider that is up to date. -/
theorem live {B N : Nat} {s : State} {r : Rider} {f : Nat} {L : List Nat} (h : FI B N s f L N) (g : GI N s) (v : RV B s r f)
    (ho : (s.bufs r.buf).org = some r.org) :
    (∃ k, k < N ∧ (s.files f).bufs k = r.buf) ∧ BufOk B L (s.bufs r.buf) r.org ∧ r.offset ≤ (s.bufs r.buf).size ∧
      r.org + r.offset ≤ L.length := by
  obtain ⟨_, g2⟩ := g.buf _ v.ne v.next
  obtain ⟨k, hk, e⟩ := g2 (by rw [ho]; simp)
  rw [v.file] at e
  obtain ⟨_, _, o, ok⟩ := h.buf k hk (by omega) (by rw [e]; exact v.ne)
  rw [e] at ok
  have : o = r.org := by
    have := ok.horg
    rw [ho] at this
    exact (Option.some.inj this).symm
  subst this
  have hp := v.pos (by rw [ho]; simp)
  rw [h.len] at hp
  have := v.le
  exact ⟨⟨k, hk, e⟩, ok, by rw [ok.size]; omega, hp⟩

/-- The rider is brought up to date. -/
theorem sync {B N : Nat} {s : State} {r : Rider} {f : Nat} {L : List Nat} (C : Prop) [Decidable C] (hB : 0 < B) (hN : 0 < N)
    (h : FI B N s f L N) (g : GI N s) (hf : f < s.nfiles) (v : RV B s r f) (hC : ¬ C → (s.bufs r.buf).org = some r.org) :
    ∃ s1 r1, (if C then set B N none s (s.bufs r.buf).f (r.org + r.offset : Nat) else some (s, r)) = some (s1, r1) ∧
      FI B N s1 f L N ∧ GI N s1 ∧ Ext s s1 f ∧ RV B s1 r1 f ∧ (s1.bufs r1.buf).org = some r1.org ∧
      r1.org + r1.offset = min (r.org + r.offset) L.length ∧
      ((r1.eof = r.eof ∧ r1.res = r.res) ∨ (r1.eof = false ∧ r1.res = 0)) ∧ (C → r1.offset < B) ∧ (¬ C → r1 = r) := by
  by_cases hc : C
  · rw [if_pos hc, v.file]
    obtain ⟨s1, b, e1, e2, e3, e4, e5, e6, e7, e8, e9⟩ := set_ok (p := ((r.org + r.offset : Nat) : Int)) hB hN h g hf
    have hcl : clamp L.length ((r.org + r.offset : Nat) : Int) = min (r.org + r.offset) L.length := by
      unfold clamp
      split
      · omega
      · split <;> omega
    rw [hcl] at e1 e9
    have hml := Nat.mod_lt (min (r.org + r.offset) L.length) hB
    have hmle := Nat.mod_le (min (r.org + r.offset) L.length) B
    refine ⟨s1, _, e1, e2, e3, e4, ?_, e9, ?_, Or.inr ⟨rfl, rfl⟩, fun _ => hml, fun hn => absurd hc hn⟩
    · constructor
      · exact e6
      · exact e7
      · exact e8
      · show (_ - _) % B = 0
        obtain ⟨q, hq⟩ : ∃ q, q = min (r.org + r.offset) L.length := ⟨_, rfl⟩
        rw [← hq, ← Nat.mod_add_div q B, Nat.add_mul_mod_self_left, Nat.mod_mod, Nat.add_sub_cancel_left, Nat.mul_mod_right]
      · exact Nat.le_of_lt hml
      · intro _
        rw [e5, h.len]
        show _ - _ + _ ≤ _
        rw [Nat.sub_add_cancel hmle]
        exact Nat.min_le_right _ _
    · show _ - _ + _ = _
      exact Nat.sub_add_cancel hmle
  · rw [if_neg hc]
    have ho := hC hc
    obtain ⟨_, _, _, hp⟩ := live h g v ho
    exact ⟨s, r, rfl, h, g, Ext.refl s f, v, ho, by omega, Or.inl ⟨rfl, rfl⟩, fun hh => absurd hh hc, fun _ => rfl⟩

/-! ## Reading -/

theorem bytesAt_length (d : Nat → Nat) (o n : Nat) : (bytesAt d o n).length = n := by simp [bytesAt]

theorem bytesAt_get (d : Nat → Nat) (o n : Nat) {i : Nat} (h : i < n) : (bytesAt d o n)[i]? = some (d (o + i)) := by
  simp [bytesAt, h]

theorem BufOk.bytes {B : Nat} {L : List Nat} {b : Buf} {org : Nat} (h : BufOk B L b org) {o n : Nat} (hn : o + n ≤ b.size) :
    bytesAt b.data o n = (L.drop (org + o)).take n := by
  apply List.ext_getElem?
  intro i
  by_cases hi : i < n
  · rw [bytesAt_get _ _ _ hi, List.getElem?_take_of_lt hi, List.getElem?_drop, Nat.add_assoc, h.data (o + i) (by omega)]
  · rw [List.getElem?_eq_none (by rw [bytesAt_length]; omega), List.getElem?_eq_none (by simp; omega)]

theorem read_ok {B N : Nat} {s : State} {r : Rider} {f : Nat} {L : List Nat} (hB : 0 < B) (hN : 0 < N) (h : FI B N s f L N) (g : GI N s)
    (hf : f < s.nfiles) (v : RV B s r f) :
    ∃ s1 r1 c, read B N none s r = some (s1, r1, c) ∧ FI B N s1 f L N ∧ GI N s1 ∧ Ext s s1 f ∧ RV B s1 r1 f ∧
      (r1.res = r.res ∨ r1.res = 0) ∧
      ((L[min (r.org + r.offset) L.length]? = some c ∧ r1.org + r1.offset = min (r.org + r.offset) L.length + 1 ∧
          (r1.eof = r.eof ∨ r1.eof = false)) ∨
       (L.length ≤ r.org + r.offset ∧ c = 0 ∧ r1.org + r1.offset = L.length ∧ r1.eof = true)) := by
  unfold read
  rw [if_neg v.ne]
  obtain ⟨s1, r1, e1, e2, e3, e4, e5, e6, e7, e8, _, _⟩ := sync (some r.org ≠ (s.bufs r.buf).org) hB hN h g hf v
    (fun hn => (not_not.1 hn).symm)
  rw [e1, Option.bind_some]
  simp only []
  obtain ⟨_, ok, l1, l2⟩ := live e2 e3 e5 e6
  rw [if_pos l1]
  have hres : r1.res = r.res ∨ r1.res = 0 := by
    rcases e8 with ⟨_, a⟩ | ⟨_, a⟩
    · left; exact a
    · right; exact a
  have heof : r1.eof = r.eof ∨ r1.eof = false := by
    rcases e8 with ⟨a, _⟩ | ⟨a, _⟩
    · left; exact a
    · right; exact a
  by_cases hlt : r1.offset < (s1.bufs r1.buf).size
  · rw [if_pos hlt]
    have hsz := ok.size
    refine ⟨_, _, _, rfl, e2, e3, e4, ?_, hres, Or.inl ⟨?_, ?_, heof⟩⟩
    · exact ⟨e5.ne, e5.next, e5.file, e5.mod, by show r1.offset + 1 ≤ B; omega, fun _ => by
        rw [e2.len]; show r1.org + (r1.offset + 1) ≤ _; omega⟩
    · rw [← e7]; exact ok.data _ hlt
    · show r1.org + (r1.offset + 1) = _; omega
  · rw [if_neg hlt]
    by_cases hend : r1.org + r1.offset < (s1.files (s1.bufs r1.buf).f).len
    · rw [if_pos hend]
      rw [e5.file] at hend
      rw [e2.len] at hend
      obtain ⟨s2, r2, q1, q2, q3, q4, q5, q6, q7, q8, q9, _⟩ := sync (s := s1) (r := r1) True hB hN e2 e3
        (by rw [e4.nfiles]; exact hf) e5 (by simp)
      rw [if_pos trivial] at q1
      rw [q1, Option.bind_some]
      simp only []
      obtain ⟨_, ok2, m1, m2⟩ := live q2 q3 q5 q6
      have hB2 := q9 trivial
      -- the rider stood at the end of a full block
      have hoff : r2.offset = 0 := by
        have hsz := ok.size
        have hl1 := e5.le
        have e0 : r1.offset = B := by omega
        have e1 : (r2.org + r2.offset) % B = (r1.org + r1.offset) % B := by rw [q7]; congr 1; omega
        rw [Nat.add_mod, q5.mod, Nat.zero_add, Nat.mod_mod, Nat.mod_eq_of_lt hB2, e0, Nat.add_mod, e5.mod, Nat.mod_self] at e1
        simpa using e1
      have hsz2 := ok2.size
      refine ⟨_, _, _, rfl, q2, q3, e4.trans q4, ?_, ?_, Or.inl ⟨?_, ?_, ?_⟩⟩
      · exact ⟨q5.ne, q5.next, q5.file, q5.mod, hB, fun _ => by
          rw [q2.len]; show r2.org + 1 ≤ _; omega⟩
      · show r2.res = _ ∨ r2.res = 0
        rcases q8 with ⟨_, a⟩ | ⟨_, a⟩
        · rw [a]; exact hres
        · right; exact a
      · have := ok2.data 0 (by omega)
        rw [← this]
        congr 1
        omega
      · show r2.org + 1 = _; omega
      · show r2.eof = _ ∨ r2.eof = false
        rcases q8 with ⟨a, _⟩ | ⟨a, _⟩
        · rw [a]; exact heof
        · right; exact a
    · rw [if_neg hend]
      rw [e5.file, e2.len] at hend
      refine ⟨_, _, _, rfl, e2, e3, e4, ?_, hres, Or.inr ⟨?_, rfl, ?_, rfl⟩⟩
      · exact ⟨e5.ne, e5.next, e5.file, e5.mod, e5.le, e5.pos⟩
      · omega
      · show r1.org + r1.offset = _; omega

theorem readLoop_ok {B N : Nat} {f : Nat} {L : List Nat} (hB : 0 < B) (hN : 0 < N) : ∀ (fuel : Nat) (s : State) (r : Rider) (n : Nat) (got : List Nat),
    FI B N s f L N → GI N s → f < s.nfiles → RV B s r f → n < fuel →
    ∃ s1 r1 x, readLoop B N none fuel s r n got = some (s1, r1, got ++ x) ∧ FI B N s1 f L N ∧ GI N s1 ∧ Ext s s1 f ∧ RV B s1 r1 f ∧
      x = (L.drop (min (r.org + r.offset) L.length)).take n ∧
      r1.org + r1.offset = (if n = 0 then r.org + r.offset else min (r.org + r.offset) L.length + x.length) ∧
      r1.eof = decide (x.length < n) ∧ r1.res = n - x.length
  | 0, s, r, n, got, h, g, hf, v, hn => by omega
  | fuel + 1, s, r, n, got, h, g, hf, v, hn => by
    simp only [readLoop]
    by_cases h0 : 0 < n
    · rw [if_pos h0]
      obtain ⟨s1, r1, e1, e2, e3, e4, e5, e6, e7, e8, e9, e10⟩ := sync (some r.org ≠ (s.bufs r.buf).org ∨ B ≤ r.offset) hB hN h g hf v
        (fun hn => by
          by_contra hne
          exact hn (Or.inl (fun e => hne e.symm)))
      rw [e1, Option.bind_some]
      simp only []
      obtain ⟨_, ok, l1, l2⟩ := live e2 e3 e5 e6
      have hsz := ok.size
      have hlt : r1.offset < B := by
        by_cases hc : some r.org ≠ (s.bufs r.buf).org ∨ B ≤ r.offset
        · exact e9 hc
        · rw [e10 hc]
          omega
      by_cases hz : (s1.bufs r1.buf).size - r1.offset = 0
      · rw [if_pos hz]
        have hend : r1.org + r1.offset = L.length := by omega
        have hx : (L.drop (min (r.org + r.offset) L.length)).take n = [] := by
          rw [List.drop_eq_nil_of_le (by omega), List.take_nil]
        refine ⟨s1, _, [], by rw [List.append_nil], e2, e3, e4, ?_, hx.symm, ?_, ?_, ?_⟩
        · exact ⟨e5.ne, e5.next, e5.file, e5.mod, e5.le, e5.pos⟩
        · rw [if_neg (by omega)]; show r1.org + r1.offset = _; simp; omega
        · simp; omega
        · simp
      · rw [if_neg hz]
        obtain ⟨m, hm⟩ : ∃ m, m = (if n > (s1.bufs r1.buf).size - r1.offset then (s1.bufs r1.buf).size - r1.offset else n) := ⟨_, rfl⟩
        rw [← hm]
        have hm1 : m = min n ((s1.bufs r1.buf).size - r1.offset) := by
          rw [hm]
          split <;> omega
        rw [if_pos (by omega)]
        have v2 : RV B s1 { r1 with offset := r1.offset + m } f :=
          ⟨e5.ne, e5.next, e5.file, e5.mod, by show r1.offset + m ≤ B; omega, fun _ => by
            rw [e2.len]; show r1.org + (r1.offset + m) ≤ _; omega⟩
        obtain ⟨s2, r2, x, q1, q2, q3, q4, q5, q6, q7, q8, q9⟩ := readLoop_ok hB hN fuel s1 { r1 with offset := r1.offset + m } (n - m)
          (got ++ bytesAt (s1.bufs r1.buf).data r1.offset m) e2 e3 (by rw [e4.nfiles]; exact hf) v2 (by omega)
        simp only [] at q6 q7
        have hbytes := ok.bytes (o := r1.offset) (n := m) (by omega)
        rw [e7] at hbytes
        have hxl : x.length = min (n - m) (L.length - (r1.org + (r1.offset + m))) := by
          rw [q6]; simp; omega
        have hall : bytesAt (s1.bufs r1.buf).data r1.offset m ++ x = (L.drop (min (r.org + r.offset) L.length)).take n := by
          rw [hbytes, q6, show min (r1.org + (r1.offset + m)) L.length = min (r.org + r.offset) L.length + m by omega]
          rw [show n = m + (n - m) by omega, List.take_add, List.drop_drop, show m + (n - m) - m = n - m by omega]
        refine ⟨s2, r2, bytesAt (s1.bufs r1.buf).data r1.offset m ++ x, by rw [q1, List.append_assoc], q2, q3, e4.trans q4, q5, hall, ?_, ?_, ?_⟩
        · rw [if_neg (by omega), List.length_append, bytesAt_length]
          rw [q7]
          split
          · omega
          · omega
        · rw [q8, List.length_append, bytesAt_length]
          congr 1
          simp only [eq_iff_iff]
          omega
        · rw [q9, List.length_append, bytesAt_length]; omega
    · rw [if_neg h0]
      have : n = 0 := by omega
      subst this
      refine ⟨s, _, [], by rw [List.append_nil], h, g, Ext.refl s f, ?_, by simp, by simp, by simp, by simp⟩
      exact ⟨v.ne, v.next, v.file, v.mod, v.le, v.pos⟩

/-! ## Writing -/

theorem overwrite_length {L x : List Nat} {p : Nat} (h : p ≤ L.length) : (overwrite L p x).length = max L.length (p + x.length) := by
  unfold overwrite
  simp
  omega

theorem overwrite_get {L x : List Nat} {p : Nat} (h : p ≤ L.length) (i : Nat) :
    (overwrite L p x)[i]? = if p ≤ i ∧ i < p + x.length then x[i - p]? else L[i]? := by
  unfold overwrite
  by_cases h1 : i < p
  · rw [if_neg (by omega), List.append_assoc, List.getElem?_append_left (by simp; omega), List.getElem?_take_of_lt h1]
  · by_cases h2 : i < p + x.length
    · rw [if_pos (by omega), List.getElem?_append_left (by simp; omega), List.getElem?_append_right (by simp; omega)]
      congr 1; simp; omega
    · rw [if_neg (by omega), List.getElem?_append_right (by simp; omega), List.getElem?_drop]
      congr 1; simp; omega

theorem overwrite_append {L x y : List Nat} {p : Nat} (h : p ≤ L.length) :
    overwrite (overwrite L p x) (p + x.length) y = overwrite L p (x ++ y) := by
  apply List.ext_getElem?
  intro i
  have hl := overwrite_length (x := x) h
  rw [overwrite_get (by omega), overwrite_get h, overwrite_get h]
  simp only [List.length_append]
  by_cases h1 : i < p
  · rw [if_neg (by omega), if_neg (by omega), if_neg (by omega)]
  · by_cases h2 : i < p + x.length
    · rw [if_neg (by omega), if_pos (by omega), if_pos (by omega), List.getElem?_append_left (by omega)]
    · by_cases h3 : i < p + x.length + y.length
      · rw [if_pos (by omega), if_pos (by omega), List.getElem?_append_right (by omega)]
        congr 1; omega
      · rw [if_neg (by omega), if_neg (by omega), if_neg (by omega)]

theorem overwrite_nil {L : List Nat} {p : Nat} : overwrite L p [] = L := by
  unfold overwrite; simp

/-- Bytes are stored in a buffer. -/
theorem poke {B N : Nat} {s s' : State} {r : Rider} {f : Nat} {L x : List Nat} {d : Nat → Nat} (hB : 0 < B) (h : FI B N s f L N) (g : GI N s)
    (v : RV B s r f) (ho : (s.bufs r.buf).org = some r.org) (hx : r.offset + x.length ≤ B)
    (hb : s'.bufs = upd s.bufs r.buf ⟨f, true, some r.org, max (s.bufs r.buf).size (r.offset + x.length), d⟩)
    (hd1 : ∀ i, i < x.length → x[i]? = some (d (r.offset + i)))
    (hd2 : ∀ i, ¬ (r.offset ≤ i ∧ i < r.offset + x.length) → d i = (s.bufs r.buf).data i)
    (hf' : s'.files = upd s.files f { s.files f with len := max L.length (r.org + r.offset + x.length) })
    (hn : s'.next = s.next) (hnf : s'.nfiles = s.nfiles) (hr : s'.riders = s.riders) :
    FI B N s' f (overwrite L (r.org + r.offset) x) N ∧ GI N s' ∧ Ext s s' f ∧
      RV B s' { r with offset := r.offset + x.length } f ∧ (s'.bufs r.buf).org = some r.org := by
  obtain ⟨⟨k, hk, ek⟩, ok, l1, l2⟩ := live h g v ho
  have hsz := ok.size
  have hl : (overwrite L (r.org + r.offset) x).length = max L.length (r.org + r.offset + x.length) := overwrite_length l2
  have sf : s'.files f = { s.files f with len := max L.length (r.org + r.offset + x.length) } := by rw [hf', upd_same]
  have sb : s'.bufs r.buf = ⟨f, true, some r.org, max (s.bufs r.buf).size (r.offset + x.length), d⟩ := by rw [hb, upd_same]
  have sbo : ∀ c, c ≠ r.buf → s'.bufs c = s.bufs c := by intro c hc; rw [hb, upd_ne _ _ hc]
  have other : ∀ k', k' < N → k' ≠ k → (s.files f).bufs k' ≠ 0 → (s.files f).bufs k' ≠ r.buf := by
    intro k' hk' hkk h0 e
    exact hkk (h.orgs k' k hk' hk (by omega) (by omega) h0 (by rw [ek]; exact v.ne) (by rw [e, ek]))
  have hok' : BufOk B (overwrite L (r.org + r.offset) x) (s'.bufs r.buf) r.org := by
    rw [sb]
    refine ⟨rfl, v.mod, by rw [hl]; omega, by rw [hl]; show max _ _ = _; omega, fun i hi => ?_⟩
    simp only [] at hi ⊢
    rw [overwrite_get l2]
    by_cases hin : r.offset ≤ i ∧ i < r.offset + x.length
    · rw [if_pos (by omega), show r.org + i - (r.org + r.offset) = i - r.offset by omega, hd1 _ (by omega)]
      congr 2; omega
    · rw [if_neg (by omega), hd2 i hin]
      exact ok.data i (by omega)
  have hbuf : ∀ k', k' < N → (s.files f).bufs k' ≠ 0 → (s.files f).bufs k' < s.next ∧ (s'.bufs ((s.files f).bufs k')).f = f ∧
      ∃ org, BufOk B (overwrite L (r.org + r.offset) x) (s'.bufs ((s.files f).bufs k')) org := by
    intro k' hk' h0
    by_cases hkk : k' = k
    · subst hkk
      rw [ek]
      exact ⟨v.next, by rw [sb], r.org, hok'⟩
    · have hne := other k' hk' hkk h0
      obtain ⟨d1, d2, o, d3⟩ := h.buf k' hk' (by omega) h0
      rw [sbo _ hne]
      refine ⟨d1, d2, o, d3.horg, d3.mod, by rw [hl]; have := d3.le; omega, ?_, ?_⟩
      · -- other blocks do not grow
        rw [d3.size, hl]
        by_cases hgrow : r.org + r.offset + x.length ≤ L.length
        · rw [Nat.max_eq_left hgrow]
        · have hlast : L.length < r.org + B := by omega
          have hoo : o ≠ r.org := by
            rintro rfl
            refine hkk (h.orgs k' k hk' hk (by omega) (by omega) h0 (by rw [ek]; exact v.ne) ?_)
            rw [ek, ho]; exact d3.horg
          have hle := d3.le
          have hol : o + B ≤ r.org := by
            by_contra hcon
            by_cases hor : o < r.org
            · exact hoo (block_eq (i := r.org) hB d3.mod v.mod (by omega) (by omega) (by omega) (by omega))
            · exact hoo (block_eq (i := o) hB d3.mod v.mod (by omega) (by omega) (by omega) (by omega))
          omega
      · intro i hi
        rw [overwrite_get l2]
        have hs3 := d3.size
        rw [if_neg ?_]
        · exact d3.data i hi
        · rintro ⟨a1, a2⟩
          have : o = r.org := block_eq (i := o + i) hB d3.mod v.mod (by omega) (by omega) (by omega) (by omega)
          subst this
          refine hkk (h.orgs k' k hk' hk (by omega) (by omega) h0 (by rw [ek]; exact v.ne) ?_)
          rw [ek, ho]; exact d3.horg
  refine ⟨?_, ?_, ?_, ?_, by rw [sb]⟩
  · constructor
    · rw [sf, hl]
    · rw [sf, hl]; have := h.osle; show (s.files f).osLen ≤ _; omega
    · rw [sf]; exact h.nc
    · rw [sf]; exact h.pos
    · rw [sf]; exact h.nil
    · rw [sf, hn]
      intro k' hk' _ h0
      exact hbuf k' hk' h0
    · rw [sf]
      intro k1 k2 a1 a2 a3 a4 a5 a6 a7
      have horg : ∀ c, (s'.bufs c).org = (s.bufs c).org := by
        intro c
        by_cases hc : c = r.buf
        · subst hc; rw [sb, ho]
        · rw [sbo c hc]
      rw [horg, horg] at a7
      exact h.orgs k1 k2 a1 a2 a3 a4 a5 a6 a7
    · rw [sf, hl]
      intro i hi
      by_cases hin : r.org ≤ i ∧ i < r.org + max (s.bufs r.buf).size (r.offset + x.length)
      · left
        refine ⟨k, r.org, hk, by omega, ?_, ?_⟩
        · show (s.files f).bufs k ≠ 0
          rw [ek]; exact v.ne
        · show (s'.bufs ((s.files f).bufs k)).chg = true ∧ _
          rw [ek, sb]
          exact ⟨rfl, rfl, hin.1, hin.2⟩
      · have hiL : i < L.length := by omega
        rcases h.cover i hiL with ⟨k1, o, a1, a2, a3, a4, a5, a6, a7⟩ | a
        · left
          refine ⟨k1, o, a1, a2, a3, ?_⟩
          have hne : (s.files f).bufs k1 ≠ r.buf := by
            intro e
            rw [e] at a5 a7
            rw [ho] at a5
            have := Option.some.inj a5
            omega
          show (s'.bufs ((s.files f).bufs k1)).chg = true ∧ _
          rw [sbo _ hne]
          exact ⟨a4, a5, a6, a7⟩
        · right
          refine ⟨a.1, ?_⟩
          rw [overwrite_get l2, if_neg (by omega)]
          exact a.2
    · rw [sf]; exact h.sw
  · refine ⟨by rw [hn]; exact g.next, fun c hc0 hcn => ?_⟩
    rw [hn] at hcn
    by_cases hcb : c = r.buf
    · subst hcb
      rw [sb, hnf]
      refine ⟨by rw [← v.file]; exact (g.buf _ v.ne v.next).1, fun _ => ⟨k, hk, by rw [sf]; exact ek⟩⟩
    · rw [sbo c hcb, hnf]
      refine ⟨(g.buf c hc0 hcn).1, fun hno => ?_⟩
      obtain ⟨k', hk', e⟩ := (g.buf c hc0 hcn).2 hno
      refine ⟨k', hk', ?_⟩
      by_cases hff : (s.bufs c).f = f
      · rw [hff] at e ⊢; rw [sf]; exact e
      · rw [hf', upd_ne _ _ hff]; exact e
  · constructor
    · exact hnf
    · exact hr
    · intro g' hg'; rw [hf', upd_ne _ _ hg']
    · rw [sf]
    · rw [sf]; exact id
    · rw [hn]
    · intro c hc
      by_cases hcb : c = r.buf
      · subst hcb; rw [sb]; exact v.file.symm
      · rw [sbo c hcb]
    · intro c hc hcf
      have : c ≠ r.buf := by rintro rfl; exact hcf v.file
      exact sbo c this
    · intro c hc hno
      by_cases hcb : c = r.buf
      · subst hcb; rw [ho] at hno; simp at hno
      · rw [sbo c hcb]; exact hno
    · rw [sf, h.len]; show _ ≤ max _ _; omega
  · refine ⟨v.ne, by rw [hn]; exact v.next, by rw [show ({ r with offset := r.offset + x.length } : Rider).buf = r.buf from rfl, sb], v.mod, hx, fun _ => ?_⟩
    rw [sf]
    show r.org + (r.offset + x.length) ≤ max _ _
    omega

theorem write_ok {B N : Nat} {s : State} {r : Rider} {f : Nat} {L : List Nat} (c : Nat) (hB : 0 < B) (hN : 0 < N) (h : FI B N s f L N) (g : GI N s)
    (hf : f < s.nfiles) (v : RV B s r f) :
    ∃ s1 r1, write B N none s r c = some (s1, r1) ∧ FI B N s1 f (overwrite L (min (r.org + r.offset) L.length) [c]) N ∧ GI N s1 ∧
      Ext s s1 f ∧ RV B s1 r1 f ∧ r1.org + r1.offset = min (r.org + r.offset) L.length + 1 ∧ r1.res = 0 ∧
      (r1.eof = r.eof ∨ r1.eof = false) := by
  unfold write
  rw [if_neg (by intro hh; rcases hh with hh | hh; exact v.ne hh; exact hh v.le)]
  obtain ⟨s1, r1, e1, e2, e3, e4, e5, e6, e7, e8, e9, e10⟩ := sync (some r.org ≠ (s.bufs r.buf).org ∨ B ≤ r.offset) hB hN h g hf v
    (fun hn => by
      by_contra hne
      exact hn (Or.inl (fun e => hne e.symm)))
  rw [e1, Option.bind_some]
  simp only []
  have hlt : r1.offset < B := by
    by_cases hc : some r.org ≠ (s.bufs r.buf).org ∨ B ≤ r.offset
    · exact e9 hc
    · rw [e10 hc]; omega
  rw [if_pos hlt]
  obtain ⟨_, ok, l1, l2⟩ := live e2 e3 e5 e6
  have hsz := ok.size
  have hl := e2.len
  have heof : r1.eof = r.eof ∨ r1.eof = false := by
    rcases e8 with ⟨a, _⟩ | ⟨a, _⟩
    · left; exact a
    · right; exact a
  obtain ⟨t, ht⟩ : ∃ t : State, t = (if r1.offset = (s1.bufs r1.buf).size then
      ({ s1 with
        bufs := upd (upd s1.bufs r1.buf { s1.bufs r1.buf with data := upd (s1.bufs r1.buf).data r1.offset c, chg := true }) r1.buf
          { (upd s1.bufs r1.buf { s1.bufs r1.buf with data := upd (s1.bufs r1.buf).data r1.offset c, chg := true }) r1.buf with
            size := (s1.bufs r1.buf).size + 1 }
        files := upd s1.files (s1.bufs r1.buf).f { s1.files (s1.bufs r1.buf).f with len := (s1.files (s1.bufs r1.buf).f).len + 1 } } : State)
      else { s1 with bufs := upd s1.bufs r1.buf { s1.bufs r1.buf with data := upd (s1.bufs r1.buf).data r1.offset c, chg := true } }) := ⟨_, rfl⟩
  rw [← ht]
  have tn : t.next = s1.next ∧ t.nfiles = s1.nfiles ∧ t.riders = s1.riders := by
    rw [ht]; split <;> exact ⟨rfl, rfl, rfl⟩
  have tb : t.bufs = upd s1.bufs r1.buf ⟨f, true, some r1.org, max (s1.bufs r1.buf).size (r1.offset + [c].length), upd (s1.bufs r1.buf).data r1.offset c⟩ := by
    rw [ht]
    funext i
    by_cases hi : i = r1.buf
    · subst hi
      rw [upd_same]
      split
      · simp only [upd_same, e5.file, e6]
        congr 1
        simp; omega
      · simp only [upd_same, e5.file, e6]
        congr 1
        simp; omega
    · rw [upd_ne _ _ hi]
      split
      · simp only []
        rw [upd_ne _ _ hi, upd_ne _ _ hi]
      · simp only []
        rw [upd_ne _ _ hi]
  have tf : t.files = upd s1.files f { s1.files f with len := max L.length (r1.org + r1.offset + [c].length) } := by
    rw [ht]
    funext i
    by_cases hi : i = f
    · subst hi
      split
      · simp only [e5.file, upd_same]
        congr 1
        simp; omega
      · simp only []
        have : (s1.files i).len = max L.length (r1.org + r1.offset + [c].length) := by simp; omega
        rw [← this, upd_same]
    · rw [upd_ne _ _ hi]
      split
      · simp only [e5.file]
        rw [upd_ne _ _ hi]
      · rfl
  obtain ⟨p1, p2, p3, p4, _⟩ := poke (x := [c]) (d := upd (s1.bufs r1.buf).data r1.offset c) hB e2 e3 e5 e6 (by simp; omega) tb
    (by intro i hi; simp at hi; subst hi; simp [upd_same])
    (by intro i hi; simp at hi; rw [upd_ne]; omega) tf tn.1 tn.2.1 tn.2.2
  rw [e7] at p1
  refine ⟨t, _, rfl, p1, p2, e4.trans p3, ?_, ?_, rfl, heof⟩
  · exact ⟨p4.ne, p4.next, p4.file, p4.mod, p4.le, p4.pos⟩
  · show r1.org + (r1.offset + 1) = _; omega

theorem writeLoop_ok {B N : Nat} {f : Nat} (hB : 0 < B) (hN : 0 < N) : ∀ (fuel : Nat) (s : State) (r : Rider) (x : List Nat) (L : List Nat),
    FI B N s f L N → GI N s → f < s.nfiles → RV B s r f → x.length < fuel →
    ∃ s1 r1, writeLoop B N none fuel s r x = some (s1, r1) ∧
      FI B N s1 f (overwrite L (min (r.org + r.offset) L.length) x) N ∧ GI N s1 ∧
      Ext s s1 f ∧ RV B s1 r1 f ∧
      r1.org + r1.offset = (if x.length = 0 then r.org + r.offset else min (r.org + r.offset) L.length + x.length) ∧ r1.res = 0 ∧
      (r1.eof = r.eof ∨ r1.eof = false)
  | 0, s, r, x, L, h, g, hf, v, hn => by omega
  | fuel + 1, s, r, x, L, h, g, hf, v, hn => by
    simp only [writeLoop]
    by_cases h0 : 0 < x.length
    · rw [if_pos h0, if_pos v.le]
      obtain ⟨s1, r1, e1, e2, e3, e4, e5, e6, e7, e8, e9, e10⟩ := sync (some r.org ≠ (s.bufs r.buf).org ∨ B ≤ r.offset) hB hN h g hf v
        (fun hn => by
          by_contra hne
          exact hn (Or.inl (fun e => hne e.symm)))
      rw [e1, Option.bind_some]
      simp only []
      rw [if_pos e5.le]
      have hlt : r1.offset < B := by
        by_cases hc : some r.org ≠ (s.bufs r.buf).org ∨ B ≤ r.offset
        · exact e9 hc
        · rw [e10 hc]; omega
      obtain ⟨_, ok, l1, l2⟩ := live e2 e3 e5 e6
      have hsz := ok.size
      have hl := e2.len
      have heof : r1.eof = r.eof ∨ r1.eof = false := by
        rcases e8 with ⟨a, _⟩ | ⟨a, _⟩
        · left; exact a
        · right; exact a
      obtain ⟨m, hm⟩ : ∃ m, m = (if x.length > B - r1.offset then B - r1.offset else x.length) := ⟨_, rfl⟩
      rw [← hm]
      have hm1 : m = min x.length (B - r1.offset) := by
        rw [hm]; split <;> omega
      rw [if_pos (by omega)]
      obtain ⟨d, hd⟩ : ∃ d : Nat → Nat, d = (fun i => if r1.offset ≤ i ∧ i < r1.offset + m then x.getD (i - r1.offset) 0 else (s1.bufs r1.buf).data i) := ⟨_, rfl⟩
      rw [← hd]
      have htl : (x.take m).length = m := by simp; omega
      obtain ⟨t, ht⟩ : ∃ t : State, t = (if r1.offset + m > (s1.bufs r1.buf).size then
          ({ s1 with
            files := upd s1.files (s1.bufs r1.buf).f { s1.files (s1.bufs r1.buf).f with len := (s1.files (s1.bufs r1.buf).f).len + (r1.offset + m - (s1.bufs r1.buf).size) }
            bufs := upd (upd s1.bufs r1.buf { s1.bufs r1.buf with data := d }) r1.buf
              { (upd s1.bufs r1.buf { s1.bufs r1.buf with data := d }) r1.buf with size := r1.offset + m } } : State)
          else { s1 with bufs := upd s1.bufs r1.buf { s1.bufs r1.buf with data := d } }) := ⟨_, rfl⟩
      rw [← ht]
      have tn : t.next = s1.next ∧ t.nfiles = s1.nfiles ∧ t.riders = s1.riders := by
        rw [ht]; split <;> exact ⟨rfl, rfl, rfl⟩
      have tb : upd t.bufs r1.buf { t.bufs r1.buf with chg := true } =
          upd s1.bufs r1.buf ⟨f, true, some r1.org, max (s1.bufs r1.buf).size (r1.offset + (x.take m).length), d⟩ := by
        rw [ht, htl]
        funext i
        by_cases hi : i = r1.buf
        · subst hi
          rw [upd_same, upd_same]
          split
          · simp only [upd_same, e5.file, e6]
            congr 1
            omega
          · simp only [upd_same, e5.file, e6]
            congr 1
            omega
        · rw [upd_ne _ _ hi, upd_ne _ _ hi]
          split
          · simp only []
            rw [upd_ne _ _ hi, upd_ne _ _ hi]
          · simp only []
            rw [upd_ne _ _ hi]
      have tf : t.files = upd s1.files f { s1.files f with len := max L.length (r1.org + r1.offset + (x.take m).length) } := by
        rw [ht, htl]
        funext i
        by_cases hi : i = f
        · subst hi
          split
          · simp only [e5.file, upd_same]
            congr 1
            omega
          · simp only []
            have : (s1.files i).len = max L.length (r1.org + r1.offset + m) := by omega
            rw [← this, upd_same]
        · rw [upd_ne _ _ hi]
          split
          · simp only [e5.file]
            rw [upd_ne _ _ hi]
          · rfl
      obtain ⟨p1, p2, p3, p4, _⟩ := poke (s' := { t with bufs := upd t.bufs r1.buf { t.bufs r1.buf with chg := true } }) (x := x.take m) (d := d)
        hB e2 e3 e5 e6 (by omega) tb
        (by
          intro i hi
          rw [htl] at hi
          rw [hd]
          simp only []
          rw [if_pos (by omega), List.getElem?_take_of_lt hi, List.getD_eq_getElem?_getD, show r1.offset + i - r1.offset = i by omega,
            List.getElem?_eq_getElem (by omega)]
          rfl)
        (by
          intro i hi
          rw [htl] at hi
          rw [hd]
          simp only []
          rw [if_neg hi]) tf tn.1 tn.2.1 tn.2.2
      rw [htl] at p4
      have hl2 := overwrite_length (x := x.take m) l2
      rw [htl] at hl2
      obtain ⟨s2, r2, q1, q2, q3, q4, q5, q6, q7, q8⟩ := writeLoop_ok hB hN fuel _ _ (x.drop m) _ p1 p2 (by
        show f < t.nfiles
        rw [tn.2.1, e4.nfiles]; exact hf) p4 (by simp; omega)
      refine ⟨s2, r2, q1, ?_, q3, (e4.trans p3).trans q4, q5, ?_, q7, ?_⟩
      · have hmin : min (r1.org + (r1.offset + m)) (overwrite L (r1.org + r1.offset) (x.take m)).length = r1.org + r1.offset + (x.take m).length := by
          rw [hl2, htl]; omega
        simp only [] at q2
        rw [hmin, overwrite_append l2, List.take_append_drop, e7] at q2
        exact q2
      · rw [if_neg (by omega)]
        rw [q6]
        simp only [List.length_drop]
        rw [hl2]
        split
        · omega
        · omega
      · rcases q8 with a | a
        · simp only [] at a
          rw [a]; exact heof
        · right; exact a
    · rw [if_neg h0]
      have hx : x = [] := List.length_eq_zero_iff.1 (by omega)
      subst hx
      refine ⟨s, _, rfl, by rw [overwrite_nil]; exact h, g, Ext.refl s f, ?_, by simp, rfl, Or.inl rfl⟩
      exact ⟨v.ne, v.next, v.file, v.mod, v.le, v.pos⟩

end Verif.Files
