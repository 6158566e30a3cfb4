import Verif.Common
import Verif.Console.LemmasRun

/-!
# C29, C30, C47: console output and input
-/
namespace Verif.Console

open Spec (dec hexa pad clamp delivered received value digitVal isHex blank text reads Legal wrap)
open Verif.Arith (wrap64 ck)

/-! ## C30: the output buffer -/

/-- C30: for every sequence of calls, the bytes delivered to standard output are the bytes written by the calls in order,
except at most 128 of the last ones; no index is out of range and no byte is lost, doubled or moved. -/
theorem C30_history (input : List Nat) (ops : List Op) (h : ∀ op ∈ ops, Legal op) :
    ∃ s outs, run none W (init input) ops = some (s, outs) ∧
      ∃ pending, pending.length ≤ 128 ∧ delivered s.ev ++ pending = ops.flatMap text := by
  obtain ⟨s, h1, h2, _, h4⟩ := run_ok ops (init_ok input) h
  refine ⟨s, _, h1, buffered s, by simpa [buffered] using h2.bound, ?_⟩
  rw [h4]; rfl

theorem run_append (lim : Option Nat) (A : Int → Option Int) : ∀ (ops ops' : List Op) (s : State),
    run lim A s (ops ++ ops') = (run lim A s ops).bind fun (s1, o) => (run lim A s1 ops').map fun (s2, o') => (s2, o ++ o')
  | [], ops', s => by
    simp only [List.nil_append, run, Option.bind_some]
    cases run lim A s ops' <;> rfl
  | op :: ops, ops', s => by
    simp only [List.cons_append, run]
    cases h : step lim A s op with
    | none => rfl
    | some r =>
      simp only [Option.bind_some, run_append]
      cases h2 : run lim A r.1 ops with
      | none => rfl
      | some r2 =>
        simp only [Option.bind_some, Option.map_some]
        cases h3 : run lim A r2.1 ops' with
        | none => rfl
        | some r3 => rfl

theorem buffered_nil {s : State} (h : s.n = 0) : buffered s = [] := by unfold buffered; rw [h]; rfl

/-- The calls after which nothing is pending. -/
def Empties : Op → Prop
  | .flush | .ln | .char 10 | .inChar | .line _ | .inString _ | .huge => True
  | _ => False

theorem step_empties {input : List Nat} {s s' : State} {o : Out} (h : Inv input s) (op : Op) (he : Empties op) (hl : Legal op)
    (hs : step none W s op = some (s', o)) : s'.n = 0 := by
  by_cases hi : IsIn op
  · obtain ⟨s1, e1, _, _, e4, _⟩ := step_in h op hi hl
    rw [e1] at hs
    obtain ⟨rfl, _⟩ := Prod.mk.inj (Option.some.inj hs)
    rw [e4.n]
    exact flush_ok.2.1
  · cases op with
    | inChar => exact absurd trivial hi
    | line _ => exact absurd trivial hi
    | inString _ => exact absurd trivial hi
    | huge => exact absurd trivial hi
    | string _ => exact absurd he id
    | int _ _ => exact absurd he id
    | hex _ _ => exact absurd he id
    | flush =>
      obtain ⟨rfl, _⟩ := Prod.mk.inj (Option.some.inj hs)
      exact flush_ok.2.1
    | ln =>
      obtain ⟨s1, h1, _⟩ := string_ok [10, 0] h.bound
      simp only [step, ln, h1, Option.map_some] at hs
      obtain ⟨rfl, _⟩ := Prod.mk.inj (Option.some.inj hs)
      exact flush_ok.2.1
    | char c =>
      have hc : c = 10 := by
        by_contra hc
        unfold Empties at he
        split at he <;> simp_all
      subst hc
      simp only [step, char] at hs
      obtain ⟨s1, hs1⟩ : ∃ s1, s1 = if 128 ≤ s.n then flush none s else s := ⟨_, rfl⟩
      rw [← hs1] at hs
      by_cases hb : s1.n < 128
      · rw [if_pos hb, Option.map_some] at hs
        obtain ⟨rfl, _⟩ := Prod.mk.inj (Option.some.inj hs)
        exact flush_ok.2.1
      · rw [if_neg hb] at hs; simp at hs

/-- C30: after Flush, Ln, a line end written by Char, and after every input, all that was written is delivered. -/
theorem C30_complete (input : List Nat) (ops : List Op) (op : Op) (h : ∀ o ∈ ops, Legal o) (hl : Legal op) (he : Empties op) :
    ∃ s outs, run none W (init input) (ops ++ [op]) = some (s, outs) ∧ delivered s.ev = (ops ++ [op]).flatMap text := by
  have hall : ∀ o ∈ ops ++ [op], Legal o := by
    intro o ho
    rcases List.mem_append.1 ho with ho | ho
    · exact h o ho
    · rw [List.mem_singleton.1 ho]; exact hl
  obtain ⟨s, h1, h2, _, h4⟩ := run_ok (ops ++ [op]) (init_ok input) hall
  obtain ⟨s1, g1, g2, _, _⟩ := run_ok ops (init_ok input) h
  refine ⟨s, _, h1, ?_⟩
  rw [run_append, g1, Option.bind_some] at h1
  simp only [run] at h1
  cases hst : step none W s1 op with
  | none => rw [hst] at h1; simp at h1
  | some r =>
    rw [hst] at h1
    simp only [Option.bind_some, Option.map_some] at h1
    have hn := step_empties g2 op he hl (s' := r.1) (o := r.2) hst
    have hrs : r.1 = s := (Prod.mk.inj (Option.some.inj h1)).1
    rw [hrs] at hn
    rw [buffered_nil hn, List.append_nil] at h4
    rw [h4]; rfl

/-- C30: whenever the program waits for a byte of input, all that it wrote before is delivered. -/
theorem C30_prompt (input : List Nat) (ops : List Op) (op : Op) (h : ∀ o ∈ ops, Legal o) (hl : Legal op) (hi : IsIn op) :
    ∃ s s' o o', run none W (init input) ops = some (s, o) ∧ run none W (init input) (ops ++ [op]) = some (s', o') ∧
      s.ev <+: s'.ev ∧ ∀ p b q, s'.ev = s.ev ++ p ++ Ev.inp b :: q → delivered (s.ev ++ p) = ops.flatMap text := by
  obtain ⟨s, g1, g2, _, g4⟩ := run_ok ops (init_ok input) h
  obtain ⟨s', e1, _, _, e4, _⟩ := step_in g2 op hi hl
  refine ⟨s, s', _, (reads (rem (init input)) ops).1 ++ [(Spec.read (rem s) op).1], g1, ?_, ?_, ?_⟩
  · rw [run_append, g1, Option.bind_some]
    simp only [run, e1, Option.bind_some, Option.map_some]
  · obtain ⟨es, k1, _⟩ := e4.ev
    rw [k1, flush_ok.2.2, List.append_assoc]
    exact List.prefix_append _ _
  · intro p b q hq
    obtain ⟨es, k1, k2⟩ := e4.ev
    rw [k1, flush_ok.2.2, List.append_assoc, List.append_assoc, List.append_cancel_left_eq] at hq
    have hall : delivered s.ev ++ buffered s = ops.flatMap text := by rw [g4]; rfl
    rw [← hall, delivered_append]
    congr 1
    rcases List.append_eq_append_iff.1 hq with ⟨t, h1, h2⟩ | ⟨t, h1, h2⟩
    · rw [h1, delivered_append, delivered_out]
      rw [h2, delivered_append] at k2
      rw [(List.append_eq_nil_iff.1 k2).1, List.append_nil]
    · cases t with
      | nil =>
        rw [List.append_nil] at h1
        rw [← h1, delivered_out]
      | cons a t =>
        rw [List.cons_append] at h2
        obtain ⟨ha, _⟩ := List.cons.inj h2
        have : Ev.inp b ∈ (buffered s).map Ev.out := by rw [h1, ha]; simp
        obtain ⟨c, _, hc⟩ := List.mem_map.1 this
        cases hc

/-- C30 fails at the end of a program: neither the bodies of the modules nor Heap.FINALL nor Platform.Exit call Flush
(SYSTEM.c, Modules.Mod 311, Heap.Mod FINALL), so what is pending is lost: `Out.String("hi")` at the end writes nothing. -/
theorem C30_lost_at_end : ∃ s outs, run none W (init []) [.string (w! "hi" ++ [0])] = some (s, outs) ∧ delivered s.ev = [] ∧
    [Op.string (w! "hi" ++ [0])].flatMap text = w! "hi" := ⟨_, _, rfl, by decide, by decide⟩

/-- C30 fails when the operating system takes only a part of the bytes (a pipe, a terminal): the rest is lost, although
Write reported no error. -/
theorem C30_short_write : ∃ s outs, run (some 2) W (init []) [.string (w! "hello" ++ [0]), .flush] = some (s, outs) ∧
    delivered s.ev = w! "he" := ⟨_, _, rfl, by decide⟩

/-- Non-vacuity: output and input mixed, with a string that does not fit in the buffer. -/
example : ∃ s outs, run none W (init (w! "12 x")) [.string (w! "n=" ++ [0]), .huge, .int (-5) 4, .ln, .inChar] = some (s, outs) ∧
    delivered s.ev = w! "n=  -5" ++ [10] ∧ outs = [.none, .num true (some 12), .none, .none, .ch true 32] := ⟨_, _, rfl, by decide +kernel, by decide +kernel⟩

example : ∀ op ∈ [Op.string (w! "n=" ++ [0]), .huge, .int (-5) 4, .hex 255 2, .ln, .inChar], Legal op := by
  intro op h
  simp only [List.mem_cons, List.not_mem_nil, or_false] at h
  rcases h with rfl | rfl | rfl | rfl | rfl | rfl <;> simp [Legal]

/-! ## C47: the input -/

/-- C47: for every input and every sequence of calls, the results are those of reading the input from its begin to its end
as the specification says: no character is lost or read twice.  At most one character more is requested than was read. -/
theorem C47_history (input : List Nat) (ops : List Op) (h : ∀ op ∈ ops, Legal op) :
    ∃ s, run none W (init input) ops = some (s, (reads input ops).1) ∧ received s.ev ++ s.input = input ∧
      ∃ ahead, (reads input ops).2 = ahead ++ s.input ∧ ahead.length ≤ 1 := by
  obtain ⟨s, h1, h2, h3, _⟩ := run_ok ops (init_ok input) h
  have hrem : rem (init input) = input := rfl
  rw [hrem] at h1 h3
  refine ⟨s, h1, h2.rcv, ?_⟩
  rw [← h3]
  unfold rem
  cases hrs : s.rs with
  | pending => exact ⟨[], rfl, by simp⟩
  | ready => exact ⟨[s.nextch], rfl, by simp⟩
  | eof => exact ⟨[], by rw [h2.eof hrs]; rfl, by simp⟩

/-- The call reads up to the end of a line. -/
def EndsLine (r : List Nat) (op : Op) : Prop := (op = .inChar ∨ ∃ len, op = .line len) ∧ ∃ c, r = c ++ 10 :: (Spec.read r op).2

theorem takeWhile_imp {p : Nat → Bool} {l : List Nat} {a : Nat} (h : a ∈ l.takeWhile p) : p a = true := by
  induction l with
  | nil => simp at h
  | cons c t ih =>
    by_cases hc : p c = true
    · rw [List.takeWhile_cons_of_pos hc] at h
      rcases List.mem_cons.1 h with h | h
      · rw [h]; exact hc
      · exact ih h
    · rw [List.takeWhile_cons_of_neg hc] at h; simp at h

theorem endsLine_line {r : List Nat} {len : Nat} (h : EndsLine r (.line len)) :
    (Spec.optional 13 (r.drop ((r.takeWhile fun c => c ≠ 13 ∧ c ≠ 10).take (len - 1)).length)).head? = some 10 := by
  obtain ⟨_, c, hc⟩ := h
  simp only [Spec.read] at hc
  obtain ⟨t, ht⟩ : ∃ t, t = (r.takeWhile fun c => c ≠ 13 ∧ c ≠ 10).take (len - 1) := ⟨_, rfl⟩
  rw [← ht] at hc ⊢
  have hpre : t <+: r := by rw [ht]; exact (List.take_prefix _ _).trans (List.takeWhile_prefix _)
  have hno : 10 ∉ t := by
    intro hm
    rw [ht] at hm
    have := (takeWhile_imp (List.mem_of_mem_take hm))
    simp at this
  obtain ⟨w, hw⟩ := hpre
  have hd : r.drop t.length = w := by rw [← hw, List.drop_left']; rfl
  rw [hd] at hc ⊢
  by_contra hne
  obtain ⟨v, hv⟩ : ∃ v, v = Spec.optional 13 w := ⟨_, rfl⟩
  have hrest : Spec.optional 10 (Spec.optional 13 w) = v := by
    rw [← hv] at hne ⊢
    unfold Spec.optional
    rw [if_neg hne]
  rw [hrest, ← hw] at hc
  unfold Spec.optional at hv
  by_cases h13 : w.head? = some 13
  · rw [if_pos h13] at hv
    have : w = 13 :: v := by
      cases w with
      | nil => simp at h13
      | cons a b => simp at h13 hv; rw [h13, hv]
    rw [this] at hc
    have h2 : t ++ [13] ++ v = c ++ [10] ++ v := by simpa using hc
    have h3 := List.append_cancel_right h2
    have h4 := congrArg List.getLast? h3
    simp at h4
  · rw [if_neg h13] at hv
    rw [← hv] at hc
    have h2 : t ++ v = c ++ [10] ++ v := by simpa using hc
    have h3 := List.append_cancel_right h2
    exact hno (by rw [h3]; simp)

/-- C47: a call that reads up to the end of a line requests nothing behind it, so a program at a terminal goes on when the
line is complete. -/
theorem C47_interactive (input : List Nat) (ops : List Op) (op : Op) (h : ∀ o ∈ ops, Legal o) (hl : Legal op)
    (he : EndsLine (reads input ops).2 op) :
    ∃ s o, run none W (init input) (ops ++ [op]) = some (s, o) ∧ received s.ev ++ s.input = input ∧
      s.input = (Spec.read (reads input ops).2 op).2 := by
  obtain ⟨s, g1, g2, g3, _⟩ := run_ok ops (init_ok input) h
  have hrem : rem (init input) = input := rfl
  rw [hrem] at g1 g3
  have hi : IsIn op := by
    rcases he.1 with h | ⟨_, h⟩ <;> rw [h] <;> trivial
  obtain ⟨s', e1, e2, e3, e4, e5⟩ := step_in g2 op hi hl
  rw [g3] at e1 e2 e5
  refine ⟨s', (reads input ops).1 ++ [(Spec.read (reads input ops).2 op).1], ?_, (g2.reads e4 e3).rcv, ?_⟩
  · rw [run_append, g1, Option.bind_some]
    simp only [run, e1, Option.bind_some, Option.map_some]
  · have hp : s'.rs = .pending := by
      apply e5
      rcases he.1 with h | ⟨len, h⟩
      · left
        refine ⟨h, ?_⟩
        subst h
        obtain ⟨_, c, hc⟩ := he
        obtain ⟨r, hr⟩ : ∃ r, r = (reads input ops).2 := ⟨_, rfl⟩
        rw [← hr] at hc ⊢
        cases r with
        | nil => simp [Spec.read] at hc
        | cons a t =>
          simp only [Spec.read] at hc ⊢
          have h2 : [a] ++ t = c ++ [10] ++ t := by simpa using hc
          have h4 := congrArg List.getLast? (List.append_cancel_right h2)
          simp at h4
          rw [h4]
      · right
        refine ⟨⟨len, h⟩, ?_⟩
        subst h
        exact endsLine_line he
    rw [← e2]
    unfold rem
    rw [hp]

/-- Non-vacuity: "ab LF cd" read by Line. -/
example : EndsLine (w! "ab" ++ 10 :: w! "cd") (.line 20) := ⟨Or.inr ⟨20, rfl⟩, w! "ab", by decide⟩

/-- A string in quotes of LEN(array) - 1 characters, for which the array has place, is rejected. -/
theorem C47_string_full : (reads (w! "\"abc\"") [.inString 4]).1 = [.str false []] ∧ (reads (w! "\"abc\"") [.inString 5]).1 = [.str true (w! "abc")] := by
  decide +kernel

/-! ## Undefined operations -/

theorem ck_wrap {x y : Int} (h : ck x = some y) : W x = some y := by
  unfold ck at h
  by_cases hx : Verif.Arith.InI64 x
  · rw [if_pos hx] at h
    rw [← h, W]
    congr 1
    unfold Verif.Arith.InI64 at hx
    unfold wrap64
    omega
  · rw [if_neg hx] at h; simp at h

theorem hugeLoop_strict : ∀ (f : Nat) (s : State) (d h : Bool) (x y : Int) (r : _), hugeLoop ck f s d h x y = some r → hugeLoop W f s d h x y = some r
  | 0, _, _, _, _, _, _, hr => by simp [hugeLoop] at hr
  | f + 1, s, d, h, x, y, r, hr => by
    simp only [hugeLoop] at hr ⊢
    by_cases hs : s.rs = .ready
    · rw [if_pos hs] at hr ⊢
      cases hd : digit s.nextch with
      | none => rw [hd] at hr; exact hr
      | some k =>
        rw [hd] at hr
        simp only [Option.bind_eq_some_iff] at hr ⊢
        obtain ⟨a, h1, b, h2, c, h3, e, h4, h5⟩ := hr
        exact ⟨a, ck_wrap h1, b, ck_wrap h2, c, ck_wrap h3, e, ck_wrap h4, hugeLoop_strict f _ _ _ _ _ _ h5⟩
    · rw [if_neg hs] at hr ⊢; exact hr

theorem step_strict {s : State} {op : Op} {r : _} (h : step none ck s op = some r) : step none W s op = some r := by
  cases op with
  | huge =>
    simp only [step, huge, Option.map_eq_some_iff, Option.bind_eq_some_iff] at h ⊢
    obtain ⟨p, ⟨s1, h1, h2⟩, h3⟩ := h
    refine ⟨p, ⟨s1, h1, ?_⟩, h3⟩
    by_cases hr : s1.rs = .ready
    · rw [if_pos hr] at h2 ⊢
      simp only [Option.bind_eq_some_iff] at h2 ⊢
      obtain ⟨q, h4, h5⟩ := h2
      refine ⟨q, hugeLoop_strict _ _ _ _ _ _ _ h4, ?_⟩
      by_cases hd : q.2.1 = true
      · rw [if_pos hd] at h5 ⊢
        by_cases hn : s1.nextch = 45
        · rw [if_pos (by simpa using hn)] at h5 ⊢
          simp only [Option.map_eq_some_iff] at h5 ⊢
          obtain ⟨v, h6, h7⟩ := h5
          exact ⟨v, ck_wrap h6, h7⟩
        · rw [if_neg (by simpa using hn)] at h5 ⊢
          exact h5
      · rw [if_neg hd] at h5 ⊢; exact h5
    · rw [if_neg hr] at h2 ⊢; exact h2
  | _ => exact h

/-- The theorems above are about a machine whose 64-bit arithmetic wraps.  If no operation of the history is undefined in
C, a machine that follows the C standard only does the same. -/
theorem C47_strict : ∀ (ops : List Op) (s : State) (r : _), run none ck s ops = some r → run none W s ops = some r
  | [], _, _, h => h
  | op :: ops, s, r, h => by
    simp only [run, Option.bind_eq_some_iff, Option.map_eq_some_iff] at h ⊢
    obtain ⟨p, h1, q, h2, h3⟩ := h
    exact ⟨p, step_strict h1, q, C47_strict ops _ _ h2, h3⟩

/-! ## C29: integers written and read -/

/-- C29: `Int` writes the decimal representation of every 64-bit number, right adjusted with spaces. -/
theorem C29_int {x : Int} (hx : -2 ^ 63 ≤ x ∧ x < 2 ^ 63) (n : Int) (input : List Nat) :
    ∃ s outs, run none W (init input) [.int x n, .flush] = some (s, outs) ∧
      delivered s.ev = List.replicate (n - ((toString x).toList.length : Nat)).toNat 32 ++ (toString x).toList.map Char.toNat := by
  obtain ⟨s, o, h1, h2⟩ := C30_complete input [.int x n] .flush (by intro o ho; rw [List.mem_singleton.1 ho]; exact hx) trivial trivial
  refine ⟨s, o, h1, ?_⟩
  rw [h2]
  simp [text, pad, dec]

example : (toString (-12 : Int)).toList.map Char.toNat = w! "-12" := by decide

/-- C29: `Texts.WriteInt` writes the same, except for the smallest number. -/
theorem C29_write_int {x : Int} (h1 : -2 ^ 63 < x) (h2 : x < 2 ^ 63) (n : Int) :
    writeInt x n = some (List.replicate (n - ((toString x).toList.length : Nat)).toNat 32 ++ (toString x).toList.map Char.toNat) := by
  unfold writeInt
  rw [if_neg (by omega)]
  have hd := digits_ok 23 x.natAbs (by
    have : (2 : Nat) ^ 63 < 10 ^ (23 + 1) := by decide
    omega)
  simp only [textDigits_eq]
  rw [hd, Option.map_some]
  have hl : (toString x).toList.length = (dec x).length := by simp [dec]
  rw [hl, show (toString x).toList.map Char.toNat = dec x from rfl]
  congr 1
  by_cases hx : x < 0
  · rw [if_pos hx, if_pos hx, dec_neg hx, List.reverse_reverse]
    simp only [List.length_reverse, List.length_map, List.length_cons]
    rw [List.append_assoc]
    congr 2
    omega
  · rw [if_neg hx, if_neg hx, dec_nonneg (by omega), List.reverse_reverse]
    simp only [List.length_reverse, List.length_map, List.append_nil]

/-- `Texts.WriteInt` ignores the width for the smallest number and writes a space that is not asked for. -/
theorem C29_write_int_min (n : Int) : writeInt (-2 ^ 63) n = some (32 :: (toString (-2 ^ 63 : Int)).toList.map Char.toNat) := by
  unfold writeInt
  rw [if_pos rfl]
  decide +kernel

theorem numeral_digits : ∀ (u : Nat), ∀ c ∈ (Nat.toDigits 10 u).map Char.toNat, 48 ≤ c ∧ c ≤ 57 := by
  intro u
  induction u using Nat.strongRecOn with
  | ind u ih =>
    intro c hc
    by_cases h : u < 10
    · rw [Nat.toDigits_of_lt_base h] at hc
      simp only [List.map_cons, List.map_nil, List.mem_singleton] at hc
      rw [hc, digitChar10 h]; omega
    · rw [Nat.toDigits_of_base_le (by omega) (by omega), List.map_append] at hc
      rcases List.mem_append.1 hc with hc | hc
      · exact ih (u / 10) (by omega) c hc
      · simp only [List.map_cons, List.map_nil, List.mem_singleton] at hc
        rw [hc, digitChar10 (by omega)]; omega

theorem value_append (b : Nat) (a : List Nat) (c : Nat) : value b (a ++ [c]) = value b a * b + digitVal c := by
  unfold value; rw [List.foldl_append]; rfl

theorem numeral_value : ∀ (u : Nat), value 10 ((Nat.toDigits 10 u).map Char.toNat) = u := by
  intro u
  induction u using Nat.strongRecOn with
  | ind u ih =>
    have hv : ∀ d, d < 10 → digitVal (48 + d) = d := by intro d hd; unfold digitVal; rw [if_pos (by omega)]; omega
    by_cases h : u < 10
    · rw [Nat.toDigits_of_lt_base h]
      simp only [List.map_cons, List.map_nil, digitChar10 h]
      simp only [value, List.foldl_cons, List.foldl_nil]
      rw [hv u h]; omega
    · rw [Nat.toDigits_of_base_le (by omega) (by omega), List.map_append]
      simp only [List.map_cons, List.map_nil]
      rw [value_append, ih (u / 10) (by omega), digitChar10 (by omega), hv _ (by omega)]
      omega

theorem numeral_ne_nil (u : Nat) : (Nat.toDigits 10 u).map Char.toNat ≠ [] := by
  by_cases h : u < 10
  · rw [Nat.toDigits_of_lt_base h]; simp
  · rw [Nat.toDigits_of_base_le (by omega) (by omega)]; simp

/-- A numeral followed by something else. -/
theorem takeWhile_app {p : Nat → Bool} {a r : List Nat} (h : ∀ c ∈ a, p c = true) (hr : ∀ c, r.head? = some c → p c = false) :
    (a ++ r).takeWhile p = a := by
  induction a with
  | nil =>
    cases r with
    | nil => rfl
    | cons c t => rw [List.nil_append, List.takeWhile_cons_of_neg]; rw [hr c rfl]; simp
  | cons c t ih =>
    rw [List.cons_append, List.takeWhile_cons_of_pos (h c (by simp)), ih (fun c hc => h c (by simp [hc]))]

theorem dropWhile_spaces (n : Nat) {r : List Nat} (h : ∀ c, r.head? = some c → 32 < c) : (List.replicate n 32 ++ r).dropWhile blank = r := by
  induction n with
  | zero =>
    cases r with
    | nil => rfl
    | cons c t =>
      have := h c rfl
      rw [List.replicate_zero, List.nil_append, List.dropWhile_cons_of_neg]
      simp only [blank, decide_eq_true_eq]; omega
  | succ n ih => rw [List.replicate_succ, List.cons_append, List.dropWhile_cons_of_pos (by decide), ih]

theorem read_dec {x : Int} (hx : -2 ^ 63 ≤ x ∧ x < 2 ^ 63) (n : Int) {rest : List Nat}
    (hr : ∀ c, rest.head? = some c → ¬ isHex c ∧ c ≠ 72) : Spec.read (pad 32 n (dec x) ++ rest) .huge = (.num true (some x), rest) := by
  obtain ⟨ds, hds⟩ : ∃ ds, ds = (Nat.toDigits 10 x.natAbs).map Char.toNat := ⟨_, rfl⟩
  have h1 : ∀ c ∈ ds, 48 ≤ c ∧ c ≤ 57 := by rw [hds]; exact numeral_digits _
  have h2 : value 10 ds = x.natAbs := by rw [hds]; exact numeral_value _
  have h3 : ds ≠ [] := by rw [hds]; exact numeral_ne_nil _
  have hd : dec x = (if x < 0 then [45] else []) ++ ds := by
    by_cases h : x < 0
    · rw [if_pos h, dec_neg h, hds]; rfl
    · rw [if_neg h, dec_nonneg (by omega), hds]; rfl
  obtain ⟨d, t, hdt⟩ : ∃ d t, ds = d :: t := by
    cases ds with
    | nil => exact absurd rfl h3
    | cons d t => exact ⟨d, t, rfl⟩
  have hd48 := h1 d (by rw [hdt]; simp)
  have hu : (pad 32 n (dec x) ++ rest).dropWhile blank = dec x ++ rest := by
    unfold pad
    rw [List.append_assoc, dropWhile_spaces]
    intro c hc
    rw [hd, hdt] at hc
    by_cases h : x < 0
    · rw [if_pos h] at hc; simp at hc; omega
    · rw [if_neg h] at hc; simp at hc; omega
  have htw : (ds ++ rest).takeWhile (fun b => decide (isHex b)) = ds := by
    apply takeWhile_app
    · intro c hc; simp only [decide_eq_true_eq]; exact Or.inl (h1 c hc)
    · intro c hc; simp only [decide_eq_false_iff_not]; exact (hr c hc).1
  have hdr : (ds ++ rest).drop ds.length = rest := by rw [List.drop_left']; rfl
  have h72 : ¬ (rest.head? = some 72 ∨ ∃ c ∈ ds, 57 < c) := by
    rintro (h | ⟨c, hc, hc2⟩)
    · exact (hr 72 h).2 rfl
    · have := h1 c hc; omega
  have hopt : Spec.optional 72 rest = rest := by
    unfold Spec.optional
    rw [if_neg (fun h => (hr 72 h).2 rfl)]
  simp only [Spec.read]
  rw [hu, hd]
  by_cases h : x < 0
  · simp only [if_pos h]
    rw [if_neg (by simp)]
    have ho : Spec.optional 45 ([45] ++ ds ++ rest) = ds ++ rest := by simp [Spec.optional]
    rw [ho, htw, if_neg h3, hdr, if_neg h72, if_pos (by simp), hopt, h2]
    have hw : wrap (-((x.natAbs : Nat) : Int)) = x := by unfold wrap; omega
    rw [hw]
  · simp only [if_neg h]
    rw [List.nil_append, if_neg (by rw [hdt]; simp)]
    have ho : Spec.optional 45 (ds ++ rest) = ds ++ rest := by
      unfold Spec.optional
      rw [if_neg]
      rw [hdt]; simp; omega
    rw [ho, htw, if_neg h3, hdr, if_neg h72, if_neg (by rw [hdt]; simp; omega), hopt, h2]
    have hw : wrap ((x.natAbs : Nat) : Int) = x := by unfold wrap; omega
    rw [hw]

/-- C29: what `Out.Int` writes is read back by `In.HugeInt`, for every 64-bit number and every width, whatever follows, if it
does not start with a hexadecimal digit or `H`; the reading goes on behind the number.  On a machine that wraps. -/
theorem C29_roundtrip {x : Int} (hx : -2 ^ 63 ≤ x ∧ x < 2 ^ 63) (n : Int) {rest : List Nat}
    (hr : ∀ c, rest.head? = some c → ¬ isHex c ∧ c ≠ 72) (ops : List Op) (h : ∀ op ∈ ops, Legal op) :
    ∃ s, run none W (init (text (.int x n) ++ rest)) (.huge :: ops) = some (s, .num true (some x) :: (reads rest ops).1) := by
  obtain ⟨s, h1, _⟩ := C47_history (text (.int x n) ++ rest) (.huge :: ops) (by
    intro o ho
    rcases List.mem_cons.1 ho with ho | ho
    · rw [ho]; trivial
    · exact h o ho)
  refine ⟨s, ?_⟩
  rw [h1]
  simp only [text, reads, read_dec hx n hr]

example : ∀ c, (w! ", 5").head? = some c → ¬ isHex c ∧ c ≠ 72 := by decide

/-- Without wrapping, the reading of a number of 17 digits is undefined in C although the number fits: the hexadecimal value,
which is not used, overflows. -/
theorem C29_read_undefined : run none ck (init (w! "99999999999999999")) [.huge] = none ∧
    (10 : Int) ^ 17 - 1 < 2 ^ 63 := ⟨by decide +kernel, by decide⟩

/-- C29, in part: `Out.Hex` writes for 0 ≤ x all digits, at least `n`, and for x < 0 the last `n` digits of its 64-bit
pattern.  What is missing: 16 digits, see `C29_hex_undefined`. -/
theorem C29_hex_partial {x n : Int} (h0 : -2 ^ 63 ≤ x) (h1 : x < 2 ^ 60) (h2 : n < 16) (input : List Nat) :
    ∃ s outs, run none W (init input) [.hex x n, .flush] = some (s, outs) ∧ delivered s.ev = Spec.hexText x n := by
  obtain ⟨s, o, h3, h4⟩ := C30_complete input [.hex x n] .flush (by intro o ho; rw [List.mem_singleton.1 ho]; exact ⟨h0, h1, h2⟩) trivial trivial
  exact ⟨s, o, h3, by rw [h4]; simp [text]⟩

/-- 16 digits: the rotation by 0 shifts by 64, which is undefined in C. -/
theorem C29_hex_undefined (x : Int) (n : Int) (hn : 16 ≤ n) (s : State) : hex none x n s = none := by
  have hcl : (if n < 1 then 1 else if 16 < n then 16 else n.toNat) = 16 := by
    rw [if_neg (by omega)]
    by_cases h : 16 < n
    · rw [if_pos h]
    · rw [if_neg h]; omega
  have hb : ∀ m : Nat, ((if 0 ≤ x then hexLen x (16 - 16) else some 16).bind fun n => (Verif.Arith.rot 64 x (4 * ((16 : Int) - n))).bind fun x => hexDigits x n) = none := by
    intro _
    have : (if 0 ≤ x then hexLen x (16 - 16) else some 16) = some 16 := by by_cases h : 0 ≤ x <;> simp [h, hexLen]
    rw [this, Option.bind_some]
    have : Verif.Arith.rot 64 x (4 * ((16 : Int) - (16 : Nat))) = none := by
      rw [show (4 * ((16 : Int) - (16 : Nat))) = 0 by norm_num]
      unfold Verif.Arith.rot Verif.Arith.rotl
      rw [if_pos (by omega)]
      have hc : Verif.Arith.cshr 64 (Verif.Arith.pat 64 x) ((64 : Nat) - 0 : Int) = none := by
        unfold Verif.Arith.cshr
        rw [if_neg]
        have hp : Verif.Arith.promW 64 = 64 := rfl
        rw [hp]; omega
      rw [hc]
      cases Verif.Arith.cshl 64 (Verif.Arith.pat 64 x) 0 <;> rfl
    rw [this]; rfl
  unfold hex hexText
  simp only [hcl]
  rw [hb 0]; rfl

theorem hexa_digit : ∀ (u : Nat), (∀ c ∈ hexa u, (48 ≤ c ∧ c ≤ 57) ∨ (65 ≤ c ∧ c ≤ 70)) ∧ value 16 (hexa u) = u := by
  have hh : ∀ d, d < 16 → ((48 ≤ hexChar d ∧ hexChar d ≤ 57) ∨ (65 ≤ hexChar d ∧ hexChar d ≤ 70)) ∧ digitVal (hexChar d) = d := by decide
  intro u
  induction u using Nat.strongRecOn with
  | ind u ih =>
    by_cases h : u < 16
    · rw [hexa_lt h]
      refine ⟨fun c hc => by rw [List.mem_singleton.1 hc]; exact (hh u h).1, ?_⟩
      simp only [value, List.foldl_cons, List.foldl_nil]
      rw [(hh u h).2]; omega
    · rw [hexa_ge (by omega)]
      obtain ⟨i1, i2⟩ := ih (u / 16) (by omega)
      refine ⟨fun c hc => ?_, ?_⟩
      · rcases List.mem_append.1 hc with hc | hc
        · exact i1 c hc
        · rw [List.mem_singleton.1 hc]; exact (hh _ (by omega)).1
      · rw [value_append, i2, (hh _ (by omega)).2]; omega

/-- C29: what `Out.Hex` writes, followed by `H`, is read back, for 0 ≤ x. -/
theorem C29_hex_roundtrip_partial {x n : Int} (h0 : 0 ≤ x) (h1 : x < 2 ^ 60) (h2 : n < 16) (rest : List Nat) (ops : List Op)
    (h : ∀ op ∈ ops, Legal op) :
    ∃ s, run none W (init (text (.hex x n) ++ 72 :: rest)) (.huge :: ops) = some (s, .num true (some x) :: (reads rest ops).1) := by
  obtain ⟨s, g1, _⟩ := C47_history (text (.hex x n) ++ 72 :: rest) (.huge :: ops) (by
    intro o ho
    rcases List.mem_cons.1 ho with ho | ho
    · rw [ho]; trivial
    · exact h o ho)
  refine ⟨s, ?_⟩
  rw [g1]
  obtain ⟨ds, hds⟩ : ∃ ds, ds = Spec.hexText x n := ⟨_, rfl⟩
  obtain ⟨i1, i2⟩ := hexa_digit x.toNat
  have hne : ds ≠ [] := by
    rw [hds, Spec.hexText, if_pos h0, pad]
    have := hexa_pos x.toNat
    intro hc
    have := congrArg List.length hc
    rw [List.length_append, List.length_nil] at this
    omega
  have hdig : ∀ c ∈ ds, (48 ≤ c ∧ c ≤ 57) ∨ (65 ≤ c ∧ c ≤ 70) := by
    rw [hds, Spec.hexText, if_pos h0, pad]
    intro c hc
    rcases List.mem_append.1 hc with hc | hc
    · rw [(List.mem_replicate.1 hc).2]; omega
    · exact i1 c hc
  have hval : value 16 ds = x.toNat := by
    rw [hds, Spec.hexText, if_pos h0, pad]
    have : ∀ (k : Nat) (t : List Nat), value 16 (List.replicate k 48 ++ t) = value 16 t := by
      intro k t
      induction k with
      | zero => rfl
      | succ k ih => rw [List.replicate_succ, List.cons_append, ← ih]; rfl
    rw [this, i2]
  obtain ⟨d, t, hdt⟩ : ∃ d t, ds = d :: t := by
    cases ds with
    | nil => exact absurd rfl hne
    | cons d t => exact ⟨d, t, rfl⟩
  have hd48 := hdig d (by rw [hdt]; simp)
  have hread : Spec.read (ds ++ 72 :: rest) .huge = (.num true (some x), rest) := by
    have hu : (ds ++ 72 :: rest).dropWhile blank = ds ++ 72 :: rest := by
      have := dropWhile_spaces 0 (r := ds ++ 72 :: rest) (by intro c hc; rw [hdt] at hc; simp at hc; omega)
      simpa using this
    have htw : (ds ++ 72 :: rest).takeWhile (fun b => decide (isHex b)) = ds := by
      apply takeWhile_app
      · intro c hc; simp only [decide_eq_true_eq]; rcases hdig c hc with h | h
        · exact Or.inl h
        · exact Or.inr (Or.inl h)
      · intro c hc; simp at hc; rw [← hc]; decide
    have hdr : (ds ++ 72 :: rest).drop ds.length = 72 :: rest := by rw [List.drop_left']; rfl
    simp only [Spec.read]
    rw [hu, if_neg (by simp)]
    have ho : Spec.optional 45 (ds ++ 72 :: rest) = ds ++ 72 :: rest := by
      unfold Spec.optional
      rw [if_neg]
      rw [hdt]; simp; omega
    rw [ho, htw, if_neg hne, hdr, if_neg (by rw [hdt]; simp; omega), if_pos (show (72 :: rest).head? = some 72 ∨ ∃ c ∈ ds, 57 < c from Or.inl rfl), hval]
    have hw : wrap ((x.toNat : Nat) : Int) = x := by unfold wrap; omega
    rw [hw]
    rfl
  simp only [text, reads]
  rw [← hds, hread]

/-- Without the `H`, a hexadecimal number is read as a decimal one if it has no letter. -/
theorem C29_hex_ambiguous : (reads (text (.hex 16 1)) [.huge]).1 = [.num true (some 10)] ∧
    (reads (text (.hex 26 1)) [.huge]).1 = [.num true (some 26)] := by decide +kernel

/-- C29: `In.Int` and `In.LongInt` assign the number if it fits in their `b` bytes. -/
theorem C29_narrow {b : Nat} (hb : 1 ≤ b) {x : Int} (h : -2 ^ (8 * b - 1) ≤ x ∧ x < 2 ^ (8 * b - 1)) : narrow b x = x := by
  unfold narrow
  have e : (2 : Int) ^ (8 * b) = 2 * 2 ^ (8 * b - 1) := by
    rw [← pow_succ']
    congr 1
    omega
  rw [e, Int.emod_eq_of_lt (by omega) (by omega)]
  omega

/-- A number that does not fit is cut without a sign to the program: `Done` is TRUE and 100000 becomes -31072. -/
theorem C29_int_truncates : (reads (w! "100000") [.huge]).1 = [.num true (some 100000)] ∧ narrow 2 100000 = -31072 := by
  decide +kernel

/-- `Texts.WriteHex` writes a space and the last 8 hexadecimal digits of the number, for every number. -/
theorem C29_write_hex (x : Int) : writeHex x = 32 :: pad 48 8 (hexa (x % 2 ^ 32).toNat) := by
  have step : ∀ (k : Nat) (x : Int), (writeHexDigits k x).reverse = tail16 (x % 16 ^ k).toNat k := by
    intro k
    induction k with
    | zero => intro x; rfl
    | succ k ih =>
      intro x
      simp only [writeHexDigits]
      rw [List.reverse_cons, ih, tail16_succ]
      have hf : x.fdiv 16 = x / 16 := Int.fdiv_eq_ediv_of_nonneg x (by omega)
      have hm : x.fmod 16 = x % 16 := Int.fmod_eq_emod_of_nonneg x (by omega)
      rw [hf, hm]
      have e : x % 16 ^ (k + 1) = 16 * (x / 16 % 16 ^ k) + x % 16 := by
        have p : (0 : Int) < 16 ^ k := by positivity
        have q : (16 : Int) ^ (k + 1) = 16 ^ k * 16 := pow_succ _ _
        obtain ⟨P, hP⟩ : ∃ P : Int, P = 16 ^ k := ⟨_, rfl⟩
        rw [q, ← hP]
        rw [← hP] at p
        have a1 := Int.emod_add_mul_ediv (x / 16) P
        have a2 := Int.emod_add_mul_ediv x 16
        have a3 := Int.emod_nonneg (x / 16) (by omega : P ≠ 0)
        have a4 := Int.emod_lt_of_pos (x / 16) p
        obtain ⟨m, hm⟩ : ∃ m, m = x / 16 % P := ⟨_, rfl⟩
        obtain ⟨q2, hq2⟩ : ∃ q2, q2 = x / 16 / P := ⟨_, rfl⟩
        rw [← hm] at a1 a3 a4 ⊢
        rw [← hq2] at a1
        obtain ⟨r, hr⟩ : ∃ r, r = x % 16 := ⟨_, rfl⟩
        have r0 : 0 ≤ r ∧ r < 16 := by omega
        have ex : x = (16 * m + r) + P * 16 * q2 := by
          rw [← hr] at a2
          rw [← a2, ← a1]; ring
        rw [← hr]
        conv_lhs => rw [ex]
        rw [Int.add_mul_emod_self_left, Int.emod_eq_of_lt (by omega) (by omega)]
      have e0 : 0 ≤ x / 16 % 16 ^ k := Int.emod_nonneg _ (by positivity)
      have e1 : (x % 16 ^ (k + 1)).toNat / 16 = (x / 16 % 16 ^ k).toNat := by rw [e]; omega
      have e2 : (x % 16 ^ (k + 1)).toNat % 16 = (x % 16).toNat := by rw [e]; omega
      rw [e1, e2]
      congr 2
      unfold hexChar
      by_cases h : (x % 16).toNat < 10
      · rw [if_pos h, if_pos h]
      · rw [if_neg h, if_neg h]; omega
  unfold writeHex
  rw [step 8 x]
  have h16 : (16 : Int) ^ 8 = 2 ^ 32 := by norm_num
  rw [h16, tail16_all 8 _ (by omega) (by have : (16 : Nat) ^ 8 = 2 ^ 32 := by norm_num
                                         rw [this]; omega)]
  rfl

end Verif.Console
