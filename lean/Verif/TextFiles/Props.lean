import Verif.Common
import Verif.TextFiles.Spec
import Verif.FileNum.PropsFixed
import Mathlib.Data.List.Perm.Subperm

/-!
# C60: texts in files
-/
namespace Verif.TextFiles
open Verif.FileNum

/-! ### Numbers and strings -/

theorem lint_length (x : Int) : (lint x).length = 4 := by
  obtain ⟨bs, h1, h2, _⟩ := sum_bytesOf 4 x
  simp [lint, writeLInt, h1, h2]

theorem readLInt_lint {x : Int} (h : Int32 x) (rest : List Nat) : readLInt o2 (lint x ++ rest) = some (x, rest) := by
  obtain ⟨bs, h1, h2⟩ := C18_lint_partial (x := x) (by obtain ⟨a, b⟩ := h; constructor <;> norm_num <;> omega)
  have : lint x = bs := by simp [lint, h1]
  rw [this]
  exact h2 rest

theorem takeWhile_zero (s t : List Nat) (h : ∀ c ∈ s, c ≠ 0) : (s ++ 0 :: t).takeWhile (· ≠ 0) = s := by
  induction s with
  | nil => simp
  | cons c s ih =>
    have hc : c ≠ 0 := h c (by simp)
    rw [List.cons_append, List.takeWhile_cons, if_pos (by simpa using hc), ih fun d hd => h d (by simp [hd])]

theorem readStr_ok {s : Str} (h : Fits 32 s) (rest : List Nat) : readStr o2 (s ++ 0 :: rest) = some (s, rest) := by
  obtain ⟨h1, h2⟩ := h
  unfold readStr
  rw [C18_read_string (w := o2.int) (by decide) s (List.replicate 32 0) rest h1 (by simpa using h2)
    (by have : (2 : Nat) ^ (o2.int - 1) = 32768 := rfl
        omega)]
  simp only [Option.map_some, strOf]
  rw [takeWhile_zero _ _ h1]

theorem int8_byteOf {x : Int} (h : Int8 x) : int8 (byteOf x) = x := by
  obtain ⟨a, b⟩ := h
  unfold int8 byteOf
  split <;> omega

/-! ### Searching -/

theorem seek_pos {α : Type} [DecidableEq α] (x : α) (l : List α) : 1 ≤ seek x l := by
  cases l with
  | nil => exact Nat.le_refl _
  | cons y l => simp only [seek]; split <;> omega

theorem seek_mem {α : Type} [DecidableEq α] (x : α) (l : List α) (h : x ∈ l) : seek x l ≤ l.length ∧ l[seek x l - 1]? = some x := by
  induction l with
  | nil => simp at h
  | cons y l ih =>
    simp only [seek]
    by_cases hy : y = x
    · rw [if_pos hy]; simp [hy]
    · rw [if_neg hy]
      obtain ⟨h1, h2⟩ := ih (by rcases List.mem_cons.mp h with h | h
                                · exact absurd h.symm hy
                                · exact h)
      have := seek_pos x l
      refine ⟨by simp; omega, ?_⟩
      have e : seek x l + 1 - 1 = (seek x l - 1) + 1 := by omega
      rw [e, List.getElem?_cons_succ]; exact h2

theorem seek_not_mem {α : Type} [DecidableEq α] (x : α) (l : List α) (h : x ∉ l) : seek x l = l.length + 1 := by
  induction l with
  | nil => rfl
  | cons y l ih =>
    simp only [seek]
    rw [if_neg (fun e => h (by simp [e])), ih (fun hm => h (by simp [hm]))]; simp

theorem length_le {α : Type} {l l' : List α} (hn : l.Nodup) (h : l ⊆ l') : l.length ≤ l'.length :=
  (List.subperm_of_subset hn h).length_le

/-! ### Looks -/

/-- What `Store` and `Load` know while they go through the header. -/
structure Inv (F : List Str) (K : List (Str × Str)) (s : St) : Prop where
  fn : s.fnts.Nodup
  fs : s.fnts ⊆ F
  kn : s.kinds.Nodup
  ks : s.kinds ⊆ K

/-- The tables of `Store` and `Load` agree. -/
def KR (ks : List (Str × Str)) (ld : List (Int × Str × Str)) : Prop := ∀ i : Nat, ld.lookup ((i : Int) + 1) = ks[i]?

theorem int8_small {n : Nat} (h : n < 128) : int8 n = n := if_pos h

theorem rest_ok (l : Look) (hc : Int8 l.col) (hv : Int8 l.voff) (plen : Int) (hpl : Int32 plen) (rest : List Nat) (k : Int) :
    ((readLInt o2 (readByte (readByte (byteOf l.col :: byteOf l.voff :: (lint plen ++ rest))).2).2).map fun r =>
      ((k, ⟨none, int8 (readByte (byteOf l.col :: byteOf l.voff :: (lint plen ++ rest))).1,
        int8 (readByte (readByte (byteOf l.col :: byteOf l.voff :: (lint plen ++ rest))).2).1⟩, r.1, r.2) : Int × Look × Int × List Nat)) =
    some (k, ⟨none, l.col, l.voff⟩, plen, rest) := by
  have e1 : readByte (byteOf l.col :: byteOf l.voff :: (lint plen ++ rest)) = (byteOf l.col, byteOf l.voff :: (lint plen ++ rest)) := rfl
  have e2 : readByte (byteOf l.voff :: (lint plen ++ rest)) = (byteOf l.voff, lint plen ++ rest) := rfl
  rw [e1]
  simp only
  rw [e2]
  simp only
  rw [readLInt_lint hpl, int8_byteOf hc, int8_byteOf hv, Option.map_some]

theorem look_step (names : Nat → Str) (F : List Str) (K : List (Str × Str)) (hF : F.length ≤ 30) (l : Look) (s : St) (hi : Inv F K s) (hl : LookOk names F l) :
    ∃ s' n lb, storeLook names l s = some s' ∧ s'.out = s.out ++ n :: lb ∧ Inv F K s' ∧ s'.kinds = s.kinds ∧ s'.delta = s.delta ∧ int8 n ≠ 0 ∧
      ∀ (plen : Int) (rest : List Nat), Int32 plen →
        loadLook o2 (int8 n) s.fnts.length (lb ++ (lint plen ++ rest)) = some ((s'.fnts.length : Int), ⟨none, l.col, l.voff⟩, plen, rest) := by
  obtain ⟨⟨p, hp, hpF, hfit⟩, hc, hv⟩ := hl
  have hlen := length_le hi.fn hi.fs
  have hpos := seek_pos (names p) s.fnts
  unfold storeLook
  rw [if_pos (by omega)]
  simp only [hp]
  by_cases hm : names p ∈ s.fnts
  · obtain ⟨h1, h2⟩ := seek_mem _ _ hm
    rw [if_neg (by omega)]
    have h8 : int8 (seek (names p) s.fnts) = (seek (names p) s.fnts : Nat) := int8_small (by omega)
    refine ⟨_, seek (names p) s.fnts, [byteOf l.col, byteOf l.voff], rfl, by simp, ⟨hi.fn, hi.fs, hi.kn, hi.ks⟩, rfl, rfl, by omega, ?_⟩
    intro plen rest hpl
    rw [h8]
    unfold loadLook
    simp only
    rw [if_neg (by omega)]
    exact rest_ok l hc hv plen hpl rest _
  · have h1 := seek_not_mem _ _ hm
    rw [if_pos h1]
    have h8 : int8 (seek (names p) s.fnts) = (seek (names p) s.fnts : Nat) := int8_small (by omega)
    refine ⟨_, seek (names p) s.fnts, (names p ++ [0]) ++ [byteOf l.col, byteOf l.voff], rfl, by simp, ⟨?_, ?_, hi.kn, hi.ks⟩, rfl, rfl, by omega, ?_⟩
    · rw [List.nodup_append]
      exact ⟨hi.fn, by simp, by
        intro a ha b hb
        rw [List.mem_singleton] at hb
        subst hb
        exact fun e => hm (e ▸ ha)⟩
    · intro x hx
      rcases List.mem_append.mp hx with hx | hx
      · exact hi.fs hx
      · rw [List.mem_singleton] at hx; exact hx ▸ hpF
    intro plen rest hpl
    rw [h8]
    have e : (names p ++ [0]) ++ [byteOf l.col, byteOf l.voff] ++ (lint plen ++ rest) =
        names p ++ 0 :: (byteOf l.col :: byteOf l.voff :: (lint plen ++ rest)) := by simp
    rw [e]
    unfold loadLook
    simp only
    rw [if_pos (by omega), if_pos (by omega), readStr_ok hfit, Option.bind_some]
    have e2 : ((seek (names p) s.fnts : Nat) : Int) = ((s.fnts ++ [names p]).length : Int) := by rw [h1]; simp
    rw [e2]
    exact rest_ok l hc hv plen hpl rest _

/-! ### Elements -/

theorem patch_at (a b c d : List Nat) (h : b.length = c.length) : patch (a ++ b ++ d) a.length c = a ++ c ++ d := by
  unfold patch
  rw [List.append_assoc a b d, List.take_left, List.drop_append, List.drop_eq_nil_of_le (by omega), List.nil_append]
  rw [List.drop_append, List.drop_eq_nil_of_le (by omega), List.nil_append]
  have : a.length + c.length - a.length - b.length = 0 := by omega
  rw [this, List.drop_zero]

theorem drop_length_eq {s : List Nat} {a b : Nat} (h : (s.drop a).length = (s.drop b).length) : s.drop a = s.drop b := by
  simp only [List.length_drop] at h
  by_cases ha : a ≤ s.length
  · by_cases hb : b ≤ s.length
    · have : a = b := by omega
      rw [this]
    · rw [List.drop_eq_nil_of_le (by omega : s.length ≤ b), List.drop_eq_nil_of_le (by omega)]
  · rw [List.drop_eq_nil_of_le (by omega : s.length ≤ a), List.drop_eq_nil_of_le (by omega)]

theorem elem_span (env : Env) (mod proc : Str) (data rest : List Nat) :
    (if (env mod proc (data ++ rest)).isSome ∧
        ((List.drop ((env mod proc (data ++ rest)).getD 0) (data ++ rest)).length : Int) + (data.length : Int) = ((data ++ rest).length : Int) then
      List.drop ((env mod proc (data ++ rest)).getD 0) (data ++ rest) else List.drop (data.length : Int).toNat (data ++ rest)) = rest := by
  have e : List.drop (data.length : Int).toNat (data ++ rest) = rest := by rw [Int.toNat_natCast, List.drop_left]
  by_cases h : (env mod proc (data ++ rest)).isSome ∧
        ((List.drop ((env mod proc (data ++ rest)).getD 0) (data ++ rest)).length : Int) + (data.length : Int) = ((data ++ rest).length : Int)
  · rw [if_pos h]
    have h2 := h.2
    have : (List.drop ((env mod proc (data ++ rest)).getD 0) (data ++ rest)).length = (List.drop data.length (data ++ rest)).length := by
      rw [List.drop_left]
      rw [List.length_append] at h2
      omega
    rw [drop_length_eq this, List.drop_left]
  · rw [if_neg h, e]

theorem lookup_kind (ks : List (Str × Str)) (ld : List (Int × Str × Str)) (h : KR ks ld) (x : Str × Str) (hm : x ∈ ks) :
    ld.lookup ((seek x ks : Nat) : Int) = some x := by
  obtain ⟨h1, h2⟩ := seek_mem x ks hm
  have := seek_pos x ks
  have e : ((seek x ks : Nat) : Int) = ((seek x ks - 1 : Nat) : Int) + 1 := by omega
  rw [e, h, h2]

theorem KR_snoc (ks : List (Str × Str)) (ld : List (Int × Str × Str)) (h : KR ks ld) (x : Str × Str) :
    KR (ks ++ [x]) ((((ks.length + 1 : Nat) : Int), x) :: ld) := by
  intro i
  rw [List.lookup_cons]
  by_cases hi : i = ks.length
  · subst hi
    have : (((ks.length : Nat) : Int) + 1 == ((ks.length + 1 : Nat) : Int)) = true := by simp
    rw [this]; simp
  · have : (((i : Nat) : Int) + 1 == ((ks.length + 1 : Nat) : Int)) = false := by
      rw [beq_eq_false_iff_ne]; omega
    rw [this, h i]
    by_cases hlt : i < ks.length
    · rw [List.getElem?_append_left hlt]
    · rw [List.getElem?_eq_none (by omega), List.getElem?_eq_none (by simp; omega)]

theorem elem_step (F : List Str) (K : List (Str × Str)) (hK : K.length ≤ 62) (s : St) (hi : Inv F K s) (mod proc : Str) (W H : Int) (data : List Nat)
    (hk : (mod, proc) ∈ K) (hm : Fits 32 mod) (hp : Fits 32 proc) (hW : Int32 W) (hH : Int32 H) :
    ∃ s' eb, storeElem mod proc W H data s = some s' ∧ s'.out = s.out ++ (lint (-(data.length : Int)) ++ eb) ∧ Inv F K s' ∧ s'.fnts = s.fnts ∧
      s'.delta = s.delta ∧
      ∀ (env : Env) (ld : List (Int × Str × Str)) (rest : List Nat), KR s.kinds ld →
        ∃ ld', KR s'.kinds ld' ∧ loadElem o2 env (data.length : Int) s.kinds.length ld (eb ++ rest) = some ((mod, proc, W, H, data), (s'.kinds.length : Int), ld', rest) := by
  have hlen := length_le hi.kn hi.ks
  have hpos := seek_pos (mod, proc) s.kinds
  have l0 : (lint 0 ++ lint 0 ++ lint 0).length = (lint (-(data.length : Int)) ++ lint W ++ lint H).length := by simp [lint_length]
  unfold storeElem
  rw [if_pos (by omega)]
  simp only
  by_cases hmem : (mod, proc) ∈ s.kinds
  · obtain ⟨h1, h2⟩ := seek_mem _ _ hmem
    rw [if_neg (by omega)]
    refine ⟨_, lint W ++ lint H ++ ([seek (mod, proc) s.kinds] ++ data), rfl, ?_, ⟨hi.fn, hi.fs, hi.kn, hi.ks⟩, rfl, rfl, ?_⟩
    · simp only
      have e : s.out ++ lint 0 ++ lint 0 ++ lint 0 ++ [seek (mod, proc) s.kinds] ++ data =
          s.out ++ (lint 0 ++ lint 0 ++ lint 0) ++ ([seek (mod, proc) s.kinds] ++ data) := by simp only [List.append_assoc]
      have e2 : (s.out ++ lint 0 ++ lint 0 ++ lint 0 ++ [seek (mod, proc) s.kinds] ++ data).length -
          (s.out ++ lint 0 ++ lint 0 ++ lint 0 ++ [seek (mod, proc) s.kinds]).length = data.length := by
        rw [List.length_append (bs := data)]; omega
      rw [e2, e, patch_at _ _ _ _ l0]
      simp only [List.append_assoc]
    · intro env ld rest hr
      refine ⟨ld, hr, ?_⟩
      have e : lint W ++ lint H ++ ([seek (mod, proc) s.kinds] ++ data) ++ rest = lint W ++ (lint H ++ (seek (mod, proc) s.kinds :: (data ++ rest))) := by
        simp only [List.append_assoc, List.cons_append, List.nil_append]
      rw [e]
      unfold loadElem
      simp only [Option.bind_eq_bind, readLInt_lint hW, readLInt_lint hH, Option.bind_some, readByte]
      rw [int8_small (by omega), if_neg (by omega)]
      simp only [Option.bind_some]
      rw [lookup_kind _ _ hr _ hmem]
      simp only
      rw [elem_span]
      simp
  · have h1 := seek_not_mem _ _ hmem
    rw [if_pos h1]
    refine ⟨_, lint W ++ lint H ++ ([seek (mod, proc) s.kinds] ++ (mod ++ [0] ++ proc ++ [0]) ++ data), rfl, ?_, ⟨hi.fn, hi.fs, ?_, ?_⟩, rfl, rfl, ?_⟩
    · simp only
      have e : s.out ++ lint 0 ++ lint 0 ++ lint 0 ++ [seek (mod, proc) s.kinds] ++ mod ++ [0] ++ proc ++ [0] ++ data =
          s.out ++ (lint 0 ++ lint 0 ++ lint 0) ++ ([seek (mod, proc) s.kinds] ++ (mod ++ [0] ++ proc ++ [0]) ++ data) := by simp only [List.append_assoc]
      have e2 : (s.out ++ lint 0 ++ lint 0 ++ lint 0 ++ [seek (mod, proc) s.kinds] ++ mod ++ [0] ++ proc ++ [0] ++ data).length -
          (s.out ++ lint 0 ++ lint 0 ++ lint 0 ++ [seek (mod, proc) s.kinds] ++ mod ++ [0] ++ proc ++ [0]).length = data.length := by
        rw [List.length_append (bs := data)]; omega
      rw [e2, e, patch_at _ _ _ _ l0]
      simp only [List.append_assoc]
    · rw [List.nodup_append]
      exact ⟨hi.kn, by simp, by
        intro a ha b hb
        rw [List.mem_singleton] at hb
        subst hb
        exact fun e => hmem (e ▸ ha)⟩
    · intro x hx
      rcases List.mem_append.mp hx with hx | hx
      · exact hi.ks hx
      · rw [List.mem_singleton] at hx; exact hx ▸ hk
    · intro env ld rest hr
      refine ⟨_, KR_snoc _ _ hr (mod, proc), ?_⟩
      have e : lint W ++ lint H ++ ([seek (mod, proc) s.kinds] ++ (mod ++ [0] ++ proc ++ [0]) ++ data) ++ rest =
          lint W ++ (lint H ++ (seek (mod, proc) s.kinds :: (mod ++ 0 :: (proc ++ 0 :: (data ++ rest))))) := by
        simp only [List.append_assoc, List.cons_append, List.nil_append]
      rw [e]
      unfold loadElem
      simp only [Option.bind_eq_bind, readLInt_lint hW, readLInt_lint hH, Option.bind_some, readByte]
      rw [int8_small (by omega), if_pos (by omega), if_pos (by omega)]
      simp only [readStr_ok hm, readStr_ok hp, Option.bind_some]
      rw [List.lookup_cons]
      simp only [beq_self_eq_true]
      rw [elem_span, h1]
      simp

/-! ### Runs that look the same -/

/-- The characters in the file. -/
def chars (bs : List Nat) (a : Bool) : List Nat := if a then bs.map fun c => if c = 10 then 13 else c else bs

theorem chars_length (bs : List Nat) (a : Bool) : (chars bs a).length = bs.length := by unfold chars; split <;> simp

theorem ascii_map (bs : List Nat) (h : NoCrLf bs) : asciiChars bs = bs.map fun c => if c = 10 then 13 else c := by
  induction bs with
  | nil => rfl
  | cons c bs ih =>
    have hn : NoCrLf bs := by
      unfold NoCrLf at h
      split at h
      · exact h.elim
      · rename_i e; cases e; exact h
      · rename_i e; simp at e
    have e := ih hn
    by_cases hc : c = 10
    · subst hc; rw [asciiChars, e]; rfl
    · rw [List.map_cons, if_neg hc, ← e]
      rw [asciiChars.eq_def]
      split
      · rename_i e'
        cases e'
        simp [NoCrLf] at h
      · rename_i e'; cases e'; exact absurd rfl hc
      · rename_i e'; cases e'; rfl
      · rename_i e'; simp at e'

theorem chars_eq (bs : List Nat) (a : Bool) (h : a = true → NoCrLf bs) : (if a then asciiChars bs else bs) = chars bs a := by
  unfold chars
  cases a with
  | false => rfl
  | true => simp only [if_true]; exact ascii_map bs (h rfl)

theorem items_append (a b : List Run) : items (a ++ b) = items a ++ items b := by
  induction a with
  | nil => rfl
  | cons r a ih =>
    cases r with
    | piece l bs asc => simp only [List.cons_append, items, ih, List.append_assoc]
    | elem l mod proc W H data =>
      simp only [List.cons_append, items, ih]
      split <;> simp

theorem body_append (a b : List Run) : body (a ++ b) = body a ++ body b := by
  induction a with
  | nil => rfl
  | cons r a ih => cases r <;> simp only [List.cons_append, body, ih, List.append_assoc]

theorem textLen_append (a b : List Run) : textLen (a ++ b) = textLen a + textLen b := by
  induction a with
  | nil => simp [textLen]
  | cons r a ih => cases r <;> simp only [List.cons_append, textLen, ih] <;> omega

theorem same_spec (l : Look) : ∀ rest, ∃ ps, rest = ps ++ (same l rest).2 ∧ (same l rest).1 = textLen ps ∧ ∀ r ∈ ps, ∃ bs a, r = Run.piece l bs a
  | [] => ⟨[], rfl, rfl, by simp⟩
  | .elem l' mod proc W H data :: rest => ⟨[], rfl, rfl, by simp⟩
  | .piece l' bs a :: rest => by
    simp only [same]
    by_cases h : l' = l
    · rw [if_pos h]
      obtain ⟨ps, h1, h2, h3⟩ := same_spec l rest
      refine ⟨.piece l' bs a :: ps, by simp only [List.cons_append]; rw [← h1], by simp only [textLen, h2], ?_⟩
      intro r hr
      rcases List.mem_cons.mp hr with rfl | hr
      · exact ⟨bs, a, by rw [h]⟩
      · exact h3 r hr
    · rw [if_neg h]
      exact ⟨[], rfl, rfl, by simp⟩

theorem pieces (names : Nat → Str) (F : List Str) (K : List (Str × Str)) (l : Look) : ∀ ps : List Run, (∀ r ∈ ps, ∃ bs a, r = Run.piece l bs a) →
    (∀ r ∈ ps, Storable names F K r) → items ps = (body ps).map (fun c => Item.char c l.col l.voff) ∧ (body ps).length = textLen ps
  | [], _, _ => ⟨rfl, rfl⟩
  | r :: ps, h, hs => by
    obtain ⟨bs, a, rfl⟩ := h r (by simp)
    obtain ⟨i1, i2⟩ := pieces names F K l ps (fun x hx => h x (by simp [hx])) (fun x hx => hs x (by simp [hx]))
    have hst := hs (.piece l bs a) (by simp)
    have e := chars_eq bs a hst.2.2
    have e2 : (if a = true then bs.map fun c => if c = 10 then 13 else c else bs) = chars bs a := rfl
    constructor
    · simp only [items, body, i1, List.map_append, e2, e]
    · simp only [body, textLen, List.length_append, i2, e2, chars_length]

/-- The number of elements left out. -/
def dropped : List Run → Nat
  | [] => 0
  | .piece _ _ _ :: rest => dropped rest
  | .elem _ mod _ _ _ _ :: rest => (if mod ≠ [] then 0 else 1) + dropped rest

theorem dropped_append (a b : List Run) : dropped (a ++ b) = dropped a + dropped b := by
  induction a with
  | nil => simp [dropped]
  | cons r a ih => cases r <;> simp only [List.cons_append, dropped, ih] <;> omega

theorem dropped_pieces (l : Look) (ps : List Run) (h : ∀ r ∈ ps, ∃ bs a, r = Run.piece l bs a) : dropped ps = 0 := by
  induction ps with
  | nil => rfl
  | cons r ps ih =>
    obtain ⟨bs, a, rfl⟩ := h r (by simp)
    simp only [dropped]
    exact ih fun x hx => h x (by simp [hx])

/-! ### The header -/

theorem loadLoop_cons (m : Sizes) (env : Env) (f : List Nat) (g : Nat) (pos fcnt ecnt : Int) (kinds : List (Int × Str × Str)) (n : Nat) (s : List Nat) :
    loadLoop m env f (g + 1) pos fcnt ecnt kinds (n :: s) =
      if int8 n = 0 then some ([], s)
      else
        (loadLook m (int8 n) fcnt s).bind fun r =>
        if 0 < r.2.2.1 then
          (loadLoop m env f g (pos + r.2.2.1) r.1 ecnt kinds r.2.2.2).map fun t =>
            (.piece r.2.1 ((f.drop pos.toNat).take r.2.2.1.toNat) false :: t.1, t.2)
        else
          (loadElem m env (-r.2.2.1) ecnt kinds r.2.2.2).bind fun e =>
          (loadLoop m env f g (pos + 1) r.1 e.2.1 e.2.2.1 e.2.2.2).map fun t =>
            (.elem r.2.1 e.1.1 e.1.2.1 e.1.2.2.1 e.1.2.2.2.1 e.1.2.2.2.2 :: t.1, t.2) := rfl

theorem readByte_cons (n : Nat) (s : List Nat) : readByte (n :: s) = (n, s) := rfl

theorem header_step (names : Nat → Str) (F : List Str) (K : List (Str × Str)) (hF : F.length ≤ 30) (hK : K.length ≤ 62) :
    ∀ (f : Nat) (T : List Run) (s : St), T.length < f → (∀ r ∈ T, Storable names F K r) → textLen T < 2 ^ 31 → Inv F K s →
    ∃ s' hdr, header names f T s = some s' ∧ s'.out = s.out ++ hdr ∧ s'.delta = s.delta + dropped T ∧
      ∀ (env : Env) (file : List Nat) (g pos : Nat) (ld : List (Int × Str × Str)) (tail rest : List Nat), hdr.length < g → KR s.kinds ld →
        file.drop pos = body T ++ tail →
        ∃ rs, loadLoop o2 env file g pos s.fnts.length s.kinds.length ld (hdr ++ 0 :: rest) = some (rs, rest) ∧ items rs = items T ∧
          ∀ r ∈ rs, r.look.fnt = none := by
  intro f
  induction f with
  | zero => intro T s h; omega
  | succ f ih =>
    intro T s hf hs hlen hi
    match T, hf, hs, hlen with
    | [], _, _, _ =>
      refine ⟨s, [], rfl, by simp, rfl, ?_⟩
      intro env file g pos ld tail rest hg _ _
      obtain ⟨g, rfl⟩ : ∃ k, g = k + 1 := ⟨g - 1, by simp at hg; omega⟩
      refine ⟨[], ?_, rfl, by simp⟩
      rw [List.nil_append, loadLoop_cons, if_pos (show int8 0 = 0 from rfl)]
    | .piece l bs a :: T, hf, hs, hlen =>
      have hst := hs (.piece l bs a) (by simp)
      obtain ⟨hl, hne, hcr⟩ := hst
      obtain ⟨s1, n, lb, e1, o1, i1, k1, d1, hn, hload⟩ := look_step names F K hF l s hi hl
      obtain ⟨ps, hps, hpl, hall⟩ := same_spec l T
      generalize hsm : same l T = sm at *
      obtain ⟨n2, T2⟩ := sm
      simp only at hps hpl
      subst hps
      simp only [textLen, textLen_append] at hlen
      simp only [List.length_cons, List.length_append] at hf
      have hps2 : ∀ r ∈ Run.piece l bs a :: ps, Storable names F K r := by
        intro r hr
        rcases List.mem_cons.mp hr with rfl | hr
        · exact ⟨hl, hne, hcr⟩
        · exact hs r (by simp [hr])
      have hall2 : ∀ r ∈ Run.piece l bs a :: ps, ∃ bs a, r = Run.piece l bs a := by
        intro r hr
        rcases List.mem_cons.mp hr with rfl | hr
        · exact ⟨bs, a, rfl⟩
        · exact hall r hr
      obtain ⟨p1, p2⟩ := pieces names F K l _ hall2 hps2
      have hI : Inv F K { s1 with out := s1.out ++ lint ((bs.length + n2 : Nat) : Int) } := ⟨i1.fn, i1.fs, i1.kn, i1.ks⟩
      obtain ⟨s', hdr, e2, o2', d2, hrec⟩ := ih T2 { s1 with out := s1.out ++ lint ((bs.length + n2 : Nat) : Int) } (by omega)
        (fun r hr => hs r (by simp [hr])) (by omega) hI
      refine ⟨s', (n :: lb) ++ (lint ((bs.length + n2 : Nat) : Int) ++ hdr), ?_, ?_, ?_, ?_⟩
      · rw [header, e1]
        simp only [hsm]
        exact e2
      · rw [o2']; simp only [o1, List.append_assoc]
      · rw [d2]
        simp only [d1, dropped, dropped_append, dropped_pieces l ps hall]
        omega
      · intro env file g pos ld tail rest hg hk hfile
        obtain ⟨g, rfl⟩ : ∃ k, g = k + 1 := ⟨g - 1, by simp at hg; omega⟩
        have hbpos : 0 < bs.length := by
          cases bs with
          | nil => exact absurd rfl hne
          | cons => simp
        have hb : body (.piece l bs a :: (ps ++ T2)) = body (.piece l bs a :: ps) ++ body T2 := by rw [← List.cons_append, body_append]
        rw [hb, List.append_assoc] at hfile
        have hbl : (body (.piece l bs a :: ps)).length = bs.length + n2 := by rw [p2, textLen, hpl]
        have hfile2 : file.drop (pos + (bs.length + n2)) = body T2 ++ tail := by
          rw [← List.drop_drop, hfile, ← hbl, List.drop_left]
        obtain ⟨rs, r1, r2, r3⟩ := hrec env file g (pos + (bs.length + n2)) ld tail rest (by simp at hg; omega) (by rw [show s1.kinds = s.kinds from k1]; exact hk) hfile2
        refine ⟨.piece ⟨none, l.col, l.voff⟩ (body (.piece l bs a :: ps)) false :: rs, ?_, ?_, ?_⟩
        · rw [List.append_assoc, List.cons_append, loadLoop_cons, if_neg hn, List.append_assoc, hload _ _ (by constructor <;> omega), Option.bind_some]
          simp only
          rw [if_pos (by omega)]
          have hcast : ((pos : Nat) : Int) + ((bs.length + n2 : Nat) : Int) = ((pos + (bs.length + n2) : Nat) : Int) := by omega
          rw [hcast]
          simp only [k1] at r1
          rw [r1, Option.map_some]
          simp only [Int.toNat_natCast]
          rw [hfile, ← hbl, List.take_left]
        · rw [items, r2, ← List.cons_append, items_append, p1]
          rfl
        · intro r hr
          rcases List.mem_cons.mp hr with rfl | hr
          · rfl
          · exact r3 r hr
    | .elem l mod proc W H data :: T, hf, hs, hlen =>
      simp only [List.length_cons] at hf
      simp only [textLen] at hlen
      by_cases hm : mod ≠ []
      · have hst := hs (.elem l mod proc W H data) (by simp)
        obtain ⟨hl, hk, hfm, hfp, hW, hH, hdl⟩ := hst hm
        obtain ⟨s1, n, lb, e1, o1, i1, k1, d1, hn, hload⟩ := look_step names F K hF l s hi hl
        obtain ⟨s2, eb, e2, oo2, i2, f2, d2, hel⟩ := elem_step F K hK s1 i1 mod proc W H data hk hfm hfp hW hH
        obtain ⟨s', hdr, e3, o3, d3, hrec⟩ := ih T s2 (by omega) (fun r hr => hs r (by simp [hr])) (by omega) i2
        refine ⟨s', (n :: lb) ++ (lint (-(data.length : Int)) ++ (eb ++ hdr)), ?_, ?_, ?_, ?_⟩
        · rw [header, if_pos hm, e1]
          simp only [e2]
          exact e3
        · rw [o3, oo2, o1]; simp only [List.append_assoc]
        · rw [d3, d2, d1]
          simp only [dropped]
          rw [if_pos hm]; omega
        · intro env file g pos ld tail rest hg hk' hfile
          obtain ⟨g, rfl⟩ : ∃ k, g = k + 1 := ⟨g - 1, by simp at hg; omega⟩
          have hb : body (.elem l mod proc W H data :: T) = [28] ++ body T := by rw [body, if_pos hm]
          rw [hb, List.append_assoc] at hfile
          have hfile2 : file.drop (pos + 1) = body T ++ tail := by
            rw [← List.drop_drop, hfile]; rfl
          rw [show s.kinds = s1.kinds from k1.symm] at hk'
          obtain ⟨ld', hk2, e4⟩ := hel env ld (hdr ++ 0 :: rest) hk'
          obtain ⟨rs, r1, r2, r3⟩ := hrec env file g (pos + 1) ld' tail rest (by simp at hg; omega) hk2 hfile2
          refine ⟨.elem ⟨none, l.col, l.voff⟩ mod proc W H data :: rs, ?_, ?_, ?_⟩
          · rw [List.append_assoc, List.cons_append, loadLoop_cons, if_neg hn, List.append_assoc, hload _ _ (by constructor <;> omega), Option.bind_some]
            simp only
            rw [if_neg (by omega), Int.neg_neg, List.append_assoc, ← k1, e4, Option.bind_some]
            simp only
            have hcast : ((pos : Nat) : Int) + 1 = ((pos + 1 : Nat) : Int) := by omega
            rw [hcast, ← f2, r1, Option.map_some]
          · rw [items, if_neg hm, items, if_neg hm, r2]
          · intro r hr
            rcases List.mem_cons.mp hr with rfl | hr
            · rfl
            · exact r3 r hr
      · have hI : Inv F K { s with delta := s.delta + 1 } := ⟨hi.fn, hi.fs, hi.kn, hi.ks⟩
        obtain ⟨s', hdr, e3, o3, d3, hrec⟩ := ih T { s with delta := s.delta + 1 } (by omega) (fun r hr => hs r (by simp [hr])) (by omega) hI
        have hm' : mod = [] := by simpa using hm
        refine ⟨s', hdr, ?_, o3, ?_, ?_⟩
        · rw [header, if_neg hm]; exact e3
        · rw [d3]; simp only [dropped]; rw [if_neg hm]; omega
        · intro env file g pos ld tail rest hg hk' hfile
          have hb : body (.elem l mod proc W H data :: T) = body T := by rw [body, if_neg hm]; rfl
          rw [hb] at hfile
          obtain ⟨rs, r1, r2, r3⟩ := hrec env file g pos ld tail rest hg hk' hfile
          exact ⟨rs, r1, by rw [r2, items, if_pos hm'], r3⟩

theorem items_length (names : Nat → Str) (F : List Str) (K : List (Str × Str)) : ∀ T : List Run, (∀ r ∈ T, Storable names F K r) →
    (items T).length + dropped T = textLen T ∧ (body T).length = (items T).length
  | [], _ => ⟨rfl, rfl⟩
  | .piece l bs a :: T, h => by
    obtain ⟨i1, i2⟩ := items_length names F K T fun r hr => h r (by simp [hr])
    have hst := h (.piece l bs a) (by simp)
    have e := chars_eq bs a hst.2.2
    have e2 : (if a = true then bs.map fun c => if c = 10 then 13 else c else bs) = chars bs a := rfl
    simp only [items, dropped, textLen, body, e, e2, List.length_append, List.length_map, chars_length]
    omega
  | .elem l mod proc W H data :: T, h => by
    obtain ⟨i1, i2⟩ := items_length names F K T fun r hr => h r (by simp [hr])
    by_cases hm : mod = []
    · simp only [items, dropped, textLen, body, hm, ne_eq, not_true, if_true, if_false, List.nil_append]
      omega
    · simp only [items, dropped, textLen, body, hm, ne_eq, not_false_eq_true, if_true, if_false, List.length_cons, List.length_append, List.length_nil]
      omega

/-- **C60**.  A stored text can be loaded again, wherever in a file it is: the characters, the elements with all they stored, the colours and
the offsets are the same, `T.len` is their number, and the rider stands after the text.

Missing: the fonts, which `Load0` reads and drops; texts with more than 30 fonts, CR LF, or more than 62 kinds of elements. -/
theorem C60_store_load_partial (names : Nat → Str) (F : List Str) (K : List (Str × Str)) (hF : F.length ≤ 30) (hK : K.length ≤ 62) (T : List Run)
    (hs : ∀ r ∈ T, Storable names F K r) (hlen : textLen T < 2 ^ 31) :
    ∃ bytes, store names T = some bytes ∧ (bytes.length + 2 < 2 ^ 31 → ∀ (env : Env) (pre post : List Nat),
      ∃ rs, load0 o2 env (pre ++ bytes ++ post) pre.length = some (rs, ((items T).length : Int), ((pre ++ bytes).length : Int)) ∧ items rs = items T) := by
  obtain ⟨s', hdr, e, o, d, hload⟩ := header_step names F K hF hK (T.length + 1) T ⟨lint 0, [], [], 0⟩ (by omega) hs hlen
    ⟨by simp, by simp, by simp, by simp⟩
  obtain ⟨l1, l2⟩ := items_length names F K T hs
  simp only [Nat.zero_add] at d
  have ed : (textLen T : Int) - (s'.delta : Nat) = ((items T).length : Int) := by rw [d]; omega
  generalize hH : (lint 0 ++ (hdr ++ ([0] ++ lint ((items T).length : Int)))).length + 2 = hlen'
  have ep : patch (lint 0 ++ (hdr ++ ([0] ++ lint ((items T).length : Int)))) 0 (lint (hlen' : Int)) =
      lint (hlen' : Int) ++ (hdr ++ ([0] ++ lint ((items T).length : Int))) := by
    have := patch_at [] (lint 0) (lint (hlen' : Int)) (hdr ++ ([0] ++ lint ((items T).length : Int))) (by simp [lint_length])
    simpa using this
  have es : store names T = some (lint (hlen' : Int) ++ (hdr ++ ([0] ++ lint ((items T).length : Int))) ++ body T) := by
    unfold store
    rw [e]
    simp only [o, ed, List.append_assoc]
    rw [hH, ep, List.append_assoc, List.append_assoc, List.append_assoc]
  refine ⟨_, es, ?_⟩
  intro hsize env pre post
  simp only [List.length_append, lint_length, List.length_cons, List.length_nil] at hsize hH
  have hfile : pre ++ (lint (hlen' : Int) ++ (hdr ++ ([0] ++ lint ((items T).length : Int))) ++ body T) ++ post =
      pre ++ (lint (hlen' : Int) ++ (hdr ++ 0 :: (lint ((items T).length : Int) ++ (body T ++ post)))) := by simp
  rw [hfile]
  have hd1 : (pre ++ (lint (hlen' : Int) ++ (hdr ++ 0 :: (lint ((items T).length : Int) ++ (body T ++ post))))).drop pre.length =
      lint (hlen' : Int) ++ (hdr ++ 0 :: (lint ((items T).length : Int) ++ (body T ++ post))) := List.drop_left
  have horg : ((pre.length : Nat) : Int) - 2 + (hlen' : Int) = ((pre.length + (hdr.length + 9) : Nat) : Int) := by omega
  have hd2 : (pre ++ (lint (hlen' : Int) ++ (hdr ++ 0 :: (lint ((items T).length : Int) ++ (body T ++ post))))).drop (pre.length + (hdr.length + 9)) =
      body T ++ post := by
    have : pre ++ (lint (hlen' : Int) ++ (hdr ++ 0 :: (lint ((items T).length : Int) ++ (body T ++ post)))) =
        (pre ++ (lint (hlen' : Int) ++ (hdr ++ ([0] ++ lint ((items T).length : Int))))) ++ (body T ++ post) := by simp
    rw [this]
    have hl : (pre ++ (lint (hlen' : Int) ++ (hdr ++ ([0] ++ lint ((items T).length : Int))))).length = pre.length + (hdr.length + 9) := by
      simp [lint_length]; omega
    rw [← hl, List.drop_left]
  obtain ⟨rs, r1, r2, r3⟩ := hload env _ ((hdr ++ 0 :: (lint ((items T).length : Int) ++ (body T ++ post))).length + 1)
    (pre.length + (hdr.length + 9)) [] post (lint ((items T).length : Int) ++ (body T ++ post)) (by simp; omega) (fun i => by simp) hd2
  refine ⟨rs, ?_, r2⟩
  unfold load0
  rw [hd1]
  simp only [Option.bind_eq_bind]
  rw [readLInt_lint (by constructor <;> omega), Option.bind_some]
  simp only [horg]
  simp only [List.length_nil, Int.natCast_zero] at r1
  rw [r1, Option.bind_some]
  simp only
  rw [readLInt_lint (by constructor <;> omega), Option.bind_some]
  simp only [List.length_append, List.length_cons, lint_length, List.length_nil]
  congr 3
  omega

/-- **C60**.  A text that was closed is the same when it is opened. -/
theorem C60_close_open_partial (names : Nat → Str) (F : List Str) (K : List (Str × Str)) (hF : F.length ≤ 30) (hK : K.length ≤ 62) (T : List Run)
    (hs : ∀ r ∈ T, Storable names F K r) (hlen : textLen T < 2 ^ 31) :
    ∃ file, close names T = some file ∧ (file.length < 2 ^ 31 → ∀ (env : Env) (fd : Nat),
      ∃ rs, «open» o2 env fd file = some (rs, ((items T).length : Int)) ∧ items rs = items T) := by
  obtain ⟨bytes, e, h⟩ := C60_store_load_partial names F K hF hK T hs hlen
  refine ⟨[0xF0, 1] ++ bytes, by simp [close, e], ?_⟩
  intro hl env fd
  obtain ⟨rs, r1, r2⟩ := h (by simp at hl; omega) env [0xF0, 1] []
  refine ⟨rs, ?_, r2⟩
  rw [List.append_nil] at r1
  have : «open» o2 env fd ([0xF0, 1] ++ bytes) = (load0 o2 env ([0xF0, 1] ++ bytes) 2).map fun r => (r.1, r.2.1) := rfl
  rw [this]
  have e2 : ([0xF0, 1] : List Nat).length = 2 := rfl
  rw [e2] at r1
  rw [r1]; rfl

/-! ### An example -/

/-- Names of fonts. -/
def exNames (p : Nat) : Str := if p = 0 then [83, 49] else [83, 50]

/-- Plain text with two lines, coloured text in another font, an element, and one that is not stored. -/
def exText : List Run :=
  [.piece ⟨some 0, 15, 0⟩ [65, 10, 66] true, .piece ⟨some 1, 1, -3⟩ [67, 10] false, .elem ⟨some 0, 15, 0⟩ [80, 105] [78] 1000 (-7) [9, 8, 7],
    .elem ⟨some 0, 15, 0⟩ [] [] 1 1 [5], .piece ⟨some 0, 15, 0⟩ [68] true, .piece ⟨some 0, 15, 0⟩ [69] false]

example : (∀ r ∈ exText, Storable exNames [[83, 49], [83, 50]] [([80, 105], [78])] r) ∧ textLen exText < 2 ^ 31 := by
  constructor
  · intro r hr
    simp only [exText, List.mem_cons, List.not_mem_nil, or_false] at hr
    rcases hr with rfl | rfl | rfl | rfl | rfl | rfl <;>
      simp [Storable, LookOk, exNames, Fits, Int8, Int32, NoCrLf]
  · decide

example : (close exNames exText).bind (fun f => («open» o2 (fun _ _ _ => none) 0 f).map fun r => (items r.1, r.2)) = some (items exText, 8) ∧
    (items exText).length = 8 := by decide +kernel

/-! ### Where texts do not survive -/

/-- Fonts are not restored, and so a text that was loaded cannot be stored: `Store` uses its fonts. -/
theorem C60_reload : (close exNames exText).bind (fun f => («open» o2 (fun _ _ _ => none) 0 f).map fun r => r.1.map fun u => u.look.fnt) =
      some [none, none, none, none] ∧
    (close exNames exText).bind (fun f => («open» o2 (fun _ _ _ => none) 0 f).bind fun r => store exNames r.1) = none := by decide +kernel

/-- In every case: no loaded text with a character can be stored. -/
theorem C60_no_store (names : Nat → Str) (l : Look) (bs : List Nat) (a : Bool) (T : List Run) (h : l.fnt = none) : store names (.piece l bs a :: T) = none := by
  unfold store
  rw [List.length_cons, header]
  have : storeLook names l ⟨lint 0, [], [], 0⟩ = none := by
    unfold storeLook
    rw [if_pos (by decide)]
    simp only [h]
  rw [this]

/-- Lines that end with CR LF are one character each in the text and two in the file. -/
theorem C60_crlf : let T := [Run.piece ⟨some 0, 15, 0⟩ [65, 13, 10, 66] true];
    items T = [.char 65 15 0, .char 13 15 0, .char 66 15 0] ∧
    (close exNames T).bind (fun f => («open» o2 (fun _ _ _ => none) 0 f).map fun r => items r.1) =
      some [.char 65 15 0, .char 13 15 0, .char 13 15 0, .char 66 15 0] := by decide +kernel

/-- 31 fonts are too many as soon as another run follows. -/
theorem C60_fonts : store (fun p => [65 + p]) ((List.range 32).map fun i => .piece ⟨some (i % 31), 15, 0⟩ [65] false) = none ∧
    (store (fun p => [65 + p]) ((List.range 32).map fun i => .piece ⟨some (i % 30), 15, 0⟩ [65] false)).isSome = true := by decide +kernel

/-- In the large size models the length of an element, a negative number, is read as a positive one: the element is lost, and the rest of the
header is misread. -/
theorem C60_large : (close exNames [.elem ⟨some 0, 15, 0⟩ [80] [78] 1 1 [9]]).bind (fun f => («open» oC (fun _ _ _ => none) 0 f).map fun r => items r.1) ≠
    some [.elem [80] [78] 1 1 [9] 15 0] := by decide +kernel

/-- Any file that begins with 0F0X is taken for a stored text.  UTF-8 text that begins with a character beyond 0FFFFH does. -/
theorem C60_first_byte : «open» o2 (fun _ _ _ => none) 0 [0xF0, 0x9F, 0x98, 0x80, 0x20, 0x48, 0x69] ≠
    some ([.piece ⟨some 0, 15, 0⟩ [0xF0, 0x9F, 0x98, 0x80, 0x20, 0x48, 0x69] true], 7) := by decide +kernel

/-- **C60**.  `Load` at a stored text is `Load0`, unless the first two bytes, which are the low bytes of the length of the header, are those of the
old tag: then it skips them.  So texts whose header has 0F001H bytes, or that many more than a multiple of 10000H, are excluded. -/
theorem C60_load_partial (m : Sizes) (env : Env) (f : List Nat) (p : Nat) (b : Nat) (c : Nat) (rest : List Nat) (h : f.drop p = b :: c :: rest)
    (hm : m = o2) (hb : b < 256 ∧ c < 256) (hn : ¬ (b = 0x01 ∧ c = 0xF0)) : load m env f p = load0 m env f p := by
  subst hm
  unfold load
  have e : readInt o2 (f.drop p) = some (wrapW 16 (b + 256 * c), rest) := by
    rw [h]
    have : b :: c :: rest = [b, c] ++ rest := rfl
    unfold readInt
    rw [this, readBytes_append (by rfl)]
    simp [sumBytes, o2]
  rw [e]
  simp only [Option.bind_eq_bind, Option.bind_some]
  rw [if_pos]
  unfold wrapW
  norm_num
  omega

end Verif.TextFiles
