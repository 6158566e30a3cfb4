import Verif.Common
import Verif.Scan.Spec
import Verif.Scan.Model
import Verif.Console.Props

/-!
# C61: scanning texts
-/
namespace Verif.Scan
open Verif.Sums (Out chk)

theorem bind_ok {α β : Type} (a : α) (f : α → Out β) : (Out.ok a).bind f = f a := rfl

theorem chk_ok {x : Int} (h : -2147483648 ≤ x ∧ x ≤ 2147483647) : chk x = .ok x := if_pos h

/-! ### Blanks -/

theorem skip_blank (b c : Nat) (r : List Nat) (line : Int) (h : Blank b) : skip (c :: r) b line = skip r c (line + lines [b]) := by
  rw [skip]
  rcases h with rfl | rfl | rfl
  · rw [if_neg (by decide), if_neg (by decide)]; simp [lines]
  · rw [if_neg (by decide), if_neg (by decide)]; simp [lines]
  · rw [if_pos rfl]; simp [lines]

theorem skip_stop (c : Nat) (r : List Nat) (line : Int) (h : ¬ Blank c) : skip r c line = (c, r, line) := by
  have h1 : c ≠ 13 := fun e => h (by rw [e]; simp [Blank])
  have h2 : c ≠ 32 ∧ c ≠ 9 := ⟨fun e => h (by rw [e]; simp [Blank]), fun e => h (by rw [e]; simp [Blank])⟩
  cases r with
  | nil => rw [skip, if_neg h1, if_pos h2]
  | cons x r => rw [skip, if_neg h1, if_pos h2]

theorem lines_cons (b : Nat) (s : List Nat) : lines (b :: s) = lines [b] + lines s := by
  unfold lines
  rw [List.count_cons, List.count_cons, List.count_nil]
  omega

theorem skip_blanks (bs : List Nat) : ∀ (b c : Nat) (r : List Nat) (line : Int), Blank b → (∀ x ∈ bs, Blank x) → ¬ Blank c →
    skip (bs ++ c :: r) b line = (c, r, line + lines (b :: bs)) := by
  induction bs with
  | nil =>
    intro b c r line hb _ hc
    rw [List.nil_append, skip_blank b c r line hb, skip_stop c r _ hc]
  | cons x bs ih =>
    intro b c r line hb hbs hc
    rw [List.cons_append, skip_blank b x _ line hb, ih x c r _ (hbs x (by simp)) (fun y hy => hbs y (by simp [hy])) hc, lines_cons b (x :: bs)]
    simp only [Prod.mk.injEq, true_and]
    omega

theorem skip_end (bs : List Nat) : ∀ (b : Nat) (line : Int), Blank b → (∀ x ∈ bs, Blank x) → skip bs b line = (0, [], line + lines (b :: bs)) := by
  induction bs with
  | nil =>
    intro b line hb _
    rw [skip]
    rcases hb with rfl | rfl | rfl
    · rw [if_neg (by decide), if_neg (by decide)]; simp [lines]
    · rw [if_neg (by decide), if_neg (by decide)]; simp [lines]
    · rw [if_pos rfl]; simp [lines]
  | cons x bs ih =>
    intro b line hb hbs
    rw [skip_blank b x _ line hb, ih x _ (hbs x (by simp)) (fun y hy => hbs y (by simp [hy])), lines_cons b (x :: bs)]
    simp only [Prod.mk.injEq, true_and]
    omega

/-! ### Names -/

theorem ascii_name : (List.range 128).all (fun c => decide ((65 ≤ c ∧ c ≤ 90 ∨ 97 ≤ c ∧ c ≤ 122) ∨ (48 ≤ c ∧ c ≤ 57) ∨ c = 46 ∨ c = 47 ∨ c = 95) == !(stop c)) = true := by
  decide +kernel

theorem stop_name {c : Nat} (h : Letter c ∨ Digit c ∨ c = 46 ∨ c = 47 ∨ c = 95) : stop c = false := by
  have hc : c < 128 := by unfold Letter Digit at h; omega
  have := List.all_eq_true.mp ascii_name c (List.mem_range.mpr hc)
  rw [decide_eq_true (by exact h)] at this
  simpa using this

/-- What may stand after a token: a blank or, at the end of the text, 0X. -/
def Sep (c : Nat) : Prop := Blank c ∨ c = 0

theorem stop_blank {c : Nat} (h : Sep c) : stop c = true := by
  rcases h with (rfl | rfl | rfl) | rfl <;> rfl

theorem nameLoop_cons (n ch c : Nat) (r : List Nat) : nameLoop (n + 1) ch (c :: r) =
    if stop c = true ∨ n = 0 then ([ch], c, r) else (ch :: (nameLoop n c r).1, (nameLoop n c r).2) := rfl

theorem nameLoop_ok (t : List Nat) : ∀ (n c b : Nat) (r : List Nat), t.length < n → (∀ d ∈ t, stop d = false) → stop b = true →
    nameLoop n c (t ++ b :: r) = (c :: t, b, r) := by
  induction t with
  | nil =>
    intro n c b r hn _ hb
    obtain ⟨n, rfl⟩ : ∃ k, n = k + 1 := ⟨n - 1, by omega⟩
    rw [List.nil_append, nameLoop_cons, if_pos (Or.inl hb)]
  | cons x t ih =>
    intro n c b r hn ht hb
    obtain ⟨n, rfl⟩ : ∃ k, n = k + 1 := ⟨n - 1, by omega⟩
    simp only [List.length_cons] at hn
    rw [List.cons_append, nameLoop_cons]
    have hx := ht x (by simp)
    rw [if_neg (by rw [hx]; simp; omega), ih n x b r (by omega) (fun d hd => ht d (by simp [hd])) hb]

theorem ascii_first : (List.range 128).all (fun c => decide (65 ≤ c ∧ c ≤ 90 ∨ 97 ≤ c ∧ c ≤ 122) == decide (65 ≤ cap c ∧ cap c ≤ 90)) = true := by
  decide +kernel

theorem cap_letter {c : Nat} (hc : c < 128) : (65 ≤ cap c ∧ cap c ≤ 90) ↔ Letter c := by
  have := List.all_eq_true.mp ascii_first c (List.mem_range.mpr hc)
  rw [beq_iff_eq, decide_eq_decide] at this
  exact this.symm

/-! ### Strings -/

theorem strLoop_ok (s : List Nat) : ∀ (n : Nat) (r : List Nat), s.length ≤ n → (∀ c ∈ s, 32 ≤ c ∧ c ≠ 34) →
    strLoop n (rd (s ++ 34 :: r)).1 (rd (s ++ 34 :: r)).2 = (s, 34, r) := by
  induction s with
  | nil =>
    intro n r _ _
    simp only [List.nil_append, rd]
    cases n with
    | zero => rfl
    | succ n => rw [strLoop, if_neg (by simp)]
  | cons x s ih =>
    intro n r hn hs
    obtain ⟨n, rfl⟩ : ∃ k, n = k + 1 := ⟨n - 1, by simp at hn; omega⟩
    simp only [List.length_cons] at hn
    simp only [List.cons_append, rd]
    have hx := hs x (by simp)
    rw [strLoop, if_pos ⟨hx.2, hx.1⟩, ih n r (by omega) fun c hc => hs c (by simp [hc])]

/-! ### Numbers -/

theorem numLoop_cons (n ch c : Nat) (r : List Nat) (hex : Bool) : numLoop (n + 1) ch (c :: r) hex =
    if c < 48 then .ok ([ch], hex, c, r)
    else if 57 < c then
      if 65 ≤ c ∧ c ≤ 70 then (numLoop n (c - 7) r true).bind fun t => .ok (ch :: t.1, t.2)
      else if 97 ≤ c ∧ c ≤ 102 then (numLoop n (c - 0x27) r true).bind fun t => .ok (ch :: t.1, t.2)
      else .ok ([ch], hex, c, r)
    else (numLoop n c r hex).bind fun t => .ok (ch :: t.1, t.2) := rfl

theorem numLoop_ok (ds : List Nat) : ∀ (n d b : Nat) (r : List Nat), ds.length < n → (∀ x ∈ ds, Digit x) → b < 48 →
    numLoop n d (ds ++ b :: r) false = .ok (d :: ds, false, b, r) := by
  induction ds with
  | nil =>
    intro n d b r hn _ hb
    obtain ⟨n, rfl⟩ : ∃ k, n = k + 1 := ⟨n - 1, by omega⟩
    rw [List.nil_append, numLoop_cons]
    rw [if_pos hb]
  | cons x ds ih =>
    intro n d b r hn hd hb
    obtain ⟨n, rfl⟩ : ∃ k, n = k + 1 := ⟨n - 1, by omega⟩
    simp only [List.length_cons] at hn
    obtain ⟨h1, h2⟩ := hd x (by simp)
    rw [List.cons_append, numLoop_cons]
    rw [if_neg (by omega), if_neg (by omega), ih n x b r (by omega) (fun y hy => hd y (by simp [hy])) hb, bind_ok]

theorem foldl_ge (ds : List Nat) : ∀ k, k ≤ ds.foldl (fun k d => 10 * k + (d - 48)) k := by
  induction ds with
  | nil => intro k; exact Nat.le_refl _
  | cons d ds ih =>
    intro k
    rw [List.foldl_cons]
    have := ih (10 * k + (d - 48))
    omega

theorem decFold_ok (ds : List Nat) : ∀ k : Nat, (∀ d ∈ ds, Digit d) → ds.foldl (fun k d => 10 * k + (d - 48)) k ≤ 2147483647 →
    decFold k ds = .ok ((ds.foldl (fun k d => 10 * k + (d - 48)) k : Nat) : Int) := by
  induction ds with
  | nil => intro k _ _; rfl
  | cons d ds ih =>
    intro k hd hk
    rw [List.foldl_cons] at hk ⊢
    have hge := foldl_ge ds (10 * k + (d - 48))
    obtain ⟨h1, h2⟩ := hd d (by simp)
    rw [decFold, chk_ok (by omega), bind_ok, chk_ok (by omega), bind_ok]
    have e : (k : Int) * 10 + ((d : Int) - 48) = ((10 * k + (d - 48) : Nat) : Int) := by omega
    rw [e]
    exact ih _ (fun y hy => hd y (by simp [hy])) hk

/-! ### Real numbers -/

theorem fracLoop_ok (fs : List Nat) : ∀ (n b : Nat) (r : List Nat), fs.length ≤ n → (∀ x ∈ fs, Digit x) → ¬ Digit b →
    fracLoop n (rd (fs ++ b :: r)).1 (rd (fs ++ b :: r)).2 = .ok (b, r) := by
  induction fs with
  | nil =>
    intro n b r _ _ hb
    simp only [List.nil_append, rd]
    cases n with
    | zero => rw [fracLoop, if_neg (by exact hb)]
    | succ n => rw [fracLoop, if_neg (by exact hb)]
  | cons x fs ih =>
    intro n b r hn hd hb
    obtain ⟨n, rfl⟩ : ∃ k, n = k + 1 := ⟨n - 1, by simp at hn; omega⟩
    simp only [List.length_cons] at hn
    simp only [List.cons_append, rd]
    rw [fracLoop, if_pos (by exact hd x (by simp)), ih n b r (by omega) (fun y hy => hd y (by simp [hy])) hb]

theorem int16_id {x : Int} (h : -32768 ≤ x ∧ x ≤ 32767) : int16 x = x := by unfold int16; omega

theorem expLoop_ok (es : List Nat) : ∀ (b : Nat) (r : List Nat) (k : Nat), (∀ x ∈ es, Digit x) → ¬ Digit b → es.foldl (fun k d => 10 * k + (d - 48)) k ≤ 32767 →
    expLoop (rd (es ++ b :: r)).2 (rd (es ++ b :: r)).1 k = (((es.foldl (fun k d => 10 * k + (d - 48)) k : Nat) : Int), b, r) := by
  induction es with
  | nil =>
    intro b r k _ hb _
    simp only [List.nil_append, rd, List.foldl_nil]
    cases r with
    | nil => rw [expLoop, if_neg (by exact hb)]
    | cons c r => rw [expLoop, if_neg (by exact hb)]
  | cons x es ih =>
    intro b r k hd hb hk
    rw [List.foldl_cons] at hk ⊢
    have hx := hd x (by simp)
    have hge := foldl_ge es (10 * k + (x - 48))
    have hx' := hx
    unfold Digit at hx'
    have e : int16 ((k : Int) * 10 + x - 48) = ((10 * k + (x - 48) : Nat) : Int) := by
      rw [int16_id (by omega)]
      omega
    have hi := ih b r (10 * k + (x - 48)) (fun y hy => hd y (by simp [hy])) hb hk
    rw [← e] at hi
    simp only [List.cons_append, rd]
    generalize hl : es ++ b :: r = l at hi ⊢
    cases l with
    | nil => simp at hl
    | cons c l => rw [expLoop, if_pos (by exact hx)]; exact hi

theorem scale_ok (long : Bool) (sign : Option Bool) (es : List Nat) (b : Nat) (r : List Nat) (hd : ∀ x ∈ es, Digit x) (hb : ¬ Digit b) (hs : b ≠ 45 ∧ b ≠ 43) (hk : decimal es ≤ 32767) :
    scale ((scaleText (some (long, sign, es))).tail ++ b :: r) = (sign == some true, (decimal es : Int), b, r) := by
  have h := expLoop_ok es b r 0 hd hb hk
  cases sign with
  | none =>
    have h1 : (rd (es ++ b :: r)).1 ≠ 45 ∧ (rd (es ++ b :: r)).1 ≠ 43 := by
      cases es with
      | nil => exact hs
      | cons x es => have := hd x (by simp); unfold Digit at this; simp only [List.cons_append, rd]; omega
    show scale (es ++ b :: r) = _
    simp only [scale]
    rw [if_neg h1.1, if_neg h1.2]
    exact Prod.ext rfl h
  | some g =>
    cases g with
    | true => exact Prod.ext rfl h
    | false => exact Prod.ext rfl h

/-- The class of a real number, or that its exponent is too large. -/
theorem real_ok (n : Nat) (fs : List Nat) (ex : Option (Bool × Option Bool × List Nat)) (b : Nat) (r : List Nat) (hn : n + fs.length ≤ 32) (hd : ∀ x ∈ fs, Digit x) (hb : Sep b)
    (he : ∀ long sign es, ex = some (long, sign, es) → (∀ x ∈ es, Digit x) ∧ decimal es ≤ 32767) :
    real n false (fs ++ scaleText ex ++ b :: r) =
      match ex with
      | none => .ok (.real, b, r)
      | some (long, sign, es) => if sign ≠ some true ∧ (if long then 308 else 38) < decimal es then .trap else .ok (if long then .longreal else .real, b, r) := by
  have hb' : ¬ Digit b ∧ b ≠ 68 ∧ b ≠ 69 ∧ b ≠ 45 ∧ b ≠ 43 := by rcases hb with (rfl | rfl | rfl) | rfl <;> simp [Digit]
  obtain ⟨b1, b2, b3, b4, b5⟩ := hb'
  cases ex with
  | none =>
    unfold real
    rw [show fs ++ scaleText none ++ b :: r = fs ++ b :: r by simp [scaleText], fracLoop_ok fs (32 - n) b r (by omega) hd b1, bind_ok]
    simp only
    rw [if_neg b2, if_neg b3]
    simp
  | some p =>
    obtain ⟨long, sign, es⟩ := p
    obtain ⟨h1, h2⟩ := he long sign es rfl
    have hs := scale_ok long sign es b r h1 b1 ⟨b4, b5⟩ h2
    cases long with
    | true =>
      have hf := fracLoop_ok fs (32 - n) 68 ((scaleText (some (true, sign, es))).tail ++ b :: r) (by omega) hd (by simp [Digit])
      have e : fs ++ scaleText (some (true, sign, es)) ++ b :: r = fs ++ 68 :: ((scaleText (some (true, sign, es))).tail ++ b :: r) := by simp [scaleText]
      unfold real
      rw [e, hf, bind_ok]
      simp only [if_true]
      rw [hs]
      cases hq : (sign == some true) <;> simp_all
    | false =>
      have hf := fracLoop_ok fs (32 - n) 69 ((scaleText (some (false, sign, es))).tail ++ b :: r) (by omega) hd (by simp [Digit])
      have e : fs ++ scaleText (some (false, sign, es)) ++ b :: r = fs ++ 69 :: ((scaleText (some (false, sign, es))).tail ++ b :: r) := by simp [scaleText]
      unfold real
      rw [e, hf, bind_ok]
      simp only [if_true]
      rw [if_neg (by decide), hs]
      cases hq : (sign == some true) <;> simp_all

/-! ### Tokens -/

/-- What the scanner shall say. -/
def Token.sym : Token → Sym
  | .int neg ds => .int (if neg then -(decimal ds : Int) else decimal ds)
  | .real _ _ _ (some (true, _, _)) => .longreal
  | .real _ _ _ _ => .real
  | .name s => .name s
  | .str s => .str s
  | .chr c => .char c

theorem blank_small {b : Nat} (h : Sep b) : b < 48 ∧ b ≠ 34 ∧ b ≠ 45 ∧ b ≠ 46 ∧ b ≠ 47 ∧ ¬ Digit b := by
  rcases h with (rfl | rfl | rfl) | rfl <;> simp [Digit]

theorem scan_of_skip {S : Sc} {ch : Nat} {rest : List Nat} {line : Int} (h : skip S.rest S.nextCh S.line = (ch, rest, line)) : scan S = scanAt ch rest line := by
  show scanAt (skip S.rest S.nextCh S.line).1 (skip S.rest S.nextCh S.line).2.1 (skip S.rest S.nextCh S.line).2.2 = _
  rw [h]

theorem minus_cons (c : Nat) (r : List Nat) (line : Int) : scanAt 45 (c :: r) line =
    if 48 ≤ c ∧ c ≤ 57 then (number true c r).bind fun t => .ok (t.1, ⟨t.2.1, t.2.2, line⟩) else .ok (.char 45, ⟨c, r, line⟩) := rfl

/-- A number after blanks. -/
theorem scan_number (neg : Bool) (d : Nat) (ds : List Nat) (hd : Digit d) (bl : List Nat) (hbl : ∀ x ∈ bl, Blank x) (b0 : Nat) (hb0 : Blank b0) (line : Int) :
    scan ⟨b0, bl ++ ((if neg then [45] else []) ++ d :: ds), line⟩ = (number neg d ds).bind fun t => .ok (t.1, ⟨t.2.1, t.2.2, line + lines (b0 :: bl)⟩) := by
  cases neg with
  | true =>
    rw [if_pos rfl, List.singleton_append, scan_of_skip (skip_blanks bl b0 45 (d :: ds) line hb0 hbl (by simp [Blank])), minus_cons, if_pos (by exact hd)]
  | false =>
    have hnb : ¬ Blank d := by unfold Blank; unfold Digit at hd; omega
    have hd128 : d < 128 := by unfold Digit at hd; omega
    rw [if_neg (by simp), List.nil_append, scan_of_skip (skip_blanks bl b0 d ds line hb0 hbl hnb), scanAt,
      if_neg (by rintro (h | h | h)
                 · have := (cap_letter hd128).mp h
                   unfold Letter at this; unfold Digit at hd; omega
                 · unfold Digit at hd; omega
                 · unfold Digit at hd; omega), if_neg (by unfold Digit at hd; omega), if_neg (by unfold Digit at hd; omega),
      if_pos (by exact hd)]

theorem number_real (neg : Bool) (d : Nat) (ds fs : List Nat) (ex : Option (Bool × Option Bool × List Nat)) (rest : List Nat) (hd : ∀ x ∈ ds, Digit x) (hl : ds.length < 32) :
    number neg d (ds ++ 46 :: rest) = real (ds.length + 1) false rest := by
  unfold number
  rw [numLoop_ok ds 32 d 46 rest hl hd (by decide), bind_ok]
  simp only [if_true]
  rw [if_neg (by decide)]
  rfl

/-- Before a token there may be blanks: the first of them, or the first character of the token, is in `nextCh`. -/
theorem scan_token (t : Token) (hv : Valid t) (bl : List Nat) (hbl : ∀ x ∈ bl, Blank x) (b0 : Nat) (hb0 : Blank b0) (b : Nat) (hb : Sep b) (r : List Nat) (line : Int) :
    scan ⟨b0, bl ++ (t.text ++ b :: r), line⟩ = .ok (t.sym, ⟨b, r, line + lines (b0 :: bl)⟩) := by
  obtain ⟨s1, s2, s3, s4, s5, s6⟩ := blank_small hb
  cases t with
  | name s =>
    obtain ⟨⟨c, t, rfl, hc, ht⟩, hl⟩ := hv
    have hnb : ¬ Blank c := by unfold Blank; unfold Letter at hc; omega
    have hc128 : c < 128 := by unfold Letter at hc; omega
    rw [scan_of_skip (skip_blanks bl b0 c (t ++ b :: r) line hb0 hbl hnb), scanAt, if_pos (by
      rcases hc with h | h | h
      · exact Or.inl ((cap_letter hc128).mpr h)
      · exact Or.inr (Or.inr h)
      · exact Or.inr (Or.inl h))]
    rw [nameLoop_ok t 63 c b r (by simp at hl; omega) (fun d hd => stop_name (ht d hd)) (stop_blank hb)]
    rfl
  | str s =>
    obtain ⟨hs, hl⟩ := hv
    have e : bl ++ ((Token.str s).text ++ b :: r) = bl ++ 34 :: (s ++ 34 :: b :: r) := by simp [Token.text]
    rw [e, scan_of_skip (skip_blanks bl b0 34 _ line hb0 hbl (by simp [Blank])), scanAt, if_neg (by decide), if_pos rfl, strLoop_ok s 63 _ hl hs]
    rfl
  | chr c =>
    obtain ⟨h1, h2, h3, h4, h5, h6, h7⟩ := hv
    rw [scan_of_skip (skip_blanks bl b0 c (b :: r) line hb0 hbl h1)]
    by_cases hm : c = 45
    · subst hm
      rw [minus_cons, if_neg (by intro h; exact s6 h)]
      rfl
    · rw [scanAt, if_neg (by rintro (h | h | h)
                             · exact h2 ((cap_letter h7).mp h)
                             · exact h6 h
                             · exact h5 h), if_neg h4, if_neg hm, if_neg (by intro h; exact h3 h)]
      rfl
  | real neg ds fs ex =>
    obtain ⟨hne, hl, hd, he⟩ := hv
    obtain ⟨d, ds, rfl⟩ : ∃ d t, ds = d :: t := by
      cases ds with
      | nil => exact absurd rfl hne
      | cons d t => exact ⟨d, t, rfl⟩
    simp only [List.length_cons] at hl
    have e : bl ++ ((Token.real neg (d :: ds) fs ex).text ++ b :: r) = bl ++ ((if neg then [45] else []) ++ d :: (ds ++ 46 :: (fs ++ scaleText ex ++ b :: r))) := by
      simp [Token.text]
    rw [e, scan_number neg d _ (hd d (by simp)) bl hbl b0 hb0 line, number_real neg d ds fs ex _ (fun x hx => hd x (by simp [hx])) (by omega),
      real_ok (ds.length + 1) fs ex b r (by omega) (fun x hx => hd x (by simp [hx])) hb (fun long sign es h => by
        obtain ⟨h1, h2⟩ := he long sign es h
        refine ⟨h1, ?_⟩
        split at h2
        · exact h2
        · split at h2 <;> omega)]
    cases ex with
    | none => rfl
    | some p =>
      obtain ⟨long, sign, es⟩ := p
      obtain ⟨h1, h2⟩ := he long sign es rfl
      simp only
      rw [if_neg (by rintro ⟨h3, h4⟩; rw [if_neg h3] at h2; exact Nat.not_lt.mpr h2 h4)]
      cases long <;> rfl
  | int neg ds =>
    obtain ⟨hne, hl, hd, hval⟩ := hv
    obtain ⟨d, ds, rfl⟩ : ∃ d t, ds = d :: t := by
      cases ds with
      | nil => exact absurd rfl hne
      | cons d t => exact ⟨d, t, rfl⟩
    have hd0 := hd d (by simp)
    have hnum : number neg d (ds ++ b :: r) = .ok (.int (if neg then -(decimal (d :: ds) : Int) else decimal (d :: ds)), b, r) := by
      unfold number
      rw [numLoop_ok ds 32 d b r (by simp at hl; omega) (fun x hx => hd x (by simp [hx])) s1, bind_ok]
      simp only
      rw [if_neg (by omega), if_neg (by omega)]
      have := decFold_ok (d :: ds) 0 hd hval
      simp only [Int.natCast_zero] at this
      rw [this, bind_ok]
      have hval' := hval
      unfold decimal at hval'
      cases neg with
      | true =>
        simp only [if_true]
        rw [chk_ok (by omega), bind_ok]
        rfl
      | false => rfl
    cases neg with
    | true =>
      rw [scan_of_skip (skip_blanks bl b0 45 (d :: ds ++ b :: r) line hb0 hbl (by simp [Blank])), List.cons_append, minus_cons, if_pos (by exact hd0), hnum, bind_ok]
      rfl
    | false =>
      have hnb : ¬ Blank d := by unfold Blank; unfold Digit at hd0; omega
      have hd128 : d < 128 := by unfold Digit at hd0; omega
      rw [scan_of_skip (skip_blanks bl b0 d (ds ++ b :: r) line hb0 hbl hnb), scanAt,
        if_neg (by rintro (h | h | h)
                   · have := (cap_letter hd128).mp h
                     unfold Letter at this; unfold Digit at hd0; omega
                   · unfold Digit at hd0; omega
                   · unfold Digit at hd0; omega), if_neg (by unfold Digit at hd0; omega), if_neg (by unfold Digit at hd0; omega),
        if_pos (by exact hd0), hnum, bind_ok]
      rfl

theorem lines_append (a b : List Nat) : lines (a ++ b) = lines a + lines b := List.count_append

theorem lines_token (t : Token) (hv : Valid t) : lines t.text = 0 := by
  apply List.count_eq_zero.mpr
  intro h
  cases t with
  | name s =>
    obtain ⟨⟨c, t, rfl, hc, ht⟩, _⟩ := hv
    rcases List.mem_cons.mp h with h | h
    · unfold Letter at hc; omega
    · have := ht 13 h; unfold Letter Digit at this; omega
  | str s =>
    obtain ⟨hs, _⟩ := hv
    simp only [Token.text, List.mem_append, List.mem_singleton] at h
    rcases h with (h | h) | h
    · omega
    · have := hs 13 h; omega
    · omega
  | chr c =>
    simp only [Token.text, List.mem_singleton] at h
    exact hv.1 (by rw [← h]; simp [Blank])
  | real neg ds fs ex =>
    obtain ⟨hne, hl, hd, he⟩ := hv
    simp only [Token.text, List.mem_append, List.mem_cons] at h
    have hdig : ¬ Digit 13 := by simp [Digit]
    rcases h with ((h | h) | h | h) | h
    · split at h <;> simp at h
    · exact hdig (hd 13 (by simp [h]))
    · omega
    · exact hdig (hd 13 (by simp [h]))
    · cases ex with
      | none => simp [scaleText] at h
      | some p =>
        obtain ⟨long, sign, es⟩ := p
        have := (he long sign es rfl).1
        simp only [scaleText, List.mem_append, List.mem_cons] at h
        rcases h with (h | h) | h
        · split at h <;> omega
        · split at h <;> simp at h
        · exact hdig (this 13 h)
  | int neg ds =>
    simp only [Token.text] at h
    rcases List.mem_append.mp h with h | h
    · split at h <;> simp at h
    · have := hv.2.2.1 13 h; unfold Digit at this; omega

theorem scans_tokens : ∀ (ts : List (Token × List Nat)) (bl : List Nat) (b0 : Nat) (line : Int), (∀ t ∈ ts, Valid t.1 ∧ t.2 ≠ [] ∧ ∀ x ∈ t.2, Blank x) →
    (∀ x ∈ bl, Blank x) → Blank b0 →
    ∃ b sep l, scans ts.length ⟨b0, bl ++ (ts.map fun t => t.1.text ++ t.2).flatten, line⟩ = .ok (ts.map fun t => t.1.sym, ⟨b, sep, l⟩) ∧ Blank b ∧ (∀ x ∈ sep, Blank x) ∧
      l + (lines (b :: sep) : Int) = line + (lines (b0 :: (bl ++ (ts.map fun t => t.1.text ++ t.2).flatten)) : Int)
  | [], bl, b0, line, _, hbl, hb0 => ⟨b0, bl, line, by simp [scans], hb0, hbl, by simp⟩
  | (t, sp) :: ts, bl, b0, line, h, hbl, hb0 => by
    obtain ⟨hv, hne, hsp⟩ := h (t, sp) (by simp)
    obtain ⟨b, sp, rfl⟩ : ∃ x y, sp = x :: y := by
      cases sp with
      | nil => exact absurd rfl hne
      | cons x y => exact ⟨x, y, rfl⟩
    have hb := hsp b (by simp)
    obtain ⟨b', sep, l, h1, h2, h3, h4⟩ := scans_tokens ts sp b (line + lines (b0 :: bl)) (fun x hx => h x (by simp [hx])) (fun x hx => hsp x (by simp [hx])) hb
    refine ⟨b', sep, l, ?_, h2, h3, ?_⟩
    · simp only [List.length_cons, List.map_cons, List.flatten_cons, scans]
      have e : bl ++ (t.text ++ b :: sp ++ (ts.map fun t => t.1.text ++ t.2).flatten) = bl ++ (t.text ++ b :: (sp ++ (ts.map fun t => t.1.text ++ t.2).flatten)) := by simp
      rw [e, scan_token t hv bl hbl b0 hb0 b (.inl hb) _ line, bind_ok]
      simp only
      rw [h1, bind_ok]
    · rw [h4]
      simp only [List.map_cons, List.flatten_cons]
      rw [lines_cons b0 (bl ++ _), lines_cons b0 bl]
      rw [lines_append, lines_append, lines_append, lines_token t hv, lines_cons b (sp ++ _), lines_append, lines_cons b sp]
      omega

/-- **C61**.  Scanning a text of tokens separated by blanks finds the tokens, one per call, in order; after them it finds 0X, and the line number
is the number of ends of lines in the text. -/
theorem C61_tokens (front : List Nat) (ts : List (Token × List Nat)) (hf : ∀ x ∈ front, Blank x) (ht : ∀ t ∈ ts, Valid t.1 ∧ t.2 ≠ [] ∧ ∀ x ∈ t.2, Blank x) :
    ∃ S, scans ts.length (openScanner (render front ts)) = .ok (ts.map fun t => t.1.sym, S) ∧
      scan S = .ok (.char 0, ⟨0, [], lines (render front ts)⟩) := by
  obtain ⟨b, sep, l, h1, h2, h3, h4⟩ := scans_tokens ts front 32 0 ht hf (Or.inl rfl)
  refine ⟨_, h1, ?_⟩
  rw [scan_of_skip (skip_end sep b l h2 h3), h4]
  show Out.ok _ = _
  rw [lines_cons]
  simp [lines, render, rd]

/-! ### The last token of a text

A text and the text with 0X after it are read alike. -/

/-- What is left is the same, or there is a 0X more. -/
def More (r r' : List Nat) : Prop := r' = r ∨ r' = r ++ [0]

theorem More.rd {r r' : List Nat} (h : More r r') : (rd r').1 = (rd r).1 ∧ More (rd r).2 (rd r').2 := by
  rcases h with rfl | rfl
  · exact ⟨rfl, .inl rfl⟩
  · cases r with
    | nil => exact ⟨rfl, .inl rfl⟩
    | cons c r => exact ⟨rfl, .inr rfl⟩

/-- The same outcome, up to what is left. -/
def Alike {α : Type} (a b : Out (α × Nat × List Nat)) : Prop :=
  ∀ x c r', b = .ok (x, c, r') → ∃ r, a = .ok (x, c, r) ∧ More r r'

theorem Alike.refl {α : Type} (a : Out (α × Nat × List Nat)) : Alike a a := fun _ _ r h => ⟨r, h, .inl rfl⟩

theorem skip_more (r : List Nat) : ∀ (ch : Nat) (line : Int), ((skip (r ++ [0]) ch line).1 = (skip r ch line).1) ∧
    More (skip r ch line).2.1 (skip (r ++ [0]) ch line).2.1 ∧ (skip (r ++ [0]) ch line).2.2 = (skip r ch line).2.2 := by
  induction r with
  | nil =>
    intro ch line
    simp only [List.nil_append, skip]
    by_cases h1 : ch = 13
    · simp [h1, More]
    · by_cases h2 : ch ≠ 32 ∧ ch ≠ 9
      · simp [h1, h2, More]
      · simp [h1, h2, More]
  | cons c r ih =>
    intro ch line
    simp only [List.cons_append, skip]
    by_cases h1 : ch = 13
    · simp only [if_pos h1]
      exact ih c (line + 1)
    · by_cases h2 : ch ≠ 32 ∧ ch ≠ 9
      · simp [h1, h2, More]
      · simp only [if_neg h1, if_neg h2]
        exact ih c line

theorem nameLoop_more : ∀ (n ch : Nat) (r r' : List Nat), More r r' → (nameLoop n ch r').1 = (nameLoop n ch r).1 ∧
    (nameLoop n ch r').2.1 = (nameLoop n ch r).2.1 ∧ More (nameLoop n ch r).2.2 (nameLoop n ch r').2.2
  | 0, _, _, _, h => ⟨rfl, rfl, h⟩
  | n + 1, ch, r, r', h => by
    obtain ⟨h1, h2⟩ := h.rd
    simp only [nameLoop, h1]
    by_cases hs : stop (Scan.rd r).1 = true ∨ n = 0
    · simp only [if_pos hs]
      exact ⟨trivial, trivial, h2⟩
    · simp only [if_neg hs]
      obtain ⟨g1, g2, g3⟩ := nameLoop_more n (Scan.rd r).1 _ _ h2
      exact ⟨by rw [g1], g2, g3⟩

theorem strLoop_more : ∀ (n ch : Nat) (r r' : List Nat), More r r' → (strLoop n ch r').1 = (strLoop n ch r).1 ∧
    (strLoop n ch r').2.1 = (strLoop n ch r).2.1 ∧ More (strLoop n ch r).2.2 (strLoop n ch r').2.2
  | 0, _, _, _, h => ⟨rfl, rfl, h⟩
  | n + 1, ch, r, r', h => by
    obtain ⟨h1, h2⟩ := h.rd
    simp only [strLoop, h1]
    by_cases hs : ch ≠ 34 ∧ 32 ≤ ch
    · simp only [if_pos hs]
      obtain ⟨g1, g2, g3⟩ := strLoop_more n (Scan.rd r).1 _ _ h2
      exact ⟨by rw [g1], g2, g3⟩
    · simp only [if_neg hs]
      exact ⟨trivial, trivial, h⟩

/-- The same outcome of the loop over digits, up to what is left. -/
def Alike4 (a b : Out (List Nat × Bool × Nat × List Nat)) : Prop :=
  (∃ x y c r r', a = .ok (x, y, c, r) ∧ b = .ok (x, y, c, r') ∧ More r r') ∨ (a = b ∧ ∀ t, a ≠ .ok t)

theorem numLoop_more : ∀ (n ch : Nat) (r r' : List Nat) (hex : Bool), More r r' → Alike4 (numLoop n ch r hex) (numLoop n ch r' hex)
  | 0, _, _, _, _, _ => .inr ⟨rfl, fun _ h => by cases h⟩
  | n + 1, ch, r, r', hex, h => by
    obtain ⟨h1, h2⟩ := h.rd
    have key : ∀ c' hex', Alike4 ((numLoop n c' (Scan.rd r).2 hex').bind fun t => .ok (ch :: t.1, t.2))
        ((numLoop n c' (Scan.rd r').2 hex').bind fun t => .ok (ch :: t.1, t.2)) := by
      intro c' hex'
      rcases numLoop_more n c' _ _ hex' h2 with ⟨x, y, c, s, s', g1, g2, g3⟩ | ⟨g1, g2⟩
      · rw [g1, g2]
        exact .inl ⟨_, _, _, _, _, rfl, rfl, g3⟩
      · rw [← g1]
        refine .inr ⟨rfl, fun t ht => ?_⟩
        cases hn : numLoop n c' (Scan.rd r).2 hex' with
        | ok t => exact g2 t hn
        | trap => rw [hn] at ht; cases ht
        | overflow => rw [hn] at ht; cases ht
    simp only [numLoop, h1]
    by_cases c1 : (Scan.rd r).1 < 48
    · simp only [if_pos c1]
      exact .inl ⟨_, _, _, _, _, rfl, rfl, h2⟩
    · simp only [if_neg c1]
      by_cases c2 : 57 < (Scan.rd r).1
      · simp only [if_pos c2]
        by_cases c3 : 65 ≤ (Scan.rd r).1 ∧ (Scan.rd r).1 ≤ 70
        · simp only [if_pos c3]
          exact key _ _
        · simp only [if_neg c3]
          by_cases c4 : 97 ≤ (Scan.rd r).1 ∧ (Scan.rd r).1 ≤ 102
          · simp only [if_pos c4]
            exact key _ _
          · simp only [if_neg c4]
            exact .inl ⟨_, _, _, _, _, rfl, rfl, h2⟩
      · simp only [if_neg c2]
        exact key _ _

theorem fracLoop_more : ∀ (n ch : Nat) (r r' : List Nat), More r r' →
    (∃ c s s', fracLoop n ch r = .ok (c, s) ∧ fracLoop n ch r' = .ok (c, s') ∧ More s s') ∨ (fracLoop n ch r = .trap ∧ fracLoop n ch r' = .trap)
  | 0, ch, r, r', h => by
    simp only [fracLoop]
    by_cases c : 48 ≤ ch ∧ ch ≤ 57
    · simp only [if_pos c]
      exact .inr ⟨trivial, trivial⟩
    · simp only [if_neg c]
      exact .inl ⟨_, _, _, rfl, rfl, h⟩
  | n + 1, ch, r, r', h => by
    obtain ⟨h1, h2⟩ := h.rd
    simp only [fracLoop, h1]
    by_cases c : 48 ≤ ch ∧ ch ≤ 57
    · simp only [if_pos c]
      exact fracLoop_more n _ _ _ h2
    · simp only [if_neg c]
      exact .inl ⟨_, _, _, rfl, rfl, h⟩

theorem expLoop_more (r : List Nat) : ∀ (ch : Nat) (e : Int), (expLoop (r ++ [0]) ch e).1 = (expLoop r ch e).1 ∧
    (expLoop (r ++ [0]) ch e).2.1 = (expLoop r ch e).2.1 ∧ More (expLoop r ch e).2.2 (expLoop (r ++ [0]) ch e).2.2 := by
  induction r with
  | nil =>
    intro ch e
    simp only [List.nil_append, expLoop]
    by_cases c : 48 ≤ ch ∧ ch ≤ 57
    · simp [c, More]
    · simp [c, More]
  | cons x r ih =>
    intro ch e
    simp only [List.cons_append, expLoop]
    by_cases c : 48 ≤ ch ∧ ch ≤ 57
    · simp only [if_pos c]
      exact ih _ _
    · simp only [if_neg c]
      exact ⟨trivial, trivial, .inr rfl⟩

theorem expLoop_more' {r r' : List Nat} (h : More r r') (ch : Nat) (e : Int) : (expLoop r' ch e).1 = (expLoop r ch e).1 ∧
    (expLoop r' ch e).2.1 = (expLoop r ch e).2.1 ∧ More (expLoop r ch e).2.2 (expLoop r' ch e).2.2 := by
  rcases h with rfl | rfl
  · exact ⟨rfl, rfl, .inl rfl⟩
  · exact expLoop_more r ch e

theorem scale_more {r r' : List Nat} (h : More r r') : (scale r').1 = (scale r).1 ∧ (scale r').2.1 = (scale r).2.1 ∧
    (scale r').2.2.1 = (scale r).2.2.1 ∧ More (scale r).2.2.2 (scale r').2.2.2 := by
  obtain ⟨h1, h2⟩ := h.rd
  obtain ⟨h3, h4⟩ := h2.rd
  simp only [scale, h1]
  by_cases c1 : (Scan.rd r).1 = 45
  · simp only [if_pos c1, h3]
    exact ⟨trivial, expLoop_more' h4 _ _⟩
  · simp only [if_neg c1]
    by_cases c2 : (Scan.rd r).1 = 43
    · simp only [if_pos c2, h3]
      exact ⟨trivial, expLoop_more' h4 _ _⟩
    · simp only [if_neg c2]
      exact ⟨trivial, expLoop_more' h2 _ _⟩

theorem real_more (n : Nat) (hex : Bool) {r r' : List Nat} (h : More r r') : Alike (real n hex r) (real n hex r') := by
  obtain ⟨h1, h2⟩ := h.rd
  unfold real
  rw [h1]
  rcases fracLoop_more (32 - n) (Scan.rd r).1 _ _ h2 with ⟨c, s, s', g1, g2, g3⟩ | ⟨g1, g2⟩
  · rw [g1, g2, bind_ok, bind_ok]
    obtain ⟨k1, k2, k3, k4⟩ := scale_more g3
    have key : ∀ (m : Int) (y : Sym) x c' t', (if (!(scale s').1) = true ∧ m < (scale s').2.1 then Out.trap else .ok (y, (scale s').2.2)) = .ok (x, c', t') →
        ∃ t, (if (!(scale s).1) = true ∧ m < (scale s).2.1 then Out.trap else .ok (y, (scale s).2.2)) = .ok (x, c', t) ∧ More t t' := by
      intro m y x c' t' he
      rw [k1, k2] at he
      by_cases c : (!(scale s).1) = true ∧ m < (scale s).2.1
      · rw [if_pos c] at he
        cases he
      · rw [if_neg c] at he ⊢
        injection he with he
        injection he with e1 e2
        have e3 := congrArg Prod.fst e2
        have e4 := congrArg Prod.snd e2
        simp only at e3 e4
        refine ⟨(scale s).2.2.2, ?_, by rw [← e4]; exact k4⟩
        rw [← e1, ← e3, k3]
    intro x c' t' he
    simp only at he ⊢
    by_cases d1 : c = 68
    · simp only [if_pos d1] at he ⊢
      exact key _ _ _ _ _ he
    · simp only [if_neg d1] at he ⊢
      by_cases d2 : c = 69
      · simp only [if_pos d2] at he ⊢
        exact key _ _ _ _ _ he
      · simp only [if_neg d2] at he ⊢
        injection he with he
        injection he with e1 e2
        injection e2 with e3 e4
        exact ⟨s, by rw [e1, e3], by rw [← e4]; exact g3⟩
  · rw [g1, g2]
    exact Alike.refl _

theorem number_more (neg : Bool) (ch : Nat) {r r' : List Nat} (h : More r r') : Alike (number neg ch r) (number neg ch r') := by
  unfold number
  rcases numLoop_more 32 ch r r' false h with ⟨x, y, c, s, s', g1, g2, g3⟩ | ⟨g1, g2⟩
  · rw [g1, g2, bind_ok, bind_ok]
    simp only
    by_cases d1 : c = 72
    · simp only [if_pos d1]
      intro sy c' t' he
      obtain ⟨k1, k2⟩ := g3.rd
      cases hv : hexVal x with
      | trap => rw [hv] at he; cases he
      | overflow => rw [hv] at he; cases he
      | ok k =>
        rw [hv, bind_ok] at he
        rw [bind_ok]
        cases hc : (if neg = true then chk (-k) else Out.ok k) with
        | trap => rw [hc] at he; cases he
        | overflow => rw [hc] at he; cases he
        | ok k' =>
          rw [hc, bind_ok] at he
          rw [bind_ok]
          injection he with he
          injection he with e1 e2
          have e3 := congrArg Prod.fst e2
          have e4 := congrArg Prod.snd e2
          simp only at e3 e4
          exact ⟨(Scan.rd s).2, by rw [← e1, ← e3, k1], by rw [← e4]; exact k2⟩
    · simp only [if_neg d1]
      by_cases d2 : c = 46
      · simp only [if_pos d2]
        exact real_more _ _ g3
      · simp only [if_neg d2]
        intro sy c' t' he
        cases hv : decFold 0 x with
        | trap => rw [hv] at he; cases he
        | overflow => rw [hv] at he; cases he
        | ok k =>
          rw [hv, bind_ok] at he
          rw [bind_ok]
          cases hc : (if neg = true then chk (-k) else Out.ok k) with
          | trap => rw [hc] at he; cases he
          | overflow => rw [hc] at he; cases he
          | ok k' =>
            rw [hc, bind_ok] at he
            rw [bind_ok]
            injection he with he
            injection he with e1 e2
            injection e2 with e3 e4
            exact ⟨s, by rw [← e1, ← e3], by rw [← e4]; exact g3⟩
  · rw [g1]
    exact Alike.refl _

theorem scanAt_more (ch : Nat) {r r' : List Nat} (h : More r r') (line : Int) (x : Sym) (c : Nat) (s' : List Nat) (l : Int)
    (he : scanAt ch r' line = .ok (x, ⟨c, s', l⟩)) : ∃ s, scanAt ch r line = .ok (x, ⟨c, s, l⟩) ∧ More s s' := by
  obtain ⟨h1, h2⟩ := h.rd
  have num : ∀ neg d t t', More t t' → ((number neg d t').bind fun t => Out.ok (t.1, (⟨t.2.1, t.2.2, line⟩ : Sc))) = .ok (x, ⟨c, s', l⟩) →
      ∃ s, ((number neg d t).bind fun t => Out.ok (t.1, (⟨t.2.1, t.2.2, line⟩ : Sc))) = .ok (x, ⟨c, s, l⟩) ∧ More s s' := by
    intro neg d t t' hm he
    cases hn : number neg d t' with
    | trap => rw [hn] at he; cases he
    | overflow => rw [hn] at he; cases he
    | ok v =>
      obtain ⟨v1, v2, v3⟩ := v
      obtain ⟨w, k1, k2⟩ := number_more neg d hm v1 v2 v3 hn
      rw [hn, bind_ok] at he
      rw [k1, bind_ok]
      injection he with he
      injection he with e1 e2
      injection e2 with e3 e4 e5
      exact ⟨w, by rw [e1, e3, e5], by rw [← e4]; exact k2⟩
  unfold scanAt at he ⊢
  simp only [h1] at he
  by_cases c1 : 65 ≤ cap ch ∧ cap ch ≤ 90 ∨ ch = 47 ∨ ch = 46
  · simp only [if_pos c1] at he ⊢
    obtain ⟨g1, g2, g3⟩ := nameLoop_more 63 ch r r' h
    injection he with he
    injection he with e1 e2
    injection e2 with e3 e4 e5
    exact ⟨_, by rw [← e1, ← e3, g1, g2, e5], by rw [← e4]; exact g3⟩
  · simp only [if_neg c1] at he ⊢
    by_cases c2 : ch = 34
    · simp only [if_pos c2] at he ⊢
      obtain ⟨g1, g2, g3⟩ := strLoop_more 63 (Scan.rd r).1 _ _ h2
      obtain ⟨k1, k2⟩ := g3.rd
      injection he with he
      injection he with e1 e2
      injection e2 with e3 e4 e5
      exact ⟨_, by rw [← e1, ← e3, g1, k1, e5], by rw [← e4]; exact k2⟩
    · simp only [if_neg c2] at he ⊢
      by_cases c3 : ch = 45
      · simp only [if_pos c3] at he ⊢
        by_cases c4 : 48 ≤ (Scan.rd r).1 ∧ (Scan.rd r).1 ≤ 57
        · simp only [if_pos c4] at he ⊢
          exact num _ _ _ _ h2 he
        · simp only [if_neg c4] at he ⊢
          injection he with he
          injection he with e1 e2
          injection e2 with e3 e4 e5
          exact ⟨_, by rw [← e1, ← e3, e5], by rw [← e4]; exact h2⟩
      · simp only [if_neg c3] at he ⊢
        by_cases c4 : 48 ≤ ch ∧ ch ≤ 57
        · simp only [if_pos c4] at he ⊢
          exact num _ _ _ _ h he
        · simp only [if_neg c4] at he ⊢
          injection he with he
          injection he with e1 e2
          injection e2 with e3 e4 e5
          exact ⟨_, by rw [← e1, ← e3, e5], by rw [← e4]; exact h2⟩

theorem scan_more (b0 : Nat) (r : List Nat) (line : Int) (x : Sym) (c : Nat) (l : Int)
    (he : scan ⟨b0, r ++ [0], line⟩ = .ok (x, ⟨c, [], l⟩)) : scan ⟨b0, r, line⟩ = .ok (x, ⟨c, [], l⟩) := by
  unfold scan at he ⊢
  simp only at he ⊢
  obtain ⟨h1, h2, h3⟩ := skip_more r b0 line
  rw [h1, h3] at he
  obtain ⟨s, g1, g2⟩ := scanAt_more _ h2 _ _ _ _ _ he
  rcases g2 with g2 | g2
  · rw [g1, g2]
  · simp at g2

theorem scans_snoc : ∀ (n : Nat) (S S' S'' : Sc) (xs : List Sym) (x : Sym), scans n S = .ok (xs, S') → scan S' = .ok (x, S'') →
    scans (n + 1) S = .ok (xs ++ [x], S'')
  | 0, S, S', S'', xs, x, h, g => by
    injection h with h
    injection h with h1 h2
    subst h1 h2
    simp only [scans, g, bind_ok]
    rfl
  | n + 1, S, S', S'', xs, x, h, g => by
    rw [scans] at h ⊢
    cases hs : scan S with
    | trap => rw [hs] at h; cases h
    | overflow => rw [hs] at h; cases h
    | ok t =>
      rw [hs, bind_ok] at h
      rw [bind_ok]
      cases hn : scans n t.2 with
      | trap => rw [hn] at h; cases h
      | overflow => rw [hn] at h; cases h
      | ok u =>
        rw [hn, bind_ok] at h
        injection h with h
        injection h with h1 h2
        rw [scans_snoc n t.2 S' S'' u.1 x (by rw [hn, ← h2]) g, bind_ok, ← h1]
        rfl

/-- The state after tokens, with what follows. -/
theorem scans_prefix : ∀ (ts : List (Token × List Nat)) (bl : List Nat) (b0 : Nat) (line : Int) (tail : List Nat), (∀ t ∈ ts, Valid t.1 ∧ t.2 ≠ [] ∧ ∀ x ∈ t.2, Blank x) →
    (∀ x ∈ bl, Blank x) → Blank b0 →
    ∃ b sep l, scans ts.length ⟨b0, bl ++ (ts.map fun t => t.1.text ++ t.2).flatten ++ tail, line⟩ = .ok (ts.map fun t => t.1.sym, ⟨b, sep ++ tail, l⟩) ∧
      Blank b ∧ (∀ x ∈ sep, Blank x) ∧
      l + (lines (b :: sep) : Int) = line + (lines (b0 :: (bl ++ (ts.map fun t => t.1.text ++ t.2).flatten)) : Int)
  | [], bl, b0, line, tail, _, hbl, hb0 => ⟨b0, bl, line, by simp [scans], hb0, hbl, by simp⟩
  | (t, sp) :: ts, bl, b0, line, tail, h, hbl, hb0 => by
    obtain ⟨hv, hne, hsp⟩ := h (t, sp) (by simp)
    obtain ⟨b, sp, rfl⟩ : ∃ x y, sp = x :: y := by
      cases sp with
      | nil => exact absurd rfl hne
      | cons x y => exact ⟨x, y, rfl⟩
    have hb := hsp b (by simp)
    obtain ⟨b', sep, l, h1, h2, h3, h4⟩ := scans_prefix ts sp b (line + lines (b0 :: bl)) tail (fun x hx => h x (by simp [hx])) (fun x hx => hsp x (by simp [hx])) hb
    refine ⟨b', sep, l, ?_, h2, h3, ?_⟩
    · simp only [List.length_cons, List.map_cons, List.flatten_cons, scans]
      have e : bl ++ (t.text ++ b :: sp ++ (ts.map fun t => t.1.text ++ t.2).flatten) ++ tail =
          bl ++ (t.text ++ b :: (sp ++ (ts.map fun t => t.1.text ++ t.2).flatten ++ tail)) := by simp
      rw [e, scan_token t hv bl hbl b0 hb0 b (.inl hb) _ line, bind_ok]
      simp only
      rw [h1, bind_ok]
    · rw [h4]
      simp only [List.map_cons, List.flatten_cons]
      rw [lines_cons b0 (bl ++ _), lines_cons b0 bl]
      rw [lines_append, lines_append, lines_append, lines_token t hv, lines_cons b (sp ++ _), lines_append, lines_cons b sp]
      omega

/-- **C61**.  The last token need not be followed by anything: it is found at the end of the text too, and the scanner is then at 0X. -/
theorem C61_last_token (front : List Nat) (ts : List (Token × List Nat)) (hf : ∀ x ∈ front, Blank x) (ht : ∀ t ∈ ts, Valid t.1 ∧ t.2 ≠ [] ∧ ∀ x ∈ t.2, Blank x)
    (t : Token) (hv : Valid t) : scans (ts.length + 1) (openScanner (render front ts ++ t.text)) =
      .ok ((ts.map fun t => t.1.sym) ++ [t.sym], ⟨0, [], lines (render front ts)⟩) := by
  obtain ⟨b, sep, l, h1, h2, h3, h4⟩ := scans_prefix ts front 32 0 t.text ht hf (.inl rfl)
  refine scans_snoc _ _ _ _ _ _ h1 ?_
  apply scan_more
  rw [List.append_assoc, scan_token t hv sep h3 b h2 0 (.inr rfl) [] l, h4, lines_cons]
  simp [lines, render]

example : scans 3 (openScanner [49, 32, 97, 13, 50, 46, 53, 69, 51]) = .ok ([.int 1, .name [97], .real], ⟨0, [], 1⟩) :=
  C61_last_token [] [(.int false [49], [32]), (.name [97], [13])] (by simp) (by
    intro t ht
    rcases List.mem_cons.mp ht with rfl | ht
    · exact ⟨by simp [Valid, Digit, decimal], by simp, by simp [Blank]⟩
    · rw [List.mem_singleton] at ht
      subst ht
      exact ⟨by simp [Valid, Letter], by simp, by simp [Blank]⟩) (.real false [50] [53] (some (false, none, [51]))) (by simp [Valid, Digit, decimal])

/-! ### Hexadecimal numbers -/

/-- The value of a hexadecimal digit. -/
def HexDigit (c v : Nat) : Prop := 48 ≤ c ∧ c ≤ 57 ∧ v = c - 48 ∨ 65 ≤ c ∧ c ≤ 70 ∧ v = c - 55 ∨ 97 ≤ c ∧ c ≤ 102 ∧ v = c - 87

/-- The value of hexadecimal digits. -/
def hexadecimal (vs : List Nat) : Nat := vs.foldl (fun k v => 16 * k + v) 0

/-- A number of 32 bits as a LONGINT. -/
def signed (x : Nat) : Int := if x % 2 ^ 32 < 2 ^ 31 then ((x % 2 ^ 32 : Nat) : Int) else ((x % 2 ^ 32 : Nat) : Int) - 2 ^ 32

theorem numLoop_hex : ∀ (cs vs : List Nat) (n d : Nat) (r : List Nat) (hex : Bool), List.Forall₂ HexDigit cs vs → cs.length < n →
    ∃ h', numLoop n d (cs ++ 72 :: r) hex = .ok (d :: vs.map (· + 48), h', 72, r) := by
  intro cs
  induction cs with
  | nil =>
    intro vs n d r hex h hn
    cases h
    obtain ⟨n, rfl⟩ : ∃ k, n = k + 1 := ⟨n - 1, by omega⟩
    refine ⟨hex, ?_⟩
    rw [List.nil_append, numLoop_cons]
    rw [if_neg (by decide), if_pos (by decide), if_neg (by decide), if_neg (by decide)]
    rfl
  | cons c cs ih =>
    intro vs n d r hex h hn
    cases h with
    | cons hc hr =>
    rename_i v vs
    obtain ⟨n, rfl⟩ : ∃ k, n = k + 1 := ⟨n - 1, by omega⟩
    simp only [List.length_cons] at hn
    rw [List.cons_append, numLoop_cons]
    rcases hc with ⟨h1, h2, rfl⟩ | ⟨h1, h2, rfl⟩ | ⟨h1, h2, rfl⟩
    · rw [if_neg (by omega), if_neg (by omega)]
      obtain ⟨h', e⟩ := ih vs n c r hex hr (by omega)
      refine ⟨h', ?_⟩
      rw [e, bind_ok, List.map_cons]
      have : c - 48 + 48 = c := by omega
      rw [this]
    · rw [if_neg (by omega), if_pos (by omega), if_pos ⟨h1, h2⟩]
      obtain ⟨h', e⟩ := ih vs n (c - 7) r true hr (by omega)
      refine ⟨h', ?_⟩
      rw [e, bind_ok, List.map_cons]
      have : c - 55 + 48 = c - 7 := by omega
      rw [this]
    · rw [if_neg (by omega), if_pos (by omega), if_neg (by omega), if_pos ⟨h1, h2⟩]
      obtain ⟨h', e⟩ := ih vs n (c - 0x27) r true hr (by omega)
      refine ⟨h', ?_⟩
      rw [e, bind_ok, List.map_cons]
      have : c - 87 + 48 = c - 0x27 := by omega
      rw [this]

theorem fold_hex (vs : List Nat) : ∀ k, vs.foldl (fun k v => 16 * k + v) k = k * 16 ^ vs.length + hexadecimal vs := by
  induction vs with
  | nil => intro k; simp [hexadecimal]
  | cons v vs ih =>
    intro k
    unfold hexadecimal
    rw [List.foldl_cons, List.foldl_cons, ih, ih, List.length_cons, Nat.pow_succ]
    have : (16 * k + v) * 16 ^ vs.length = k * (16 ^ vs.length * 16) + v * 16 ^ vs.length := by
      rw [Nat.add_mul, Nat.mul_comm 16 k, Nat.mul_assoc, Nat.mul_comm 16]
    simp only [Nat.mul_zero, Nat.zero_add]
    omega

theorem hex_lt (vs : List Nat) (h : ∀ v ∈ vs, v < 16) : hexadecimal vs < 16 ^ vs.length := by
  induction vs with
  | nil => simp [hexadecimal]
  | cons v vs ih =>
    have hv := h v (by simp)
    have := ih fun x hx => h x (by simp [hx])
    unfold hexadecimal
    rw [List.foldl_cons, fold_hex, List.length_cons, Nat.pow_succ]
    have h2 : (16 * 0 + v) * 16 ^ vs.length ≤ 15 * 16 ^ vs.length := Nat.mul_le_mul_right _ (by omega)
    omega

theorem hexFold_ok (vs : List Nat) : ∀ k : Int, (∀ v ∈ vs, v < 16) → -2147483648 ≤ k * 16 ^ vs.length → (k + 1) * 16 ^ vs.length ≤ 2147483648 →
    hexFold k (vs.map (· + 48)) = .ok (k * 16 ^ vs.length + hexadecimal vs) := by
  induction vs with
  | nil => intro k _ _ _; simp [hexFold, hexadecimal]
  | cons v vs ih =>
    intro k hv h1 h2
    have hv0 := hv v (by simp)
    rw [List.length_cons] at h1 h2 ⊢
    have hp : (0 : Int) < 16 ^ vs.length := Int.pow_pos (by omega)
    have e1 : k * 16 ^ (vs.length + 1) = (k * 16) * 16 ^ vs.length := by rw [Int.pow_succ]; rw [Int.mul_comm (16 ^ vs.length) 16, Int.mul_assoc]
    have e2 : (k + 1) * 16 ^ (vs.length + 1) = ((k + 1) * 16) * 16 ^ vs.length := by rw [Int.pow_succ]; rw [Int.mul_comm (16 ^ vs.length) 16, Int.mul_assoc]
    rw [e1] at h1
    rw [e2] at h2
    have hlo : -2147483648 ≤ k * 16 := by
      by_contra hc
      have hneg : k * 16 ≤ -2147483649 := by omega
      have := Int.mul_le_mul_of_nonneg_right hneg (Int.le_of_lt hp)
      have h3 : (-2147483649 : Int) * 16 ^ vs.length ≤ -2147483649 * 1 := Int.mul_le_mul_of_nonpos_left (by omega) (by omega)
      omega
    have hhi : (k + 1) * 16 ≤ 2147483648 := by
      by_contra hc
      have hpos : 2147483649 ≤ (k + 1) * 16 := by omega
      have := Int.mul_le_mul_of_nonneg_right hpos (Int.le_of_lt hp)
      have h3 : (2147483649 : Int) * 1 ≤ 2147483649 * 16 ^ vs.length := Int.mul_le_mul_of_nonneg_left (by omega) (by omega)
      omega
    rw [List.map_cons, hexFold, chk_ok (by omega), bind_ok, chk_ok (by omega), bind_ok]
    have e3 : k * 16 + (((v + 48 : Nat) : Int) - 48) = k * 16 + v := by omega
    rw [e3, ih (k * 16 + v) (fun x hx => hv x (by simp [hx]))]
    · have hh : hexadecimal (v :: vs) = v * 16 ^ vs.length + hexadecimal vs := by
        have := fold_hex vs v
        unfold hexadecimal at this ⊢
        rw [List.foldl_cons, Nat.mul_zero, Nat.zero_add]
        exact this
      rw [hh, e1, Int.add_mul]
      push_cast
      congr 1
      omega
    · have : k * 16 * 16 ^ vs.length ≤ (k * 16 + v) * 16 ^ vs.length := Int.mul_le_mul_of_nonneg_right (by omega) (Int.le_of_lt hp)
      omega
    · have : (k * 16 + v + 1) * 16 ^ vs.length ≤ (k + 1) * 16 * 16 ^ vs.length := Int.mul_le_mul_of_nonneg_right (by omega) (Int.le_of_lt hp)
      omega

theorem hexVal_short (vs : List Nat) (hne : vs ≠ []) (hl : vs.length ≤ 8) (hv : ∀ v ∈ vs, v < 16) : hexVal (vs.map (· + 48)) = .ok (signed (hexadecimal vs)) := by
  obtain ⟨v, t, rfl⟩ : ∃ v t, vs = v :: t := by
    cases vs with
    | nil => exact absurd rfl hne
    | cons v t => exact ⟨v, t, rfl⟩
  have hv0 := hv v (by simp)
  have ht : ∀ x ∈ t, x < 16 := fun x hx => hv x (by simp [hx])
  have hlt := hex_lt t ht
  simp only [List.length_cons] at hl
  have hh : hexadecimal (v :: t) = v * 16 ^ t.length + hexadecimal t := by
    have := fold_hex t v
    unfold hexadecimal at this ⊢
    rw [List.foldl_cons, Nat.mul_zero, Nat.zero_add]
    exact this
  unfold hexVal
  rw [if_neg (by simp; omega)]
  simp only [List.map_cons, List.length_map]
  have e0 : (((v + 48 : Nat) : Int) - 48) = v := by omega
  rw [e0, hh]
  by_cases h7 : t.length = 7
  · have p7 : (16 : Nat) ^ t.length = 268435456 := by rw [h7]; rfl
    have p7' : (16 : Int) ^ t.length = 268435456 := by rw [h7]; rfl
    rw [p7] at hlt ⊢
    by_cases h8 : 8 ≤ v
    · rw [if_pos ⟨h7, by omega⟩, hexFold_ok t _ ht (by rw [p7']; omega) (by rw [p7']; omega), p7']
      unfold signed
      congr 1
      split <;> omega
    · rw [if_neg (by omega), hexFold_ok t _ ht (by rw [p7']; omega) (by rw [p7']; omega), p7']
      unfold signed
      congr 1
      split <;> omega
  · rw [if_neg (by omega)]
    have hp : (16 : Nat) ^ t.length ≤ 16777216 := by
      calc (16 : Nat) ^ t.length ≤ 16 ^ 6 := Nat.pow_le_pow_right (by omega) (by omega)
        _ = 16777216 := rfl
    have hm : (v + 1) * 16 ^ t.length ≤ 16 * 16777216 := Nat.mul_le_mul (by omega) hp
    have hm2 : (v + 1) * 16 ^ t.length = v * 16 ^ t.length + 16 ^ t.length := by rw [Nat.add_mul, Nat.one_mul]
    have c1 : (v : Int) * 16 ^ t.length = ((v * 16 ^ t.length : Nat) : Int) := by push_cast; rfl
    have c2 : ((v : Int) + 1) * 16 ^ t.length = (((v + 1) * 16 ^ t.length : Nat) : Int) := by push_cast; rfl
    rw [hexFold_ok t _ ht (by rw [c1]; omega) (by rw [c2]; omega), c1]
    unfold signed
    congr 1
    generalize v * 16 ^ t.length = w at *
    split <;> omega

theorem hexVal_ok (vs : List Nat) (hne : vs ≠ []) (hv : ∀ v ∈ vs, v < 16) : hexVal (vs.map (· + 48)) = .ok (signed (hexadecimal vs)) := by
  by_cases hl : vs.length ≤ 8
  · exact hexVal_short vs hne hl hv
  · have hne2 : vs.drop (vs.length - 8) ≠ [] := by
      intro h
      have := congrArg List.length h
      simp at this; omega
    have hlen : (vs.drop (vs.length - 8)).length = 8 := by simp; omega
    have hs := hexVal_short (vs.drop (vs.length - 8)) hne2 (by omega) fun v h => hv v (List.mem_of_mem_drop h)
    have e : hexVal (vs.map (· + 48)) = hexVal ((vs.drop (vs.length - 8)).map (· + 48)) := by
      unfold hexVal
      rw [if_pos (by simp; omega), if_neg (by simp; omega)]
      simp only [List.length_map, List.map_drop]
    rw [e, hs]
    congr 1
    have hsum : hexadecimal vs = hexadecimal (vs.take (vs.length - 8)) * 16 ^ 8 + hexadecimal (vs.drop (vs.length - 8)) := by
      have := fold_hex (vs.drop (vs.length - 8)) (hexadecimal (vs.take (vs.length - 8)))
      rw [hlen] at this
      rw [← this]
      unfold hexadecimal
      rw [← List.foldl_append, List.take_append_drop]
    have hmod : hexadecimal vs % 2 ^ 32 = hexadecimal (vs.drop (vs.length - 8)) % 2 ^ 32 := by
      rw [hsum]
      have : (16 : Nat) ^ 8 = 2 ^ 32 := by decide
      rw [this, Nat.mul_add_mod_self_right]
    unfold signed
    rw [hmod]

/-- **C61**.  A hexadecimal number, a decimal digit and up to 31 hexadecimal digits, upper or lower case, before an `H`, has the value its last 32
bits have as a LONGINT. -/
theorem C61_hex (d : Nat) (cs vs : List Nat) (hd : Digit d) (h : List.Forall₂ HexDigit cs vs) (hl : cs.length < 32) (bl : List Nat) (hbl : ∀ x ∈ bl, Blank x)
    (r : List Nat) (line : Int) : scan ⟨32, bl ++ (d :: cs ++ 72 :: r), line⟩ =
      .ok (.int (signed (hexadecimal ((d - 48) :: vs))), ⟨(rd r).1, (rd r).2, line + lines bl⟩) := by
  have hv : ∀ v ∈ (d - 48) :: vs, v < 16 := by
    intro v hv
    rcases List.mem_cons.mp hv with rfl | hv
    · unfold Digit at hd; omega
    · clear hl hbl
      induction h with
      | nil => simp at hv
      | cons hc _ ih =>
        rcases List.mem_cons.mp hv with rfl | hv
        · unfold HexDigit at hc; omega
        · exact ih (by simp [hv]) hv
  obtain ⟨h', e⟩ := numLoop_hex cs vs 32 d r false h (by omega)
  have hnb : ¬ Blank d := by unfold Blank; unfold Digit at hd; omega
  have hnm : d ≠ 45 := by unfold Digit at hd; omega
  have hd128 : d < 128 := by unfold Digit at hd; omega
  rw [scan_of_skip (skip_blanks bl 32 d (cs ++ 72 :: r) line (Or.inl rfl) hbl hnb), scanAt,
    if_neg (by rintro (h | h | h)
               · have := (cap_letter hd128).mp h
                 unfold Letter at this; unfold Digit at hd; omega
               · unfold Digit at hd; omega
               · unfold Digit at hd; omega), if_neg (by unfold Digit at hd; omega), if_neg hnm, if_pos (by exact hd)]
  unfold number
  rw [e, bind_ok]
  simp only [if_true]
  have ed : d :: vs.map (· + 48) = ((d - 48) :: vs).map (· + 48) := by
    rw [List.map_cons]
    have : d - 48 + 48 = d := by unfold Digit at hd; omega
    rw [this]
  rw [ed, hexVal_ok _ (by simp) hv, bind_ok]
  simp only [if_neg (show ¬ false = true by simp), bind_ok]
  rw [lines_cons]
  simp [lines]

/-! ### What `WriteInt` writes -/

theorem decimal_value (ds : List Nat) (h : ∀ d ∈ ds, Digit d) : decimal ds = Verif.Console.Spec.value 10 ds := by
  have key : ∀ (ds : List Nat), (∀ d ∈ ds, Digit d) → ∀ k : Nat, ds.foldl (fun k d => 10 * k + (d - 48)) k = ds.foldl (fun v c => v * 10 + Verif.Console.Spec.digitVal c) k := by
    intro ds
    induction ds with
    | nil => intro _ k; rfl
    | cons d ds ih =>
      intro h k
      obtain ⟨h1, h2⟩ := h d (by simp)
      have e : 10 * k + (d - 48) = k * 10 + Verif.Console.Spec.digitVal d := by
        unfold Verif.Console.Spec.digitVal
        rw [if_pos (by omega)]; omega
      rw [List.foldl_cons, List.foldl_cons, e, ih fun x hx => h x (by simp [hx])]
  exact key ds h 0

/-- The token of an integer. -/
def intToken (x : Int) : Token := .int (decide (x < 0)) ((Nat.toDigits 10 x.natAbs).map Char.toNat)

theorem intToken_ok (x : Int) (h : -2147483647 ≤ x ∧ x ≤ 2147483647) : Valid (intToken x) ∧ (intToken x).sym = .int x ∧ (intToken x).text = Verif.Console.Spec.dec x := by
  have hd : ∀ d ∈ (Nat.toDigits 10 x.natAbs).map Char.toNat, Digit d := Verif.Console.numeral_digits x.natAbs
  have hv : decimal ((Nat.toDigits 10 x.natAbs).map Char.toNat) = x.natAbs := by rw [decimal_value _ hd, Verif.Console.numeral_value]
  refine ⟨⟨Verif.Console.numeral_ne_nil _, ?_, hd, ?_⟩, ?_, ?_⟩
  · have h10 : x.natAbs < 10 ^ 32 := by
      have : (2147483648 : Nat) ≤ 10 ^ 32 := by decide
      omega
    rw [List.length_map]
    exact (Nat.length_toDigits_le_iff (b := 10) (n := x.natAbs) (k := 32) (by omega) (by omega)).mpr h10
  · rw [hv]; omega
  · simp only [intToken, Token.sym, hv, decide_eq_true_eq]
    congr 1
    split <;> omega
  · by_cases hx : x < 0
    · rw [Verif.Console.dec_neg hx]; simp [intToken, Token.text, hx]
    · rw [Verif.Console.dec_nonneg (by omega)]; simp [intToken, Token.text, hx]

theorem written_scans : ∀ (xs : List (Int × Int)) (ws : List (List Nat)), (∀ x ∈ xs, -2147483647 ≤ x.1 ∧ x.1 ≤ 2147483647) →
    List.Forall₂ (fun x w => Verif.Console.writeInt x.1 x.2 = some w) xs ws → ∀ line : Int,
    scans xs.length ⟨32, (ws.map (· ++ [32])).flatten, line⟩ = .ok (xs.map fun x => .int x.1, ⟨32, [], line⟩)
  | _, _, _, .nil, line => rfl
  | x :: xs, w :: ws, h, .cons hw hr, line => by
    have hx := h x (by simp)
    obtain ⟨hv, hs, ht⟩ := intToken_ok x.1 hx
    rw [Verif.Console.C29_write_int (x := x.1) (by omega) (by omega)] at hw
    have hw := Option.some.inj hw
    simp only [List.length_cons, scans, List.map_cons, List.flatten_cons]
    have e : w ++ [32] ++ (ws.map (· ++ [32])).flatten =
        List.replicate (x.2 - ((toString x.1).toList.length : Nat)).toNat 32 ++ ((intToken x.1).text ++ 32 :: (ws.map (· ++ [32])).flatten) := by
      rw [ht, ← hw]
      simp [Verif.Console.Spec.dec]
    rw [e, scan_token _ hv _ (fun y hy => Or.inl (List.eq_of_mem_replicate hy)) 32 (Or.inl rfl) 32 (Or.inl (Or.inl rfl)), bind_ok]
    have hl : lines (32 :: List.replicate (x.2 - ((toString x.1).toList.length : Nat)).toNat 32) = 0 := by
      apply List.count_eq_zero.mpr
      intro hm
      rcases List.mem_cons.mp hm with hm | hm
      · omega
      · have := List.eq_of_mem_replicate hm; omega
    simp only
    rw [hl, written_scans xs ws (fun y hy => h y (by simp [hy])) hr, bind_ok, hs]
    simp

/-- **C61**.  Integers from -(2³¹ − 1) to 2³¹ − 1 that `WriteInt` wrote, in whatever width, with a blank after each, are found again. -/
theorem C61_written (xs : List (Int × Int)) (ws : List (List Nat)) (hx : ∀ x ∈ xs, -2147483647 ≤ x.1 ∧ x.1 ≤ 2147483647)
    (hw : List.Forall₂ (fun x w => Verif.Console.writeInt x.1 x.2 = some w) xs ws) :
    scans xs.length (openScanner (ws.map (· ++ [32])).flatten) = .ok (xs.map fun x => .int x.1, ⟨32, [], 0⟩) :=
  written_scans xs ws hx hw 0

example : List.Forall₂ (fun (x : Int × Int) w => Verif.Console.writeInt x.1 x.2 = some w) [(-12, 5), (7, 0)] [[32, 32, 45, 49, 50], [55]] :=
  .cons (by decide +kernel) (.cons (by decide +kernel) .nil)

/-! ### Examples, and what is not found -/

/-- `  x -12 "a b" Texts.Open + 007`, an end of line and `-1.5D+308`. -/
def exTokens : List (Token × List Nat) :=
  [(.name [120], [32]), (.int true [49, 50], [32]), (.str [97, 32, 98], [9, 32]), (.name [84, 101, 120, 116, 115, 46, 79, 112, 101, 110], [13, 32]),
    (.chr 43, [32]), (.int false [48, 48, 55], [13]), (.real true [49] [53] (some (true, some false, [51, 48, 56])), [32])]

example : (∀ t ∈ exTokens, Valid t.1 ∧ t.2 ≠ [] ∧ ∀ x ∈ t.2, Blank x) := by
  intro t ht
  simp only [exTokens, List.mem_cons, List.not_mem_nil, or_false] at ht
  rcases ht with rfl | rfl | rfl | rfl | rfl | rfl | rfl <;> simp [Valid, Blank, Letter, Digit, decimal]

example : scans 7 (openScanner (render [32, 32] exTokens)) = .ok ([.name [120], .int (-12), .str [97, 32, 98], .name [84, 101, 120, 116, 115, 46, 79, 112, 101, 110],
    .char 43, .int 7, .longreal], ⟨32, [], 2⟩) := by decide +kernel

example : scan ⟨32, [48, 70, 70, 102, 70, 70, 70, 70, 69, 72, 32], 0⟩ = .ok (.int (-2), ⟨32, [], 0⟩) := by decide +kernel

/-- **C61**.  A real number whose exponent is larger than 38, or 308 after D, stops the program. -/
theorem C61_large_exponent (neg : Bool) (ds fs es : List Nat) (long : Bool) (sign : Option Bool) (hne : ds ≠ []) (hl : ds.length + fs.length ≤ 32) (hd : ∀ d ∈ ds ++ fs ++ es, Digit d)
    (hs : sign ≠ some true) (he : (if long then 308 else 38) < decimal es ∧ decimal es ≤ 32767) (b : Nat) (hb : Blank b) (r : List Nat) (line : Int) :
    scan ⟨32, (Token.real neg ds fs (some (long, sign, es))).text ++ b :: r, line⟩ = .trap := by
  obtain ⟨d, ds, rfl⟩ : ∃ d t, ds = d :: t := by
    cases ds with
    | nil => exact absurd rfl hne
    | cons d t => exact ⟨d, t, rfl⟩
  simp only [List.length_cons] at hl
  have e : (Token.real neg (d :: ds) fs (some (long, sign, es))).text ++ b :: r = [] ++ ((if neg then [45] else []) ++ d :: (ds ++ 46 :: (fs ++ scaleText (some (long, sign, es)) ++ b :: r))) := by
    simp [Token.text]
  rw [e, scan_number neg d _ (hd d (by simp)) [] (by simp) 32 (Or.inl rfl) line, number_real neg d ds fs (some (long, sign, es)) _ (fun x hx => hd x (by simp [hx])) (by omega),
    real_ok (ds.length + 1) fs (some (long, sign, es)) b r (by omega) (fun x hx => hd x (by simp [hx])) (.inl hb) (fun long' sign' es' h => by
      cases h
      exact ⟨fun x hx => hd x (by simp [hx]), he.2⟩)]
  simp only
  rw [if_pos ⟨hs, he.1⟩]
  rfl

/-- An exponent beyond INTEGER wraps around: 1.0E65536 is accepted, with the exponent 0, and so is 1.0E40000. -/
theorem C61_exponent_wraps : scan ⟨32, [49, 46, 48, 69, 54, 53, 53, 51, 54, 32], 0⟩ = .ok (.real, ⟨32, [], 0⟩) ∧ scale [54, 53, 53, 51, 54, 32] = (false, 0, 32, []) ∧
    scan ⟨32, [49, 46, 48, 69, 52, 48, 48, 48, 48, 32], 0⟩ = .ok (.real, ⟨32, [], 0⟩) := by decide +kernel

/-- MIN(LONGINT), which `WriteInt` writes, cannot be read: the number overflows before it gets its sign. -/
theorem C61_min : scan ⟨32, [45, 50, 49, 52, 55, 52, 56, 51, 54, 52, 56, 32], 0⟩ = .overflow := by decide +kernel

/-- A name of more than 63 characters is two names. -/
theorem C61_long_name : (scans 2 (openScanner (List.replicate 64 97 ++ [32]))).bind (fun t => .ok t.1) =
    .ok [.name (List.replicate 63 97), .name [97]] := by decide +kernel

/-- More than 32 digits are an index out of range. -/
theorem C61_many_digits : scan ⟨32, List.replicate 33 48 ++ [32], 0⟩ = .trap := by decide +kernel

/-- A letter directly after a number can make it an invalid token. -/
theorem C61_inval : scan ⟨32, [49, 65, 32], 0⟩ = .ok (.inval, ⟨32, [], 0⟩) := by decide +kernel

/-- Characters beyond ASCII count as letters if their low bits are those of a letter: the first byte of `é` in UTF-8 begins a name, the second
ends it. -/
theorem C61_latin : (scans 2 (openScanner [0xC3, 0xA9, 32])).bind (fun t => .ok t.1) = .ok [.name [0xC3], .char 0xA9] := by decide +kernel

/-- What `WriteHex` writes for 255 is an invalid token, and what it writes for -1 is a name; with an `H` after it the first is 255. -/
theorem C61_write_hex : scan ⟨32, Verif.Console.writeHex 255 ++ [32], 0⟩ = .ok (.inval, ⟨32, [], 0⟩) ∧
    scan ⟨32, Verif.Console.writeHex (-1) ++ [32], 0⟩ = .ok (.name (List.replicate 8 70), ⟨32, [], 0⟩) ∧
    scan ⟨32, Verif.Console.writeHex 255 ++ [72, 32], 0⟩ = .ok (.int 255, ⟨32, [], 0⟩) := by decide +kernel

end Verif.Scan
