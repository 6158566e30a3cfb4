import Verif.Expr.Lemmas

/-!
# C41: the C text of an expression means the expression
-/
namespace Verif.Expr

/-! ### Atoms -/

/-- A text that begins with neither a minus sign nor an ampersand. -/
def Plain (ts : List Tok) : Prop := hd ts ≠ .op .minus false ∧ hd ts ≠ .op .amp false

theorem un_star {ts : List Tok} {e : CE} (h : Un ts e) : Un (.op .star false :: ts) (.un .star e) := un_op' h rfl rfl rfl

theorem un_amp {ts : List Tok} {e : CE} (h : Un ts e) (hp : hd ts ≠ .op .amp false) : Un (.op .amp false :: ts) (.un .amp e) :=
  un_op h rfl (glue_amp h.1.start hp) rfl

theorem un_minus {ts : List Tok} {e : CE} (h : Un ts e) (hp : hd ts ≠ .op .minus false) : Un (.op .minus false :: ts) (.un .minus e) :=
  un_op h rfl (glue_minus h.1.start hp) rfl

theorem un_int (v : Int) : Un (intTok v) (cint v) := by
  unfold intTok cint
  by_cases h : v = -(2 ^ 15) ∨ v = -(2 ^ 31) ∨ v = -(2 ^ 63)
  · rw [if_pos h, if_pos h]
    exact un_of_post (post_paren (good_le (good_op (q := 7) (a := [.op .minus false, .num (v.natAbs - 1)])
      (good_un (un_minus (un_of_post (post_num _)) (by simp [hd])) (by omega)) (good_un (un_of_post (post_num 1)) (by omega))
      (by omega) rfl (.inr ⟨rfl, rfl⟩)) (by omega) (by omega)))
  · rw [if_neg h, if_neg h]
    by_cases h1 : v < 0
    · rw [if_pos h1, if_pos h1]; exact un_minus (un_of_post (post_num _)) (by simp [hd])
    · rw [if_neg h1, if_neg h1]; exact un_of_post (post_num _)

theorem un_loc (x : String) (loc : Loc) : Un (complete x loc) (cloc x loc) := by
  cases loc with
  | here => exact un_of_post (post_id x)
  | outer s star =>
    have h := post_arrow (post_id (s ++ "_s")) x
    cases star with
    | false => exact un_of_post h
    | true => exact un_star (un_of_post h)
  | withPtr t =>
    exact un_of_post (post_paren (good_un (un_star (un_cast (n := 1) (un_amp (un_of_post (post_id x)) (by simp [hd])))) (by omega)))

theorem post_loc (x : String) {loc : Loc} (h : locOk loc = true) : Post (complete x loc) (cloc x loc) := by
  cases loc with
  | here => exact post_id x
  | outer s star =>
    cases star with
    | false => exact post_arrow (post_id (s ++ "_s")) x
    | true => cases h
  | withPtr t =>
    exact post_paren (good_un (un_star (un_cast (n := 1) (un_amp (un_of_post (post_id x)) (by simp [hd])))) (by omega))

theorem plain_loc (x : String) (loc : Loc) : Plain (complete x loc) := by
  cases loc with
  | outer s star => cases star <;> simp [Plain, complete, hd]
  | _ => simp [Plain, complete, hd]

theorem dot_loc (x : String) (loc : Loc) : glue (last (complete x loc)) .dot = false := by
  cases loc with
  | outer s star => cases star <;> rfl
  | here => rfl
  | withPtr t => rfl

theorem post_tag (x : String) (loc : Loc) : Post (tagTok x loc) (ctag x loc) := by
  cases loc with
  | outer s star => exact post_arrow (post_id (s ++ "_s")) _
  | _ => exact post_id _

theorem post_len {q : List Tok} {e : CE} {l : Ln} (h : (∃ d, l = .heap d) → Post q e ∧ Plain q) :
    Post (lenTok q l) (clen e l) ∧ Plain (lenTok q l) := by
  cases l with
  | num n => exact ⟨post_num n, by simp [Plain, lenTok, hd]⟩
  | name sc s =>
    cases sc with
    | none => exact ⟨post_id s, by simp [Plain, lenTok, hd]⟩
    | some sc => exact ⟨post_arrow (post_id _) s, by simp [Plain, lenTok, hd]⟩
  | heap d =>
    obtain ⟨hq, hp⟩ := h ⟨d, rfl⟩
    have := post_idx (post_arrow hq "len") (good_un (un_of_post (post_num d)) (Nat.zero_le _))
    refine ⟨by simpa [lenTok, clen] using this, ?_⟩
    unfold Plain lenTok
    rw [hd_append hq.1.ne]; exact hp

theorem good0 {ts : List Tok} {e : CE} (h : Un ts e) : Good 0 ts e := good_un h (by omega)

theorem post_c1 (f : String) {a : List Tok} {ea : CE} (ha : Good 0 a ea) : Post (.id f :: .lp :: a ++ [.rp]) (c1 f ea) :=
  post_call (post_id f) (gi_one ha)

theorem post_c2 (f : String) {a b : List Tok} {ea eb : CE} (ha : Good 0 a ea) (hb : Good 0 b eb) :
    Post (.id f :: .lp :: a ++ .comma :: b ++ [.rp]) (c2 f ea eb) := by
  simpa [c2] using post_call (post_id f) (gi_cons ha (gi_one hb))

theorem post_c3 (f : String) {a b c : List Tok} {ea eb ec : CE} (ha : Good 0 a ea) (hb : Good 0 b eb) (hc : Good 0 c ec) :
    Post (.id f :: .lp :: a ++ .comma :: b ++ .comma :: c ++ [.rp]) (c3 f ea eb ec) := by
  simpa [c3] using post_call (post_id f) (gi_cons ha (gi_cons hb (gi_one hc)))

theorem rem_stop {q : List Tok} {ls : List Ln} {rest : List Tok} (hs : Stop 8 rest) : Stop 9 (remTok q ls ++ rest) := by
  cases ls with
  | nil => exact hs.mono (by omega)
  | cons l' ls' => rfl

theorem chain_rem {q : List Tok} {e : CE} (ls : List Ln) (h : ∀ l ∈ ls, (∃ d, l = .heap d) → Post q e ∧ Plain q) (a : CE)
    (rest : List Tok) (hs : Stop 8 rest) :
    Ev (fun f => chain f 8 a (remTok q ls ++ rest)) (cprod e a ls, rest) := by
  induction ls generalizing a with
  | nil => exact chain_stop a hs
  | cons l ls ih =>
    obtain ⟨F, hF⟩ := ih (fun l hl => h l (List.mem_cons_of_mem _ hl)) (.bin .star a (clen e l))
    have hp : Good 9 (lenTok q l) (clen e l) := good_un (un_of_post (post_len (h l List.mem_cons_self)).1) le_rfl
    obtain ⟨G, hG⟩ := hp.2 _ (rem_stop (q := q) (ls := ls) hs)
    refine Ev.step (max F G) fun f hf => ?_
    beta_reduce at hF hG
    have e1 : remTok q (l :: ls) ++ rest = .op .star true :: (lenTok q l ++ (remTok q ls ++ rest)) := by simp [remTok]
    rw [e1, chain]
    rw [if_pos (by decide), hG f (by omega)]
    exact hF f (by omega)

theorem hd_rem {q : List Tok} {e : CE} (ls : List Ln) (h : ∀ l ∈ ls, (∃ d, l = .heap d) → Post q e ∧ Plain q) {ts : List Tok}
    (ha : Hd ts) : Hd (ts ++ remTok q ls) := by
  induction ls generalizing ts with
  | nil => rw [show remTok q [] = [] from rfl, List.append_nil]; exact ha
  | cons l ls ih =>
    have := ih (fun l hl => h l (List.mem_cons_of_mem _ hl)) (ha.mid (post_len (h l List.mem_cons_self)).1.1 (t := .op .star true) rfl rfl)
    simpa [remTok] using this

theorem good_rem {q : List Tok} {e : CE} (ls : List Ln) (h : ∀ l ∈ ls, (∃ d, l = .heap d) → Post q e ∧ Plain q) {ts : List Tok} {a : CE}
    (ha : Un ts a) : Good 0 (ts ++ remTok q ls) (cprod e a ls) := by
  refine good_le (k := 8) ⟨hd_rem ls h ha.1, fun rest hs => ?_⟩ (by omega) (by omega)
  obtain ⟨F, hF⟩ := (good_nine ha).2 _ (rem_stop (q := q) (ls := ls) hs)
  obtain ⟨G, hG⟩ := chain_rem ls h a rest hs
  refine Ev.step (max F G) fun f hf => ?_
  beta_reduce at hF hG
  rw [List.append_assoc, level, if_neg (by omega), hF f (by omega)]
  exact hG f (by omega)

/-! ### What the text of an expression is, depending on the parameter `prec` -/

/-- Relations and operators between operands, by the precedence the compiler gives them; -1 for others. -/
def lowPrec : Nd → Int
  | .strcmp o _ _ | .rel o _ _ _ => relPrec o
  | .bop o set _ _ _ => bopPrec o set
  | _ => -1

/-- The text with parameter `prec` can be an operand of an operator of that precedence. -/
structure Claim (g : Bool → Int → List Tok) (e : CE) (low : Int) (con opn des : Bool) : Prop where
  un : ∀ d p, -1 ≤ p → p ≤ 10 → low ≤ p → Un (g d p) e
  good : ∀ d (p : Int) (k : Nat), -1 ≤ p → p ≤ 10 → k ≤ 9 → (k : Int) ≤ p + 1 → Good k (g d p) e
  post : opn = false → ∀ d, Post (g d 10) e
  call : opn = false → des = true → Post (g true 11) (.un .star e) ∧ Plain (g true 11)
  minus : con = false → ∀ d p, 9 ≤ p → p ≤ 10 → hd (g d p) ≠ .op .minus false
  amp : opn = false → ∀ d p, 9 ≤ p → p ≤ 10 → hd (g d p) ≠ .op .amp false
  dot : ∀ d, glue (last (g d 10)) .dot = false

theorem par_true (ts : List Tok) : par true ts = .lp :: ts ++ [.rp] := rfl
theorem par_false (ts : List Tok) : par false ts = ts := rfl

theorem plain_lp (ts : List Tok) : Plain (.lp :: ts) := by simp [Plain, hd]

theorem dot_rp (ts : List Tok) : glue (last (.lp :: ts ++ [.rp])) .dot = false := by
  rw [last_append (by simp)]; rfl

/-- Expressions written by `expr` alone whose text is a unary expression. -/
theorem claim_un {g : Bool → Int → List Tok} {ts : List Tok} {e : CE} {q : Int} (hq : q ≤ 10)
    (hg : ∀ d p, g d p = par (decide (q ≤ p)) ts) (h : Un ts e) (con opn : Bool) (hm : con = false → 9 < q → hd ts ≠ .op .minus false)
    (ha : 9 < q → hd ts ≠ .op .amp false) : Claim g e (-1) con opn false := by
  have hu : ∀ d p, Un (g d p) e := by
    intro d p
    rw [hg]
    by_cases hp : q ≤ p
    · rw [decide_eq_true hp, par_true]; exact un_of_post (post_paren (good0 h))
    · rw [decide_eq_false hp, par_false]; exact h
  refine ⟨fun d p _ _ _ => hu d p, fun d p k _ _ hk _ => good_un (hu d p) hk, fun _ d => ?_, (by intro _ h; cases h),
    fun hc d p _ _ => ?_, fun _ d p _ _ => ?_, fun d => ?_⟩
  · rw [hg, decide_eq_true hq, par_true]
    exact post_paren (good0 h)
  · rw [hg]
    by_cases hp : q ≤ p
    · rw [decide_eq_true hp, par_true]; exact (plain_lp _).1
    · rw [decide_eq_false hp, par_false]; exact hm hc (by omega)
  · rw [hg]
    by_cases hp : q ≤ p
    · rw [decide_eq_true hp, par_true]; exact (plain_lp _).2
    · rw [decide_eq_false hp, par_false]; exact ha (by omega)
  · rw [hg, decide_eq_true hq, par_true]; exact dot_rp ts

/-- Those whose text is an operator between operands. -/
theorem claim_op {g : Bool → Int → List Tok} {ts : List Tok} {e : CE} {q : Nat} (hq : q ≤ 8)
    (hg : ∀ d p, g d p = par (decide ((q : Int) ≤ p)) ts) (h : Good q ts e) : Claim g e q false false false := by
  have h0 : Good 0 ts e := good_le h (by omega) (by omega)
  have hb : ∀ d (p : Int), (q : Int) ≤ p → g d p = .lp :: ts ++ [.rp] := by
    intro d p hp
    rw [hg, decide_eq_true hp, par_true]
  have hu : ∀ d (p : Int), (q : Int) ≤ p → Post (g d p) e := by
    intro d p hp
    rw [hb d p hp]
    exact post_paren h0
  refine ⟨fun d p _ _ hl => un_of_post (hu d p hl), fun d p k _ _ hk hkp => ?_, fun _ d => hu d 10 (by omega),
    (by intro _ h; cases h), fun _ d p h9 _ => ?_, fun _ d p h9 _ => ?_, fun d => ?_⟩
  · by_cases hp : (q : Int) ≤ p
    · exact good_un (un_of_post (hu d p hp)) hk
    · rw [hg, decide_eq_false hp, par_false]
      exact good_le h (by omega) (by omega)
  · rw [hb d p (by omega)]; exact (plain_lp _).1
  · rw [hb d p (by omega)]; exact (plain_lp _).2
  · rw [hb d 10 (by omega)]; exact dot_rp ts

theorem pv_of {p : Int} (h : p ≤ 10) : pv p = [] := by unfold pv; rw [if_neg (by omega)]

/-- Designators. -/
theorem claim_des {g : Bool → Int → List Tok} {ts : List Tok} {e : CE} (dp : Int → Int) (opn : Bool)
    (h9 : ∀ p, 9 ≤ dp p ∧ dp p ≤ 10) (hg : ∀ d p, g d p = par (decide (p > dp p)) (pv p ++ ts))
    (h : Un ts e) (hp : opn = false → dp 10 = 10 → Post ts e) (hm : hd ts ≠ .op .minus false)
    (ha : opn = false → hd ts ≠ .op .amp false) (hd' : dp 10 = 10 → glue (last ts) .dot = false) :
    Claim g e (-1) false opn true := by
  have hb : ∀ d p, p ≤ 10 → g d p = .lp :: ts ++ [.rp] ∨ g d p = ts ∧ p ≤ dp p := by
    intro d p hp
    rw [hg, pv_of hp, List.nil_append]
    by_cases hd : p > dp p
    · rw [decide_eq_true hd, par_true]; exact .inl rfl
    · rw [decide_eq_false hd, par_false]; exact .inr ⟨rfl, by omega⟩
  have hu : ∀ d p, p ≤ 10 → Un (g d p) e := by
    intro d p hp
    rcases hb d p hp with hb | ⟨hb, _⟩ <;> rw [hb]
    · exact un_of_post (post_paren (good0 h))
    · exact h
  refine ⟨fun d p _ hp _ => hu d p hp, fun d p k _ hp hk _ => good_un (hu d p hp) hk, fun ho d => ?_, fun _ _ => ?_,
    fun _ d p _ hp => ?_, fun ho d p _ hp => ?_, fun d => ?_⟩
  · rcases hb d 10 le_rfl with hb | ⟨hb, hle⟩ <;> rw [hb]
    · exact post_paren (good0 h)
    · exact hp ho (by have := h9 10; omega)
  · rw [hg, decide_eq_true (by have := h9 11; omega), par_true]
    exact ⟨post_paren (good0 (un_star h)), plain_lp _⟩
  · rcases hb d p hp with hb | ⟨hb, _⟩ <;> rw [hb]
    · exact (plain_lp _).1
    · exact hm
  · rcases hb d p hp with hb | ⟨hb, _⟩ <;> rw [hb]
    · exact (plain_lp _).2
    · exact ha ho
  · rcases hb d 10 le_rfl with hb | ⟨hb, hle⟩ <;> rw [hb]
    · exact dot_rp ts
    · exact hd' (by have := h9 10; omega)

/-- Type guards. -/
theorem claim_guard {g : Bool → Int → List Tok} {ts : List Tok} {e : CE} (chk : Bool)
    (hg : ∀ d p, g d p = par (!d && decide ((if chk then (10 : Int) else 9) ≤ p)) (par (decide (p > if chk then (10 : Int) else 9)) (pv p ++ ts)))
    (h : Un ts e) (hp : chk = true → Post ts e) (hpl : Plain ts) (hd' : chk = true → glue (last ts) .dot = false) :
    Claim g e (-1) false false true := by
  have hb : ∀ d p, p ≤ 10 → (g d p = .lp :: ts ++ [.rp] ∨ ∃ us, g d p = .lp :: us ++ [.rp] ∧ us = .lp :: ts ++ [.rp]) ∨
      g d p = ts ∧ (p = 10 → chk = true) := by
    intro d p hp
    rw [hg, pv_of hp, List.nil_append]
    cases chk
    · cases d
      · by_cases h9 : (9 : Int) ≤ p
        · by_cases h10 : p > 9
          · simp [h9, h10, par]
          · simp [h9, h10, par]
        · simp [h9, par, show ¬ p > 9 by omega]; omega
      · by_cases h10 : p > 9
        · simp [h10, par]
        · simp [h10, par]; omega
    · cases d
      · by_cases h10 : (10 : Int) ≤ p
        · simp [h10, par, show ¬ p > 10 by omega]
        · simp [h10, par, show ¬ p > 10 by omega]
      · simp [par, show ¬ p > 10 by omega]
  have hu : ∀ d p, p ≤ 10 → Un (g d p) e := by
    intro d p hp
    rcases hb d p hp with (hb | ⟨us, hb, rfl⟩) | ⟨hb, _⟩ <;> rw [hb]
    · exact un_of_post (post_paren (good0 h))
    · exact un_of_post (post_paren (good0 (un_of_post (post_paren (good0 h)))))
    · exact h
  refine ⟨fun d p _ hp _ => hu d p hp, fun d p k _ hp hk _ => good_un (hu d p hp) hk, fun _ d => ?_, fun _ _ => ?_,
    fun _ d p _ hp => ?_, fun ho d p _ hp => ?_, fun d => ?_⟩
  · rcases hb d 10 le_rfl with (hb | ⟨us, hb, rfl⟩) | ⟨hb, hc⟩ <;> rw [hb]
    · exact post_paren (good0 h)
    · exact post_paren (good0 (un_of_post (post_paren (good0 h))))
    · exact hp (hc rfl)
  · rw [hg]
    cases chk <;> exact ⟨post_paren (good0 (un_star h)), plain_lp _⟩
  · rcases hb d p hp with (hb | ⟨us, hb, rfl⟩) | ⟨hb, _⟩ <;> rw [hb]
    · exact (plain_lp _).1
    · exact (plain_lp _).1
    · exact hpl.1
  · rcases hb d p hp with (hb | ⟨us, hb, rfl⟩) | ⟨hb, _⟩ <;> rw [hb]
    · exact (plain_lp _).2
    · exact (plain_lp _).2
    · exact hpl.2
  · rcases hb d 10 le_rfl with (hb | ⟨us, hb, rfl⟩) | ⟨hb, hc⟩ <;> rw [hb]
    · exact dot_rp ts
    · exact dot_rp _
    · exact hd' (hc rfl)

theorem low_set {n : Nd} (h : setLike n = true) : lowPrec n ≤ 4 := by
  cases n <;> simp only [setLike] at h <;> simp only [lowPrec] <;> try omega
  · cases h
  · cases h
  · subst h; rename_i o _ _ _; cases o <;> decide

theorem low_atomic {n : Nd} (h : atomic n = true) : lowPrec n = -1 := by
  cases n <;> simp only [atomic] at h <;> first | rfl | cases h

theorem low_le (n : Nd) : lowPrec n ≤ 8 := by
  cases n <;> simp only [lowPrec] <;> try omega
  · rename_i o _ _; cases o <;> decide
  · rename_i o _ _ _; cases o <;> decide
  · rename_i o s _ _ _; cases o <;> cases s <;> decide

theorem const_atomic {n : Nd} (h : isConst n = true) : atomic n = true := by
  cases n <;> first | rfl | cases h

theorem gi_ext {q : List Tok} {e : CE} : ∀ (ls : List Ln), (∀ l ∈ ls, (∃ d, l = .heap d) → Post q e ∧ Plain q) → ∀ {us : List Tok} {es : CEs}
    {ts : List Tok} {a : CE}, Good 0 ts a → (us = [] ∧ es = .nil ∨ ∃ vs, us = .comma :: vs ∧ GI vs es) →
    GI (ts ++ extTok q ls ++ us) (.cons a (clens e ls es))
  | [], _, us, es, ts, a, ha, hu => by
    rw [show extTok q [] = [] from rfl, List.append_nil]
    rcases hu with ⟨rfl, rfl⟩ | ⟨vs, rfl, hv⟩
    · rw [List.append_nil]; exact gi_one ha
    · exact gi_cons ha hv
  | l :: ls, h, us, es, ts, a, ha, hu => by
    have := gi_ext ls (fun l hl => h l (List.mem_cons_of_mem _ hl)) (good0 (un_of_post (post_len (h l List.mem_cons_self)).1)) hu
    have e1 : ts ++ extTok q (l :: ls) ++ us = ts ++ .comma :: (lenTok q l ++ extTok q ls ++ us) := by simp [extTok]
    rw [e1]
    exact gi_cons ha this

theorem heap_len {n : Nd} {l : Ln} (h : lenOk n l = true) (d : Nat) (hd : l = .heap d) : onHeap n = true := by
  subst hd; exact h

theorem good_index {i len : List Tok} {ei el : CE} {chk se : Bool} {p : Int} {g : Int → List Tok} (hi : Good 0 (g (-1)) ei)
    (k : Nat) (hk : k ≤ 9) (hip : Good k (g p) ei) (hl : Post len el) :
    Good k (if chk then .id (if se then "__XF" else "__X") :: .lp :: g (-1) ++ .comma :: len ++ [.rp] else g p)
      (if chk then c2 (if se then "__XF" else "__X") ei el else ei) := by
  cases chk with
  | true => exact good_un (un_of_post (post_c2 _ hi (good0 (un_of_post hl)))) hk
  | false => exact hip

theorem plain_append {a b : List Tok} (hn : a ≠ []) (h : Plain a) : Plain (a ++ b) := by
  unfold Plain; rw [hd_append hn]; exact h

theorem des_const {n : Nd} (h : isDes n = true) : isConst n = false := by
  cases n <;> first | rfl | cases h

/-- The text of a designator that is followed by a component or index. -/
theorem Claim.plain {g : Bool → Int → List Tok} {e : CE} {low : Int} {des : Bool} (h : Claim g e low false false des) (d : Bool) :
    Plain (g d 10) := ⟨h.minus rfl d 10 (by decide) (by decide), h.amp rfl d 10 (by decide) (by decide)⟩

theorem emit_field {l : Nd} (h : ∀ dyn q, l ≠ .deref dyn q) (d : Bool) (f : String) (p : Int) :
    emit d (.field l f) p = par (decide (p > 10)) (pv p ++ (emit true l 10 ++ [.dot, .id f])) := by
  cases l <;> first | exact absurd rfl (h _ _) | simp [emit]

theorem ct_field {l : Nd} (h : ∀ dyn q, l ≠ .deref dyn q) (f : String) : ct (.field l f) = .dot (ct l) f := by
  cases l <;> first | exact absurd rfl (h _ _) | simp [ct]

theorem emit_adr {l : Nd} (h : ∀ x loc arr, l ≠ .varpar x loc arr) (d amp : Bool) (p : Int) :
    emit d (.adr amp l) p =
      par (decide (9 ≤ p)) (castTok "ADDRESS" 0 ++ ((if amp then [.op .amp false] else []) ++ emit false l 9)) := by
  cases l <;> first | exact absurd rfl (h _ _ _) | simp [emit]

theorem ct_adr {l : Nd} (h : ∀ x loc arr, l ≠ .varpar x loc arr) (amp : Bool) :
    ct (.adr amp l) = .cast "ADDRESS" 0 (if amp then .un .amp (ct l) else ct l) := by
  cases l <;> first | exact absurd rfl (h _ _ _) | simp [ct]

mutual
theorem claim_nd : ∀ n, wf n = true → Claim (fun d p => emit d n p) (ct n) (lowPrec n) (isConst n) (isOpen n) (isDes n)
  | .int v, _ => claim_un (q := 10) (by decide) (fun d p => by rw [emit]) (by rw [ct]; exact un_int v) _ _ (fun h => by cases h) (by
      unfold intTok; split; · simp [hd]
      split <;> simp [hd])
  | .lit s, _ => claim_un (q := 10) (by decide) (fun d p => by rw [emit]) (by rw [ct]; exact un_of_post (post_lit s)) _ _
      (fun h => by cases h) (by simp [hd])
  | .rint t v, _ => claim_un (q := 10) (by decide) (fun d p => by rw [emit]) (by rw [ct]; exact un_cast (un_int v)) _ _
      (fun h => by cases h) (by simp [hd, castTok])
  | .rlit ng s, _ => claim_un (q := 10) (by decide) (fun d p => by rw [emit]) (by
      rw [ct]
      cases ng with
      | true => exact un_minus (un_of_post (post_lit s)) (by simp [hd])
      | false => exact un_of_post (post_lit s)) _ _ (fun h => by cases h) (by cases ng <;> simp [hd])
  | .upto bits l r, hw => by
    simp only [wf, Bool.and_eq_true] at hw
    have hl := (claim_nd l hw.1).good false (-1) 0 (by decide) (by decide) (by decide) (by decide)
    have hr := (claim_nd r hw.2).good false (-1) 0 (by decide) (by decide) (by decide) (by decide)
    refine claim_un (q := 10) (by decide) (fun d p => by rw [emit]) ?_ _ _ (fun _ _ => by simp [hd]) (fun _ => by simp [hd])
    rw [ct]
    simpa using un_of_post (post_c3 "__SETRNG" hl hr (good0 (un_of_post (post_num bits))))
  | .var x loc, _ => claim_des (varPrec loc) false
      (fun p => by cases loc <;> simp only [varPrec] <;> first | omega | (split <;> omega))
      (fun d p => by rw [emit]) (by rw [ct]; exact un_loc x loc)
      (fun _ h => by
        rw [ct]
        cases loc with
        | outer s star => simp [varPrec] at h
        | here => exact post_loc x rfl
        | withPtr t => exact post_loc x rfl)
      (plain_loc x loc).1 (fun _ => (plain_loc x loc).2) (fun _ => dot_loc x loc)
  | .varpar x loc arr, hw => by
    simp only [wf] at hw
    have h := post_loc x hw
    refine claim_des (ts := (if arr then [] else [.op .star false]) ++ complete x loc) (fun _ => if arr then 10 else 9) false
      (fun p => by cases arr <;> simp)
      (fun d p => by rw [emit]; simp only [List.append_assoc]) ?_ (fun _ hd => ?_)
      (by cases arr; · simp [hd]
          · exact (plain_loc x loc).1)
      (fun _ => by
          cases arr
          · simp [hd]
          · exact (plain_loc x loc).2)
      (fun h => by
          cases arr
          · cases h
          · exact dot_loc x loc)
    · rw [ct]
      cases arr with
      | true => exact un_of_post h
      | false => exact un_star (un_of_post h)
    · rw [ct]
      cases arr with
      | true => exact h
      | false => cases hd
  | .proc x, _ => claim_des (fun _ => 10) false (fun _ => by simp) (fun d p => by rw [emit])
      (by rw [ct]; exact un_of_post (post_id x)) (fun _ _ => by rw [ct]; exact post_id x)
      (by simp [hd]) (fun _ => by simp [hd]) (fun _ => rfl)
  | .field l f, hw => by
    simp only [wf, Bool.and_eq_true, Bool.not_eq_true'] at hw
    have hp := claim_ptr l hw.1.1
    have hc := claim_nd l hw.1.1
    rw [hw.2, des_const hw.1.2] at hc
    have hl := hc.post rfl true
    have hpl := hc.plain true
    cases l with
    | deref dyn q =>
      obtain ⟨hp, hpp⟩ := hp rfl
      have key := post_arrow hp f
      have kp := plain_append (b := [.arrow, .id f]) hp.1.ne hpp
      simp only [heapPtr, ctPtr] at key kp
      exact claim_des (fun _ => 10) false (fun _ => by simp) (fun d p => by rw [emit]; simp only [List.append_assoc]; rfl)
        (by rw [ct]; exact un_of_post key) (fun _ _ => by rw [ct]; exact key) kp.1 (fun _ => kp.2) (fun _ => by rw [last_append (by simp)]; rfl)
    | _ =>
      have key := post_dot hl (hc.dot true) f
      have kp := plain_append (b := [.dot, .id f]) hl.1.ne hpl
      rw [← ct_field (by intros; simp)] at key
      exact claim_des (fun _ => 10) false (fun _ => by simp) (fun d p => emit_field (by intros; simp) d f p)
        (un_of_post key) (fun _ _ => key) kp.1 (fun _ => kp.2) (fun _ => by rw [last_append (by simp)]; rfl)
  | .deref dyn l, hw => by
    simp only [wf, Bool.and_eq_true, Bool.not_eq_true'] at hw
    have hc := claim_nd l hw.1.1
    rw [hw.2, des_const hw.1.2] at hc
    have hl := hc.post rfl true
    have hpl := plain_append (b := [.arrow, .id "data"]) hl.1.ne (hc.plain true)
    have hpp : Plain (if dyn then emit true l 10 ++ [.arrow, .id "data"] else .op .star false :: emit true l 9) := by
      cases dyn with
      | true => exact hpl
      | false => simp [Plain, hd]
    refine claim_des (fun _ => 9) false (fun _ => by simp) (fun d p => by rw [emit]) ?_ (fun _ h => by cases h)
      hpp.1 (fun _ => hpp.2) (fun h => by cases h)
    rw [ct]
    cases dyn with
    | true => exact un_of_post (post_arrow hl "data")
    | false =>
      exact un_star (hc.un true 9 (by decide) (by decide) (by have := low_le l; omega))
  | .index l i chk len, hw => by
    simp only [wf, Bool.and_eq_true, Bool.not_eq_true'] at hw
    obtain ⟨⟨⟨⟨hl, hds⟩, ho⟩, hi⟩, hlen⟩ := hw
    have hp := claim_ptr l hl
    have hi := (claim_nd i hi).good false (-1) 0 (by decide) (by decide) (by decide) (by decide)
    have hx := good_index (i := []) (chk := chk) (se := sideEff i) (g := emit false i) (p := -1) hi 0 (by omega) hi
      (post_len (q := heapPtr l) (e := ctPtr l) (l := len) (fun ⟨d, hd⟩ => hp (heap_len hlen d hd))).1
    have hc := claim_nd l hl
    rw [ho, des_const hds] at hc
    have hpo := hc.post rfl true
    have key := post_idx hpo hx
    have kp := plain_append (b := .lb :: (if chk then
      .id (if sideEff i then "__XF" else "__X") :: .lp :: emit false i (-1) ++ .comma :: lenTok (heapPtr l) len ++ [.rp]
      else emit false i (-1)) ++ [.rb]) hpo.1.ne (hc.plain true)
    rw [List.append_assoc] at key
    refine claim_des (fun _ => 10) false (fun _ => by simp) (fun d p => by rw [emit, List.append_assoc])
      (by rw [ct]; exact un_of_post key) (fun _ _ => by rw [ct]; exact key) kp.1 (fun _ => kp.2) (fun _ => ?_)
    rw [last_append (by simp), last_append (by simp)]; rfl
  | .hindex op a ix rem, hw => by
    simp only [wf, Bool.and_eq_true, Bool.not_eq_true', List.all_eq_true] at hw
    obtain ⟨⟨⟨⟨ha, hds⟩, ho⟩, hix⟩, hrem⟩ := hw
    have hp := claim_ptr a ha
    have hc := claim_nd a ha
    rw [ho, des_const hds] at hc
    have hpa := hc.post rfl true
    have hpl := hc.plain true
    have hx := claim_ixs a ix (heapPtr a) (ctPtr a) hix hp
    cases op with
    | false =>
      have key := post_idx hpa hx
      exact claim_des (ts := emit true a 10 ++ .lb :: horner (heapPtr a) ix ++ [.rb]) (fun _ => 10) false (fun _ => by simp)
        (fun d p => by simp [emit]) (by rw [ct]; exact un_of_post key) (fun _ _ => by rw [ct]; exact key)
        (by rw [List.append_assoc]; exact (plain_append hpa.1.ne hpl).1)
        (fun _ => by rw [List.append_assoc]; exact (plain_append hpa.1.ne hpl).2)
        (fun _ => by rw [last_append (by simp)]; rfl)
    | true =>
      have hr := good_rem rem (fun l hl ⟨d, hd⟩ => hp (heap_len (hrem l hl) d hd)) (un_of_post (post_paren hx))
      have key := un_amp (un_of_post (post_idx hpa hr)) (by
        rw [List.append_assoc]; exact (plain_append hpa.1.ne hpl).2)
      refine claim_des (ts := .op .amp false :: emit true a 10 ++ .lb :: .lp :: horner (heapPtr a) ix ++ .rp :: remTok (heapPtr a) rem ++ [.rb])
        (fun _ => 10) true (fun _ => by simp) (fun d p => by simp [emit]) ?_ (fun h => by cases h)
        (by simp [hd]) (fun h => by cases h) (fun _ => by rw [last_append (by simp)]; rfl)
      rw [ct]
      simpa using key
  | .guardp chk anon tn lev l, hw => by
    simp only [wf, Bool.and_eq_true] at hw
    have hc := claim_nd l hw.1
    have hl := hc.good false (-1) 0 (by decide) (by decide) (by decide) (by decide)
    cases chk with
    | true =>
      have key := post_c3 (if anon then "__GUARDA" else "__GUARDP") hl (good0 (un_of_post (post_id tn)))
        (good0 (un_of_post (post_num lev)))
      exact claim_guard (ts := _) true (fun d p => by rw [emit]) (by rw [ct]; simpa using un_of_post key) (fun _ => by rw [ct]; simpa using key)
        (by simp [Plain, hd]) (fun _ => by rw [if_pos rfl, last_append (by simp)]; rfl)
    | false =>
      have key := un_cast (t := tn) (n := 0) (hc.un false 9 (by decide) (by decide) (by rw [low_atomic hw.2]; decide))
      exact claim_guard (ts := _) false (fun d p => by rw [emit]) (by rw [ct]; exact key) (fun h => by cases h)
        (by simp [Plain, hd, castTok]) (fun h => by cases h)
  | .guardr chk tn lev x loc, hw => by
    simp only [wf] at hw
    cases chk with
    | true =>
      have hx : Good 0 (currTok x loc) (ccurr x loc) := by
        cases loc with
        | outer s _ => exact good0 (un_of_post (post_arrow (post_id _) x))
        | _ => exact good0 (un_of_post (post_id x))
      have key := post_c3 "__GUARDR" hx (good0 (un_of_post (post_id tn))) (good0 (un_of_post (post_num lev)))
      exact claim_guard (ts := _) true (fun d p => by rw [emit]) (by rw [ct]; simpa using un_of_post key) (fun _ => by rw [ct]; simpa using key)
        (by simp [Plain, hd]) (fun _ => by rw [if_pos rfl, last_append (by simp)]; rfl)
    | false =>
      have key := un_star (un_cast (t := tn) (n := 1) (un_loc x loc))
      exact claim_guard (ts := _) false (fun d p => by rw [emit]) (by rw [ct]; exact key) (fun h => by cases h)
        (by simp [Plain, hd, castTok]) (fun h => by cases h)
  | .not l, hw => by
    simp only [wf] at hw
    refine claim_un (q := 9) (by decide) (fun d p => by rw [emit]) ?_ _ _ (fun _ _ => by simp [hd]) (fun _ => by simp [hd])
    rw [ct]
    exact un_op' ((claim_nd l hw).un false 9 (by decide) (by decide) (by have := low_le l; omega)) rfl rfl rfl
  | .neg set l, hw => by
    simp only [wf, Bool.and_eq_true, Bool.not_eq_true'] at hw
    have hc := claim_nd l hw.1
    have hl9 := hc.un false 9 (by decide) (by decide) (by have := low_le l; omega)
    refine claim_un (q := 9) (by decide) (fun d p => by rw [emit]) ?_ _ _ (fun _ h => by cases h) (fun h => by cases h)
    rw [ct]
    cases set with
    | true => exact un_op' hl9 rfl rfl rfl
    | false => exact un_minus hl9 (hc.minus hw.2 false 9 (by decide) (by decide))
  | .isp l tn lev, hw => by
    simp only [wf] at hw
    have hl := (claim_nd l hw).good false (-1) 0 (by decide) (by decide) (by decide) (by decide)
    refine claim_un (q := 10) (by decide) (fun d p => by rw [emit]) ?_ _ _ (fun _ _ => by simp [hd]) (fun _ => by simp [hd])
    rw [ct]
    simpa using un_of_post (post_c3 "__ISP" hl (good0 (un_of_post (post_id tn))) (good0 (un_of_post (post_num lev))))
  | .isr x loc tn lev, _ => by
    refine claim_un (q := 10) (by decide) (fun d p => by rw [emit]) ?_ _ _ (fun _ _ => by simp [hd]) (fun _ => by simp [hd])
    rw [ct]
    simpa using un_of_post (post_c3 "__IS" (good0 (un_of_post (post_tag x loc))) (good0 (un_of_post (post_id tn)))
      (good0 (un_of_post (post_num lev))))
  | .conv c real l, hw => by
    simp only [wf] at hw
    have hc := claim_nd l hw
    have hl := hc.good false (-1) 0 (by decide) (by decide) (by decide) (by decide)
    have hl9 := hc.un false 9 (by decide) (by decide) (by have := low_le l; omega)
    have hE0 : Good 0 (entierTok real (emit false l (-1)) (emit false l (-1)))
        (if real then c1 "__ENTIER" (ct l) else ct l) := by
      cases real with
      | true => exact good0 (un_of_post (post_c1 "__ENTIER" hl))
      | false => exact hl
    have hE9 : Un (entierTok real (emit false l (-1)) (emit false l 9))
        (if real then c1 "__ENTIER" (ct l) else ct l) := by
      cases real with
      | true => exact un_of_post (post_c1 "__ENTIER" hl)
      | false => exact hl9
    refine claim_un (q := 9) (by decide) (fun d p => by rw [emit]) ?_ _ _ (fun _ h => by cases h) (fun h => by cases h)
    rw [ct]
    cases c with
    | setOf bits => simpa [convTok, cconv] using un_of_post (post_c2 "__SETOF" hE0 (good0 (un_of_post (post_num bits))))
    | short ub =>
      simpa [convTok, cconv] using un_of_post (post_c2 (if sideEff l then "__SHORTF" else "__SHORT") hE0
        (good0 (un_of_post (post_num ub))))
    | size t =>
      cases t with
      | none => exact hE9
      | some t => exact un_cast hE9
    | chr => exact un_of_post (post_c1 _ hE0)
    | chrCast => exact un_cast hE9
    | other => exact hl9
  | .abs real small l, hw => by
    simp only [wf] at hw
    have hl := (claim_nd l hw).good false (-1) 0 (by decide) (by decide) (by decide) (by decide)
    have hpl : Plain (absName real small (sideEff l) ++ .lp :: emit false l (-1) ++ [.rp]) := by
      cases sideEff l <;> cases real <;> cases small <;> simp [Plain, hd, absName, castTok]
    refine claim_un (q := 10) (by decide) (fun d p => by rw [emit]) ?_ _ _ (fun _ _ => hpl.1) (fun _ => hpl.2)
    rw [ct]
    cases sideEff l <;> cases real <;> cases small <;>
      first
        | exact un_of_post (post_c1 _ hl)
        | exact un_cast (n := 0) (un_of_post (post_c1 _ hl))
  | .cap l, hw => by
    simp only [wf] at hw
    have hl := (claim_nd l hw).good false (-1) 0 (by decide) (by decide) (by decide) (by decide)
    refine claim_un (q := 10) (by decide) (fun d p => by rw [emit]) ?_ _ _ (fun _ _ => by simp [hd]) (fun _ => by simp [hd])
    rw [ct]
    exact un_of_post (post_c1 _ hl)
  | .odd l, hw => by
    simp only [wf] at hw
    have hl := (claim_nd l hw).good false (-1) 0 (by decide) (by decide) (by decide) (by decide)
    refine claim_un (q := 10) (by decide) (fun d p => by rw [emit]) ?_ _ _ (fun _ _ => by simp [hd]) (fun _ => by simp [hd])
    rw [ct]
    exact un_of_post (post_c1 _ hl)
  | .adr amp l, hw => by
    simp only [wf, Bool.and_eq_true, Bool.not_eq_true', Bool.and_eq_false_iff] at hw
    have hc := claim_nd l hw.1
    have hl := hc.un false 9 (by decide) (by decide) (by have := low_le l; omega)
    have ham : amp = true → hd (emit false l 9) ≠ .op .amp false := fun h =>
      hc.amp (by rcases hw.2 with h2 | h2; · rw [h] at h2; cases h2
                 · exact h2) false 9 (by decide) (by decide)
    clear hc
    cases l with
    | varpar x loc arr =>
      exact claim_un (q := 9) (by decide) (fun d p => by rw [emit]) (by rw [ct]; exact un_cast (un_loc x loc)) _ _
        (fun _ h => by cases h) (fun h => by cases h)
    | _ =>
      refine claim_un (q := 9) (by decide) (fun d p => emit_adr (by intros; simp) d amp p) ?_ _ _
        (fun _ h => by cases h) (fun h => by cases h)
      rw [ct_adr (by intros; simp)]
      cases amp with
      | true => exact un_cast (n := 0) (un_amp hl (ham rfl))
      | false => exact un_cast (n := 0) hl
  | .val tn addr cast l, hw => by
    simp only [wf] at hw
    have hc := claim_nd l hw
    have hl := hc.good false (-1) 0 (by decide) (by decide) (by decide) (by decide)
    have hl9 := hc.un false 9 (by decide) (by decide) (by have := low_le l; omega)
    refine claim_un (q := 9) (by decide) (fun d p => by rw [emit]) ?_ _ _ (fun _ h => by cases h) (fun h => by cases h)
    rw [ct]
    cases cast with
    | true =>
      cases addr with
      | true =>
        have := un_cast (t := tn) (n := 0) (un_cast (t := "ADDRESS") (n := 0) hl9)
        simpa using this
      | false =>
        have := un_cast (t := tn) (n := 0) hl9
        simpa using this
    | false => exact un_of_post (post_call (post_id "__VAL") (gi_ty tn (gi_one hl)))
  | .len l ln, hw => by
    simp only [wf, Bool.and_eq_true] at hw
    have hp := claim_ptr l hw.1
    have key := post_len (fun ⟨d, hd⟩ => hp (heap_len hw.2 d hd))
    exact claim_un (q := 10) (by decide) (fun d p => by rw [emit]) (by rw [ct]; exact un_of_post key.1) _ _
      (fun _ _ => key.2.1) (fun _ => key.2.2)
  | .fop o small bits l r, hw => by
    simp only [wf, Bool.and_eq_true] at hw
    have hl := (claim_nd l hw.1).good false (-1) 0 (by decide) (by decide) (by decide) (by decide)
    have hr := (claim_nd r hw.2).good false (-1) 0 (by decide) (by decide) (by decide) (by decide)
    refine claim_un (q := 10) (by decide) (fun d p => by rw [emit]) ?_ _ _
      (fun _ _ => by cases o <;> cases small <;> cases sideEff l <;> cases sideEff r <;> simp [hd, fopCast, castTok])
      (fun _ => by cases o <;> cases small <;> cases sideEff l <;> cases sideEff r <;> simp [hd, fopCast, castTok])
    rw [ct]
    obtain ⟨se, hse⟩ : ∃ se, se = (sideEff l || sideEff r) := ⟨_, rfl⟩
    rw [← hse]
    obtain ⟨k, hk⟩ : ∃ k, k = constOf r := ⟨_, rfl⟩
    rw [← hk]
    obtain ⟨nm, hnm⟩ : ∃ nm, nm = fopName o k se (sideEff r) := ⟨_, rfl⟩
    unfold cfop
    rw [← hnm]
    have hb : ∀ v : Int, Good 0 (if v < 0 then intTok (-v) else emit false r (-1)) (if v < 0 then cint (-v) else ct r) := by
      intro v
      by_cases hv : v < 0
      · rw [if_pos hv, if_pos hv]; exact good0 (un_int _)
      · rw [if_neg hv, if_neg hv]; exact hr
    have hbits := good0 (un_of_post (post_num bits))
    cases o with
    | div =>
      have := post_c2 nm hl hr
      cases h : (se && small) with
      | true => simpa [fopCast, fopArg, fopBits, h] using un_cast (t := "int") (n := 0) (un_of_post this)
      | false => simpa [fopCast, fopArg, fopBits, h] using un_of_post this
    | mod =>
      have := post_c2 nm hl hr
      cases small with
      | true => simpa [fopCast, fopArg, fopBits] using un_cast (t := "int") (n := 0) (un_of_post this)
      | false => simpa [fopCast, fopArg, fopBits] using un_of_post this
    | isin => simpa [fopCast, fopArg, fopBits] using un_of_post (post_c3 nm hl hr hbits)
    | msk => simpa [fopCast, fopArg, fopBits] using un_of_post (post_c2 nm hl hr)
    | bit => simpa [fopCast, fopArg, fopBits] using un_of_post (post_c2 nm hl hr)
    | ash =>
      cases k with
      | none => simpa [fopCast, fopArg, fopBits] using un_of_post (post_c2 nm hl hr)
      | some v => simpa [fopCast, fopArg, fopBits] using un_of_post (post_c2 nm hl (hb v))
    | lsh =>
      cases k with
      | none => simpa [fopCast, fopArg, fopBits] using un_of_post (post_c3 nm hl hr hbits)
      | some v => simpa [fopCast, fopArg, fopBits] using un_of_post (post_c3 nm hl (hb v) hbits)
    | rot =>
      cases k with
      | none => simpa [fopCast, fopArg, fopBits] using un_of_post (post_c3 nm hl hr hbits)
      | some v => simpa [fopCast, fopArg, fopBits] using un_of_post (post_c3 nm hl (hb v) hbits)
  | .strcmp o l r, hw => by
    simp only [wf, Bool.and_eq_true] at hw
    have hl := (claim_nd l hw.1).good false (-1) 0 (by decide) (by decide) (by decide) (by decide)
    have hr := (claim_nd r hw.2).good false (-1) 0 (by decide) (by decide) (by decide) (by decide)
    have ha := un_of_post (post_c2 "__STRCMP" hl hr)
    obtain ⟨q, hq, hq8, hrk⟩ : ∃ q : Nat, (q : Int) = relPrec o ∧ q ≤ 8 ∧ rank (crel o) = some q := by
      cases o <;> first | exact ⟨5, rfl, by decide, rfl⟩ | exact ⟨6, rfl, by decide, rfl⟩
    have key := good_op (s := true) (good_un ha (k := q + 1) (by omega)) (good_un (un_of_post (post_num 0)) (k := q + 1) (by omega))
      (by omega) hrk (.inl rfl)
    have ht : relTok o = .op (crel o) true := by cases o <;> rfl
    have := claim_op (g := fun d p => emit d (.strcmp o l r) p) (e := ct (.strcmp o l r)) hq8 (fun d p => by rw [emit]; simp only [← hq, ht]; rfl) (by
      rw [ct]
      have e1 : Tok.id "__STRCMP" :: .lp :: emit false l (-1) ++ .comma :: emit false r (-1) ++ [.rp, .op (crel o) true, .num 0] =
        (Tok.id "__STRCMP" :: .lp :: emit false l (-1) ++ .comma :: emit false r (-1) ++ [.rp]) ++ .op (crel o) true :: [.num 0] := by
        simp
      rw [← e1] at key; exact key)
    rw [hq] at this
    exact this
  | .rel o void l r, hw => by
    simp only [wf, Bool.and_eq_true, Bool.or_eq_true, Bool.not_eq_true'] at hw
    have hcl := claim_nd l hw.1.1
    have hcr := claim_nd r hw.1.2
    obtain ⟨q, hq, hq8, hrk⟩ : ∃ q : Nat, (q : Int) = relPrec o ∧ q ≤ 8 ∧ rank (crel o) = some q := by
      cases o <;> first | exact ⟨5, rfl, by decide, rfl⟩ | exact ⟨6, rfl, by decide, rfl⟩
    have hl := hcl.good false q (q + 1) (by omega) (by omega) (by omega) (by push_cast; omega)
    have hr : Good (q + 1) ((if void then castTok "void" 1 else []) ++ emit false r q)
        (if void then .cast "void" 1 (ct r) else ct r) := by
      cases void with
      | false => exact hcr.good false q (q + 1) (by omega) (by omega) (by omega) (by push_cast; omega)
      | true =>
        have ha : atomic r = true := by rcases hw.2 with h | h; · cases h
                                        · exact h
        exact good_un (un_cast (hcr.un false q (by omega) (by omega) (by rw [low_atomic ha]; omega))) (by omega)
    have key := good_op (s := true) hl hr (by omega) hrk (.inl rfl)
    have ht : relTok o = .op (crel o) true := by cases o <;> rfl
    have := claim_op (g := fun d p => emit d (.rel o void l r) p) (e := ct (.rel o void l r)) hq8
      (fun d p => by rw [emit]; simp only [← hq, ht]; rfl) (by
      rw [ct]
      simpa using key)
    rw [hq] at this
    exact this
  | .bop o set cast l r, hw => by
    simp only [wf, Bool.and_eq_true, Bool.or_eq_true, Bool.not_eq_true'] at hw
    have hcl := claim_nd l hw.1.1
    have hcr := claim_nd r hw.1.2
    obtain ⟨q, hq, hq8⟩ : ∃ q : Nat, (q : Int) = bopPrec o set ∧ q ≤ 8 := by
      cases o <;> cases set <;> exact ⟨_, rfl, by decide⟩
    have hl := hcl.good false q (q + 1) (by omega) (by omega) (by omega) (by push_cast; omega)
    have hr := hcr.good false q (q + 1) (by omega) (by omega) (by omega) (by push_cast; omega)
    have key : Good q (emit false l q ++ bopTok o set cast ++ emit false r q) (cbop o set cast (ct l) (ct r)) := by
      cases o with
      | times =>
        cases set
        · obtain rfl : q = 8 := by simp [bopPrec] at hq; omega
          simpa [bopTok, cbop] using good_op (o := .star) (s := true) hl hr (by omega) rfl (.inl rfl)
        · obtain rfl : q = 4 := by simp [bopPrec] at hq; omega
          simpa [bopTok, cbop] using good_op (o := .amp) (s := true) hl hr (by omega) rfl (.inl rfl)
      | slash =>
        cases set
        · obtain rfl : q = 8 := by simp [bopPrec] at hq; omega
          cases cast with
          | none => simpa [bopTok, cbop] using good_op (o := .slash) (s := true) hl hr (by omega) rfl (.inl rfl)
          | some t =>
            have hr' := good_un (k := 9) (un_cast (t := t) (n := 0) (hcr.un false 8 (by decide) (by decide) (low_le r))) (by omega)
            simpa [bopTok, cbop] using good_op (o := .slash) (s := true) hl hr' (by omega) rfl (.inl rfl)
        · obtain rfl : q = 3 := by simp [bopPrec] at hq; omega
          simpa [bopTok, cbop] using good_op (o := .caret) (s := true) hl hr (by omega) rfl (.inl rfl)
      | plus =>
        cases set
        · obtain rfl : q = 7 := by simp [bopPrec] at hq; omega
          simpa [bopTok, cbop] using good_op (o := .plus) (s := true) hl hr (by omega) rfl (.inl rfl)
        · obtain rfl : q = 2 := by simp [bopPrec] at hq; omega
          simpa [bopTok, cbop] using good_op (o := .bar) (s := true) hl hr (by omega) rfl (.inl rfl)
      | minus =>
        cases set
        · obtain rfl : q = 7 := by simp [bopPrec] at hq; omega
          simpa [bopTok, cbop] using good_op (o := .minus) (s := true) hl hr (by omega) rfl (.inl rfl)
        · obtain rfl : q = 4 := by simp [bopPrec] at hq; omega
          have hs : setLike r = true := by rcases hw.2 with h | h <;> simp_all
          have hr' := good_un (k := 5) (un_op' (o := .tilde) (hcr.un false 4 (by decide) (by decide) (low_set hs)) rfl rfl rfl) (by omega)
          simpa [bopTok, cbop] using good_op (o := .amp) (s := true) hl hr' (by omega) rfl (.inl rfl)
      | and =>
        obtain rfl : q = 1 := by simp [bopPrec] at hq; omega
        simpa [bopTok, cbop] using good_op (o := .andand) (s := true) hl hr (by omega) rfl (.inl rfl)
      | or =>
        obtain rfl : q = 0 := by simp [bopPrec] at hq; omega
        simpa [bopTok, cbop] using good_op (o := .oror) (s := true) hl hr (by omega) rfl (.inl rfl)
    have key2 : Good q (par (o == .and || set && (o == .times || o == .minus))
        (emit false l q ++ bopTok o set cast ++ emit false r q)) (cbop o set cast (ct l) (ct r)) := by
      cases o == .and || set && (o == .times || o == .minus) with
      | false => exact key
      | true => exact good_un (un_of_post (post_paren (good_le key (by omega) (by omega)))) (by omega)
    have := claim_op (g := fun d p => emit d (.bop o set cast l r) p) (e := ct (.bop o set cast l r)) hq8 (fun d p => by rw [emit]; simp only [← hq]; rfl) (by
      rw [ct]
      exact key2)
    rw [hq] at this
    exact this
  | .callp f as, hw => by
    simp only [wf] at hw
    refine claim_un (q := 10) (by decide) (fun d p => by rw [emit]) ?_ _ _ (fun _ _ => by simp [hd]) (fun _ => by simp [hd])
    rw [ct]
    by_cases hn : as = .nil
    · subst hn; exact un_of_post (post_call0 (post_id f))
    · exact un_of_post (post_call (post_id f) (claim_args as hw hn))
  | .callv l as, hw => by
    simp only [wf, Bool.and_eq_true, Bool.not_eq_true'] at hw
    obtain ⟨⟨⟨hl, hds⟩, ho⟩, ha⟩ := hw
    obtain ⟨hl, hpl⟩ := (claim_nd l hl).call ho hds
    have hpa := plain_append (b := .lp :: (emitArgs as ++ [.rp])) hl.1.ne hpl
    refine claim_un (ts := emit true l 11 ++ .lp :: (emitArgs as ++ [.rp])) (q := 10) (by decide) (fun d p => by rw [emit]; simp) ?_ _ _ (fun _ _ => hpa.1) (fun _ => hpa.2)
    rw [ct]
    by_cases hn : as = .nil
    · subst hn
      rw [emitArgs, ctArgs]
      simpa using un_of_post (post_call0 hl)
    · simpa using un_of_post (post_call hl (claim_args as ha hn))
theorem claim_ptr : ∀ n, wf n = true → onHeap n = true → Post (heapPtr n) (ctPtr n) ∧ Plain (heapPtr n)
  | .deref _ q, hw, _ => by
    simp only [wf, Bool.and_eq_true, Bool.not_eq_true'] at hw
    rw [heapPtr, ctPtr]
    have hc := claim_nd q hw.1.1
    rw [hw.2, des_const hw.1.2] at hc
    exact ⟨hc.post rfl true, hc.plain true⟩
  | .hindex _ a _ _, hw, h => by
    simp only [wf, Bool.and_eq_true] at hw
    rw [heapPtr, ctPtr]
    exact claim_ptr a hw.1.1.1.1 h
theorem claim_ixs (a : Nd) : ∀ (ix : Ixs) (q : List Tok) (e : CE), wfIxs a ix = true → (onHeap a = true → Post q e ∧ Plain q) →
    Good 0 (horner q ix) (ctIxs e ix)
  | .one i chk len, q, e, hw, hq => by
    simp only [wfIxs, Bool.and_eq_true] at hw
    have hi := (claim_nd i hw.1).good false (-1) 0 (by decide) (by decide) (by decide) (by decide)
    rw [horner, ctIxs]
    exact good_index (i := []) (chk := chk) (se := sideEff i) (g := emit false i) (p := -1) hi 0 (by omega) hi
      (post_len (q := q) (e := e) (l := len) (fun ⟨d, hd⟩ => hq (heap_len hw.2 d hd))).1
  | .more i chk len rest, q, e, hw, hq => by
    simp only [wfIxs, Bool.and_eq_true] at hw
    have hc := claim_nd i hw.1.1
    have hi := hc.good false (-1) 0 (by decide) (by decide) (by decide) (by decide)
    have hi7 := hc.good false 7 8 (by decide) (by decide) (by decide) (by decide)
    have hlen := post_len (q := q) (e := e) (l := len) (fun ⟨d, hd⟩ => hq (heap_len hw.1.2 d hd)) |>.1
    have hx := good_index (i := []) (chk := chk) (se := sideEff i) (g := emit false i) (p := 7) hi 8 (by omega) hi7 hlen
    have hr := post_paren (claim_ixs a rest q e hw.2 hq)
    have hm := good_op (q := 8) (o := .star) (s := true) (good_un (un_of_post hlen) (by omega)) (good_un (un_of_post hr) (by omega))
      (by omega) rfl (.inl rfl)
    have key := good_op (q := 7) (o := .plus) (s := true) hx hm (by omega) rfl (.inl rfl)
    rw [horner, ctIxs]
    have := good_le (j := 0) key (by omega) (by omega)
    simpa [xName] using this
theorem claim_args : ∀ as : Args, wfArgs as = true → as ≠ .nil → GI (emitArgs as) (ctArgs as)
  | .nil, _, h => absurd rfl h
  | .cons pre n ext rest, hw, _ => by
    simp only [wfArgs, Bool.and_eq_true, List.all_eq_true] at hw
    obtain ⟨⟨⟨hn, hext⟩, hpre⟩, hrest⟩ := hw
    have hc := claim_nd n hn
    have hp := claim_ptr n hn
    have hl := hc.good false (-1) 0 (by decide) (by decide) (by decide) (by decide)
    have hl9 := hc.un false 9 (by decide) (by decide) (by have := low_le n; omega)
    have hr : sepTok (isNil rest) (emitArgs rest) = [] ∧ ctArgs rest = .nil ∨
        ∃ vs, sepTok (isNil rest) (emitArgs rest) = .comma :: vs ∧ GI vs (ctArgs rest) := by
      have ih := claim_args rest hrest
      cases rest with
      | nil => exact .inl ⟨by rw [emitArgs]; rfl, by rw [ctArgs]⟩
      | cons a b c e => exact .inr ⟨_, rfl, ih (by simp)⟩
    rw [emitArgs, ctArgs]
    refine gi_ext ext (fun l hl ⟨d, hd⟩ => hp (heap_len (hext l hl) d hd)) ?_ hr
    cases pre with
    | none => exact hl
    | void => exact good0 (un_cast (hc.un false (-1) (by decide) (by decide) (by rw [low_atomic hpre])))
    | addr => exact good0 (un_amp hl9 (hc.amp (by simpa using hpre) false 9 (by decide) (by decide)))
    | voidAddr => exact good0 (un_cast (un_amp hl9 (hc.amp (by simpa using hpre) false 9 (by decide) (by decide))))
    | chars =>
      exact good0 (un_cast (hc.un false (-1) (by decide) (by decide) (by rw [low_atomic (const_atomic hpre)])))
    | val t void addr =>
      have hv : Un (if addr then .op .amp false :: emit false n 9 else emit false n 10)
          (if addr then .un .amp (ct n) else ct n) := by
        cases addr with
        | true => exact un_amp hl9 (hc.amp (by simpa using hpre) false 9 (by decide) (by decide))
        | false => exact hc.un false 10 (by decide) (by decide) (by have := low_le n; omega)
      cases void with
      | true =>
        have := good0 (un_cast (t := t) (n := 1) (un_cast (t := "void") (n := 1) hv))
        simpa [preTok, cpre] using this
      | false =>
        have := good0 (un_cast (t := t) (n := 1) hv)
        simpa [preTok, cpre] using this
end

/-! ### The theorems -/

/-- **C41.**  The text of an expression, read by the grammar of C, has the structure of the expression: whatever operators are
nested, and whatever the text is an operand of (`p` is the precedence of the surrounding operator), every operator gets the
operands it has in the source, and nothing is left over. -/
theorem C41_structure (n : Nd) (h : wf n = true) (d : Bool) (p : Int) (h1 : -1 ≤ p) (h2 : p ≤ 10) : Reads (emit d n p) (ct n) := by
  have := ((claim_nd n h).good d p 0 h1 h2 (by omega) (by push_cast; omega)).2 [] (by simp [Stop])
  simpa [Reads, Ev] using this

/-- **C41.**  No two tokens of the text run together. -/
theorem C41_tokens (n : Nd) (h : wf n = true) (d : Bool) (p : Int) (h1 : -1 ≤ p) (h2 : p ≤ 10) : Apart (emit d n p) :=
  ((claim_nd n h).good d p 0 h1 h2 (by omega) (by push_cast; omega)).1.apart

/-- **C41.**  A sequence of tokens is the text of one expression of C only. -/
theorem C41_one_reading {ts : List Tok} {e e' : CE} (h : Reads ts e) (h' : Reads ts e') : e = e' := by
  obtain ⟨F, h⟩ := h
  obtain ⟨F', h'⟩ := h'
  have h1 := h (max F F') (le_max_left _ _)
  rw [h' (max F F') (le_max_right _ _)] at h1
  exact (congrArg Prod.fst (Option.some.inj h1)).symm

/-- **C41.**  The arguments of a call are separated as in the source. -/
theorem C41_arguments (f : String) (as : Args) (h : wfArgs as = true) : Reads (emit false (.callp f as) (-1)) (.call (.id f) (ctArgs as)) := by
  have := C41_structure (.callp f as) h false (-1) (by decide) (by decide)
  simpa only [ct] using this

/-- **C41, a deviation.**  A checked type guard on a VAR parameter of an enclosing procedure names the scope of that procedure
`s__curr`; every other use of the parameter names it `s_s`, and only this name is declared. -/
theorem C41_guard_outer (tn x s : String) (lev : Nat) (star : Bool) :
    Tok.id (s ++ "__curr") ∈ emit true (.guardr true tn lev x (.outer s star)) 10 ∧
    Tok.id (s ++ "_s") ∈ emit true (.varpar x (.outer s star) false) 10 ∧
    s ++ "__curr" ≠ s ++ "_s" := by
  refine ⟨by simp [emit, par, pv, currTok], by simp [emit, par, pv, complete], ?_⟩
  intro h
  have := congrArg String.length h
  simp [String.length_append] at this
  revert this; decide

/-! ### Examples -/

/-- `a - (b - c)`. -/
example : emit false (.bop .minus false none (.var "a" .here) (.bop .minus false none (.var "b" .here) (.var "c" .here))) (-1) =
    [.id "a", .op .minus true, .lp, .id "b", .op .minus true, .id "c", .rp] := by decide

/-- `p.v[i + 1].x * -(a[j, k] DIV 2) < f(y)`, where the pointer is a VAR parameter of an enclosing procedure, `a` is an open
array of two dimensions on the heap and `y` is passed as a VAR parameter. -/
def sample : Nd :=
  .rel .lss false
    (.bop .times false none
      (.field (.index (.field (.deref false (.varpar "p" (.outer "Q" false) false)) "v")
        (.bop .plus false none (.var "i" .here) (.int 1)) true (.num 10)) "x")
      (.neg false (.fop .div false 64
        (.hindex false (.deref true (.var "a" .here)) (.more (.var "k" .here) true (.heap 1) (.one (.var "j" .here) true (.heap 0))) [])
        (.int (-2)))))
    (.callp "f" (.cons .addr (.var "y" .here) [] .nil))

example : wf sample = true := by decide

example : emit false sample (-1) =
    [.lp, .op .star false, .id "Q_s", .arrow, .id "p", .rp, .arrow, .id "v", .lb, .id "__X", .lp, .id "i", .op .plus true, .num 1, .comma, .num 10, .rp, .rb,
      .dot, .id "x", .op .star true, .op .minus false, .id "__DIV", .lp,
      .lp, .id "a", .arrow, .id "data", .rp, .lb, .id "__X", .lp, .id "k", .comma, .id "a", .arrow, .id "len", .lb, .num 1, .rb, .rp, .op .plus true,
      .id "a", .arrow, .id "len", .lb, .num 1, .rb, .op .star true, .lp, .id "__X", .lp, .id "j", .comma,
      .id "a", .arrow, .id "len", .lb, .num 0, .rb, .rp, .rp, .rb, .comma, .op .minus false, .num 2, .rp,
      .op .lt true, .id "f", .lp, .op .amp false, .id "y", .rp] := by decide

example : Reads (emit false sample (-1)) (ct sample) := C41_structure sample (by decide) false (-1) (by decide) (by decide)

/-- The negation of a negative constant, which the compiler evaluates, would be read as a decrement. -/
example : ¬ Apart (emit false (.neg false (.int (-5))) (-1)) := by
  simp only [show emit false (.neg false (.int (-5))) (-1) = [.op .minus false, .op .minus false, .num 5] from by decide, Apart]
  decide

end Verif.Expr
