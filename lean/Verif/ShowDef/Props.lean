import Verif.ShowDef.Round

/-!
# C91: the text of a definition says exactly what is exported
-/
namespace Verif.ShowDef

/-- C91: the text written for a type, read again, gives the type with its exported fields and methods, and nothing else; the
text after it is not touched. -/
theorem C91_type (t : Ty) (h : t.Ok) :
    ∃ N, ∀ n ≥ N, ∀ rest, Follow rest → readTy n (wtype t ++ rest) = some (t.visible, rest) := ty_reads t h

/-- The kind of a procedure before its code is read. -/
def Kind.blank : Kind → Kind
  | .code _ => .code []
  | k => k

theorem readKind_ok (k : Kind) {n s : List Char} (h : Ident n) :
    (readKind (wkind k ++ (n ++ s))).2 = n ++ s ∧
    ((readKind (wkind k ++ (n ++ s))).1 = k.blank) := by
  cases k with
  | plain =>
    obtain ⟨c, h1, h2⟩ := ident_head (s := s) h
    rw [wkind, List.nil_append]
    cases hns : n ++ s with
    | nil => rw [hns] at h1; cases h1
    | cons d r =>
      rw [hns] at h1
      cases h1
      unfold readKind
      split
      · rename_i e; cases e; exact absurd h2 (by decide)
      · rename_i e; cases e; exact absurd h2 (by decide)
      · exact ⟨rfl, rfl⟩
  | inl => exact ⟨rfl, rfl⟩
  | code c => exact ⟨rfl, rfl⟩

theorem readCode_ok (k : Kind) (h : k.Ok) (s : List Char) :
    readCode k.blank (wcode k ++ s) = some (k, s) := by
  cases k with
  | plain => rfl
  | inl => rfl
  | code c =>
    have htd := takeDrop (p := fun d => decide (d ≠ '"')) (n := c) (s := '"' :: s)
      (fun d hd => by
        have : d ≠ '"' := fun e => h (e ▸ hd)
        simpa using this) (fun d hd => by cases hd; decide)
    have e : wcode (.code c) ++ s = ' ' :: ' ' :: '"' :: (c ++ '"' :: s) := by simp [wcode]
    simp only [Kind.blank, readCode]
    rw [e, skip3]
    simp only [Option.bind_eq_bind, Option.bind_some]
    rw [htd.1, htd.2, skip1]
    rfl

/-- C91: the text written for a type, a variable or a procedure, read again, gives the declaration with its exported parts: name,
mark, parameters, result, code.  This is for code without quotes (see `C91_code_quote`). -/
theorem C91_decl_partial (d : Decl) (h : d.Ok) :
    ∃ N, ∀ n ≥ N, ∀ rest, readDecl n (wdecl d ++ rest) = some (d.visible, rest) := by
  match d, h with
  | .typ hid w t, h =>
    obtain ⟨N, hN⟩ := ty_reads t h.2
    refine ⟨N, fun n hn rest => ?_⟩
    have e : wdecl (.typ hid w t) ++ rest =
        indent 2 ++ ((if hid then ['#'] else []) ++ (w ++ (' ' :: '=' :: ' ' :: (wtype t ++ (';' :: '\n' :: rest))))) := by
      simp [wdecl]
    rw [e]
    unfold readDecl
    cases hid
    · simp only [Bool.false_eq_true, if_false, List.nil_append]
      rw [blanks_indent 2 (ident_head_ne h.1 (by decide)), if_neg (ident_head_ne h.1 (by decide)),
        word_append h.1.2.1 (stop_cons (by decide))]
      dsimp only
      rw [if_neg (not_reserved h.1).2.1, if_pos (List.head?_cons ..), skip3]
      simp only [Option.bind_eq_bind, Option.bind_some]
      rw [hN n hn _ (Or.inl rfl), Option.bind_some]
      dsimp only
      rw [skip2]
      rfl
    · simp only [if_true, List.singleton_append]
      rw [blanks_indent 2 (by simp), if_pos (List.head?_cons ..), List.tail_cons, word_append h.1.2.1 (stop_cons (by decide))]
      dsimp only
      rw [skip3]
      simp only [Option.bind_eq_bind, Option.bind_some]
      rw [hN n hn _ (Or.inl rfl), Option.bind_some]
      dsimp only
      rw [skip2]
      rfl
  | .var w ro t, h =>
    obtain ⟨N, hN⟩ := ty_reads t h.2
    refine ⟨N, fun n hn rest => ?_⟩
    have e : wdecl (.var w ro t) ++ rest =
        indent 2 ++ (w ++ ((if ro then ['-'] else []) ++ (':' :: ' ' :: (wtype t ++ (';' :: '\n' :: rest))))) := by
      simp [wdecl]
    have hs : Stop ((if ro then ['-'] else []) ++ (':' :: ' ' :: (wtype t ++ (';' :: '\n' :: rest)))) := by
      cases ro
      · exact stop_cons (by decide)
      · exact stop_cons (by decide)
    have hh : ((if ro then ['-'] else []) ++ (':' :: ' ' :: (wtype t ++ (';' :: '\n' :: rest)))).head? ≠ some ' ' := by
      cases ro <;> simp
    rw [e]
    unfold readDecl
    rw [blanks_indent 2 (ident_head_ne h.1 (by decide)), if_neg (ident_head_ne h.1 (by decide)), word_append h.1.2.1 hs]
    dsimp only
    rw [if_neg (not_reserved h.1).2.1, if_neg hh, readMark_ok ro (by simp)]
    dsimp only
    rw [skip2]
    simp only [Option.bind_eq_bind, Option.bind_some]
    rw [hN n hn _ (Or.inl rfl), Option.bind_some]
    dsimp only
    rw [skip2]
    rfl
  | .proc k w ps r, h =>
    obtain ⟨hk, hw, hps, hr⟩ := h
    obtain ⟨N, hN⟩ := sign_reads hps (pars_reads ps hps) (res_reads r hr)
    refine ⟨N, fun n hn rest => ?_⟩
    generalize hS : sign (r.isSome || !ps.isNil) (wpars ps) (wres r) = S at hN
    have e : wdecl (.proc k w ps r) ++ rest =
        indent 1 ++ ("PROCEDURE".toList ++ (' ' :: (wkind k ++ (w ++ (S ++ (wcode k ++ (';' :: '\n' :: rest))))))) := by
      have : "PROCEDURE ".toList = "PROCEDURE".toList ++ [' '] := by decide
      rw [wdecl, this, hS]
      simp only [List.append_assoc, List.cons_append, List.nil_append]
    have hf : Follow (wcode k ++ (';' :: '\n' :: rest)) := by
      cases k with
      | plain => exact Or.inl rfl
      | inl => exact Or.inl rfl
      | code c => exact Or.inr (Or.inr rfl)
    have hs : Stop (S ++ (wcode k ++ (';' :: '\n' :: rest))) := by
      rw [← hS]
      unfold sign
      by_cases hp : (r.isSome || !ps.isNil) = true
      · rw [if_pos hp]; exact stop_cons (by decide)
      · rw [if_neg hp]
        cases r with
        | none => rw [wres]; exact stop_follow hf
        | some t => exact absurd rfl hp
    obtain ⟨k1, k2⟩ := readKind_ok k (s := S ++ (wcode k ++ (';' :: '\n' :: rest))) hw
    rw [e]
    unfold readDecl
    rw [blanks_indent 1 (by simp), if_neg (by simp), word_append (by decide) (stop_cons (by decide))]
    dsimp only
    rw [if_pos rfl, skip1]
    simp only [Option.bind_eq_bind, Option.bind_some]
    rw [k1, k2, word_append hw.2.1 hs]
    dsimp only
    rw [hN n hn _ hf, Option.bind_some]
    dsimp only
    rw [readCode_ok k hk, Option.bind_some]
    dsimp only
    rw [skip2]
    rfl

/-- C91: if two lists of declarations are written as the same text, then they export the same: in the same order the same names,
with the same types, parameters and results. -/
theorem C91_same_text_partial : ∀ (ds es : List Decl), (∀ d ∈ ds, d.Ok) → (∀ d ∈ es, d.Ok) →
    ds.flatMap wdecl = es.flatMap wdecl → ds.map Decl.visible = es.map Decl.visible := by
  have hne : ∀ d : Decl, wdecl d ≠ [] := by
    intro d
    cases d <;> simp [wdecl, indent]
  intro ds
  induction ds with
  | nil =>
    intro es _ _ h
    cases es with
    | nil => rfl
    | cons e es =>
      rw [List.flatMap_nil, List.flatMap_cons] at h
      have := (List.append_eq_nil_iff.1 h.symm).1
      exact absurd this (hne e)
  | cons d ds ih =>
    intro es h1 h2 h
    cases es with
    | nil =>
      rw [List.flatMap_nil, List.flatMap_cons] at h
      exact absurd (List.append_eq_nil_iff.1 h).1 (hne d)
    | cons e es =>
      rw [List.flatMap_cons, List.flatMap_cons] at h
      obtain ⟨N, hN⟩ := C91_decl_partial d (h1 d (by simp))
      obtain ⟨M, hM⟩ := C91_decl_partial e (h2 e (by simp))
      have a := hN (N + M) (by omega) (ds.flatMap wdecl)
      have b := hM (N + M) (by omega) (es.flatMap wdecl)
      rw [h, b] at a
      have a := Option.some.inj a
      rw [Prod.mk.injEq] at a
      rw [List.map_cons, List.map_cons, a.1,
        ih es (fun d hd => h1 d (by simp [hd])) (fun d hd => h2 d (by simp [hd])) a.2.symm]

theorem wi_nat (n : Nat) : wi (n : Int) = wn (n + 1) n := by
  unfold wi
  rw [if_neg (by omega), Int.natAbs_natCast]

theorem filter_self {i : Nat} {l : List Nat} (h : (i :: l).Pairwise (· < ·)) : (i :: l).filter (· ≠ i) = l := by
  rw [List.filter_cons_of_neg (by simp), List.filter_eq_self]
  intro x hx
  have := (List.pairwise_cons.1 h).1 x hx
  simp; omega

theorem wset_nil (k i : Nat) : wset k i [] = [] := by
  induction k generalizing i with
  | zero => rfl
  | succ k ih => rw [wset, if_neg (by simp), ih]

theorem set_reads (k i : Nat) (l : List Nat) (hp : l.Pairwise (· < ·)) (hl : ∀ x ∈ l, i ≤ x ∧ x < i + k) :
    ∀ n > k, ∀ rest, readElems n (wset k i l ++ ('}' :: rest)) = some (l, rest) := by
  induction k generalizing i l with
  | zero =>
    intro n hn rest
    have : l = [] := by
      cases l with
      | nil => rfl
      | cons x l => have := hl x (by simp); omega
    subst this
    obtain ⟨m, rfl⟩ : ∃ m, n = m + 1 := ⟨n - 1, by omega⟩
    rw [wset, List.nil_append, readElems, if_pos (List.head?_cons ..), List.tail_cons]
  | succ k ih =>
    intro n hn rest
    obtain ⟨m, rfl⟩ : ∃ m, n = m + 1 := ⟨n - 1, by omega⟩
    cases l with
    | nil => rw [wset_nil, List.nil_append, readElems, if_pos (List.head?_cons ..), List.tail_cons]
    | cons x l =>
      have hx := hl x (by simp)
      have hxl := (List.pairwise_cons.1 hp).1
      by_cases hxi : i = x
      · subst hxi
        obtain ⟨w1, w2, w3⟩ := wn_ok (i + 1) i (by omega)
        rw [wset, if_pos (by simp), filter_self hp, wi_nat]
        by_cases hnil : l = []
        · subst hnil
          rw [if_neg (by simp), wset_nil, List.nil_append, List.append_nil]
          have htd := takeDrop (p := isDigit) (n := wn (i + 1) i) (s := '}' :: rest) w2 (fun c hc => by cases hc; decide)
          rw [readElems, if_neg (digit_head w2 w3 (by decide)), htd.1, htd.2, if_neg (by simp), skip1, w1]
          rfl
        · rw [if_pos hnil, List.append_assoc]
          have e : [',', ' '] ++ wset k (i + 1) l ++ ('}' :: rest) = ',' :: ' ' :: (wset k (i + 1) l ++ ('}' :: rest)) := rfl
          rw [e]
          have htd := takeDrop (p := isDigit) (n := wn (i + 1) i) (s := ',' :: ' ' :: (wset k (i + 1) l ++ ('}' :: rest))) w2
            (fun c hc => by cases hc; decide)
          have hr := ih (i + 1) l (List.pairwise_cons.1 hp).2
            (fun y hy => ⟨hxl y hy, by have := (hl y (by simp [hy])).2; omega⟩) m (by omega) rest
          rw [readElems, if_neg (digit_head w2 w3 (by decide)), htd.1, htd.2, if_pos (List.head?_cons ..), skip2, w1]
          simp only [Option.bind_eq_bind, Option.bind_some]
          rw [hr]
          rfl
      · have hni : i ∉ x :: l := by
          intro hm
          rcases List.mem_cons.1 hm with e | hm
          · exact hxi e
          · have := hxl i hm; omega
        rw [wset, if_neg hni]
        refine ih (i + 1) (x :: l) hp (fun y hy => ?_) (m + 1) (by omega) rest
        have h1 := hl y hy
        have : y ≠ i := fun e => hni (e ▸ hy)
        omega

theorem wn_head {n : Nat} {s : List Char} {c : Char} (hc : isDigit c = false) : (wn (n + 1) n ++ s).head? ≠ some c := by
  obtain ⟨_, w2, w3⟩ := wn_ok (n + 1) n (by omega)
  exact digit_head w2 w3 hc

theorem isId_digit {c : Char} (h : isDigit c = true) : isId c = true := by
  unfold isId
  unfold isDigit at h
  simp only [h, Bool.or_true, Bool.true_or]

theorem nat_reads (n f : Nat) (rest : List Char) (hr : Stop rest) :
    readValue f (wn (n + 1) n ++ rest) = some (.int n, rest) := by
  obtain ⟨w1, w2, w3⟩ := wn_ok (n + 1) n (by omega)
  unfold readValue
  rw [if_neg (wn_head (by decide)), if_neg (wn_head (by decide)), if_neg (wn_head (by decide)),
    word_append (fun c hc => isId_digit (w2 c hc)) hr]
  dsimp only
  have hd : ∀ w : List Char, (∃ c ∈ w, isDigit c = false) → wn (n + 1) n ≠ w := by
    rintro w ⟨c, hc, hd⟩ e
    rw [← e] at hc
    rw [w2 c hc] at hd
    cases hd
  rw [if_neg (hd _ ⟨'T', by decide, by decide⟩), if_neg (hd _ ⟨'F', by decide, by decide⟩),
    if_neg (hd _ ⟨'N', by decide, by decide⟩)]
  have hh : ((wn (n + 1) n).head?.map isDigit).getD false = true := by
    cases hw : wn (n + 1) n with
    | nil => exact absurd hw w3
    | cons c s => simpa using w2 c (by rw [hw]; simp)
  have hl : (wn (n + 1) n).getLast? ≠ some 'X' := by
    intro e
    have := w2 'X' (List.mem_of_getLast? e)
    cases this
  rw [if_pos hh, if_neg hl, w1]

theorem char_table : ∀ n < 160, ¬ (32 ≤ n ∧ n ≤ 126) →
    (isDigit (dig (n / 16)) = true ∧ isId (dig (n % 16)) = true ∧ val 16 [dig (n / 16), dig (n % 16)] = n ∧
      [dig (n / 16), dig (n % 16), 'X'] ≠ "NIL".toList) := by decide +kernel

theorem ascii_table : ∀ n < 127, (Char.ofNat n).toNat = n ∧ (n ≠ 34 → Char.ofNat n ≠ '"') := by decide +kernel

theorem quote_reads (s : List Char) (h : '"' ∉ s) (f : Nat) (rest : List Char) :
    readValue f ('"' :: (s ++ ['"']) ++ rest) = some (quoted s, rest) := by
  have htd := takeDrop (p := fun d => decide (d ≠ '"')) (n := s) (s := '"' :: rest)
    (fun d hd => by
      have : d ≠ '"' := fun e => h (e ▸ hd)
      simpa using this) (fun d hd => by cases hd; decide)
  have e : '"' :: (s ++ ['"']) ++ rest = '"' :: (s ++ '"' :: rest) := by simp
  rw [e]
  unfold readValue
  rw [if_pos (List.head?_cons ..), List.tail_cons]
  dsimp only
  rw [htd.1, htd.2, skip1]
  rfl

theorem value_reads (v : Value) (h : v.Ok) (n : Nat) (hn : n > 64) (rest : List Char) (hr : Stop rest)
    (hmin : v ≠ .int (-9223372036854775808)) : readValue n (wvalue v ++ rest) = some (v, rest) := by
  match v, h with
  | .bool true, _ =>
    have e : wvalue (.bool true) ++ rest = "TRUE".toList ++ rest := rfl
    rw [e]
    unfold readValue
    rw [if_neg (by simp), if_neg (by simp), if_neg (by simp), word_append (by decide) hr]
    rfl
  | .bool false, _ =>
    have e : wvalue (.bool false) ++ rest = "FALSE".toList ++ rest := rfl
    rw [e]
    unfold readValue
    rw [if_neg (by simp), if_neg (by simp), if_neg (by simp), word_append (by decide) hr]
    rfl
  | .nil, _ =>
    have e : wvalue .nil ++ rest = "NIL".toList ++ rest := rfl
    rw [e]
    unfold readValue
    rw [if_neg (by simp), if_neg (by simp), if_neg (by simp), word_append (by decide) hr]
    rfl
  | .str s, h =>
    rw [wvalue, quote_reads s h.1]
    match s, h with
    | [], _ => rfl
    | [c], h => exact absurd rfl h.2
    | _ :: _ :: _, _ => rfl
  | .set l, h =>
    have e : wvalue (.set l) ++ rest = '{' :: (wset 64 0 l ++ ('}' :: rest)) := by simp [wvalue]
    rw [e]
    unfold readValue
    rw [if_neg (by simp), if_pos (List.head?_cons ..), List.tail_cons,
      set_reads 64 0 l h.1 (fun x hx => ⟨Nat.zero_le _, by have := h.2 x hx; omega⟩) n hn rest]
    rfl
  | .char c, h =>
    by_cases hc : 32 ≤ c ∧ c ≤ 126
    · have ha := ascii_table c (by omega)
      have e : wvalue (.char c) ++ rest = '"' :: ([Char.ofNat c] ++ ['"']) ++ rest := by rw [wvalue, if_pos hc]; rfl
      rw [e, quote_reads _ (by simpa using (ha.2 h.2).symm)]
      rw [quoted, ha.1]
    · obtain ⟨t1, t2, t3, t4⟩ := char_table c h.1 hc
      rw [wvalue, if_neg hc]
      have hne : ∀ d, isDigit d = false → ([dig (c / 16), dig (c % 16), 'X'] ++ rest).head? ≠ some d := by
        intro d hd e
        have e := Option.some.inj e
        rw [e, hd] at t1
        cases t1
      unfold readValue
      rw [if_neg (hne _ (by decide)), if_neg (hne _ (by decide)), if_neg (hne _ (by decide)), word_append (by
        intro d hd
        simp only [List.mem_cons, List.not_mem_nil, or_false] at hd
        rcases hd with rfl | rfl | rfl
        · exact isId_digit t1
        · exact t2
        · decide) hr]
      dsimp only
      rw [if_neg (by intro e; have := congrArg List.length e; simp at this),
        if_neg (by intro e; have := congrArg List.length e; simp at this), if_neg t4,
        if_pos (by simpa using t1), if_pos (by simp)]
      have : [dig (c / 16), dig (c % 16), 'X'].dropLast = [dig (c / 16), dig (c % 16)] := rfl
      rw [this, t3]
  | .int i, h =>
    have hi : i ≠ -9223372036854775808 := fun e => hmin (by rw [e])
    rw [wvalue]
    unfold wi
    by_cases h0 : i < 0
    · obtain ⟨w1, w2, w3⟩ := wn_ok (i.natAbs + 1) i.natAbs (by omega)
      have htd := takeDrop (p := isDigit) (n := wn (i.natAbs + 1) i.natAbs) (s := rest) w2 (fun c hc => by
        have := hr c hc
        by_contra hd
        rw [isId_digit (by simpa using hd)] at this
        cases this)
      rw [if_pos h0, if_neg hi, List.cons_append]
      unfold readValue
      rw [if_neg (by simp), if_neg (by simp), if_pos (List.head?_cons ..), List.tail_cons, htd.1, htd.2, w1]
      have : -((i.natAbs : Nat) : Int) = i := by omega
      rw [this]
    · rw [if_neg h0, nat_reads _ _ _ hr]
      have : ((i.natAbs : Nat) : Int) = i := by omega
      rw [this]

theorem not_mem_takeWhile (x : List Char) : '"' ∉ x.takeWhile (fun d => decide (d ≠ '"')) := by
  induction x with
  | nil => simp
  | cons c x ih =>
    by_cases h : c = '"'
    · simp [List.takeWhile, h]
    · simp only [List.takeWhile, ne_eq, h, not_false_eq_true, decide_true, List.mem_cons, not_or]
      exact ⟨fun e => h e.symm, ih⟩

theorem blanks_ne {s : List Char} (h : s.head? ≠ some ' ') : blanks s = s := by
  have := blanks_indent 0 h
  simpa [indent] using this

theorem value_head (v : Value) (h : v.Ok) (hmin : v ≠ .int (-9223372036854775808)) (rest : List Char) :
    (wvalue v ++ rest).head? ≠ some ' ' := by
  match v, h with
  | .bool true, _ => simp [wvalue]
  | .bool false, _ => simp [wvalue]
  | .nil, _ => simp [wvalue]
  | .str s, _ => simp [wvalue]
  | .set l, _ => simp [wvalue]
  | .char c, h =>
    by_cases hc : 32 ≤ c ∧ c ≤ 126
    · rw [wvalue, if_pos hc]; simp
    · obtain ⟨t1, _⟩ := char_table c h.1 hc
      rw [wvalue, if_neg hc]
      intro e
      have e := Option.some.inj e
      rw [e] at t1
      cases t1
  | .int i, _ =>
    have hi : i ≠ -9223372036854775808 := fun e => hmin (by rw [e])
    rw [wvalue]
    unfold wi
    by_cases h0 : i < 0
    · rw [if_pos h0, if_neg hi]; simp
    · rw [if_neg h0]; exact wn_head (by decide)

/-- C91: the text written for a constant, read again, gives its name and its value: for truth values, all 64-bit integers, all
sets, NIL, characters below 0A0X other than the quote, and strings without quotes. -/
theorem C91_const_partial (w : Name) (v : Value) (hw : Ident w) (hv : v.Ok) :
    ∀ n > 64, ∀ rest, readConst n (wconst w v ++ rest) = some (w, v, rest) := by
  intro n hn rest
  have e : wconst w v ++ rest = indent 2 ++ (w ++ (' ' :: '=' :: ' ' :: (wvalue v ++ (';' :: '\n' :: rest)))) := by
    simp [wconst]
  have hs : Stop (';' :: '\n' :: rest) := stop_cons (by decide)
  have hval : readValue n (blanks (wvalue v ++ (';' :: '\n' :: rest))) = some (v, ';' :: '\n' :: rest) := by
    by_cases hmin : v = .int (-9223372036854775808)
    · subst hmin
      have e : wvalue (.int (-9223372036854775808)) ++ (';' :: '\n' :: rest) =
          ' ' :: '-' :: ("9223372036854775808".toList ++ (';' :: '\n' :: rest)) := rfl
      have hb : blanks (' ' :: '-' :: ("9223372036854775808".toList ++ (';' :: '\n' :: rest))) =
          '-' :: ("9223372036854775808".toList ++ (';' :: '\n' :: rest)) := by
        simp [blanks, List.dropWhile]
      have htd := takeDrop (p := isDigit) (n := "9223372036854775808".toList) (s := ';' :: '\n' :: rest) (by decide)
        (fun c hc => by cases hc; decide)
      rw [e, hb]
      unfold readValue
      rw [if_neg (by simp), if_neg (by simp), if_pos (List.head?_cons ..), List.tail_cons, htd.1, htd.2]
      have : val 10 "9223372036854775808".toList = 9223372036854775808 := by decide +kernel
      rw [this]
      rfl
    · rw [blanks_ne (value_head v hv hmin _), value_reads v hv n hn _ hs hmin]
  rw [e]
  unfold readConst
  rw [blanks_indent 2 (ident_head_ne hw (by decide)), word_append hw.2.1 (stop_cons (by decide))]
  dsimp only
  rw [skip3]
  simp only [Option.bind_eq_bind, Option.bind_some]
  rw [hval, Option.bind_some]
  dsimp only
  rw [skip2]
  rfl

theorem letter_table : ∀ n < 256, 160 ≤ n → dig (n / 16) ∈ "ABCDEF".toList := by decide +kernel

/-- Deviation: a character constant from 0A0X to 0FFX is written without the leading zero, as a text that begins with a letter:
it is not a value (BrowserCmd.Mod 73). -/
theorem C91_char_letter (n : Nat) (h1 : 160 ≤ n) (h2 : n < 256) (f : Nat) (rest : List Char) (hr : Stop rest) :
    readValue f (wvalue (.char n) ++ rest) = none := by
  have hc : ¬ (32 ≤ n ∧ n ≤ 126) := by omega
  have hl := letter_table n h2 h1
  have h16 : ∀ i < 16, isId (dig i) = true := by decide
  have hA : ∀ c ∈ "ABCDEF".toList, isId c = true ∧ isDigit c = false ∧ c ≠ '"' ∧ c ≠ '{' ∧ c ≠ '-' := by decide
  obtain ⟨a1, a2, a3, a4, a5⟩ := hA _ hl
  rw [wvalue, if_neg hc]
  unfold readValue
  rw [if_neg (by simpa using a3), if_neg (by simpa using a4), if_neg (by simpa using a5), word_append (by
    intro d hd
    simp only [List.mem_cons, List.not_mem_nil, or_false] at hd
    rcases hd with rfl | rfl | rfl
    · exact a1
    · exact h16 _ (by omega)
    · decide) hr]
  dsimp only
  rw [if_neg (by intro e; have := congrArg List.length e; simp at this),
    if_neg (by intro e; have := congrArg List.length e; simp at this),
    if_neg (by
      intro e
      have e := congrArg List.head? e
      have e := Option.some.inj e
      rw [e] at hl
      exact absurd hl (by decide)),
    if_neg (by simp [a2])]

/-- Deviation: a string constant that contains a quote is written so that reading it gives another string, or no value: the
text up to the quote (BrowserCmd.Mod 90). -/
theorem C91_str_quote (a b : List Char) (f : Nat) (rest : List Char) :
    ∀ r, readValue f (wvalue (.str (a ++ '"' :: b)) ++ rest) ≠ some (.str (a ++ '"' :: b), r) := by
  intro r
  have e : wvalue (.str (a ++ '"' :: b)) ++ rest = '"' :: (a ++ '"' :: (b ++ ('"' :: rest))) := by simp [wvalue]
  rw [e]
  unfold readValue
  rw [if_pos (List.head?_cons ..), List.tail_cons]
  dsimp only
  generalize a ++ '"' :: (b ++ '"' :: rest) = x
  have hx := not_mem_takeWhile x
  generalize x.takeWhile (fun d => decide (d ≠ '"')) = y at hx
  cases skip ['"'] (x.dropWhile fun d => decide (d ≠ '"')) with
  | none => exact fun h => by cases h
  | some q =>
    intro h
    have h := Option.some.inj h
    rw [Prod.mk.injEq] at h
    have h := h.1
    unfold quoted at h
    split at h
    · cases h
    · cases h
      exact hx (by simp)

/-- Deviation: the character constant `"` is written as three quotes, which begins with the empty string (BrowserCmd.Mod 70). -/
theorem C91_char_quote (f : Nat) (rest : List Char) :
    readValue f (wvalue (.char 34) ++ rest) = some (.str [], '"' :: rest) := by
  have := quote_reads [] (by simp) f ('"' :: rest)
  exact this

/-- Deviation: the code of a code procedure that contains a quote is written so that reading it gives other code, or nothing
(BrowserCmd.Mod 112-116). -/
theorem C91_code_quote (a b c : List Char) (rest : List Char) :
    ∀ r, readCode (.code c) (wcode (.code (a ++ '"' :: b)) ++ rest) ≠ some (.code (a ++ '"' :: b), r) := by
  intro r
  have e : wcode (.code (a ++ '"' :: b)) ++ rest = ' ' :: ' ' :: '"' :: (a ++ '"' :: (b ++ ('"' :: rest))) := by simp [wcode]
  simp only [readCode]
  rw [e, skip3]
  simp only [Option.bind_eq_bind, Option.bind_some]
  generalize a ++ '"' :: (b ++ '"' :: rest) = x
  have hx := not_mem_takeWhile x
  generalize x.takeWhile (fun d => decide (d ≠ '"')) = y at hx
  cases skip ['"'] (x.dropWhile fun d => decide (d ≠ '"')) with
  | none => exact fun h => by cases h
  | some q =>
    intro h
    have h := Option.some.inj h
    rw [Prod.mk.injEq] at h
    have h := h.1
    cases h
    exact hx (by simp)

/-! ## Examples -/

/-- A record type with a base type, a hidden field, a read-only field, a method and a hidden method. -/
def sample : Ty :=
  .record 0 (.some (.named (some "Texts".toList) "Msg".toList))
    (.cons "x".toList true (.named none "INTEGER".toList)
      (.cons "@ptr".toList false (.named none "".toList)
        (.cons "next".toList false (.pointer 1 (.hidden "Node".toList)) .nil)))
    (.cons true "r".toList (.named none "T".toList) "Get".toList
      (.cons true "a".toList (.dyn 0 (.named none "CHAR".toList))
        (.cons false "f".toList (.proc 0 .nil (.some (.arr 0 12 (.named none "SET".toList)))) .nil))
      (.some (.named none "BOOLEAN".toList))
      (.cons false [] (.named none []) "@tproc".toList .nil .none .nil))

instance (n : Name) : Decidable (Ident n) := by unfold Ident; infer_instance

example : sample.Ok := by
  simp only [sample, Ty.Ok, Res.Ok, Flds.Ok, Mths.Ok, Pars.Ok]
  decide +kernel

/-- The written text of the sample. -/
example : String.ofList (wdecl (.typ false "T".toList sample)) =
    "    T = RECORD (Texts.Msg)\n      x-: INTEGER;\n      next: POINTER [1H] TO #Node;\n" ++
    "      PROCEDURE (VAR r: T) Get(VAR a: ARRAY OF CHAR; f: PROCEDURE (): ARRAY 12 OF SET): BOOLEAN;\n    END;\n" := by
  decide +kernel

example : wvalue (.set [1, 5, 63]) = "{1, 5, 63}".toList ∧ wvalue (.char 9) = "09X".toList ∧
    wvalue (.int (-120)) = "-120".toList := by decide +kernel

example : (Value.set [1, 5, 63]).Ok ∧ (Value.char 9).Ok ∧ (Value.int (-120)).Ok ∧ (Value.str "ab".toList).Ok := by
  refine ⟨⟨by decide, by decide⟩, ⟨by decide, by decide⟩, ⟨by decide, by decide⟩, ⟨by decide, by decide⟩⟩

example : (Decl.proc (.code "x+1".toList) "Inc".toList .nil (.some (.named none "INTEGER".toList))).Ok := by
  simp only [Decl.Ok, Kind.Ok, Res.Ok, Ty.Ok, Pars.Ok]
  decide +kernel

end Verif.ShowDef
