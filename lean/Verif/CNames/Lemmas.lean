import Verif.CNames.Model

/-! Lemmas for C71. -/
namespace Verif.CNames

/-- The parts of a name between underscores. -/
def comps : Name → List Name
  | [] => [[]]
  | c :: r =>
    if c = '_' then [] :: comps r
    else match comps r with
      | h :: t => (c :: h) :: t
      | [] => [[c]]

theorem comps_ne_nil (n : Name) : comps n ≠ [] := by
  cases n with
  | nil => simp [comps]
  | cons c r =>
    unfold comps
    split
    · simp
    · split <;> simp

theorem comps_append (a b : Name) : comps (a ++ '_' :: b) = comps a ++ comps b := by
  induction a with
  | nil => simp [comps]
  | cons c r ih =>
    by_cases h : c = '_'
    · simp [comps, h, ih]
    · rw [List.cons_append, comps, if_neg h, ih, comps, if_neg h]
      cases hc : comps r with
      | nil => exact absurd hc (comps_ne_nil r)
      | cons x y => simp

theorem comps_plain (a : Name) (h : '_' ∉ a) : comps a = [a] := by
  induction a with
  | nil => rfl
  | cons c r ih =>
    simp only [List.mem_cons, not_or] at h
    rw [comps, if_neg (fun e => h.1 e.symm), ih h.2]

/-- All digits, at least one. -/
def isDigits (d : Name) : Bool := d != [] && d.all fun c => decide (48 ≤ c.toNat) && decide (c.toNat ≤ 57)

/-- The value of digits. -/
def val (d : Name) : Nat := d.foldl (fun a c => 10 * a + (c.toNat - 48)) 0

theorem ofNat_digit (i : Nat) (h : i < 10) : (Char.ofNat (i + 48)).toNat = i + 48 := by
  have : ∀ i : Fin 10, (Char.ofNat (i.val + 48)).toNat = i.val + 48 := by decide
  exact this ⟨i, h⟩

theorem decs_digits (f j : Nat) : ∀ c ∈ decs f j, 48 ≤ c.toNat ∧ c.toNat ≤ 57 := by
  induction f generalizing j with
  | zero => simp [decs]
  | succ f ih =>
    intro c hc
    rw [decs, List.mem_append] at hc
    rcases hc with hc | hc
    · split at hc
      · simp at hc
      · exact ih _ c hc
    · rw [List.mem_singleton] at hc
      subst hc
      rw [ofNat_digit _ (Nat.mod_lt _ (by decide))]
      have := Nat.mod_lt j (show 0 < 10 by decide)
      omega

theorem val_decs (f j : Nat) (h : j < 10 ^ f) : val (decs f j) = j := by
  induction f generalizing j with
  | zero => simp at h; subst h; rfl
  | succ f ih =>
    rw [decs, val, List.foldl_append]
    have hm := Nat.mod_lt j (show 0 < 10 by decide)
    simp only [List.foldl_cons, List.foldl_nil]
    rw [ofNat_digit _ hm]
    split
    · simp only [List.foldl_nil]; omega
    · have := ih (j / 10) (by rw [Nat.pow_succ] at h; omega)
      unfold val at this
      rw [this]; omega

theorem dec_val (k : Nat) (h : k ≤ 32767) : val (dec k) = k := val_decs 5 k (by omega)

theorem dec_ne_nil (k : Nat) : dec k ≠ [] := by
  unfold dec decs
  simp

theorem isDigits_dec (k : Nat) : isDigits (dec k) = true := by
  unfold isDigits
  simp only [Bool.and_eq_true, bne_iff_ne, ne_eq, List.all_eq_true, decide_eq_true_eq]
  exact ⟨dec_ne_nil k, decs_digits 5 k⟩

theorem dec_no (k : Nat) : '_' ∉ dec k := fun h => by
  have := decs_digits 5 k _ h
  exact absurd this (by decide)

theorem isDigits_ident {n : Name} (h : IsIdent n) : isDigits n = false := by
  obtain ⟨_, c, r, rfl, hc⟩ := h
  unfold isDigits
  rw [Bool.and_eq_false_iff]
  right
  rw [List.all_cons, Bool.and_eq_false_iff]
  left
  simpa using hc

theorem ident_ne_nil {n : Name} (h : IsIdent n) : n ≠ [] := by
  obtain ⟨_, c, r, rfl, _⟩ := h
  simp

theorem fold_enter (l : List Name) (t : Nat → Option Name) (h : Nat) (s : Name) (e : l.foldl enter t h = some s) :
    s ∈ l ∨ t h = some s := by
  induction l generalizing t with
  | nil => exact Or.inr e
  | cons x r ih =>
    rcases ih _ e with h1 | h1
    · exact Or.inl (List.mem_cons_of_mem _ h1)
    · unfold enter at h1
      split at h1
      · exact Or.inl (by simp at h1; simp [h1])
      · exact Or.inr h1

theorem table_mem {h : Nat} {s : Name} (e : table h = some s) : s ∈ entered := by
  rcases fold_enter _ _ _ _ e with h1 | h1
  · exact h1
  · simp at h1

/-- What a name in the C text stands for. -/
inductive Sym where
  | glob (m x : Name) | bound (m t x : Name) | desc (m t : Name) | init (m : Name)
  | stamped (k : Nat) | stampedS (k : Nat) | stampedT (k : Nat)
  | loc (x : Name) | len (x : Name) (d : Nat) | tag (x : Name) | copy (x : Name) | wth (x : Name) | sv | rv
deriving DecidableEq

def Text : Sym → Name → Prop
  | .glob m x, n => IsIdent m ∧ IsIdent x ∧ n = qual m x
  | .bound m t x, n => IsIdent m ∧ IsIdent t ∧ IsIdent x ∧ n = qual (qual m t) x
  | .desc m t, n => IsIdent m ∧ IsIdent t ∧ n = qual m t ++ typExt
  | .init m, n => IsIdent m ∧ n = initName m
  | .stamped k, n => k ≤ 32767 ∧ ∃ p, n = p ++ ['_', '_'] ++ dec k
  | .stampedS k, n => k ≤ 32767 ∧ ∃ p, n = p ++ ['_', '_'] ++ dec k ++ scopeExt
  | .stampedT k, n => k ≤ 32767 ∧ ∃ p, n = p ++ ['_', '_'] ++ dec k ++ typExt
  | .loc x, n => IsIdent x ∧ n = ident x
  | .len x d, n => IsIdent x ∧ d ≤ 32767 ∧ n = ident x ++ lenExt ++ (if d = 0 then [] else dec d)
  | .tag x, n => IsIdent x ∧ n = ident x ++ typExt
  | .copy x, n => IsIdent x ∧ n = ident x ++ copyExt
  | .wth x, n => IsIdent x ∧ n = ident x ++ withExt
  | .sv, n => n = scopeExt
  | .rv, n => n = "__retval".toList

/-- The identifier in `x` or `x_`. -/
def base : List Name → Option Name
  | [x] => some x
  | [[], x] => some x
  | _ => none

def decode (r : List Name) : Option Sym :=
  match r with
  | d :: [] :: rest =>
    if isDigits d then some (.stamped (val d))
    else if d = "typ".toList then
      match rest with
      | [x] => some (.tag x)
      | [[], x] => some (.tag x)
      | [t, m] => some (.desc m t)
      | d' :: _ => some (.stampedT (val d'))
      | [] => none
    else if d = "copy".toList then (base rest).map .copy
    else if d = "retval".toList then some .rv
    else if d = "init".toList then (base rest).map .init
    else if d = "s".toList then some .sv
    else if d = [] then (base rest).map .wth
    else (base rest).map fun x => .len x (val (d.drop 3))
  | ['s'] :: d :: [] :: _ =>
    if isDigits d then some (.stampedS (val d)) else none
  | [[], x] => some (.loc x)
  | [x] => some (.loc x)
  | [x, m] => some (.glob m x)
  | [x, t, m] => some (.bound m t x)
  | _ => none

theorem comps_dunder (p s : Name) : comps (p ++ ['_', '_'] ++ s) = comps p ++ [] :: comps s := by
  have : p ++ ['_', '_'] ++ s = p ++ '_' :: ([] ++ '_' :: s) := by simp
  rw [this, comps_append, comps_append]
  rfl

theorem comps_ident {x : Name} (h : IsIdent x) : comps (ident x) = [x] ∨ comps (ident x) = [x, []] := by
  unfold ident
  split
  · right
    rw [comps_append, comps_plain _ h.1]; rfl
  · left; exact comps_plain _ h.1

theorem rev_split (p : Name) : ∃ a r, (comps p).reverse = a :: r := by
  cases h : (comps p).reverse with
  | nil => exact absurd (List.reverse_eq_nil_iff.1 h) (comps_ne_nil p)
  | cons a r => exact ⟨a, r, rfl⟩

theorem comps_typ : comps ("typ".toList) = ["typ".toList] := by decide
theorem dec_ne_typ (k : Nat) (l : Name) (h : isDigits l = false) : dec k ≠ l := fun e => by
  rw [← e, isDigits_dec] at h; cases h

theorem decode_text (s : Sym) (n : Name) (h : Text s n) : decode (comps n).reverse = some s := by
  cases s with
  | glob m x =>
    obtain ⟨h1, h2, rfl⟩ := h
    have e : comps (qual m x) = [m, x] := by
      unfold qual
      rw [List.append_assoc]
      show comps (m ++ '_' :: x) = _
      rw [comps_append, comps_plain _ h1.1, comps_plain _ h2.1]; rfl
    rw [e]
    have := ident_ne_nil h1
    have := ident_ne_nil h2
    cases m with
    | nil => contradiction
    | cons a b =>
      cases x with
      | nil => contradiction
      | cons c d => rfl
  | bound m t x =>
    obtain ⟨h1, h2, h3, rfl⟩ := h
    have e : comps (qual (qual m t) x) = [m, t, x] := by
      have : qual (qual m t) x = m ++ '_' :: t ++ '_' :: x := by simp [qual]
      rw [this, comps_append, comps_append, comps_plain _ h1.1, comps_plain _ h2.1, comps_plain _ h3.1]; rfl
    rw [e]
    have := ident_ne_nil h1
    have := ident_ne_nil h2
    have := ident_ne_nil h3
    cases m with
    | nil => contradiction
    | cons a b =>
      cases t with
      | nil => contradiction
      | cons c d =>
        show decode [x, c :: d, a :: b] = _
        unfold decode
        split <;> simp_all
  | desc m t =>
    obtain ⟨h1, h2, rfl⟩ := h
    have e : comps (qual m t ++ typExt) = [m, t, [], "typ".toList] := by
      have : qual m t ++ typExt = m ++ '_' :: t ++ ['_', '_'] ++ "typ".toList := by simp [qual, typExt]
      rw [this, comps_dunder, comps_append, comps_plain _ h1.1, comps_plain _ h2.1]; rfl
    rw [e]
    have := ident_ne_nil h1
    have := ident_ne_nil h2
    cases t with
    | nil => contradiction
    | cons c d => rfl
  | init m =>
    obtain ⟨h1, rfl⟩ := h
    have e : comps (initName m) = [m, [], "init".toList] := by
      have : initName m = m ++ ['_', '_'] ++ "init".toList := by simp [initName]
      rw [this, comps_dunder, comps_plain _ h1.1]; rfl
    rw [e]; rfl
  | stamped k =>
    obtain ⟨h1, p, rfl⟩ := h
    obtain ⟨a, r, e⟩ := rev_split p
    rw [comps_dunder, comps_plain _ (dec_no k), List.reverse_append, e]
    show decode (dec k :: [] :: _) = _
    simp [decode, isDigits_dec, dec_val k h1]
  | stampedS k =>
    obtain ⟨h1, p, rfl⟩ := h
    obtain ⟨a, r, e⟩ := rev_split p
    have : p ++ ['_', '_'] ++ dec k ++ scopeExt = p ++ ['_', '_'] ++ dec k ++ '_' :: ['s'] := rfl
    rw [this, comps_append, comps_dunder, comps_plain _ (dec_no k), List.reverse_append, List.reverse_append, e]
    show decode (['s'] :: dec k :: [] :: _) = _
    have hn := dec_ne_nil k
    have hd := isDigits_dec k
    have hv := dec_val k h1
    generalize dec k = d at *
    cases d with
    | nil => contradiction
    | cons x y => simp [decode, hd, hv]
  | stampedT k =>
    obtain ⟨h1, p, rfl⟩ := h
    obtain ⟨a, r, e⟩ := rev_split p
    have : p ++ ['_', '_'] ++ dec k ++ typExt = p ++ ['_', '_'] ++ dec k ++ ['_', '_'] ++ "typ".toList := by simp [typExt]
    rw [this, comps_dunder, comps_dunder, comps_plain _ (dec_no k), List.reverse_append, List.reverse_append, e]
    show decode ("typ".toList :: [] :: dec k :: [] :: a :: r) = _
    have hn := dec_ne_nil k
    have hv := dec_val k h1
    generalize dec k = d at *
    cases d with
    | nil => contradiction
    | cons x y =>
      have : isDigits "typ".toList = false := by decide
      simp only [decode, this, Bool.false_eq_true, ↓reduceIte, hv]
  | loc x =>
    obtain ⟨h1, rfl⟩ := h
    have := ident_ne_nil h1
    rcases comps_ident h1 with e | e <;> rw [e]
    · cases x with
      | nil => contradiction
      | cons c d => rfl
    · cases x with
      | nil => contradiction
      | cons c d => rfl
  | len x d =>
    obtain ⟨h1, h2, rfl⟩ := h
    have := ident_ne_nil h1
    have e : ident x ++ lenExt ++ (if d = 0 then [] else dec d) = ident x ++ ['_', '_'] ++ ("len".toList ++ if d = 0 then [] else dec d) := by
      simp [lenExt]
    have hp : '_' ∉ ("len".toList ++ if d = 0 then [] else dec d) := by
      split
      · decide
      · have := dec_no d
        simp [this]
    have hv : val (if d = 0 then [] else dec d) = d := by
      split
      · subst d; rfl
      · exact dec_val d h2
    rw [e, comps_dunder, comps_plain _ hp, List.reverse_append]
    generalize (if d = 0 then [] else dec d) = w at *
    have hb : base (comps (ident x)).reverse = some x := by
      rcases comps_ident h1 with e | e <;> rw [e] <;> rfl
    show decode (("len".toList ++ w) :: [] :: (comps (ident x)).reverse) = _
    have hd : isDigits ("len".toList ++ w) = false := by simp [isDigits]
    have h3 : ("len".toList ++ w).drop 3 = w := rfl
    have h4 : "len".toList ++ w ≠ "typ".toList := by simp
    have h5 : "len".toList ++ w ≠ "copy".toList := by simp
    have h6 : "len".toList ++ w ≠ "retval".toList := by simp
    have h7 : "len".toList ++ w ≠ "init".toList := by simp
    have h8 : "len".toList ++ w ≠ "s".toList := by simp
    have h9 : "len".toList ++ w ≠ [] := by simp
    generalize "len".toList ++ w = v at *
    simp only [decode, hd, Bool.false_eq_true, ↓reduceIte, h4, h5, h6, h7, h8, h9, hb, h3, hv, Option.map_some]
  | tag x =>
    obtain ⟨h1, rfl⟩ := h
    have := ident_ne_nil h1
    have e : ident x ++ typExt = ident x ++ ['_', '_'] ++ "typ".toList := by simp [typExt]
    rw [e, comps_dunder]
    rcases comps_ident h1 with e | e <;> rw [e] <;> rfl
  | copy x =>
    obtain ⟨h1, rfl⟩ := h
    have e : ident x ++ copyExt = ident x ++ ['_', '_'] ++ "copy".toList := by simp [copyExt]
    rw [e, comps_dunder]
    rcases comps_ident h1 with e | e <;> rw [e] <;> rfl
  | wth x =>
    obtain ⟨h1, rfl⟩ := h
    have e : ident x ++ withExt = ident x ++ ['_', '_'] ++ [] := by simp [withExt]
    rw [e, comps_dunder]
    rcases comps_ident h1 with e | e <;> rw [e] <;> rfl
  | sv => subst h; decide
  | rv => subst h; decide

end Verif.CNames
