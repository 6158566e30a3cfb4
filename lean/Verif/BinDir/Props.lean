import Verif.BinDir.Model
import Verif.Common

/-!
# Names of files and where programs are: proofs
-/
namespace Verif.BinDir

variable {Node : Type}

theorem mem_tw {p : Char → Bool} {l : List Char} {c : Char} (h : c ∈ l.takeWhile p) : p c = true := by
  induction l with
  | nil => simp at h
  | cons x l ih =>
    unfold List.takeWhile at h
    cases hx : p x with
    | true =>
      rw [hx] at h
      rcases List.mem_cons.1 h with rfl | h
      · exact hx
      · exact ih h
    | false => rw [hx] at h; cases h

theorem dw_head {p : Char → Bool} {l : List Char} {c : Char} {r : List Char} (h : l.dropWhile p = c :: r) : p c = false := by
  induction l with
  | nil => simp at h
  | cons x l ih =>
    unfold List.dropWhile at h
    cases hx : p x with
    | true => rw [hx] at h; exact ih h
    | false => rw [hx] at h; cases h; exact hx

theorem dw_nil {p : Char → Bool} {l : List Char} (h : l.dropWhile p = []) : ∀ c ∈ l, p c = true := by
  induction l with
  | nil => simp
  | cons x l ih =>
    unfold List.dropWhile at h
    cases hx : p x with
    | true =>
      rw [hx] at h
      intro c hc
      rcases List.mem_cons.1 hc with rfl | hc
      · exact hx
      · exact ih h c hc
    | false => rw [hx] at h; cases h

/-! ## Splitting and walking -/

theorem split_ne (sep : Char) (s : List Char) : split sep s ≠ [] := by
  cases s with
  | nil => simp [split]
  | cons c l =>
    unfold split
    split
    · simp
    · split <;> simp

theorem split_append (sep : Char) (a b : List Char) : split sep (a ++ sep :: b) = split sep a ++ split sep b := by
  induction a with
  | nil => simp [split]
  | cons c a ih =>
    show split sep (c :: (a ++ sep :: b)) = _
    rw [split, split, ih]
    split
    · rfl
    · cases h : split sep a with
      | nil => exact absurd h (split_ne sep a)
      | cons x l => rfl

theorem split_single (sep : Char) (a : List Char) (h : sep ∉ a) : split sep a = [a] := by
  induction a with
  | nil => rfl
  | cons c a ih =>
    rw [split, if_neg (fun e => h (by simp [e])), ih (fun hm => h (by simp [hm]))]

theorem walk_append (fs : FS Node) (l m : List (List Char)) (n : Node) : fs.walk n (l ++ m) = (fs.walk n l).bind (fun k => fs.walk k m) := by
  induction l generalizing n with
  | nil => rfl
  | cons x l ih =>
    show fs.walk n (x :: (l ++ m)) = _
    have e : ∀ q, fs.walk n (x :: q) = (fs.go n x).bind (fun k => fs.walk k q) := by
      intro q
      rw [FS.walk]
      cases fs.go n x <;> rfl
    rw [e, e]
    cases fs.go n x with
    | none => rfl
    | some k => exact ih k

theorem go_nil (fs : FS Node) (n : Node) : fs.go n [] = some n := by simp [FS.go]

theorem walk_nil (fs : FS Node) (n : Node) : fs.walk n (split '/' []) = some n := by
  show fs.walk n [[]] = _
  unfold FS.walk; rw [go_nil]; rfl

theorem walk_single (fs : FS Node) (n : Node) (x : List Char) : fs.walk n [x] = fs.go n x := by
  unfold FS.walk
  cases fs.go n x <;> rfl

theorem walk_slash (fs : FS Node) (n : Node) (a b : List Char) :
    fs.walk n (split '/' (a ++ '/' :: b)) = (fs.walk n (split '/' a)).bind (fun k => fs.walk k (split '/' b)) := by
  rw [split_append, walk_append]

theorem walk_lead (fs : FS Node) (n : Node) (b : List Char) : fs.walk n (split '/' ('/' :: b)) = fs.walk n (split '/' b) := by
  have := walk_slash fs n [] b
  rw [walk_nil] at this
  exact this

theorem walk_appendPart (fs : FS Node) (n : Node) (s d : List Char) :
    fs.walk n (split '/' (appendPart '/' s d)) = (fs.walk n (split '/' d)).bind (fun k => fs.walk k (split '/' s)) := by
  unfold appendPart
  rcases List.eq_nil_or_concat d with rfl | ⟨d0, c, rfl⟩
  · rw [walk_nil]; simp
  · rw [show (d0.concat c) = d0 ++ [c] by simp]
    by_cases hc : c = '/'
    · subst hc
      rw [if_neg (by simp)]
      have h1 : d0 ++ ['/'] ++ s = d0 ++ '/' :: s := by simp
      rw [h1, walk_slash, walk_slash fs n d0 []]
      cases fs.walk n (split '/' d0) with
      | none => rfl
      | some k => simp [walk_nil]
    · rw [if_pos ⟨by simp, by simp [hc]⟩]
      have h1 : d0 ++ [c] ++ ['/'] ++ s = (d0 ++ [c]) ++ '/' :: s := by simp
      rw [h1, walk_slash]

/-! ## Trimming -/

theorem sep_iff (c : Char) (h : c ≠ '\\') : isOneOf c ['/', '\\'] = true ↔ c = '/' := by
  simp [isOneOf, h]

theorem extract_eq (p s : List Char) : ∃ seps, s = (extractPart s p).1 ++ seps ++ (extractPart s p).2 ∧ (∀ c ∈ seps, isOneOf c p = true) ∧
    (∀ c ∈ (extractPart s p).1, isOneOf c p = false) ∧ (seps = [] → (extractPart s p).2 = []) := by
  refine ⟨(s.dropWhile (fun c => !isOneOf c p)).takeWhile (fun c => isOneOf c p), ?_, ?_, ?_, ?_⟩
  · unfold extractPart
    dsimp only
    rw [List.append_assoc, List.takeWhile_append_dropWhile, List.takeWhile_append_dropWhile]
  · intro c hc; exact mem_tw hc
  · intro c hc
    have := mem_tw hc
    simpa using this
  · intro h
    unfold extractPart
    dsimp only
    cases hd : s.dropWhile (fun c => !isOneOf c p) with
    | nil => rfl
    | cons c l =>
      rw [hd] at h
      have : isOneOf c p = true := by
        have := dw_head hd
        simpa using this
      simp [List.takeWhile, this] at h

theorem walk_seps (fs : FS Node) (n : Node) (seps s : List Char) (h : ∀ c ∈ seps, c = '/') : fs.walk n (split '/' (seps ++ s)) = fs.walk n (split '/' s) := by
  induction seps with
  | nil => rfl
  | cons c l ih =>
    have : c = '/' := h c (by simp)
    subst this
    show fs.walk n (split '/' ('/' :: (l ++ s))) = _
    rw [walk_lead, ih (fun c hc => h c (by simp [hc]))]

/-- One part of a path and the rest. -/
theorem walk_extract (fs : FS Node) (n : Node) (s : List Char) (hb : '\\' ∉ s) :
    fs.walk n (split '/' s) = (fs.go n (extractPart s ['/', '\\']).1).bind (fun k => fs.walk k (split '/' (extractPart s ['/', '\\']).2)) ∧
    '/' ∉ (extractPart s ['/', '\\']).1 := by
  obtain ⟨seps, h1, h2, h3, h4⟩ := extract_eq ['/', '\\'] s
  have hns : '/' ∉ (extractPart s ['/', '\\']).1 := fun hm => by have := h3 _ hm; simp [isOneOf] at this
  refine ⟨?_, hns⟩
  have hseps : ∀ c ∈ seps, c = '/' := by
    intro c hc
    have hne : c ≠ '\\' := fun e => hb (by rw [h1]; subst e; simp [hc])
    exact (sep_iff c hne).1 (h2 c hc)
  cases seps with
  | nil =>
    have h5 := h4 rfl
    rw [h5]
    have e : s = (extractPart s ['/', '\\']).1 := by conv_lhs => rw [h1, h5]; simp
    conv_lhs => rw [e, split_single _ _ hns, walk_single]
    cases fs.go n (extractPart s ['/', '\\']).1 with
    | none => rfl
    | some k => simp [walk_nil]
  | cons c l =>
    have : c = '/' := hseps c (by simp)
    subst this
    conv_lhs => rw [h1, List.append_assoc, List.cons_append, walk_slash, split_single _ _ hns, walk_single]
    congr 1
    funext k
    exact walk_seps fs k l _ (fun c hc => hseps c (by simp [hc]))

theorem extract_length (c : Char) (s p : List Char) : (extractPart (c :: s) p).2.length ≤ s.length := by
  unfold extractPart
  dsimp only
  have h1 : ∀ l : List Char, (l.dropWhile (fun c => isOneOf c p)).length ≤ l.length := fun l => (List.dropWhile_suffix _).length_le
  have h2 : ∀ l : List Char, (l.dropWhile (fun c => !isOneOf c p)).length ≤ l.length := fun l => (List.dropWhile_suffix _).length_le
  by_cases hc : isOneOf c p = true
  · have : (c :: s).dropWhile (fun c => !isOneOf c p) = c :: s := by simp [List.dropWhile, hc]
    rw [this]
    have : (c :: s).dropWhile (fun c => isOneOf c p) = s.dropWhile (fun c => isOneOf c p) := by simp [List.dropWhile, hc]
    rw [this]; exact h1 s
  · have : (c :: s).dropWhile (fun c => !isOneOf c p) = s.dropWhile (fun c => !isOneOf c p) := by simp [List.dropWhile, hc]
    rw [this]; exact Nat.le_trans (h1 _) (h2 s)

theorem extract_sub (p s : List Char) (c : Char) : (c ∈ (extractPart s p).1 → c ∈ s) ∧ (c ∈ (extractPart s p).2 → c ∈ s) := by
  obtain ⟨seps, h1, _⟩ := extract_eq p s
  constructor
  · intro h; rw [h1]; simp [h]
  · intro h; rw [h1]; simp [h]

theorem walk_trimLoop (fs : FS Node) (n : Node) : ∀ f s d, s.length ≤ f → '\\' ∉ s →
    fs.walk n (split '/' (trimLoop f s d)) = (fs.walk n (split '/' d)).bind (fun k => fs.walk k (split '/' s)) := by
  intro f
  induction f with
  | zero =>
    intro s d h _
    cases List.length_eq_zero_iff.1 (Nat.le_zero.1 h)
    unfold trimLoop
    cases fs.walk n (split '/' d) with
    | none => rfl
    | some k => simp [walk_nil]
  | succ f ih =>
    intro s d h hb
    cases s with
    | nil =>
      unfold trimLoop
      cases fs.walk n (split '/' d) with
      | none => rfl
      | some k => simp [walk_nil]
    | cons c s =>
      unfold trimLoop
      have hlen := extract_length c s ['/', '\\']
      rw [ih _ _ (by simp at h; omega) (fun hm => hb ((extract_sub _ _ _).2 hm))]
      have hw : ∀ k, fs.walk k (split '/' (c :: s)) = _ := fun k => (walk_extract fs k (c :: s) hb).1
      have hns := (walk_extract fs n (c :: s) hb).2
      have hd : ∀ d', d' = (if (extractPart (c :: s) ['/', '\\']).1 ≠ [] ∧ (extractPart (c :: s) ['/', '\\']).1 ≠ ['.'] then
          appendPart '/' (extractPart (c :: s) ['/', '\\']).1 d else d) →
          fs.walk n (split '/' d') = (fs.walk n (split '/' d)).bind (fun k => fs.go k (extractPart (c :: s) ['/', '\\']).1) := by
        intro d' hd'
        split at hd'
        · rw [hd', walk_appendPart, split_single _ _ hns]
          simp only [walk_single]
        · rename_i hn
          have : (extractPart (c :: s) ['/', '\\']).1 = [] ∨ (extractPart (c :: s) ['/', '\\']).1 = ['.'] := by
            by_contra hcon
            exact hn ⟨fun e => hcon (Or.inl e), fun e => hcon (Or.inr e)⟩
          rw [hd']
          have hg : ∀ k, fs.go k (extractPart (c :: s) ['/', '\\']).1 = some k := fun k => by unfold FS.go; rw [if_pos this]
          cases fs.walk n (split '/' d) with
          | none => rfl
          | some k => simp [hg]
      rw [hd _ rfl]
      cases fs.walk n (split '/' d) with
      | none => rfl
      | some k => simp only [Option.bind_some]; rw [hw k]

theorem leading_eq : ∀ k s, '\\' ∉ s → s = (leading k s).1 ++ (leading k s).2 ∧ (∀ c ∈ (leading k s).1, c = '/') ∧
    ((leading (k + 1) s).1 = [] → s.head? ≠ some '/') := by
  intro k
  induction k with
  | zero =>
    intro s hb
    refine ⟨rfl, fun c hc => (by simp [leading] at hc), ?_⟩
    cases s with
    | nil => simp
    | cons c s =>
      unfold leading
      split
      · simp
      · rename_i h
        intro _ he
        simp at he
        exact h (by simp [isOneOf, he])
  | succ k ih =>
    intro s hb
    cases s with
    | nil => exact ⟨rfl, fun c hc => (by simp [leading] at hc), by simp⟩
    | cons c s =>
      have hs : '\\' ∉ s := fun hm => hb (by simp [hm])
      obtain ⟨h1, h2, _⟩ := ih s hs
      have hc : c ≠ '\\' := fun e => hb (by simp [e])
      refine ⟨?_, ?_, ?_⟩
      · unfold leading
        split
        · rename_i h
          have := (sep_iff c hc).1 h
          subst this
          show '/' :: s = '/' :: ((leading k s).1 ++ (leading k s).2)
          rw [← h1]
        · rfl
      · unfold leading
        split
        · intro x hx
          rcases List.mem_cons.1 hx with rfl | hx
          · rfl
          · exact h2 x hx
        · intro x hx; cases hx
      · unfold leading
        split
        · simp
        · rename_i h
          intro _ he
          simp at he
          exact h (by simp [isOneOf, he])

theorem appendPart_head (s d : List Char) (hs : s ≠ []) : (appendPart '/' s d).head? = if d = [] then s.head? else d.head? := by
  unfold appendPart
  cases d with
  | nil => simp
  | cons c d => split <;> simp

theorem trimLoop_head : ∀ f s d, '\\' ∉ s → (d ≠ [] → (trimLoop f s d).head? = d.head?) ∧ (d = [] → (trimLoop f s d).head? ≠ some '/') := by
  intro f
  induction f with
  | zero => intro s d _; exact ⟨fun _ => rfl, fun h => by subst h; simp [trimLoop]⟩
  | succ f ih =>
    intro s d hb
    cases s with
    | nil => exact ⟨fun _ => rfl, fun h => by subst h; simp [trimLoop]⟩
    | cons c s =>
      unfold trimLoop
      have hb' : '\\' ∉ (extractPart (c :: s) ['/', '\\']).2 := fun hm => hb ((extract_sub _ _ _).2 hm)
      have hns : '/' ∉ (extractPart (c :: s) ['/', '\\']).1 := by
        obtain ⟨_, _, _, h3, _⟩ := extract_eq ['/', '\\'] (c :: s)
        exact fun hm => by have := h3 _ hm; simp [isOneOf] at this
      generalize (extractPart (c :: s) ['/', '\\']).1 = part at hns ⊢
      generalize (extractPart (c :: s) ['/', '\\']).2 = rest at hb' ⊢
      split
      · rename_i hp
        have hh := appendPart_head part d hp.1
        have hne : appendPart '/' part d ≠ [] := by
          unfold appendPart
          intro e
          exact hp.1 (List.append_eq_nil_iff.1 e).2
        have := (ih rest (appendPart '/' part d) hb').1 hne
        rw [this, hh]
        constructor
        · intro hd; rw [if_neg hd]
        · intro hd
          rw [if_pos hd]
          cases part with
          | nil => exact absurd rfl hp.1
          | cons x part =>
            simp
            exact fun e => hns (by simp [e])
      · exact ih rest d hb'

theorem trim_head (s : List Char) (hb : '\\' ∉ s) : (trim s).head? = some '/' ↔ s.head? = some '/' := by
  unfold trim
  obtain ⟨h1, h2, _⟩ := leading_eq 2 s hb
  have h3 := (leading_eq 1 s hb).2.2
  have hb' : '\\' ∉ (leading 2 s).2 := fun hm => hb (by rw [h1]; simp [hm])
  have ht := trimLoop_head s.length (leading 2 s).2 (leading 2 s).1 hb'
  cases hl : (leading 2 s).1 with
  | nil =>
    rw [hl] at ht
    constructor
    · intro h; exact absurd h (ht.2 rfl)
    · intro h; exact absurd h (h3 hl)
  | cons x l =>
    rw [hl] at ht h1 h2
    have hx : x = '/' := h2 x (by simp)
    rw [ht.1 (by simp)]
    constructor
    · intro _; rw [h1]; simp [hx]
    · intro _; simp [hx]

/-- Trimming does not change what a path names. -/
theorem trim_resolve (fs : FS Node) (cwd : Node) (s : List Char) (hb : '\\' ∉ s) : fs.resolve cwd (trim s) = fs.resolve cwd s := by
  unfold FS.resolve
  have hh := trim_head s hb
  have hw : ∀ n, fs.walk n (split '/' (trim s)) = fs.walk n (split '/' s) := by
    intro n
    obtain ⟨h1, h2, _⟩ := leading_eq 2 s hb
    have hb' : '\\' ∉ (leading 2 s).2 := fun hm => hb (by rw [h1]; simp [hm])
    unfold trim
    rw [walk_trimLoop fs n _ _ _ (by conv_rhs => rw [h1]
                                     simp) hb']
    have e1 : fs.walk n (split '/' (leading 2 s).1) = some n := by
      have := walk_seps fs n (leading 2 s).1 [] h2
      rw [walk_nil] at this
      simpa using this
    rw [e1]
    simp only [Option.bind_some]
    conv_rhs => rw [h1]
    rw [walk_seps fs n _ _ h2]
  by_cases h : s.head? = some '/'
  · rw [if_pos h, if_pos (hh.2 h)]; exact hw _
  · rw [if_neg h, if_neg (fun h' => h (hh.1 h'))]; exact hw _

theorem appendPart_sub (s d : List Char) (c : Char) (h : c ∈ appendPart '/' s d) : c = '/' ∨ c ∈ s ∨ c ∈ d := by
  unfold appendPart at h
  rcases List.mem_append.1 h with h | h
  · split at h
    · rcases List.mem_append.1 h with h | h
      · exact Or.inr (Or.inr h)
      · exact Or.inl (by simpa using h)
    · exact Or.inr (Or.inr h)
  · exact Or.inr (Or.inl h)

theorem trimLoop_sub : ∀ f s d c, c ∈ trimLoop f s d → c = '/' ∨ c ∈ s ∨ c ∈ d := by
  intro f
  induction f with
  | zero => intro s d c h; exact Or.inr (Or.inr h)
  | succ f ih =>
    intro s d c h
    cases s with
    | nil => exact Or.inr (Or.inr h)
    | cons x s =>
      unfold trimLoop at h
      rcases ih _ _ _ h with h | h | h
      · exact Or.inl h
      · exact Or.inr (Or.inl ((extract_sub _ _ _).2 h))
      · split at h
        · rcases appendPart_sub _ _ _ h with h | h | h
          · exact Or.inl h
          · exact Or.inr (Or.inl ((extract_sub _ _ _).1 h))
          · exact Or.inr (Or.inr h)
        · exact Or.inr (Or.inr h)

theorem trim_sub (s : List Char) (hb : '\\' ∉ s) (c : Char) (h : c ∈ trim s) : c = '/' ∨ c ∈ s := by
  obtain ⟨h1, h2, _⟩ := leading_eq 2 s hb
  rcases trimLoop_sub _ _ _ _ h with h | h | h
  · exact Or.inl h
  · exact Or.inr (by rw [h1]; simp [h])
  · exact Or.inl (h2 c h)

/-- Making a path absolute does not change what it names. -/
theorem canonify_resolve (fs : FS Node) (cwdNode : Node) (cwd s : List Char) (hc : cwd.head? = some '/') (hr : ∀ n, fs.resolve n cwd = some cwdNode)
    (hb : '\\' ∉ s) (hd : ':' ∉ s) : (∀ n, fs.resolve n (canonify cwd s) = fs.resolve cwdNode s) ∧ (canonify cwd s).head? = some '/' := by
  unfold canonify
  cases s with
  | nil =>
    rw [if_neg (by simp [isAbsolute])]
    have hh : (appendPart '/' [] cwd).head? = some '/' := by
      unfold appendPart
      cases cwd with
      | nil => simp at hc
      | cons x l => simp at hc; subst hc; split <;> simp
    refine ⟨fun n => ?_, hh⟩
    unfold FS.resolve
    rw [if_pos hh, walk_appendPart, if_neg (by simp)]
    have := hr n
    unfold FS.resolve at this
    rw [if_pos hc] at this
    rw [this]; rfl
  | cons x l =>
    have hx : x ≠ '\\' := fun e => hb (by simp [e])
    by_cases hs : x = '/'
    · subst hs
      rw [if_pos (by simp [isAbsolute, isOneOf])]
      exact ⟨fun n => (by simp [FS.resolve]), by simp⟩
    · have ha : isAbsolute (x :: l) = false := by
        unfold isAbsolute
        dsimp only
        rw [if_neg (fun h => hs ((sep_iff x hx).1 h))]
        cases l with
        | nil => simp
        | cons y l => simp; exact fun e => hd (by simp [e])
      rw [if_neg (by rw [ha]; simp)]
      have hne : cwd ≠ [] := fun e => by rw [e] at hc; simp at hc
      have hh : (appendPart '/' (x :: l) cwd).head? = some '/' := by
        rw [appendPart_head _ _ (by simp), if_neg hne]; exact hc
      refine ⟨fun n => ?_, hh⟩
      unfold FS.resolve
      rw [if_pos hh, walk_appendPart, if_neg (by simp [hs])]
      have := hr n
      unfold FS.resolve at this
      rw [if_pos hc] at this
      rw [this]; rfl

theorem canonify_sub (cwd s : List Char) (c : Char) (h : c ∈ canonify cwd s) : c = '/' ∨ c ∈ s ∨ c ∈ cwd := by
  unfold canonify at h
  split at h
  · exact Or.inr (Or.inl h)
  · exact appendPart_sub _ _ _ h

/-- The directory of a path. -/
theorem chop_eq (p : List Char) (hb : '\\' ∉ p) (hp : p.head? = some '/') : ∃ nm, '/' ∉ nm ∧ p = chop p ++ '/' :: nm := by
  unfold chop
  have e := List.takeWhile_append_dropWhile (p := fun c => !isOneOf c ['/', '\\']) (l := p.reverse)
  generalize ht : p.reverse.takeWhile (fun c => !isOneOf c ['/', '\\']) = t at e
  cases hd : p.reverse.dropWhile (fun c => !isOneOf c ['/', '\\']) with
  | nil =>
    exfalso
    have hm : '/' ∈ p.reverse := by
      cases p with
      | nil => simp at hp
      | cons x l => simp at hp; simp [hp]
    have := dw_nil hd '/' hm
    simp [isOneOf] at this
  | cons x r =>
    rw [hd] at e
    have hx : isOneOf x ['/', '\\'] = true := by
      have := dw_head hd
      simpa using this
    have hxb : x ≠ '\\' := by
      intro e2
      apply hb
      have : x ∈ p.reverse := by rw [← e]; simp
      rw [e2] at this
      simpa using this
    have hx' := (sep_iff x hxb).1 hx
    subst hx'
    refine ⟨t.reverse, ?_, ?_⟩
    · intro hm
      rw [← ht] at hm
      have := mem_tw (List.mem_reverse.1 hm)
      simp [isOneOf] at this
    · have := congrArg List.reverse e
      simp at this
      rw [← this]; simp

/-! ## The search -/

/-- What the theorems assume: the path of the working directory is absolute and names it; no backslashes (they are taken for slashes), no colon in the
name of the program, no semicolon and no empty element in the search path. -/
structure Usual (fs : FS Node) (cwdNode : Node) (cwd arg0 path : List Char) : Prop where
  cwdAbs : cwd.head? = some '/'
  cwdIs : ∀ n, fs.resolve n cwd = some cwdNode
  back : '\\' ∉ cwd ∧ '\\' ∉ arg0 ∧ '\\' ∉ path
  colon : ':' ∉ arg0
  semi : ';' ∉ path
  elems : path = [] ∨ [] ∉ split ':' path

/-- A path that names what a candidate names. -/
def Names (fs : FS Node) (cwdNode : Node) (c b : List Char) : Prop :=
  (∀ n, fs.resolve n b = fs.resolve cwdNode c) ∧ b.head? = some '/' ∧ '\\' ∉ b

theorem canon_names (fs : FS Node) (cwdNode : Node) (cwd s : List Char) (hc : cwd.head? = some '/') (hr : ∀ n, fs.resolve n cwd = some cwdNode)
    (hcb : '\\' ∉ cwd) (hb : '\\' ∉ s) (hd : ':' ∉ s) : Names fs cwdNode s (canonify cwd (trim s)) := by
  have hbt : '\\' ∉ trim s := fun hm => by
    rcases trim_sub s hb _ hm with h | h
    · cases h
    · exact hb h
  have hdt : ':' ∉ trim s := fun hm => by
    rcases trim_sub s hb _ hm with h | h
    · cases h
    · exact hd h
  obtain ⟨h1, h2⟩ := canonify_resolve fs cwdNode cwd (trim s) hc hr hbt hdt
  refine ⟨fun n => (by rw [h1 n, trim_resolve fs cwdNode s hb]), h2, fun hm => ?_⟩
  rcases canonify_sub _ _ _ hm with h | h | h
  · cases h
  · exact hbt h
  · exact hcb h

theorem appendPart_resolve (fs : FS Node) (n : Node) (d s : List Char) (hd : d ≠ []) : fs.resolve n (appendPart '/' s d) = fs.resolve n (d ++ '/' :: s) := by
  unfold FS.resolve
  have hh : (appendPart '/' s d).head? = (d ++ '/' :: s).head? := by
    unfold appendPart
    cases d with
    | nil => exact absurd rfl hd
    | cons x d => split <;> simp
  rw [hh, walk_appendPart, walk_slash]

theorem search_ok (fs : FS Node) (cwdNode : Node) (cwd arg0 : List Char) (hc : cwd.head? = some '/') (hr : ∀ n, fs.resolve n cwd = some cwdNode)
    (hcb : '\\' ∉ cwd) (hab : '\\' ∉ arg0) (had : ':' ∉ arg0) : ∀ f s, s.length ≤ f → s ≠ [] → '\\' ∉ s → ';' ∉ s → [] ∉ split ':' s →
    (firstPresent fs cwdNode ((split ':' s).map (fun d => d ++ '/' :: arg0)) = none →
      searchLoop (fun b => (fs.resolve cwdNode b).isSome) cwd arg0 f s = none) ∧
    ∀ c, firstPresent fs cwdNode ((split ':' s).map (fun d => d ++ '/' :: arg0)) = some c →
      ∃ b, searchLoop (fun b => (fs.resolve cwdNode b).isSome) cwd arg0 f s = some b ∧ Names fs cwdNode c b := by
  intro f
  induction f with
  | zero =>
    intro s h hne
    exact absurd (List.length_eq_zero_iff.1 (Nat.le_zero.1 h)) hne
  | succ f ih =>
    intro s h hne hb hs he
    cases s with
    | nil => exact absurd rfl hne
    | cons x s =>
      unfold searchLoop
      dsimp only
      have hlen := extract_length x s [':', ';']
      obtain ⟨seps, e1, e2, e3, e4⟩ := extract_eq [':', ';'] (x :: s)
      have hsub := fun c => extract_sub [':', ';'] (x :: s) c
      generalize (extractPart (x :: s) [':', ';']).1 = part at e1 e3 hsub ⊢
      generalize (extractPart (x :: s) [':', ';']).2 = rest at e1 e4 hsub hlen ⊢
      have hpc : ':' ∉ part := fun hm => by have := e3 _ hm; simp [isOneOf] at this
      have hseps : ∀ c ∈ seps, c = ':' := by
        intro c hc
        have := e2 c hc
        simp [isOneOf] at this
        rcases this with h | h
        · exact h
        · exfalso; apply hs; rw [e1]; subst h; simp [hc]
      have hpb : '\\' ∉ part := fun hm => hb ((hsub _).1 hm)
      -- the candidate of the first element
      have hcand : part ≠ [] → Names fs cwdNode (part ++ '/' :: arg0) (canonify cwd (trim (appendPart '/' arg0 part))) := by
        intro hpn
        have hab' : '\\' ∉ appendPart '/' arg0 part := fun hm => by
          rcases appendPart_sub _ _ _ hm with h | h | h
          · cases h
          · exact hab h
          · exact hpb h
        have had' : ':' ∉ appendPart '/' arg0 part := fun hm => by
          rcases appendPart_sub _ _ _ hm with h | h | h
          · cases h
          · exact had h
          · exact hpc h
        obtain ⟨h1, h2, h3⟩ := canon_names fs cwdNode cwd _ hc hr hcb hab' had'
        exact ⟨fun n => (by rw [h1 n, appendPart_resolve fs _ _ _ hpn]), h2, h3⟩
      have hmain : ∀ l, split ':' (x :: s) = part :: l →
          ((firstPresent fs cwdNode (l.map (fun d => d ++ '/' :: arg0)) = none →
            searchLoop (fun b => (fs.resolve cwdNode b).isSome) cwd arg0 f rest = none) ∧
           ∀ c, firstPresent fs cwdNode (l.map (fun d => d ++ '/' :: arg0)) = some c →
            ∃ b, searchLoop (fun b => (fs.resolve cwdNode b).isSome) cwd arg0 f rest = some b ∧ Names fs cwdNode c b) →
          part ≠ [] ∧
          ((firstPresent fs cwdNode ((split ':' (x :: s)).map (fun d => d ++ '/' :: arg0)) = none →
            (if (fs.resolve cwdNode (canonify cwd (trim (appendPart '/' arg0 part)))).isSome = true then some (canonify cwd (trim (appendPart '/' arg0 part)))
              else searchLoop (fun b => (fs.resolve cwdNode b).isSome) cwd arg0 f rest) = none) ∧
           ∀ c, firstPresent fs cwdNode ((split ':' (x :: s)).map (fun d => d ++ '/' :: arg0)) = some c →
            ∃ b, (if (fs.resolve cwdNode (canonify cwd (trim (appendPart '/' arg0 part)))).isSome = true then some (canonify cwd (trim (appendPart '/' arg0 part)))
              else searchLoop (fun b => (fs.resolve cwdNode b).isSome) cwd arg0 f rest) = some b ∧ Names fs cwdNode c b) := by
        intro l hl hi
        have hpn : part ≠ [] := fun e => he (by rw [hl, e]; simp)
        obtain ⟨h1, h2, h3⟩ := hcand hpn
        refine ⟨hpn, ?_⟩
        rw [hl]
        simp only [List.map_cons, firstPresent]
        rw [h1 cwdNode]
        by_cases hp : (fs.resolve cwdNode (part ++ '/' :: arg0)).isSome = true
        · rw [if_pos hp, if_pos hp]
          exact ⟨fun h => (by cases h), fun c hc => (by cases hc; exact ⟨_, rfl, h1, h2, h3⟩)⟩
        · rw [if_neg hp, if_neg hp]
          exact hi
      cases seps with
      | nil =>
        have hrest := e4 rfl
        subst hrest
        have hsp : split ':' (x :: s) = [part] := by
          rw [e1]; simp only [List.append_nil]; exact split_single _ _ hpc
        refine (hmain [] hsp ⟨fun _ => ?_, fun c hc => (by cases hc)⟩).2
        cases f <;> rfl
      | cons c seps =>
        have hcc : c = ':' := hseps c (by simp)
        subst hcc
        have hsp : split ':' (x :: s) = part :: split ':' (seps ++ rest) := by
          rw [e1, List.append_assoc, List.cons_append, split_append, split_single _ _ hpc]; rfl
        have hsn : seps = [] := by
          cases seps with
          | nil => rfl
          | cons d seps =>
            exfalso
            have : d = ':' := hseps d (by simp)
            subst this
            apply he
            rw [hsp]
            simp [split]
        subst hsn
        have hrn : rest ≠ [] := by
          intro e
          apply he
          rw [hsp, e]; simp [split]
        exact (hmain _ hsp (ih rest (by simp at h; omega) hrn (fun hm => hb ((hsub _).2 hm)) (fun hm => hs ((hsub _).2 hm))
          (fun hm => he (by rw [hsp]; simp at hm ⊢; exact Or.inr hm)))).2

/-! ## The theorems -/

/-- **C82** (partial).  Removing empty parts and dots from a path never changes which file it names, from whatever directory and in any file system (links
included, as `..` is kept).  Missing: paths with backslashes, which are turned into slashes (`C82_backslash`). -/
theorem C82_trim_partial (fs : FS Node) (cwd : Node) (s : List Char) (h : '\\' ∉ s) : fs.resolve cwd (trim s) = fs.resolve cwd s :=
  trim_resolve fs cwd s h

/-- **C82** (partial).  If none of the names under which a shell looks for the program exists, the directory of the program is the empty string; otherwise
it is a directory in which the first of those that exist is found: appending a slash and some name to it gives a path that names the same file from
everywhere.  Missing: `Usual` (see `C82_empty_element`, `C82_colon`); the shell looks for programs only, not for any file (`C82_not_program`). -/
theorem C82_directory_partial (fs : FS Node) (cwdNode : Node) (cwd path arg0 : List Char) (args : List (List Char)) (h : Usual fs cwdNode cwd arg0 path) :
    match firstPresent fs cwdNode (candidates arg0 path) with
    | none => findBinaryDir (fun b => (fs.resolve cwdNode b).isSome) cwd path (arg0 :: args) = []
    | some c => ∃ nm, '/' ∉ nm ∧
        ∀ n, fs.resolve n (findBinaryDir (fun b => (fs.resolve cwdNode b).isSome) cwd path (arg0 :: args) ++ '/' :: nm) = fs.resolve cwdNode c := by
  obtain ⟨hc, hr, ⟨hcb, hab, hpb⟩, had, hs, he⟩ := h
  have hfin : ∀ c b, Names fs cwdNode c b → ∃ nm, '/' ∉ nm ∧ ∀ n, fs.resolve n (chop b ++ '/' :: nm) = fs.resolve cwdNode c := by
    intro c b ⟨h1, h2, h3⟩
    obtain ⟨nm, hn, e⟩ := chop_eq b h3 h2
    exact ⟨nm, hn, fun n => (by rw [← e]; exact h1 n)⟩
  have hsl : (arg0.any (fun c => isOneOf c ['/', '\\']) = true) ↔ '/' ∈ arg0 := by
    rw [List.any_eq_true]
    constructor
    · rintro ⟨c, hm, h⟩
      have := (sep_iff c (fun e => hab (by rw [← e]; exact hm))).1 h
      rw [← this]; exact hm
    · intro hm; exact ⟨'/', hm, by simp [isOneOf]⟩
  unfold candidates findBinaryDir
  dsimp only
  by_cases hsl' : '/' ∈ arg0
  · rw [if_pos hsl', if_pos (hsl.2 hsl')]
    have hN := canon_names fs cwdNode cwd arg0 hc hr hcb hab had
    have e := hN.1 cwdNode
    simp only [firstPresent]
    by_cases hp : (fs.resolve cwdNode arg0).isSome = true
    · rw [if_pos hp, if_pos (by rw [e]; exact hp)]; exact hfin _ _ hN
    · rw [if_neg hp, if_neg (by rw [e]; exact hp)]
  · rw [if_neg hsl', if_neg (fun h => hsl' (hsl.1 h))]
    by_cases hpe : path = []
    · subst hpe
      rw [if_pos rfl]
      rfl
    · rw [if_neg hpe]
      have := search_ok fs cwdNode cwd arg0 hc hr hcb hab had path.length path (Nat.le_refl _) hpe hpb hs (he.resolve_left hpe)
      cases hf : firstPresent fs cwdNode ((split ':' path).map (fun d => d ++ '/' :: arg0)) with
      | none =>
        dsimp only
        rw [this.1 hf]
      | some c =>
        obtain ⟨b, hb1, hb2⟩ := this.2 c hf
        dsimp only
        rw [hb1]
        exact hfin c b hb2

/-- The directory of the installation: the first that holds the three files of the directory next to the program, and of the directory above that of the
program; otherwise the configured one. -/
theorem C82_install (present : List Char → Bool) (name conf : List Char) (up nm : List Char) (hn : '/' ∉ nm) :
    findInstallDir present name conf (up ++ '/' :: nm) =
      (([up ++ '/' :: nm ++ '/' :: name ++ ".d".toList, up].find? (fun d =>
        present (d ++ "/lib/lib".toList ++ name ++ "-O2.a".toList) && present (d ++ "/2/include/Oberon.h".toList) &&
        present (d ++ "/2/sym/Files.sym".toList))).getD conf) := by
  unfold findInstallDir
  have e : (up ++ '/' :: nm).reverse.dropWhile (fun c => c ≠ '/') = '/' :: up.reverse := by
    have : (up ++ '/' :: nm).reverse = nm.reverse ++ '/' :: up.reverse := by simp
    rw [this]
    have hr : ∀ c ∈ nm.reverse, c ≠ '/' := fun c hc e => hn (by rw [← e]; simpa using hc)
    generalize nm.reverse = r at hr
    clear this hn
    induction r with
    | nil => simp
    | cons c r ih =>
      have := hr c (by simp)
      rw [List.cons_append, List.dropWhile_cons_of_pos (by simpa using this)]
      exact ih (fun d hd => hr d (by simp [hd]))
  rw [e]
  have e2 : up ++ '/' :: nm ++ ['/'] ++ name ++ ".d".toList = up ++ '/' :: nm ++ '/' :: name ++ ".d".toList := by simp
  rw [e2]
  dsimp only
  rw [List.reverse_reverse]
  unfold isInstallDir
  generalize up ++ '/' :: nm ++ '/' :: name ++ ".d".toList = d1
  generalize h1 : (present (d1 ++ "/lib/lib".toList ++ name ++ "-O2.a".toList) && present (d1 ++ "/2/include/Oberon.h".toList) &&
    present (d1 ++ "/2/sym/Files.sym".toList)) = b1
  generalize h2 : (present (up ++ "/lib/lib".toList ++ name ++ "-O2.a".toList) && present (up ++ "/2/include/Oberon.h".toList) &&
    present (up ++ "/2/sym/Files.sym".toList)) = b2
  simp only [List.find?_cons, h1, h2, List.find?_nil]
  cases b1 <;> cases b2 <;> rfl

/-! ### Arguments -/

def IsDigit (c : Char) : Prop := 48 ≤ c.toNat ∧ c.toNat ≤ 57

theorem digits_ok (l rest : List Char) (h : ∀ c ∈ l, IsDigit c) (hr : ∀ c, rest.head? = some c → ¬ IsDigit c) : ∀ k : Nat, ∀ i,
    digits (l ++ rest) k i = (((l.foldl (fun k c => k * 10 + (c.toNat - '0'.toNat)) k : Nat) : Int), i + (l.length : Int)) := by
  induction l with
  | nil =>
    intro k i
    cases rest with
    | nil => simp [digits]
    | cons c r =>
      have := hr c rfl
      unfold IsDigit at this
      show digits (c :: r) k i = _
      unfold digits
      have e0 : digitOf (c :: r) = (c.toNat : Int) - 48 := rfl
      rw [e0, if_neg (by omega)]; simp
  | cons c l ih =>
    intro k i
    have hc := h c (by simp)
    unfold IsDigit at hc
    show digits (c :: (l ++ rest)) k i = _
    unfold digits
    have e0 : digitOf (c :: (l ++ rest)) = (c.toNat : Int) - 48 := rfl
    rw [e0, if_pos (by omega)]
    have e : ((k : Int) * 10 + ((c.toNat : Int) - 48)) = ((k * 10 + (c.toNat - '0'.toNat) : Nat) : Int) := by
      have : '0'.toNat = 48 := by decide
      rw [this]; omega
    rw [e, ih (fun d hd => h d (by simp [hd]))]
    simp; omega

/-- An argument that is a number (with or without a sign, and whatever follows the digits) gives this number; without digits, or without the argument, the
variable keeps its value. -/
theorem C82_number_partial (args : List (List Char)) (n : Nat) (val : Int) (neg : Bool) (ds rest : List Char)
    (hd : ∀ c ∈ ds, IsDigit c) (hr : ∀ c, rest.head? = some c → ¬ IsDigit c) (hs : neg = false → ds = [] → rest.head? ≠ some '-')
    (ha : args[n]? = some ((if neg then ['-'] else []) ++ ds ++ rest)) (hl : ((if neg then ['-'] else []) ++ ds ++ rest).length < 64) :
    getIntArg args n val = if ds = [] then val else if neg then - (decimal ds : Int) else (decimal ds : Int) := by
  unfold getIntArg getArg
  rw [ha]
  dsimp only
  rw [List.take_of_length_le (by omega)]
  have hdig := fun i => digits_ok ds rest hd hr 0 i
  cases neg with
  | true =>
    show (if (digits (ds ++ rest) 0 1).2 - 1 > 0 then -(digits (ds ++ rest) 0 1).1 else val) = _
    have := hdig 1
    rw [show (digits (ds ++ rest) 0 1) = _ from this]
    dsimp only
    by_cases he : ds = []
    · subst he; simp
    · have : 0 < ds.length := List.length_pos_iff.2 he
      rw [if_pos (by omega), if_neg he, if_pos rfl]; rfl
  | false =>
    have hm : ((if false = true then ['-'] else []) ++ ds ++ rest) = ds ++ rest := by simp
    rw [hm]
    have hne : (ds ++ rest).head? ≠ some '-' := by
      cases ds with
      | nil => exact hs rfl rfl
      | cons c l =>
        have := hd c (by simp)
        simp
        intro e
        subst e
        revert this
        unfold IsDigit
        decide
    have hmatch : ∀ s : List Char, s.head? ≠ some '-' →
        (match s with
          | '-' :: l => if (digits l 0 1).2 - 1 > 0 then -(digits l 0 1).1 else val
          | _ => if (digits s 0 0).2 > 0 then (digits s 0 0).1 else val) = (if (digits s 0 0).2 > 0 then (digits s 0 0).1 else val) := by
      intro s hsn
      split
      · simp at hsn
      · rfl
    refine Eq.trans (hmatch _ hne) ?_
    have := hdig 0
    rw [show (digits (ds ++ rest) 0 0) = _ from this]
    dsimp only
    by_cases he : ds = []
    · subst he; simp
    · have : 0 < ds.length := List.length_pos_iff.2 he
      rw [if_pos (by omega), if_neg he, if_neg (by simp)]; rfl

/-- Without the argument the variable keeps its value. -/
theorem C82_no_argument (args : List (List Char)) (n : Nat) (val : Int) (h : args.length ≤ n) : getIntArg args n val = val := by
  unfold getIntArg getArg
  rw [List.getElem?_eq_none h]
  rfl

theorem argLoop_ok (args : List (List Char)) (s : List Char) (hl : ∀ a ∈ args, a.length < 256) : ∀ f i arg, f + i = args.length →
    (f ≠ 0 → args[i]? = some arg) → argLoop args s f i arg = i + (args.drop i).findIdx (· == s) := by
  intro f
  induction f with
  | zero =>
    intro i arg h _
    unfold argLoop
    rw [List.drop_of_length_le (by omega)]; simp
  | succ f ih =>
    intro i arg h ha
    have ha' := ha (by omega)
    have hi : i < args.length := by omega
    have hd : args.drop i = arg :: args.drop (i + 1) := by
      rw [List.drop_eq_getElem_cons hi]
      congr 1
      rw [List.getElem?_eq_getElem hi] at ha'
      exact Option.some.inj ha'
    unfold argLoop
    rw [hd, List.findIdx_cons]
    by_cases he : s = arg
    · subst he; simp
    · rw [if_pos he]
      have hb : (arg == s) = false := by simp; exact fun e => he e.symm
      rw [hb]
      rw [ih (i + 1) _ (by omega) (fun hf => by
        have hi' : i + 1 < args.length := by omega
        unfold getArg
        rw [List.getElem?_eq_getElem hi']
        dsimp only
        rw [List.take_of_length_le (by have := hl _ (List.getElem_mem hi'); omega)])]
      simp; omega

/-- The position of an argument is the first place where it stands, or the number of arguments if it does not occur; for arguments of less than 256
characters. -/
theorem C82_position_partial (args : List (List Char)) (s : List Char) (hl : ∀ a ∈ args, a.length < 256) : argPos args s = args.findIdx (· == s) := by
  unfold argPos
  rw [argLoop_ok args s hl args.length 0 _ (by omega) (fun h => by
    have hi : 0 < args.length := by omega
    unfold getArg
    rw [List.getElem?_eq_getElem hi]
    dsimp only
    rw [List.take_of_length_le (by have := hl _ (List.getElem_mem hi); omega)])]
  simp

/-! ## Cases -/

/-- A file system: nodes are the names that lead to them; `/home/u`, `/bin/prog` and `/home/u/x` exist. -/
def exFS : FS (List (List Char)) where
  root := []
  step n x := if n ++ [x] ∈ [["home".toList], ["home".toList, "u".toList], ["home".toList, "u".toList, "x".toList], ["bin".toList], ["bin".toList, "prog".toList]]
    then some (n ++ [x]) else none

theorem exUsual : Usual exFS ["home".toList, "u".toList] "/home/u".toList "prog".toList "/none:/bin/:/home".toList where
  cwdAbs := by decide
  cwdIs := fun n => (by
    show exFS.walk exFS.root _ = _
    decide)
  back := by decide
  colon := by decide
  semi := by decide
  elems := by decide

example : firstPresent exFS ["home".toList, "u".toList] (candidates "prog".toList "/none:/bin/:/home".toList) = some "/bin//prog".toList := by decide
example : findBinaryDir (fun b => (exFS.resolve ["home".toList, "u".toList] b).isSome) "/home/u".toList "/none:/bin/:/home".toList ["prog".toList] =
    "/bin".toList := by decide
example : findBinaryDir (fun b => (exFS.resolve ["home".toList, "u".toList] b).isSome) "/home/u".toList [] ["./x".toList] = "/home/u".toList := by decide
example : trim "/./a//b/./../c".toList = "/a/b/../c".toList := by decide
example : getIntArg ["p".toList, "-12x".toList] 1 7 = -12 := by decide
example : argPos ["p".toList, "a".toList, "b".toList, "a".toList] "a".toList = 1 := by decide

/-! ## Deviations -/

/-- A file whose name has a backslash: the name is changed, and the directory is not found. -/
theorem C82_backslash :
    let fs : FS (List Char) := { root := [], step := fun n x => if n = [] ∧ x = ['a', '\\', 'b'] then some x else none }
    fs.resolve [] (['/', 'a', '\\', 'b']) = some ['a', '\\', 'b'] ∧ trim ['/', 'a', '\\', 'b'] = ['/', 'a', '/', 'b'] ∧
      fs.resolve [] (trim ['/', 'a', '\\', 'b']) = none := by decide

/-- A relative path whose second character is a colon is taken for an absolute one: the directory depends on the working directory. -/
theorem C82_colon : findBinaryDir (fun _ => true) "/home/u".toList [] ["c:d/x".toList] = "c:d".toList := by decide

/-- An empty element in the search path stands for the working directory; it is skipped if it is not the first. -/
theorem C82_empty_element :
    findBinaryDir (fun b => (exFS.resolve ["home".toList, "u".toList] b).isSome) "/home/u".toList "/bin::/home".toList ["x".toList] = [] ∧
     findBinaryDir (fun b => (exFS.resolve ["home".toList, "u".toList] b).isSome) "/home/u".toList ":/bin:/home".toList ["x".toList] = "/home/u".toList := by
  decide

/-- Any file counts, and a directory, too: here `prog` is a directory in the first element of the search path and the program in the second. -/
theorem C82_not_program :
    let fs : FS (List (List Char)) := { root := [], step := fun n x => if n ++ [x] ∈ [["a".toList], ["a".toList, "prog".toList], ["a".toList, "prog".toList, "file".toList],
      ["b".toList], ["b".toList, "prog".toList]] then some (n ++ [x]) else none }
    findBinaryDir (fun b => (fs.resolve [] b).isSome) "/".toList "/a:/b".toList ["prog".toList] = "/a".toList ∧
      (fs.resolve [] "/a/prog/file".toList).isSome = true := by decide

/-- A program in the root directory: the result is the same as if it was not found. -/
theorem C82_root : findBinaryDir (fun _ => true) "/".toList [] ["/prog".toList] = [] ∧ findBinaryDir (fun _ => false) "/".toList [] ["/prog".toList] = [] := by decide

end Verif.BinDir
