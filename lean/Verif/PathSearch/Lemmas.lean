import Verif.Common
import Verif.PathSearch.Model

namespace Verif.PathSearch

theorem length_drop_le (p : Nat → Bool) (l : Str) : (l.dropWhile p).length ≤ l.length :=
  (List.dropWhile_suffix p).length_le

theorem mem_take (p : Nat → Bool) (l : Str) (x : Nat) (h : x ∈ l.takeWhile p) : p x = true := by
  induction l with
  | nil => cases h
  | cons y r ih =>
    by_cases hy : p y = true
    · rw [List.takeWhile_cons_of_pos hy] at h
      rcases List.mem_cons.1 h with e | e
      · rw [e]; exact hy
      · exact ih e
    · rw [List.takeWhile_cons_of_neg hy] at h; cases h

theorem split_ne (c : Nat) (s : Str) : split c s ≠ [] := by
  cases s with
  | nil => intro h; cases h
  | cons x r =>
    rw [split]
    split
    · intro h; cases h
    · split <;> intro h <;> cases h

theorem split_sep (c : Nat) (r : Str) : split c (c :: r) = [] :: split c r := by rw [split, if_pos rfl]

theorem split_other {c x : Nat} (h : x ≠ c) (r : Str) : ∃ a t, split c r = a :: t ∧ split c (x :: r) = (x :: a) :: t := by
  cases hs : split c r with
  | nil => exact absurd hs (split_ne c r)
  | cons a t => exact ⟨a, t, rfl, by rw [split, if_neg h, hs]⟩

theorem split_append (c : Nat) (a b : Str) : split c (a ++ c :: b) = split c a ++ split c b := by
  induction a with
  | nil => rw [List.nil_append, split_sep]; rfl
  | cons x r ih =>
    by_cases h : x = c
    · subst h
      rw [List.cons_append, split_sep, split_sep, ih]; rfl
    · obtain ⟨p, t, h1, h2⟩ := split_other h r
      rw [List.cons_append, split, if_neg h, ih, h1, h2]; rfl

/-- The first part of a string, and the rest. -/
theorem split_first (c : Nat) (s : Str) : split c s = s.takeWhile (· ≠ c) ::
    (match s.dropWhile (· ≠ c) with | [] => [] | _ :: r => split c r) := by
  induction s with
  | nil => rfl
  | cons x r ih =>
    by_cases h : x = c
    · subst h
      rw [split_sep, List.takeWhile_cons_of_neg (by simp), List.dropWhile_cons_of_neg (by simp)]
    · rw [split, if_neg h, ih, List.takeWhile_cons_of_pos (by simpa using h), List.dropWhile_cons_of_pos (by simpa using h)]

theorem trimR_cons {x : Nat} (h : x ≠ 32) (s : Str) : trimR (x :: s) = x :: trimR s := by
  unfold trimR
  rw [List.reverse_cons]
  by_cases hs : s.reverse.dropWhile (· = 32) = []
  · have : (s.reverse ++ [x]).dropWhile (· = 32) = [x] := by
      rw [List.dropWhile_append, hs]
      simp [h]
    rw [this, hs]; rfl
  · have : (s.reverse ++ [x]).dropWhile (· = 32) = s.reverse.dropWhile (· = 32) ++ [x] := by
      rw [List.dropWhile_append]
      rw [if_neg (by simpa using hs)]
    rw [this, List.reverse_append]; rfl

theorem dropWhile_idem (p : Nat → Bool) (l : Str) : (l.dropWhile p).dropWhile p = l.dropWhile p := by
  induction l with
  | nil => rfl
  | cons x r ih =>
    by_cases h : p x = true
    · rw [List.dropWhile_cons_of_pos h, ih]
    · rw [List.dropWhile_cons_of_neg h, List.dropWhile_cons_of_neg h]

theorem dropWhile_app (p : Nat → Bool) (l m : Str) : ((l.dropWhile p) ++ m).dropWhile p = (l ++ m).dropWhile p := by
  induction l with
  | nil => rfl
  | cons x r ih =>
    by_cases h : p x = true
    · rw [List.dropWhile_cons_of_pos h, ih, List.cons_append, List.dropWhile_cons_of_pos h]
    · rw [List.dropWhile_cons_of_neg h]

theorem trimR_app (a s : Str) : trimR (a ++ trimR s) = trimR (a ++ s) := by
  unfold trimR
  rw [List.reverse_append, List.reverse_reverse, dropWhile_app, List.reverse_append]

theorem trimR_idem (s : Str) : trimR (trimR s) = trimR s := by
  have := trimR_app [] s
  simpa using this

theorem trimR_length (s : Str) : (trimR s).length ≤ s.length := by
  unfold trimR
  rw [List.length_reverse]
  exact (length_drop_le _ _).trans (by rw [List.length_reverse])

theorem upToSlash_length (s : Str) : (upToSlash s).length ≤ s.length := by
  unfold upToSlash
  rw [List.length_reverse]
  exact (length_drop_le _ _).trans (by rw [List.length_reverse])

theorem trim_blank (s : Str) : trim (32 :: s) = trim s := by
  unfold trim
  rw [List.dropWhile_cons_of_pos (by decide)]

theorem entries_sep (r : Str) : entries (59 :: r) = entries r := by
  unfold entries
  rw [split_sep, List.map_cons, List.filter_cons]
  rfl

theorem entries_blank (r : Str) : entries (32 :: r) = entries r := by
  obtain ⟨a, t, h1, h2⟩ := split_other (c := 59) (x := 32) (by decide) r
  unfold entries
  rw [h1, h2, List.map_cons, List.map_cons, trim_blank]

theorem entries_skip (r : Str) : entries (r.dropWhile fun c => c = 32 ∨ c = 59) = entries r := by
  induction r with
  | nil => rfl
  | cons x r ih =>
    by_cases h : x = 32 ∨ x = 59
    · rw [List.dropWhile_cons_of_pos (by simpa using h), ih]
      rcases h with rfl | rfl
      · exact (entries_blank r).symm
      · exact (entries_sep r).symm
    · rw [List.dropWhile_cons_of_neg (by simpa using h)]

/-- The rest of the path after a directory. -/
def after (s : Str) : Str := s.dropWhile (· ≠ 59)

theorem entries_first {x : Nat} (h1 : x ≠ 32) (h2 : x ≠ 59) (r : Str) :
    entries (x :: r) = trimR (x :: r.takeWhile (· ≠ 59)) :: entries (after r) := by
  have ht : trim (x :: r.takeWhile (· ≠ 59)) = trimR (x :: r.takeWhile (· ≠ 59)) := by
    unfold trim
    rw [List.dropWhile_cons_of_neg (by simpa using h1)]
  have hne : trimR (x :: r.takeWhile (· ≠ 59)) ≠ [] := by
    rw [trimR_cons h1]; intro hh; cases hh
  have hl : entries (x :: r) = trimR (x :: r.takeWhile (· ≠ 59)) ::
      ((match r.dropWhile (· ≠ 59) with | [] => [] | _ :: r => split 59 r).map trim).filter (· ≠ []) := by
    unfold entries
    rw [split_first, List.takeWhile_cons_of_pos (by simpa using h2), List.dropWhile_cons_of_pos (by simpa using h2), List.map_cons, ht,
      List.filter_cons, if_pos (by simpa using hne)]
  rw [hl]
  congr 1
  unfold after
  cases hd : r.dropWhile (· ≠ 59) with
  | nil => rfl
  | cons y t =>
    have hy : y = 59 := by
      have := List.head?_dropWhile_not (fun z : Nat => decide (z ≠ 59)) r
      rw [hd] at this
      simpa using this
    rw [hy, entries_sep]
    rfl

theorem copyDir_spec (r : Str) : ∀ d : Str, d.length + (r.takeWhile (· ≠ 59)).length ≤ 255 →
    copyDir d r = some (d ++ r.takeWhile (· ≠ 59), after r) := by
  induction r with
  | nil => intro d _; rw [copyDir]; simp [after]
  | cons c r ih =>
    intro d hd
    unfold after
    rw [copyDir]
    by_cases h : c = 59
    · rw [if_pos h, List.takeWhile_cons_of_neg (by simp [h]), List.dropWhile_cons_of_neg (by simp [h]), List.append_nil]
    · rw [List.takeWhile_cons_of_pos (by simpa using h)] at hd ⊢
      rw [List.length_cons] at hd
      rw [if_neg h, if_pos (by omega), ih (d ++ [c]) (by rw [List.length_append]; simp only [List.length_singleton]; omega),
        List.dropWhile_cons_of_pos (by simpa using h)]
      simp only [List.append_assoc, List.singleton_append]
      rfl

theorem fits_skip {home : Str} (r : Str) : Fits home r → Fits home (r.dropWhile fun c => c = 32 ∨ c = 59) := by
  induction r with
  | nil => exact id
  | cons x r ih =>
    intro hf
    by_cases h : x = 32 ∨ x = 59
    · rw [List.dropWhile_cons_of_pos (by simpa using h)]
      refine ih ⟨hf.1, fun p hp => ?_⟩
      rcases h with rfl | rfl
      · obtain ⟨a, t, h1, h2⟩ := split_other (c := 59) (x := 32) (by decide) r
        rw [h1] at hp
        have hf2 := hf.2
        rw [h2] at hf2
        rcases List.mem_cons.1 hp with e | e
        · have := hf2 _ List.mem_cons_self
          rw [List.length_cons] at this
          rw [e]; omega
        · exact hf2 p (List.mem_cons_of_mem _ e)
      · exact hf.2 p (by rw [split_sep]; exact List.mem_cons_of_mem _ hp)
    · rw [List.dropWhile_cons_of_neg (by simpa using h)]
      exact hf

theorem fits_after {home : Str} (r : Str) (hf : Fits home r) : Fits home (after r) := by
  refine ⟨hf.1, fun p hp => ?_⟩
  have h2 := hf.2
  unfold after at hp
  rw [split_first] at h2
  cases hd : r.dropWhile (· ≠ 59) with
  | nil =>
    rw [hd] at hp
    have : p = [] := by simpa [split] using hp
    rw [this]; have := hf.1; simpa using this
  | cons y t =>
    rw [hd] at hp h2
    have hy : y = 59 := by
      have := List.head?_dropWhile_not (fun z : Nat => decide (z ≠ 59)) r
      rw [hd] at this
      simpa using this
    rw [hy, split_sep] at hp
    rcases List.mem_cons.1 hp with e | e
    · rw [e]; have := hf.1; simpa using this
    · exact h2 p (List.mem_cons_of_mem _ e)

theorem fits_first {home : Str} (r : Str) (hf : Fits home r) : home.length + (r.takeWhile (· ≠ 59)).length ≤ 255 := by
  refine hf.2 _ ?_
  rw [split_first]; exact List.mem_cons_self

theorem after_length (r : Str) : (after r).length ≤ r.length := length_drop_le _ _

theorem after_cons {x : Nat} (h : x ≠ 59) (r : Str) : after (x :: r) = after r := by
  unfold after
  rw [List.dropWhile_cons_of_pos (by simpa using h)]

/-- One directory of the path. -/
theorem scanPath_spec (home path : Str) (hf : Fits home path) :
    match dirs home (some path) with
    | [] => scanPath home path = some ([], [])
    | d :: ds => ∃ r, scanPath home path = some (d, r) ∧ dirs home (some r) = ds ∧ Fits home r ∧ r.length < path.length := by
  have hsk := fits_skip path hf
  have hlen : (path.dropWhile fun c => c = 32 ∨ c = 59).length ≤ path.length := length_drop_le _ _
  have hen : dirs home (some path) = dirs home (some (path.dropWhile fun c => c = 32 ∨ c = 59)) := by
    unfold dirs; dsimp only; rw [entries_skip]
  have hsp : scanPath home path = match tilde home (path.dropWhile fun c => c = 32 ∨ c = 59) with
      | none => none
      | some (d, r) =>
        match copyDir d r with
        | none => none
        | some (d, r) => if (trimR d).length < 256 then some (trimR d, r) else none := rfl
  rw [hen, hsp]
  have hhd := List.head?_dropWhile_not (fun c : Nat => decide (c = 32 ∨ c = 59)) path
  revert hsk hlen hhd
  generalize (path.dropWhile fun c => c = 32 ∨ c = 59) = s
  intro hsk hlen hhd
  cases s with
  | nil => rfl
  | cons x r =>
    have hx : x ≠ 32 ∧ x ≠ 59 := by
      have : ¬ (x = 32 ∨ x = 59) := by simpa using hhd
      exact ⟨fun h => this (.inl h), fun h => this (.inr h)⟩
    have hd : dirs home (some (x :: r)) = trimR (expand home (trimR (x :: r.takeWhile (· ≠ 59)))) :: dirs home (some (after r)) := by
      unfold dirs
      dsimp only
      rw [entries_first hx.1 hx.2, List.map_cons]
    rw [hd]
    dsimp only
    have hfr : Fits home (after r) := by
      have := fits_after _ hsk
      rwa [after_cons hx.2] at this
    have hf1 := fits_first _ hsk
    rw [List.takeWhile_cons_of_pos (by simpa using hx.2), List.length_cons] at hf1
    have hal := after_length r
    rw [List.length_cons] at hlen
    refine ⟨after r, ?_, rfl, hfr, by omega⟩
    by_cases ht : x = 126
    · subst ht
      have hhome := hsk.1
      rw [trimR_cons (by decide)]
      -- which directory `~` stands for
      have key : ∀ pre : Str, pre.length ≤ home.length →
          (match copyDir pre r with
          | none => none
          | some (d, r) => if (trimR d).length < 256 then some (trimR d, r) else none) =
          some (trimR (pre ++ trimR (r.takeWhile (· ≠ 59))), after r) := by
        intro pre hp
        rw [copyDir_spec r pre (by omega)]
        dsimp only
        have hl := trimR_length (pre ++ r.takeWhile (· ≠ 59))
        rw [List.length_append] at hl
        rw [if_pos (by omega), trimR_app]
      cases r with
      | nil =>
        have hte : tilde home [126] = some (home, []) := by
          show (if home.length ≤ 256 then _ else none) = _
          rw [if_pos (by omega)]
        rw [hte]
        dsimp only
        rw [key home (le_refl _)]
        have : trimR (List.takeWhile (· ≠ 59) []) = [] := rfl
        rw [this, List.append_nil]
        rfl
      | cons c t =>
        have hte : tilde home (126 :: c :: t) = (if c ≠ 47 ∧ c ≠ 59 ∧ c ≠ 32 then some (upToSlash home, c :: t) else some (home, c :: t)) := by
          show (if home.length ≤ 256 then _ else none) = _
          rw [if_pos (by omega)]
        rw [hte]
        by_cases hc : c ≠ 47 ∧ c ≠ 59 ∧ c ≠ 32
        · rw [if_pos hc]
          dsimp only
          rw [key (upToSlash home) (upToSlash_length home)]
          rw [List.takeWhile_cons_of_pos (by simpa using hc.2.1), trimR_cons hc.2.2]
          have : expand home (126 :: c :: trimR (t.takeWhile (· ≠ 59))) = upToSlash home ++ c :: trimR (t.takeWhile (· ≠ 59)) := by
            show (if c = 47 ∨ c = 32 then _ else _) = _
            rw [if_neg (by rintro (h | h); exacts [hc.1 h, hc.2.2 h])]
          rw [this]
        · rw [if_neg hc]
          dsimp only
          rw [key home (le_refl _)]
          -- what is left begins with a slash or a blank, or nothing is left
          have hx' : expand home (126 :: trimR ((c :: t).takeWhile (· ≠ 59))) = home ++ trimR ((c :: t).takeWhile (· ≠ 59)) := by
            by_cases h1 : c = 59
            · rw [List.takeWhile_cons_of_neg (by simp [h1])]
              show home = home ++ []
              rw [List.append_nil]
            · rw [List.takeWhile_cons_of_pos (by simpa using h1)]
              by_cases h2 : c = 32
              · subst h2
                cases hz : trimR (32 :: t.takeWhile (· ≠ 59)) with
                | nil => rw [List.append_nil]; rfl
                | cons y z =>
                  have hy : y = 32 := by
                    have hp : trimR (32 :: t.takeWhile (· ≠ 59)) <+: (32 :: t.takeWhile (· ≠ 59)) := by
                      unfold trimR
                      rw [← List.reverse_suffix, List.reverse_reverse]
                      exact List.dropWhile_suffix _
                    rw [hz] at hp
                    exact (List.cons_prefix_cons.1 hp).1
                  show (if y = 47 ∨ y = 32 then _ else _) = _
                  rw [if_pos (.inr hy)]
              · have h3 : c = 47 := by
                  by_contra h3; exact hc ⟨h3, h1, h2⟩
                rw [trimR_cons h2]
                show (if c = 47 ∨ c = 32 then _ else _) = _
                rw [if_pos (.inl h3)]
          rw [hx']
    · have hte : tilde home (x :: r) = some ([], x :: r) := by
        unfold tilde
        split
        · rename_i heq; exact absurd (List.cons.inj heq).1 ht
        · rfl
      rw [hte]
      dsimp only
      rw [copyDir_spec (x :: r) [] (by rw [List.takeWhile_cons_of_pos (by simpa using hx.2), List.length_cons]; simp only [List.length_nil]; omega)]
      dsimp only
      rw [List.nil_append, List.takeWhile_cons_of_pos (by simpa using hx.2), after_cons hx.2]
      have hl := trimR_length (x :: r.takeWhile (· ≠ 59))
      rw [List.length_cons] at hl
      rw [if_pos (by omega)]
      have he : expand home (trimR (x :: r.takeWhile (· ≠ 59))) = trimR (x :: r.takeWhile (· ≠ 59)) := by
        rw [trimR_cons hx.1]
        unfold expand
        split
        · rename_i heq; exact absurd (List.cons.inj heq).1 ht
        · rfl
      rw [he, trimR_idem]

/-! ## Names -/

theorem comps_append (a b : Str) : (split 47 (a ++ 47 :: b)).filter (· ≠ []) = (split 47 a).filter (· ≠ []) ++ (split 47 b).filter (· ≠ []) := by
  rw [split_append, List.filter_append]

theorem comps_slashes (a : Str) (n : Nat) : (split 47 (a ++ List.replicate n 47)).filter (· ≠ []) = (split 47 a).filter (· ≠ []) := by
  induction n with
  | zero => rw [List.replicate_zero, List.append_nil]
  | succ n ih =>
    rw [show a ++ List.replicate (n + 1) 47 = (a ++ List.replicate n 47) ++ 47 :: [] by
      rw [List.replicate_succ', List.append_assoc], comps_append, ih]
    show _ ++ [] = _
    rw [List.append_nil]

theorem stripSlash_spec (d : Str) : ∃ n, d = stripSlash d ++ List.replicate n 47 := by
  refine ⟨(d.reverse.takeWhile (· = 47)).length, ?_⟩
  have h1 : d.reverse.takeWhile (· = 47) = List.replicate (d.reverse.takeWhile (· = 47)).length 47 := by
    refine List.eq_replicate_iff.2 ⟨rfl, fun b hb => ?_⟩
    have := mem_take _ _ _ hb
    simpa using this
  have h2 : d.reverse = d.reverse.takeWhile (· = 47) ++ d.reverse.dropWhile (· = 47) := (List.takeWhile_append_dropWhile ..).symm
  have h3 := congrArg List.reverse h2
  rw [List.reverse_reverse, List.reverse_append] at h3
  rw [h1, List.reverse_replicate] at h3
  exact h3

/-- `MakeFileName` gives the name of a file in a directory, unless this is the root. -/
theorem makeFileName_spec (d name : Str) (hl : d.length + name.length + 2 ≤ 256) (hd : ∃ c ∈ d, c ≠ 47) :
    ∃ p, makeFileName d name = some p ∧ resolve p = inDir d name := by
  obtain ⟨n, hn⟩ := stripSlash_spec d
  have hlen : (stripSlash d).length ≤ d.length := by
    conv_rhs => rw [hn]
    rw [List.length_append]; omega
  have hne : stripSlash d ≠ [] := by
    intro h
    rw [h, List.nil_append] at hn
    obtain ⟨c, hc, hc'⟩ := hd
    rw [hn] at hc
    exact hc' (List.eq_of_mem_replicate hc)
  refine ⟨stripSlash d ++ [47] ++ name, ?_, ?_⟩
  · unfold makeFileName
    dsimp only
    rw [if_neg (by omega), if_pos (List.length_pos_of_ne_nil hne)]
  · unfold inDir resolve
    rw [List.append_assoc, List.append_assoc, List.singleton_append, comps_append, comps_append]
    have e1 : (split 47 d).filter (· ≠ []) = (split 47 (stripSlash d)).filter (· ≠ []) := by
      conv_lhs => rw [hn]
      exact comps_slashes _ _
    rw [e1]
    congr 1
    cases hs : stripSlash d with
    | nil => exact absurd hs hne
    | cons y z =>
      rw [hs] at hn
      rw [hn]
      rfl

/-- The rest of the directories: the next one, then those of the path. -/
inductive Rem (home : Str) : Str → Pos → List Str → Prop
  | done (pos) : Rem home [] pos []
  | next (d pos d' pos' ds) : d ≠ [] → scan home pos = some (d', pos') → Rem home d' pos' ds → Rem home d pos (d :: ds)

theorem rem_path (home : Str) : ∀ (n : Nat) (path : Str), path.length ≤ n → Fits home path → (∀ d ∈ dirs home (some path), d ≠ []) →
    ∃ d pos, scan home (.rest path) = some (d, pos) ∧ Rem home d pos (dirs home (some path)) ∧ (dirs home (some path)).length ≤ path.length := by
  intro n
  induction n with
  | zero =>
    intro path hl hf _
    have : path = [] := List.length_eq_zero_iff.1 (by omega)
    subst this
    exact ⟨[], .rest [], rfl, .done _, le_refl _⟩
  | succ n ih =>
    intro path hl hf hne
    have h := scanPath_spec home path hf
    cases hd : dirs home (some path) with
    | nil =>
      rw [hd] at h
      refine ⟨[], .rest [], ?_, .done _, Nat.zero_le _⟩
      show (scanPath home path).map _ = _
      rw [h]; rfl
    | cons d ds =>
      rw [hd] at h hne
      obtain ⟨r, h1, h2, h3, h4⟩ := h
      obtain ⟨d', pos', g1, g2, g3⟩ := ih r (by omega) h3 (fun x hx => hne x (List.mem_cons_of_mem _ (h2 ▸ hx)))
      refine ⟨d, .rest r, ?_, ?_, ?_⟩
      · show (scanPath home path).map _ = _
        rw [h1]; rfl
      · rw [h2] at g2
        exact .next d (.rest r) d' pos' ds (hne d List.mem_cons_self) g1 g2
      · rw [List.length_cons, ← h2]; omega

/-- One attempt. -/
theorem search_step (sys : Sys) (home name : Str) (k : Nat) (dir : Str) (pos : Pos) (path : Str) (ht : ∀ p, sys.rw p ≠ .tooMany) :
    search sys home name (k + 1) dir pos path =
      if sys.opens (resolve path) then .found path
      else if dir = [] then .nil
      else match makeFileName dir name, scan home pos with
        | some path, some (dir, pos) => search sys home name k dir pos path
        | _, _ => .stop := by
  rw [search]
  dsimp only
  rw [if_neg (ht _)]
  have : ((if sys.rw (resolve path) = .inaccessible then sys.ro (resolve path) else sys.rw (resolve path)) = .ok) = sys.opens (resolve path) := by
    unfold Sys.opens
    by_cases h : sys.rw (resolve path) = .inaccessible
    · rw [if_pos h, h]; simp
    · rw [if_neg h]; simp [h]
  by_cases h : sys.opens (resolve path)
  · rw [if_pos h, if_pos (this.mpr h)]
  · rw [if_neg h, if_neg (fun x => h (this.mp x))]
    by_cases hd : dir = []
    · rw [if_pos hd, if_pos hd]
    · rw [if_neg hd, if_neg hd]
      cases makeFileName dir name with
      | none => rfl
      | some p =>
        cases scan home pos with
        | none => rfl
        | some q => rfl

theorem search_spec (sys : Sys) (home name : Str) (ht : ∀ p, sys.rw p ≠ .tooMany) (ds : List Str) :
    ∀ (k : Nat) (dir : Str) (pos : Pos) (path : Str), Rem home dir pos ds → ds.length < k →
    (∀ d ∈ ds, d.length + name.length + 2 ≤ 256 ∧ ∃ c ∈ d, c ≠ 47) →
    Returns (search sys home name k dir pos path) (sys.first (resolve path :: ds.map fun d => inDir d name)) := by
  induction ds with
  | nil =>
    intro k dir pos path hr hk _
    cases k with
    | zero => omega
    | succ k =>
      cases hr
      rw [search_step _ _ _ _ _ _ _ ht, if_pos rfl]
      unfold Sys.first
      rw [List.map_nil, List.find?_cons]
      by_cases h : sys.opens (resolve path)
      · rw [if_pos h, decide_eq_true h]; exact ⟨path, rfl, rfl⟩
      · rw [if_neg h, decide_eq_false h]; rfl
  | cons d ds ih =>
    intro k dir pos path hr hk hf
    cases k with
    | zero => omega
    | succ k =>
      cases hr with
      | next _ _ d' pos' _ hne hs hr' =>
        rw [search_step _ _ _ _ _ _ _ ht, if_neg hne, hs]
        obtain ⟨f1, f2⟩ := hf d List.mem_cons_self
        obtain ⟨p, hp, hp'⟩ := makeFileName_spec d name f1 f2
        rw [hp]
        dsimp only
        have hi := ih k d' pos' p hr' (by rw [List.length_cons] at hk; omega) (fun x hx => hf x (List.mem_cons_of_mem _ hx))
        unfold Sys.first at hi ⊢
        rw [List.find?_cons]
        by_cases h : sys.opens (resolve path)
        · rw [if_pos h, decide_eq_true h]; exact ⟨path, rfl, rfl⟩
        · rw [if_neg h, decide_eq_false h]
          rw [hp'] at hi
          exact hi

end Verif.PathSearch
