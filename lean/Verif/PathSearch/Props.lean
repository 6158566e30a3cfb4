import Verif.Common
import Verif.PathSearch.Lemmas

/-!
# C75: files are looked up along the search path

`C75_dirs`: the directories are those of the path, in order.  `C75_old_partial`: `Old` opens the first file of this name.
`C75_directory_partial`: names with a directory are looked up as they are.  Deviations: `C75_root`, `C75_home`, `C75_truncated`,
`C75_too_long`.
-/
namespace Verif.PathSearch

/-- The directories that `ScanPath` gives, one after the other, for at most `k` calls. -/
def scanAll (home : Str) : Nat → Str → List Str
  | 0, _ => []
  | k + 1, path =>
    match scanPath home path with
    | some (d, r) => d :: scanAll home k r
    | none => []

/-- At the end of the path. -/
theorem scanAll_nil (home : Str) (k : Nat) : scanAll home k [] = List.replicate k [] := by
  induction k with
  | zero => rfl
  | succ k ih =>
    have : scanAll home (k + 1) [] = [] :: scanAll home k [] := rfl
    rw [this, ih, List.replicate_succ]

/-- **C75, directories.**  For every search path and home directory that fit into the arrays, the first calls of `ScanPath` give the
directories between the semicolons, without blanks around them and with `~` replaced, in their order; then the empty string is given. -/
theorem C75_dirs (home : Str) : ∀ (k : Nat) (path : Str), Fits home path →
    scanAll home k path = (dirs home (some path) ++ List.replicate k []).take k := by
  intro k
  induction k with
  | zero => intro path _; rfl
  | succ k ih =>
    intro path hf
    have h := scanPath_spec home path hf
    cases hd : dirs home (some path) with
    | nil =>
      rw [hd] at h
      have h' : scanPath home path = some ([], []) := h
      rw [scanAll, h']
      dsimp only
      rw [scanAll_nil, List.nil_append, ← List.replicate_succ, List.take_of_length_le (by simp)]
    | cons d ds =>
      rw [hd] at h
      obtain ⟨r, h1, h2, h3, _⟩ := h
      rw [scanAll, h1]
      dsimp only
      rw [ih r h3, h2, List.cons_append, List.take_succ_cons]
      congr 1
      rw [List.replicate_succ', ← List.append_assoc]
      exact (List.take_append_of_le_length (l₁ := ds ++ List.replicate k []) (by simp)).symm

example : Fits [47, 104] [32, 97, 32, 59, 59, 126, 47, 98, 59, 126, 99] := by
  refine ⟨by decide, ?_⟩
  decide

/-- " a ;;~/b;~c" with the home directory "/h": the directories "a", "/h/b", "/c". -/
example : dirs [47, 104] (some [32, 97, 32, 59, 59, 126, 47, 98, 59, 126, 99]) = [[97], [47, 104, 47, 98], [47, 99]] := by decide

/-- **C75, Old.**  For every search path and home directory and each name without a directory, `Old` returns the first file of this name that
can be opened in the directories of the path, in their order, and `NIL` if there is none.  Without a search path, or without a directory in
it, it is looked up in the current directory.  All this if names fit into the arrays, no directory of the path is the root or empty (after
`~` has been replaced), and the limit of open files has not been reached. -/
theorem C75_old_partial (sys : Sys) (home : Str) (path : Option Str) (name : Str) (k : Nat) (hn : name ≠ []) (hs : 47 ∉ name)
    (ht : ∀ p, sys.rw p ≠ .tooMany) (hk : (path.getD []).length + 1 < k) (hf : Fits home (path.getD [])) (hl : name.length ≤ 250)
    (hd : ∀ d ∈ dirs home path, d.length + name.length + 2 ≤ 256 ∧ ∃ c ∈ d, c ≠ 47) :
    Returns (old sys home path name k)
      (sys.first (if dirs home path = [] then [resolve name] else (dirs home path).map fun d => inDir d name)) := by
  have hh : hasDir name = false := by
    unfold hasDir
    rw [Bool.eq_false_iff]
    intro h
    exact hs (List.contains_iff_mem.1 h)
  unfold old
  rw [if_neg hn, hh, if_neg (by decide)]
  cases path with
  | none =>
    dsimp only
    rw [show scan home (.nil true) = some ([46], .nil false) from rfl]
    dsimp only
    obtain ⟨f1, f2⟩ := hd [46] List.mem_cons_self
    obtain ⟨p, hp, hp'⟩ := makeFileName_spec [46] name f1 f2
    rw [hp, show scan home (.nil false) = some ([], .nil false) from rfl]
    dsimp only
    have := search_spec sys home name ht [] k [] (.nil false) p (.done _) (by simp only [List.length_nil]; omega) (fun d h => by cases h)
    rw [if_neg (by intro h; cases h)]
    rw [hp'] at this
    exact this
  | some path =>
    dsimp only
    have hk' : path.length + 1 < k := hk
    have hf' : Fits home path := hf
    have hne : ∀ d ∈ dirs home (some path), d ≠ [] := by
      intro d h e
      obtain ⟨_, c, hc, _⟩ := hd d h
      rw [e] at hc; cases hc
    obtain ⟨d, pos, g1, g2, g3⟩ := rem_path home _ path (le_refl _) hf' hne
    rw [g1]
    dsimp only
    cases g2h : dirs home (some path) with
    | nil =>
      rw [g2h] at g2
      have hsp : scanPath home path = some ([], []) := by
        have := scanPath_spec home path hf'
        rw [g2h] at this; exact this
      have hpos : pos = .rest [] := by
        have : scan home (.rest path) = some ([], .rest []) := by
          show (scanPath home path).map _ = _
          rw [hsp]; rfl
        rw [this] at g1
        exact (Prod.mk.inj (Option.some.inj g1)).2.symm
      cases g2
      rw [hpos]
      have hm : makeFileName [] name = some name := by
        unfold makeFileName
        show (if 0 + name.length + 2 > 256 then none else some name) = some name
        rw [if_neg (by omega)]
      rw [hm, show scan home (.rest []) = some ([], .rest []) from rfl]
      dsimp only
      rw [if_pos rfl]
      exact search_spec sys home name ht [] k [] (.rest []) name (.done _) (by simp only [List.length_nil]; omega) (fun d h => by cases h)
    | cons e es =>
      rw [g2h] at g2 hd g3
      rw [if_neg (by intro h; cases h)]
      cases g2 with
      | next _ _ d' pos' _ h1 h2 h3 =>
        obtain ⟨f1, f2⟩ := hd d List.mem_cons_self
        obtain ⟨p, hp, hp'⟩ := makeFileName_spec d name f1 f2
        rw [hp, h2]
        dsimp only
        rw [List.length_cons] at g3
        have := search_spec sys home name ht es k d' pos' p h3 (by omega) (fun x hx => hd x (List.mem_cons_of_mem _ hx))
        rw [hp'] at this
        exact this

/-- A disk with the files "b/x" and "/h/c/x", the first can only be read. -/
def disk : Sys :=
  ⟨fun p => if p = (true, [[104], [99], [120]]) then .ok else if p = (false, [[98], [120]]) then .inaccessible else .absent, fun _ => .ok⟩

/-- "a;b;~/c" and the name "x". -/
example : old disk [47, 104] (some [97, 59, 98, 59, 126, 47, 99]) [120] 20 = .found [98, 47, 120] := by decide

/-- "a;~/c". -/
example : old disk [47, 104] (some [97, 59, 126, 47, 99]) [120] 20 = .found [47, 104, 47, 99, 47, 120] := by decide

/-- "a". -/
example : old disk [47, 104] (some [97]) [120] 20 = .nil := by decide

/-- The hypotheses of the theorem hold in this case. -/
example : (∀ p, disk.rw p ≠ .tooMany) ∧ Fits [47, 104] [97, 59, 98, 59, 126, 47, 99] ∧
    ∀ d ∈ dirs [47, 104] (some [97, 59, 98, 59, 126, 47, 99]), d.length + 1 + 2 ≤ 256 ∧ ∃ c ∈ d, c ≠ 47 := by
  refine ⟨fun p => ?_, by refine ⟨by decide, by decide⟩, by decide⟩
  unfold disk
  dsimp only
  split
  · decide
  · split <;> decide

/-- **C75, names with a directory.**  A name of at most 255 characters that contains a slash is looked up as it is, whatever the search path
is. -/
theorem C75_directory_partial (sys : Sys) (home : Str) (path : Option Str) (name : Str) (k : Nat) (hs : 47 ∈ name) (hl : name.length ≤ 255)
    (ht : ∀ p, sys.rw p ≠ .tooMany) (hk : 0 < k) :
    old sys home path name k = if sys.opens (resolve name) then .found name else .nil := by
  have hn : name ≠ [] := by intro h; rw [h] at hs; cases hs
  have hh : hasDir name = true := List.contains_iff_mem.2 hs
  unfold old
  rw [if_neg hn, if_pos hh, List.take_of_length_le hl]
  obtain ⟨j, rfl⟩ : ∃ j, k = j + 1 := ⟨k - 1, by omega⟩
  rw [search_step _ _ _ _ _ _ _ ht, if_pos rfl]

/-- **C75, no search path.**  An empty search path is the same as none. -/
theorem C75_empty (path : Str) : setSearchPath path = none ↔ path = [] := by
  unfold setSearchPath
  cases path with
  | nil => exact ⟨fun _ => rfl, fun _ => rfl⟩
  | cons x r => exact ⟨fun h => (by rw [if_pos (by simp)] at h; cases h), fun h => (by cases h)⟩

/-! ## Deviations -/

/-- **C75 deviation.**  The root directory in a search path means the current directory: the file opened is not the one in the root. -/
theorem C75_root (home name : Str) (hs : 47 ∉ name) (hl : 0 < name.length ∧ name.length ≤ 250) :
    dirs home (some [47]) = [[47]] ∧ makeFileName [47] name = some name ∧ resolve name ≠ inDir [47] name := by
  refine ⟨rfl, ?_, ?_⟩
  · unfold makeFileName
    show (if 0 + name.length + 2 > 256 then none else some name) = some name
    rw [if_neg (by omega)]
  · intro h
    have h1 := congrArg Prod.fst h
    unfold inDir resolve at h1
    simp only [List.singleton_append, List.cons_append, List.head?_cons] at h1
    cases name with
    | nil => exact absurd hl.1 (by simp)
    | cons x r =>
      have hx : x ≠ 47 := fun e => hs (e ▸ List.mem_cons_self)
      simp [hx] at h1

/-- **C75 deviation.**  If the home directory is not known, the entry `~` ends the search: the directories after it are ignored. -/
theorem C75_home : ∃ (sys : Sys) (path name : Str), dirs [] (some path) = [[97], [], [98]] ∧
    sys.opens (inDir [98] name) ∧ (∀ p, sys.rw p ≠ .tooMany) ∧ ∀ k, 2 < k → old sys [] (some path) name k = .nil := by
  refine ⟨⟨fun p => if p = (false, [[98], [120]]) then .ok else .absent, fun _ => .absent⟩, [97, 59, 126, 59, 98], [120], by decide, by decide,
    fun p => ?_, fun k hk => ?_⟩
  · dsimp only
    split <;> decide
  · obtain ⟨j, rfl⟩ : ∃ j, k = j + 2 := ⟨k - 2, by omega⟩
    rfl

/-- **C75 deviation.**  Names with a directory are cut to 255 characters: another file is opened than the one named. -/
theorem C75_truncated (sys : Sys) (home : Str) (path : Option Str) (name : Str) (k : Nat) (hs : 47 ∈ name) (ht : ∀ p, sys.rw p ≠ .tooMany)
    (hk : 0 < k) (ho : sys.opens (resolve (name.take 255))) : old sys home path name k = .found (name.take 255) := by
  have hn : name ≠ [] := by intro h; rw [h] at hs; cases hs
  have hh : hasDir name = true := List.contains_iff_mem.2 hs
  unfold old
  rw [if_neg hn, if_pos hh]
  obtain ⟨j, rfl⟩ : ∃ j, k = j + 1 := ⟨k - 1, by omega⟩
  rw [search_step _ _ _ _ _ _ _ ht, if_pos ho]

theorem scan_rest (home r : Str) : scan home (.rest r) = (scanPath home r).map fun x => (x.1, .rest x.2) := rfl

/-- **C75 deviation.**  A directory of 256 characters in the search path stops every program that opens a file. -/
theorem C75_too_long (sys : Sys) (home name : Str) (k : Nat) (hn : name ≠ []) (hs : 47 ∉ name) :
    old sys home (some (List.replicate 256 97)) name k = .stop := by
  have hh : hasDir name = false := by
    unfold hasDir
    rw [Bool.eq_false_iff]
    intro h
    exact hs (List.contains_iff_mem.1 h)
  have hsc : scan home (.rest (List.replicate 256 97)) = none := by
    rw [scan_rest]
    have : scanPath home (List.replicate 256 97) = none := by
      unfold scanPath
      have h1 : (List.replicate 256 97).dropWhile (fun c => c = 32 ∨ c = 59) = List.replicate 256 97 := by decide +kernel
      have h2 : tilde home (List.replicate 256 97) = some ([], List.replicate 256 97) := rfl
      rw [h1, h2]
      dsimp only
      decide +kernel
    rw [this]; rfl
  unfold old
  rw [if_neg hn, hh, if_neg (by decide)]
  dsimp only
  rw [hsc]

end Verif.PathSearch
