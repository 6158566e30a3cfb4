import Verif.Vmake.Model
import Verif.Common

/-!
# The order of compilation: proofs
-/
namespace Verif.Vmake

/-! ## The scanner -/

theorem toImport_before (before : List Tok) (h : Tok.name "IMPORT" ∉ before) (l : List Tok) :
    toImport (before ++ Tok.name "IMPORT" :: l) = some l := by
  induction before with
  | nil => simp [toImport]
  | cons t b ih =>
    have hb := ih (fun hm => h (List.mem_cons_of_mem _ hm))
    cases t with
    | name s =>
      have : s ≠ "IMPORT" := fun e => h (by simp [e])
      simp [toImport, this, hb]
    | char c => simpa [toImport] using hb
    | other => simpa [toImport] using hb

theorem toImport_none (l : List Tok) (h : Tok.name "IMPORT" ∉ l) : toImport l = none := by
  induction l with
  | nil => rfl
  | cons t b ih =>
    have hb := ih (fun hm => h (List.mem_cons_of_mem _ hm))
    cases t with
    | name s =>
      have : s ≠ "IMPORT" := fun e => h (by simp [e])
      simp [toImport, this, hb]
    | char c => simpa [toImport] using hb
    | other => simpa [toImport] using hb

theorem scanList_ok (l : List Item) (rest : List Tok) : ∀ f, (listToks l).length < f →
    scanList f (listToks l ++ rest) = some (l.map (fun i => i.mod ++ ".Mod")) := by
  induction l with
  | nil =>
    intro f hf
    cases f with
    | zero => simp at hf
    | succ f => rfl
  | cons i l ih =>
    intro f hf
    cases l with
    | nil =>
      cases i with
      | plain m =>
        obtain ⟨f, rfl⟩ : ∃ g, f = g + 1 := ⟨f - 1, by omega⟩
        rfl
      | «alias» a m =>
        obtain ⟨f, rfl⟩ : ∃ g, f = g + 2 := ⟨f - 2, by simp [listToks, Item.toks] at hf; omega⟩
        simp [listToks, Item.toks, scanList, lastName, Item.mod]
    | cons j l =>
      have e : listToks (i :: j :: l) = i.toks ++ [.char ','] ++ listToks (j :: l) := rfl
      rw [e] at hf ⊢
      cases i with
      | plain m =>
        obtain ⟨f, rfl⟩ : ∃ g, f = g + 1 := ⟨f - 1, by omega⟩
        have := ih f (by simp [Item.toks] at hf; omega)
        show (scanList f (listToks (j :: l) ++ rest)).map ((m ++ ".Mod") :: ·) = _
        rw [this]; rfl
      | «alias» a m =>
        obtain ⟨f, rfl⟩ : ∃ g, f = g + 2 := ⟨f - 2, by simp [Item.toks] at hf; omega⟩
        have := ih f (by simp [Item.toks] at hf; omega)
        simp only [Item.toks, List.cons_append, List.nil_append, List.append_assoc, scanList, lastName]
        rw [if_neg (by simp)]
        show (scanList f (listToks (j :: l) ++ rest)).map ((m ++ ".Mod") :: ·) = _
        rw [this]; rfl

/-- The modules found are those that the import list names. -/
theorem importsOf_module (before : List Tok) (l : List Item) (rest : List Tok) (h : Tok.name "IMPORT" ∉ before) :
    importsOf (moduleToks before l rest) = some (l.map (fun i => i.mod ++ ".Mod")) := by
  have e : moduleToks before l rest = before ++ Tok.name "IMPORT" :: (listToks l ++ rest) := by simp [moduleToks]
  rw [e]
  unfold importsOf
  rw [toImport_before _ h]
  exact scanList_ok l rest _ (by simp; omega)

/-! ## The list -/

theorem find_some (names : List String) (n : String) (i : Nat) : find names n = some i → names[i]? = some n := by
  induction names generalizing i with
  | nil => intro h; cases h
  | cons m l ih =>
    intro h
    unfold find at h
    split at h
    · rename_i e; cases h; simp [e]
    · cases hf : find l n with
      | none => rw [hf] at h; cases h
      | some j => rw [hf] at h; cases h; simpa using ih j hf

theorem find_mem (names : List String) (n : String) (h : n ∈ names) : ∃ i, find names n = some i := by
  induction names with
  | nil => cases h
  | cons m l ih =>
    unfold find
    split
    · exact ⟨0, rfl⟩
    · rename_i hn
      rcases List.mem_cons.1 h with e | h'
      · exact absurd e.symm hn
      · obtain ⟨i, hi⟩ := ih h'
        exact ⟨i + 1, by rw [hi]; rfl⟩

theorem findTop_some (r : Nat → Int) (l : List Nat) (m : Nat) (h : findTop r l = some m) : m ∈ l ∧ r m = 0 := by
  induction l with
  | nil => cases h
  | cons x l ih =>
    unfold findTop at h
    split at h
    · rename_i e; cases h; exact ⟨by simp, e⟩
    · exact ⟨List.mem_cons_of_mem _ (ih h).1, (ih h).2⟩

theorem findTop_none (r : Nat → Int) (l : List Nat) (h : findTop r l = none) : ∀ m ∈ l, r m ≠ 0 := by
  induction l with
  | nil => intro m hm; cases hm
  | cons x l ih =>
    unfold findTop at h
    split at h
    · cases h
    · rename_i e
      intro m hm
      rcases List.mem_cons.1 hm with rfl | hm
      · exact e
      · exact ih h m hm

theorem dec_at (l : List (Option Nat)) (r : Nat → Int) (j : Nat) : dec l r j = r j - (l.count (some j) : Int) := by
  induction l generalizing r with
  | nil => simp [dec]
  | cons o l ih =>
    cases o with
    | none => unfold dec; rw [ih]; simp
    | some m =>
      unfold dec; rw [ih, List.count_cons]
      by_cases e : j = m
      · subst e; simp; omega
      · have : (some m == some j) = false := by simp; exact fun h => e h.symm
        rw [if_neg e, this]; simp

/-- References from the modules of a list. -/
def inCount (edges : List (List (Option Nat))) (l : List Nat) (j : Nat) : Int := (l.map (fun x => (((edges.getD x []).count (some j) : Nat) : Int))).sum

theorem inCount_erase (edges : List (List (Option Nat))) (l : List Nat) (m j : Nat) (h : m ∈ l) :
    inCount edges (l.erase m) j = inCount edges l j - ((edges.getD m []).count (some j) : Int) := by
  have hp := (List.perm_cons_erase h).map (fun x => (((edges.getD x []).count (some j) : Nat) : Int))
  have := hp.sum_eq
  unfold inCount
  rw [this]; simp

theorem inCount_nonneg (edges : List (List (Option Nat))) (l : List Nat) (j : Nat) : 0 ≤ inCount edges l j := by
  induction l with
  | nil => simp [inCount]
  | cons x l ih => unfold inCount at ih ⊢; simp only [List.map_cons, List.sum_cons]; omega

theorem inCount_zero (edges : List (List (Option Nat))) (l : List Nat) (j : Nat) (h : inCount edges l j = 0) : ∀ x ∈ l, some j ∉ edges.getD x [] := by
  induction l with
  | nil => intro x hx; cases hx
  | cons y l ih =>
    have h0 := inCount_nonneg edges l j
    have e : inCount edges (y :: l) j = ((edges.getD y []).count (some j) : Int) + inCount edges l j := by simp [inCount]
    rw [e] at h
    intro x hx
    rcases List.mem_cons.1 hx with rfl | hx
    · have : (edges.getD x []).count (some j) = 0 := by omega
      exact List.count_eq_zero.1 this
    · exact ih (by omega) x hx

theorem inCount_pos (edges : List (List (Option Nat))) (l : List Nat) (j : Nat) (h : inCount edges l j ≠ 0) : ∃ x ∈ l, some j ∈ edges.getD x [] := by
  by_contra hc
  apply h
  induction l with
  | nil => simp [inCount]
  | cons y l ih =>
    have e : inCount edges (y :: l) j = ((edges.getD y []).count (some j) : Int) + inCount edges l j := by simp [inCount]
    have h1 : some j ∉ edges.getD y [] := fun hm => hc ⟨y, by simp, hm⟩
    have h2 : inCount edges l j ≠ 0 → False := by
      intro hne
      exact hne (ih hne (fun ⟨x, hx, hm⟩ => hc ⟨x, by simp [hx], hm⟩))
    have h3 : inCount edges l j = 0 := by by_contra h4; exact h2 h4
    rw [e, List.count_eq_zero.2 h1, h3]; rfl

/-- What `print` prints. -/
theorem print_ok (edges : List (List (Option Nat))) : ∀ n l r out, l.length = n → l.Nodup → (∀ j ∈ l, r j = inCount edges l j) →
    (∀ x ∈ l, ∀ y, some y ∈ edges.getD x [] → y ∈ l) → print edges n l r = some out →
    List.Perm out l ∧ ∀ a x b, out = a ++ x :: b → ∀ y, some y ∈ edges.getD x [] → y ∈ a := by
  intro n
  induction n with
  | zero =>
    intro l r out hl _ _ _ h
    cases List.length_eq_zero_iff.1 hl
    cases h
    exact ⟨List.Perm.refl _, fun a x b e => (by simp at e)⟩
  | succ n ih =>
    intro l r out hl hd hr hc h
    unfold print at h
    cases ht : findTop r l with
    | none => rw [ht] at h; cases h
    | some m =>
      rw [ht] at h
      obtain ⟨hm, h0⟩ := findTop_some r l m ht
      dsimp only at h
      cases hp : print edges n (l.erase m) (dec (edges.getD m []) r) with
      | none => rw [hp] at h; cases h
      | some o =>
        rw [hp] at h
        cases h
        have hz : ∀ x ∈ l, some m ∉ edges.getD x [] := inCount_zero edges l m (by rw [← hr m hm]; exact h0)
        obtain ⟨hperm, hord⟩ := ih (l.erase m) _ o (by rw [List.length_erase_of_mem hm]; omega) (hd.erase m)
          (fun j hj => by
            rw [dec_at, inCount_erase edges l m j hm, hr j (List.mem_of_mem_erase hj)])
          (fun x hx y hy => by
            have hxl := List.mem_of_mem_erase hx
            have hne : y ≠ m := fun e => hz x hxl (by rw [← e]; exact hy)
            exact (List.mem_erase_of_ne hne).2 (hc x hxl y hy)) hp
        refine ⟨?_, ?_⟩
        · exact (hperm.append_right [m]).trans (List.perm_append_comm.trans (List.perm_cons_erase hm).symm)
        · intro a x b e y hy
          rcases List.eq_nil_or_concat b with rfl | ⟨b', z, rfl⟩
          · have e' : o ++ [m] = a ++ [x] := e
            obtain ⟨rfl, e2⟩ := List.append_inj' e' rfl
            cases e2
            have hne : y ≠ m := fun e3 => hz m hm (e3 ▸ hy)
            exact hperm.mem_iff.2 ((List.mem_erase_of_ne hne).2 (hc m hm y hy))
          · have e' : o ++ [m] = (a ++ x :: b') ++ [z] := by
              have e0 : o ++ [m] = a ++ x :: (b' ++ [z]) := by simpa using e
              rw [e0]; simp
            obtain ⟨rfl, _⟩ := List.append_inj' e' rfl
            exact hord a x b' rfl y hy

/-- `print` ends if the imports have no cycle. -/
theorem print_some (edges : List (List (Option Nat))) (rank : Nat → Nat) : ∀ n l r, l.length = n → l.Nodup → (∀ j ∈ l, r j = inCount edges l j) →
    (∀ x ∈ l, ∀ y, some y ∈ edges.getD x [] → rank y < rank x) → ∃ out, print edges n l r = some out := by
  intro n
  induction n with
  | zero => intro l r _ _ _ _; exact ⟨[], rfl⟩
  | succ n ih =>
    intro l r hl hd hr hc
    unfold print
    cases ht : findTop r l with
    | none =>
      exfalso
      have hn := findTop_none r l ht
      have key : ∀ k, ∃ x ∈ l, k ≤ rank x := by
        intro k
        induction k with
        | zero =>
          cases l with
          | nil => simp at hl
          | cons x l => exact ⟨x, by simp, by omega⟩
        | succ k ihk =>
          obtain ⟨x, hx, hk⟩ := ihk
          obtain ⟨z, hz, hm⟩ := inCount_pos edges l x (by rw [← hr x hx]; exact hn x hx)
          exact ⟨z, hz, by have := hc z hz x hm; omega⟩
      have bound : ∀ l : List Nat, ∃ B, ∀ x ∈ l, rank x ≤ B := by
        intro l
        induction l with
        | nil => exact ⟨0, fun x hx => (by cases hx)⟩
        | cons y l ih =>
          obtain ⟨B, hB⟩ := ih
          refine ⟨max B (rank y), fun x hx => ?_⟩
          rcases List.mem_cons.1 hx with rfl | hx
          · omega
          · have := hB x hx; omega
      obtain ⟨B, hB⟩ := bound l
      obtain ⟨x, hx, hk⟩ := key (B + 1)
      have := hB x hx
      omega
    | some m =>
      obtain ⟨hm, h0⟩ := findTop_some r l m ht
      obtain ⟨o, ho⟩ := ih (l.erase m) (dec (edges.getD m []) r) (by rw [List.length_erase_of_mem hm]; omega) (hd.erase m)
        (fun j hj => by rw [dec_at, inCount_erase edges l m j hm, hr j (List.mem_of_mem_erase hj)])
        (fun x hx => hc x (List.mem_of_mem_erase hx))
      exact ⟨o ++ [m], by dsimp only; rw [ho]; rfl⟩

theorem allImports_ok (src : String → List Tok) (imports : String → List String) (names : List String)
    (h : ∀ x ∈ names, importsOf (src x) = some (imports x)) : allImports src names = some (names.map imports) := by
  induction names with
  | nil => rfl
  | cons m l ih =>
    unfold allImports
    rw [h m (by simp)]
    dsimp only
    rw [ih (fun x hx => h x (by simp [hx]))]; rfl

theorem edges_at (names : List String) (imports : String → List String) (i : Nat) (hi : i < names.length) :
    ((names.map imports).map (targets names)).getD i [] = targets names (imports (names.getD i "")) := by
  simp [List.getD, hi]

theorem refs_eq (edges : List (List (Option Nat))) (j : Nat) : refs edges j = inCount edges (List.range edges.length) j := by
  unfold refs inCount
  congr 1
  apply List.ext_getElem
  · simp
  · intro i h1 h2
    simp at h1
    simp [List.getD, h1]

theorem order_eq (given : List String) (src : String → List Tok) (imports : String → List String)
    (h : ∀ x ∈ given, importsOf (src x) = some (imports x)) :
    order given src = (print ((given.reverse.map imports).map (targets given.reverse)) given.length (List.range given.length)
      (inCount ((given.reverse.map imports).map (targets given.reverse)) (List.range given.length))).map (·.map (fun i => given.reverse.getD i "")) := by
  unfold order
  rw [allImports_ok src imports _ (fun x hx => h x (by simpa using hx))]
  dsimp only
  congr 2
  funext j
  rw [refs_eq]; simp

/-- Modules whose names are different places of the list: the places that a place refers to. -/
theorem edge_iff (names : List String) (imports : String → List String) (i : Nat) (hi : i < names.length) (j : Nat)
    (h : some j ∈ ((names.map imports).map (targets names)).getD i []) :
    j < names.length ∧ names.getD j "" ∈ imports (names.getD i "") := by
  rw [edges_at names imports i hi] at h
  obtain ⟨y, hy, hf⟩ := List.mem_map.1 h
  have := find_some names y j hf
  have hj : j < names.length := (List.getElem?_eq_some_iff.1 this).1
  refine ⟨hj, ?_⟩
  simp only [List.getD, this, Option.getD_some]
  exact hy

theorem order_ok (given : List String) (src : String → List Tok) (imports : String → List String)
    (h : ∀ x ∈ given, importsOf (src x) = some (imports x)) (out : List String) (ho : order given src = some out) :
    Order given imports out := by
  rw [order_eq given src imports h] at ho
  generalize hn : given.reverse = names at ho
  have hlen : given.length = names.length := by rw [← hn]; simp
  rw [hlen] at ho
  generalize he : (names.map imports).map (targets names) = edges at ho
  cases hp : print edges names.length (List.range names.length) (inCount edges (List.range names.length)) with
  | none => rw [hp] at ho; cases ho
  | some o =>
    rw [hp] at ho
    cases ho
    obtain ⟨h1, h2⟩ := print_ok edges _ _ _ o (by simp) List.nodup_range (fun j _ => rfl)
      (fun x hx y hy => by
        subst he
        exact List.mem_range.2 (edge_iff names imports x (List.mem_range.1 hx) y hy).1) hp
    refine ⟨?_, ?_⟩
    · have e : (List.range names.length).map (fun i => names.getD i "") = names := by
        apply List.ext_getElem
        · simp
        · intro i a b; simp [List.getD] at *; simp [b]
      have := h1.map (fun i => names.getD i "")
      rw [e] at this
      rw [← hn] at this ⊢
      exact this.trans (List.reverse_perm given)
    · intro a x b e y hy hyg
      obtain ⟨a', t, e1, e2, e3⟩ := List.map_eq_append_iff.1 e
      obtain ⟨i, b', e4, e5, e6⟩ := List.map_eq_cons_iff.1 e3
      subst e1; subst e4
      obtain ⟨j, hj⟩ := find_mem names y (by rw [← hn]; simpa using hyg)
      have hi : i < names.length := List.mem_range.1 (h1.mem_iff.1 (by simp))
      have := h2 a' i b' rfl j (by
        subst he
        rw [edges_at names imports i hi, e5]
        exact List.mem_map.2 ⟨y, hy, hj⟩)
      rw [← e2]
      refine List.mem_map.2 ⟨j, this, ?_⟩
      have := find_some names y j hj
      simp [List.getD, this]

theorem order_some (given : List String) (src : String → List Tok) (imports : String → List String)
    (h : ∀ x ∈ given, importsOf (src x) = some (imports x)) (hc : Acyclic given imports) : ∃ out, order given src = some out := by
  rw [order_eq given src imports h]
  generalize hn : given.reverse = names
  have hlen : given.length = names.length := by rw [← hn]; simp
  rw [hlen]
  obtain ⟨rank, hr⟩ := hc
  have hmem : ∀ i, i < names.length → names.getD i "" ∈ given := by
    intro i hi
    have : names.getD i "" ∈ names := by simp [List.getD, hi]
    rw [← hn] at this ⊢; simpa using this
  obtain ⟨o, ho⟩ := print_some ((names.map imports).map (targets names)) (fun i => rank (names.getD i "")) names.length (List.range names.length)
    (inCount ((names.map imports).map (targets names)) (List.range names.length)) (by simp) List.nodup_range (fun j _ => rfl)
    (fun x hx y hy => by
      have hx' := List.mem_range.1 hx
      obtain ⟨hy1, hy2⟩ := edge_iff names imports x hx' y hy
      exact hr _ (hmem x hx') _ hy2 (hmem y hy1))
  exact ⟨_, by rw [ho]; rfl⟩

/-- Orders exist only without cycles. -/
theorem order_acyclic (given : List String) (imports : String → List String) (out : List String) (h : Order given imports out) : Acyclic given imports := by
  obtain ⟨hp, ho⟩ := h
  refine ⟨fun x => out.idxOf x, fun x hx y hy hyg => ?_⟩
  have hx' : x ∈ out := hp.mem_iff.2 hx
  have hlt := List.idxOf_lt_length_of_mem hx'
  have e : out = out.take (out.idxOf x) ++ x :: out.drop (out.idxOf x + 1) := by
    conv_lhs => rw [← List.take_append_drop (out.idxOf x) out]
    congr 1
    rw [List.drop_eq_getElem_cons hlt]
    congr 1
    exact List.getElem_idxOf hlt
  have := ho _ _ _ e y hy hyg
  have h1 := List.idxOf_lt_length_of_mem this
  have h2 : out.idxOf y = (out.take (out.idxOf x)).idxOf y := by
    conv_lhs => rw [e]
    exact List.idxOf_append_of_mem this
  rw [List.length_take] at h1
  show out.idxOf y < out.idxOf x
  omega

/-! ## The theorems -/

/-- A program of modules in files: what each file imports is what its import list says (the modules are well formed, and the word `IMPORT` does not
come before the import list); a file without the word imports nothing. -/
def WellFormed (given : List String) (src : String → List Tok) (imports : String → List String) : Prop :=
  ∀ x ∈ given, (∃ before l rest, Tok.name "IMPORT" ∉ before ∧ src x = moduleToks before l rest ∧ imports x = l.map (fun i => i.mod ++ ".Mod")) ∨
    (Tok.name "IMPORT" ∉ src x ∧ imports x = [])

theorem wf_imports (given : List String) (src : String → List Tok) (imports : String → List String) (h : WellFormed given src imports) :
    ∀ x ∈ given, importsOf (src x) = some (imports x) := by
  intro x hx
  rcases h x hx with ⟨b, l, r, h1, h2, h3⟩ | ⟨h1, h2⟩
  · rw [h2, h3]; exact importsOf_module b l r h1
  · unfold importsOf; rw [toImport_none _ h1, h2]

/-- **C81** (partial).  For all files of well-formed modules, in whatever order they are given, the tool prints names if and only if no module imports
itself directly or through others; then it prints every name exactly as often as it was given, and every module after all those of the given modules that
it imports.  Missing: if there is a cycle, it does not say so (`C81_cycle`), and the word `IMPORT` in a comment misleads it (`C81_comment`). -/
theorem C81_order_partial (given : List String) (src : String → List Tok) (imports : String → List String) (h : WellFormed given src imports) :
    (∀ out, order given src = some out → Order given imports out) ∧ ((∃ out, order given src = some out) ↔ Acyclic given imports) :=
  ⟨fun out ho => order_ok given src imports (wf_imports given src imports h) out ho,
   ⟨fun ⟨out, ho⟩ => order_acyclic given imports out (order_ok given src imports (wf_imports given src imports h) out ho),
    fun hc => order_some given src imports (wf_imports given src imports h) hc⟩⟩

/-- The order in which the names are given does not decide whether there is an answer. -/
theorem C81_given_partial (given given' : List String) (src : String → List Tok) (imports : String → List String) (h : WellFormed given src imports)
    (hp : List.Perm given given') : (∃ out, order given src = some out) ↔ (∃ out, order given' src = some out) := by
  have h' : WellFormed given' src imports := fun x hx => h x (hp.mem_iff.2 hx)
  rw [(C81_order_partial given src imports h).2, (C81_order_partial given' src imports h').2]
  constructor
  · rintro ⟨r, hr⟩; exact ⟨r, fun x hx y hy hyg => hr x (hp.mem_iff.2 hx) y hy (hp.mem_iff.2 hyg)⟩
  · rintro ⟨r, hr⟩; exact ⟨r, fun x hx y hy hyg => hr x (hp.mem_iff.1 hx) y hy (hp.mem_iff.1 hyg)⟩

/-! ## Cases -/

/-- Three modules: `A` imports `B` and `C`, `B` imports `C` under another name, `C` imports nothing that is given. -/
def exSrc : String → List Tok
  | "A.Mod" => [.name "MODULE", .name "A", .char ';', .name "IMPORT", .name "B", .char ',', .name "C", .char ';', .name "END"]
  | "B.Mod" => [.name "MODULE", .name "B", .char ';', .name "IMPORT", .name "X", .char ':', .char '=', .name "C", .char ';', .name "END"]
  | "C.Mod" => [.name "MODULE", .name "C", .char ';', .name "IMPORT", .name "SYSTEM", .char ';', .name "END"]
  | _ => []

def exImports : String → List String
  | "A.Mod" => ["B.Mod", "C.Mod"]
  | "B.Mod" => ["C.Mod"]
  | "C.Mod" => ["SYSTEM.Mod"]
  | _ => []

theorem ex_wf : WellFormed ["A.Mod", "C.Mod", "B.Mod"] exSrc exImports := by
  intro x hx
  simp at hx
  rcases hx with rfl | rfl | rfl
  · exact Or.inl ⟨[.name "MODULE", .name "A", .char ';'], [.plain "B", .plain "C"], [.name "END"], by simp, rfl, rfl⟩
  · exact Or.inl ⟨[.name "MODULE", .name "C", .char ';'], [.plain "SYSTEM"], [.name "END"], by simp, rfl, rfl⟩
  · exact Or.inl ⟨[.name "MODULE", .name "B", .char ';'], [.alias "X" "C"], [.name "END"], by simp, rfl, rfl⟩

example : order ["A.Mod", "C.Mod", "B.Mod"] exSrc = some ["C.Mod", "B.Mod", "A.Mod"] := by decide +kernel
example : Acyclic ["A.Mod", "C.Mod", "B.Mod"] exImports :=
  (C81_order_partial _ exSrc _ ex_wf).2.1 ⟨["C.Mod", "B.Mod", "A.Mod"], by decide +kernel⟩

/-- A list of names with a name given twice. -/
example : order ["C.Mod", "B.Mod", "C.Mod"] exSrc = some ["C.Mod", "C.Mod", "B.Mod"] := by decide +kernel

/-! ## Deviations -/

/-- Two modules that import each other: the tool finds no module to begin with and dereferences `NIL`; no name is printed. -/
theorem C81_cycle : order ["A.Mod", "B.Mod"] (fun x => if x = "A.Mod" then moduleToks [] [.plain "B"] [] else moduleToks [] [.plain "A"] []) = none := by
  decide +kernel

/-- The word `IMPORT` in a comment before the import list: what follows it up to a semicolon is taken for the import list, and the module is printed before
the one that it imports. -/
theorem C81_comment :
    order ["B.Mod", "A.Mod"] (fun x => if x = "A.Mod" then [.char '(', .char '*', .name "IMPORT", .name "nothing", .char ';', .char '*', .char ')'] ++ moduleToks [] [.plain "B"] []
      else []) = some ["B.Mod", "A.Mod"] ∧
    order ["A.Mod", "B.Mod"] (fun x => if x = "A.Mod" then [.char '(', .char '*', .name "IMPORT", .name "nothing", .char ';', .char '*', .char ')'] ++ moduleToks [] [.plain "B"] []
      else []) = some ["A.Mod", "B.Mod"] := by
  decide +kernel

/-- An import list without a semicolon: the loop does not end. -/
theorem C81_unended (l : List Tok) (h : Tok.char ';' ∉ l) : importsOf (.name "IMPORT" :: l) = none := by
  have key : ∀ f l, Tok.char ';' ∉ l → scanList f l = none := by
    intro f
    induction f with
    | zero => intro l _; rfl
    | succ f ih =>
      intro l h
      cases l with
      | nil => rfl
      | cons t l =>
        have hl : Tok.char ';' ∉ l := fun hm => h (List.mem_cons_of_mem _ hm)
        have step : ∀ t, t ≠ Tok.char ';' → (∀ s, t ≠ .name s) → scanList (f + 1) (t :: l) = none := by
          intro t h1 h2
          cases t with
          | name s => exact absurd rfl (h2 s)
          | other => exact ih l hl
          | char c =>
            have : c ≠ ';' := fun e => h1 (by rw [e])
            unfold scanList
            split <;> simp_all
        by_cases hn : ∃ s, t = .name s
        · obtain ⟨s, rfl⟩ := hn
          cases l with
          | nil => rfl
          | cons u l =>
            have hl' : Tok.char ';' ∉ l := fun hm => hl (List.mem_cons_of_mem _ hm)
            have hu : u ≠ Tok.char ';' := fun e => hl (by simp [e])
            by_cases hcol : u = .char ':'
            · subst hcol
              cases l with
              | nil => rfl
              | cons x l =>
                cases l with
                | nil => rfl
                | cons y l =>
                  have hy : y ≠ Tok.char ';' := fun e => hl' (by simp [e])
                  have hl2 : Tok.char ';' ∉ l := fun hm => hl' (by simp [hm])
                  simp only [scanList]
                  rw [if_neg hy, ih l hl2]; rfl
            · have := ih l hl'
              unfold scanList
              split <;> simp_all
        · exact step t (fun e => h (by simp [e])) (fun s e => hn ⟨s, e⟩)
  exact key _ l h

end Verif.Vmake
