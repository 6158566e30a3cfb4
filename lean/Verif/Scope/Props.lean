import Verif.Common
import Verif.Scope.Model
import Mathlib.Data.List.Lex
import Mathlib.Tactic.SplitIfs

/-!
# C15: names in scopes
-/
namespace Verif.Scope

variable {α β : Type} [LinearOrder α]

/-- The specification: declarations in one scope mean what the list of them says. -/
def meaning (n : α) : List (α × β) → Option β
  | [] => none
  | (m, o) :: ds => if m = n then some o else meaning n ds

/-- The declarations of the innermost scope that declares the name count. -/
def meaningIn (n : α) : List (List (α × β)) → Option β
  | [] => none
  | ds :: dss => (meaning n ds).or (meaningIn n dss)

/-- The names in a tree, from left to right. -/
def keys : Tree α β → List α
  | .nil => []
  | .node l m _ r => keys l ++ m :: keys r

/-- Ordered trees. -/
def Ordered : Tree α β → Prop
  | .nil => True
  | .node l m _ r => Ordered l ∧ Ordered r ∧ (∀ k ∈ keys l, k < m) ∧ (∀ k ∈ keys r, m < k)

omit [LinearOrder α] in
theorem mem_keys_node {l r : Tree α β} {m k : α} {p : β} :
    k ∈ keys (.node l m p r) ↔ k ∈ keys l ∨ k = m ∨ k ∈ keys r := by
  simp [keys]

theorem search_isSome {t : Tree α β} (h : Ordered t) (n : α) : (search n t).isSome ↔ n ∈ keys t := by
  induction t with
  | nil => simp [search, keys]
  | node l m p r ihl ihr =>
    obtain ⟨hl, hr, h1, h2⟩ := h
    rw [mem_keys_node, search]
    split_ifs with c1 c2
    · rw [ihl hl]
      refine ⟨Or.inl, ?_⟩
      rintro (h | rfl | h)
      · exact h
      · exact absurd c1 (lt_irrefl _)
      · exact absurd (h2 n h) (not_lt_of_gt c1)
    · rw [ihr hr]
      refine ⟨fun h => Or.inr (Or.inr h), ?_⟩
      rintro (h | rfl | h)
      · exact absurd (h1 n h) (not_lt_of_gt c2)
      · exact absurd c2 (lt_irrefl _)
      · exact h
    · have : n = m := le_antisymm (not_lt.1 c2) (not_lt.1 c1)
      simp [this]

/-- Inserting a name that is not in the tree. -/
theorem insertLoop_new {t : Tree α β} (h : Ordered t) {n : α} (hn : n ∉ keys t) (o : β) (left : Bool) :
    (insertLoop n o left t).2 = 0 ∧ Ordered (insertLoop n o left t).1 ∧
    (∀ k, k ∈ keys (insertLoop n o left t).1 ↔ k = n ∨ k ∈ keys t) ∧
    ∀ k, search k (insertLoop n o left t).1 = if k = n then some o else search k t := by
  induction t generalizing left with
  | nil =>
    refine ⟨rfl, by simp [insertLoop, Ordered, keys], by simp [insertLoop, keys], ?_⟩
    intro k
    simp only [insertLoop, search]
    split_ifs with a b c d e
    · exact absurd (b ▸ a) (lt_irrefl _)
    · rfl
    · exact absurd (d ▸ c) (lt_irrefl _)
    · rfl
    · rfl
    · exact absurd (le_antisymm (not_lt.1 c) (not_lt.1 a)) e
  | node l m p r ihl ihr =>
    obtain ⟨hl, hr, h1, h2⟩ := h
    rw [mem_keys_node, not_or, not_or] at hn
    obtain ⟨hn1, hn2, hn3⟩ := hn
    rw [insertLoop.eq_def]
    simp only
    by_cases c1 : n < m
    · rw [if_pos c1]
      obtain ⟨e1, e2, e3, e4⟩ := ihl hl hn1 true
      refine ⟨e1, ⟨e2, hr, ?_, h2⟩, ?_, ?_⟩
      · intro k hk
        rcases (e3 k).1 hk with rfl | hk
        · exact c1
        · exact h1 k hk
      · intro k
        rw [mem_keys_node, mem_keys_node, e3, or_assoc]
      · intro k
        rw [search, search, e4]
        by_cases hk : k = n
        · subst hk; simp [c1]
        · simp [hk]
    · rw [if_neg c1]
      have c2 : m < n := lt_of_le_of_ne (not_lt.1 c1) (Ne.symm hn2)
      rw [if_pos c2]
      obtain ⟨e1, e2, e3, e4⟩ := ihr hr hn3 false
      refine ⟨e1, ⟨hl, e2, h1, ?_⟩, ?_, ?_⟩
      · intro k hk
        rcases (e3 k).1 hk with rfl | hk
        · exact c2
        · exact h2 k hk
      · intro k
        rw [mem_keys_node, mem_keys_node, e3]
        tauto
      · intro k
        rw [search, search, e4]
        by_cases hk : k = n
        · subst hk; simp [c1, c2]
        · simp [hk]

/-- Inserting a name that is in the tree is reported. -/
theorem insertLoop_dup {t : Tree α β} (h : Ordered t) {n : α} (hn : n ∈ keys t) (o : β) (left : Bool) :
    1 ≤ (insertLoop n o left t).2 := by
  induction t generalizing left with
  | nil => simp [keys] at hn
  | node l m p r ihl ihr =>
    obtain ⟨hl, hr, h1, h2⟩ := h
    rw [insertLoop.eq_def]
    simp only
    rw [mem_keys_node] at hn
    by_cases c1 : n < m
    · rw [if_pos c1]
      rcases hn with hn | rfl | hn
      · exact ihl hl hn true
      · exact absurd c1 (lt_irrefl _)
      · exact absurd (h2 n hn) (not_lt_of_gt c1)
    · rw [if_neg c1]
      by_cases c2 : n > m
      · rw [if_pos c2]
        rcases hn with hn | rfl | hn
        · exact absurd (h1 n hn) c1
        · exact absurd c2 (lt_irrefl _)
        · exact ihr hr hn false
      · rw [if_neg c2]
        split
        · split <;> simp
        · simp

/-- A sequence of declarations in a scope without repetition, starting with an ordered tree. -/
theorem declare_ok (ds : List (α × β)) {t : Tree α β} (h : Ordered t) (hnd : (ds.map Prod.fst).Nodup)
    (hdis : ∀ n ∈ ds.map Prod.fst, n ∉ keys t) :
    (declare ds t).2 = 0 ∧ Ordered (declare ds t).1 ∧
    (∀ k, k ∈ keys (declare ds t).1 ↔ k ∈ ds.map Prod.fst ∨ k ∈ keys t) ∧
    ∀ k, search k (declare ds t).1 = (meaning k ds).or (search k t) := by
  induction ds generalizing t with
  | nil => exact ⟨rfl, h, by simp [declare], by simp [declare, meaning]⟩
  | cons d ds ih =>
    obtain ⟨n, o⟩ := d
    rw [List.map_cons, List.nodup_cons] at hnd
    obtain ⟨e1, e2, e3, e4⟩ := insertLoop_new h (hdis n (by simp)) o false
    obtain ⟨f1, f2, f3, f4⟩ := ih e2 hnd.2 (by
      intro m hm hk
      rcases (e3 m).1 hk with rfl | hk
      · exact hnd.1 hm
      · exact hdis m (by rw [List.map_cons]; exact List.mem_cons_of_mem _ hm) hk)
    rw [declare]
    simp only [insert]
    refine ⟨by rw [e1, f1], f2, ?_, ?_⟩
    · intro k
      rw [f3, e3, List.map_cons, List.mem_cons]
      tauto
    · intro k
      rw [f4, e4, meaning]
      by_cases hk : k = n
      · subst hk
        simp only [if_true, Option.some_or]
        have : meaning k ds = none := by
          have hnd := hnd.1
          clear f4 f3 f2 f1 ih hdis
          induction ds with
          | nil => rfl
          | cons d ds ih =>
            obtain ⟨m, p⟩ := d
            simp only [List.map_cons, List.mem_cons, not_or] at hnd
            rw [meaning, if_neg (Ne.symm hnd.1)]
            exact ih ⟨hnd.2, by rename_i h; exact (List.nodup_cons.1 h.2).2⟩ hnd.2
        rw [this]; rfl
      · rw [if_neg hk, if_neg (Ne.symm hk)]

/-- C15: declarations in a scope are accepted exactly if no name occurs twice. -/
theorem C15_declare (ds : List (α × β)) : (declare ds .nil).2 = 0 ↔ (ds.map Prod.fst).Nodup := by
  refine ⟨?_, fun h => (declare_ok ds (t := .nil) trivial h (by simp [keys])).1⟩
  -- generalize the start
  suffices ∀ (t : Tree α β), Ordered t → (declare ds t).2 = 0 →
      (ds.map Prod.fst).Nodup ∧ ∀ n ∈ ds.map Prod.fst, n ∉ keys t from
    fun h => (this .nil trivial h).1
  induction ds with
  | nil => intros; simp
  | cons d ds ih =>
    obtain ⟨n, o⟩ := d
    intro t ht h
    rw [declare] at h
    simp only [insert] at h
    have hn : n ∉ keys t := by
      intro hn
      have := insertLoop_dup ht hn o false
      omega
    obtain ⟨e1, e2, e3, e4⟩ := insertLoop_new ht hn o false
    obtain ⟨g1, g2⟩ := ih _ e2 (by omega)
    rw [List.map_cons, List.nodup_cons]
    refine ⟨⟨fun hm => g2 n hm ((e3 n).2 (Or.inl rfl)), g1⟩, ?_⟩
    intro m hm
    rcases List.mem_cons.1 hm with rfl | hm
    · exact hn
    · intro hk; exact g2 m hm ((e3 m).2 (Or.inr hk))

/-- C15: looking up a name gives the declaration in the innermost scope that declares it. -/
theorem C15_find (dss : List (List (α × β))) (h : ∀ ds ∈ dss, (declare ds .nil).2 = 0) (n : α) :
    find n (dss.map fun ds => (declare ds .nil).1) = meaningIn n dss := by
  induction dss with
  | nil => rfl
  | cons ds dss ih =>
    have h0 := (C15_declare ds).1 (h ds (by simp))
    obtain ⟨-, -, -, e⟩ := declare_ok ds (t := .nil) trivial h0 (by simp [keys])
    rw [List.map_cons, find, e, meaningIn, ih (fun d hd => h d (by simp [hd]))]
    simp only [search, Option.or_none]
    cases meaning n ds <;> rfl

/-- C15: a field name means the record's own field, and otherwise what it means in the base type. -/
theorem C15_field (dss : List (List (α × β))) (h : ∀ ds ∈ dss, (declare ds .nil).2 = 0) (n : α) :
    findField n (dss.map fun ds => (declare ds .nil).1) = meaningIn n dss := by
  have e : ∀ ts : List (Tree α β), findField n ts = find n ts := by
    intro ts
    induction ts with
    | nil => rfl
    | cons t ts ih => rw [findField, find, ih]
  rw [e]; exact C15_find dss h n

/-- C15: a declaration in the innermost scope is reported exactly if that scope declares the name already;
otherwise it becomes visible, and every other name keeps its meaning. -/
theorem C15_insert (ds : List (α × β)) (outer : List (Tree α β)) (h : (declare ds .nil).2 = 0) (n : α) (o : β) :
    ((insert n o (declare ds .nil).1).2 = 0 ↔ n ∉ ds.map Prod.fst) ∧
    (n ∉ ds.map Prod.fst → ∀ k, find k ((insert n o (declare ds .nil).1).1 :: outer) =
      if k = n then some o else find k ((declare ds .nil).1 :: outer)) := by
  have h0 := (C15_declare ds).1 h
  obtain ⟨-, e2, e3, -⟩ := declare_ok ds (t := .nil) trivial h0 (by simp [keys])
  have hk : ∀ k, k ∈ keys (declare ds .nil).1 ↔ k ∈ ds.map Prod.fst := by
    intro k; rw [e3]; simp [keys]
  refine ⟨⟨?_, ?_⟩, ?_⟩
  · intro he hn
    have := insertLoop_dup e2 ((hk n).2 hn) o false
    simp only [insert] at he
    omega
  · intro hn
    exact (insertLoop_new e2 (fun hk' => hn ((hk n).1 hk')) o false).1
  · intro hn k
    obtain ⟨-, -, -, e4⟩ := insertLoop_new e2 (fun hk' => hn ((hk n).1 hk')) o false
    rw [find, find]
    simp only [insert]
    rw [e4]
    by_cases hkn : k = n
    · simp [hkn]
    · simp [hkn]

/-- C15: a field is accepted exactly if neither the record nor a base type has a field of that name. -/
theorem C15_declareField (ds : List (α × β)) (bases : List (List (α × β))) (h : (declare ds .nil).2 = 0)
    (hb : ∀ ds ∈ bases, (declare ds .nil).2 = 0) (n : α) (o : β) :
    (declareField (bases.map fun ds => (declare ds .nil).1) n o (declare ds .nil).1).2 = 0 ↔
      n ∉ ds.map Prod.fst ∧ ∀ ds' ∈ bases, n ∉ ds'.map Prod.fst := by
  have h1 := (C15_insert ds [] h n o).1
  rw [declareField]
  simp only
  rw [C15_field bases hb]
  have hm : ∀ ds : List (α × β), (meaning n ds).isSome ↔ n ∈ ds.map Prod.fst := by
    intro ds
    induction ds with
    | nil => simp [meaning]
    | cons d ds ih =>
      obtain ⟨m, p⟩ := d
      rw [meaning, List.map_cons, List.mem_cons]
      by_cases e : m = n
      · simp [e]
      · rw [if_neg e, ih]; simp [Ne.symm e]
  have h2 : (meaningIn n bases).isSome ↔ ∃ ds ∈ bases, n ∈ ds.map Prod.fst := by
    clear h1 hb
    induction bases with
    | nil => simp [meaningIn]
    | cons b bs ih => simp only [meaningIn, Option.isSome_or, Bool.or_eq_true, ih, hm, List.mem_cons, exists_eq_or_imp]
  by_cases hs : (meaningIn n bases).isSome
  · rw [if_pos hs]
    obtain ⟨d, hd, hn⟩ := h2.1 hs
    constructor
    · intro hh; omega
    · intro hh; exact absurd hn (hh.2 d hd)
  · rw [if_neg hs]
    have : ∀ ds' ∈ bases, n ∉ ds'.map Prod.fst := fun d hd hn => hs (h2.2 ⟨d, hd, hn⟩)
    rw [Nat.add_zero, h1]
    exact ⟨fun h => ⟨h, this⟩, fun h => h.1⟩

/-- C15: an imported name means the declaration in the module, except that private types are invisible. -/
theorem C15_import (hidden : β → Bool) (ds : List (α × β)) (h : (declare ds .nil).2 = 0) (n : α) :
    findImport hidden n (declare ds .nil).1 = (meaning n ds).filter (fun o => ! hidden o) := by
  have h0 := (C15_declare ds).1 h
  obtain ⟨-, -, -, e⟩ := declare_ok ds (t := .nil) trivial h0 (by simp [keys])
  rw [findImport, e]
  cases meaning n ds with
  | none => simp [search]
  | some o => cases hh : hidden o <;> simp [hh, Option.filter]

/-- After a double definition, which is reported, other names may be lost: `left` is not reset, so the
new object may replace a subtree.  Here 3 is declared twice and the name 1 disappears. -/
theorem C15_double_definition :
    let t := (declare [(5, "e"), (3, "c"), (1, "a")] (.nil : Tree Nat String)).1
    search 1 t = some "a" ∧ (insert 3 "c2" t).2 = 1 ∧ search 1 (insert 3 "c2" t).1 = none := by
  decide

example : find 2 (([[(2, "x"), (1, "y")], [(2, "outer"), (7, "z")]].map
    fun ds => (declare ds (.nil : Tree Nat String)).1)) = some "x" := by decide

example : find 7 (([[(2, "x"), (1, "y")], [(2, "outer"), (7, "z")]].map
    fun ds => (declare ds (.nil : Tree Nat String)).1)) = some "z" := by decide

end Verif.Scope
