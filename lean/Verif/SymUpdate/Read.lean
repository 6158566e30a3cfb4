import Verif.Common
import Verif.SymUpdate.Model

/-! Lemmas about reading the old symbol file (C69). -/
namespace Verif.SymUpdate

/-- The entry concerns this object. -/
def touches : Entry → Key → Prop
  | .struct k' _, k => k' = some k
  | .typ n, k => k = (0, n)
  | .obj n _ _, k => k = (0, n)

/-- What an entry does to one object. -/
def step (r : Rec) : Entry → Rec
  | .struct none _ => r
  | .struct (some k) fp => if r.key = k then cmpStruct fp r else r
  | .typ n => if r.key = (0, n) then cmpTyp r else r
  | .obj n fp _ => if r.key = (0, n) then cmpObj fp r else r

theorem cmpStruct_eqs (fp : Fp) (r : Rec) :
    (cmpStruct fp r).key = r.key ∧ (cmpStruct fp r).exported = r.exported ∧ (cmpStruct fp r).fp = r.fp ∧ (cmpStruct fp r).kind = r.kind := by
  unfold cmpStruct; repeat' split
  all_goals exact ⟨rfl, rfl, rfl, rfl⟩

theorem cmpTyp_eqs (r : Rec) :
    (cmpTyp r).key = r.key ∧ (cmpTyp r).exported = r.exported ∧ (cmpTyp r).fp = r.fp ∧ (cmpTyp r).kind = r.kind := by
  unfold cmpTyp; repeat' split
  all_goals exact ⟨rfl, rfl, rfl, rfl⟩

theorem cmpObj_eqs (fp : Fp) (r : Rec) :
    (cmpObj fp r).key = r.key ∧ (cmpObj fp r).exported = r.exported ∧ (cmpObj fp r).fp = r.fp ∧ (cmpObj fp r).kind = r.kind := by
  unfold cmpObj; repeat' split
  all_goals exact ⟨rfl, rfl, rfl, rfl⟩

theorem step_eqs (r : Rec) (e : Entry) :
    (step r e).key = r.key ∧ (step r e).exported = r.exported ∧ (step r e).fp = r.fp ∧ (step r e).kind = r.kind := by
  unfold step
  split
  · exact ⟨rfl, rfl, rfl, rfl⟩
  · split
    · exact cmpStruct_eqs _ _
    · exact ⟨rfl, rfl, rfl, rfl⟩
  · split
    · exact cmpTyp_eqs _
    · exact ⟨rfl, rfl, rfl, rfl⟩
  · split
    · exact cmpObj_eqs _ _
    · exact ⟨rfl, rfl, rfl, rfl⟩

theorem steps_eqs (f : File) (r : Rec) :
    (f.foldl step r).key = r.key ∧ (f.foldl step r).exported = r.exported ∧ (f.foldl step r).fp = r.fp ∧ (f.foldl step r).kind = r.kind := by
  induction f generalizing r with
  | nil => exact ⟨rfl, rfl, rfl, rfl⟩
  | cons e f ih =>
    rw [List.foldl_cons]
    obtain ⟨h1, h2, h3, h4⟩ := ih (step r e)
    obtain ⟨g1, g2, g3, g4⟩ := step_eqs r e
    exact ⟨h1.trans g1, h2.trans g2, h3.trans g3, h4.trans g4⟩

theorem step_not {r : Rec} {e : Entry} (h : ¬ touches e r.key) : step r e = r := by
  unfold step
  split
  · rfl
  · split
    · next h' => exact absurd (by rw [h']; rfl) h
    · rfl
  · split
    · next h' => exact absurd h' h
    · rfl
  · split
    · next h' => exact absurd h' h
    · rfl

theorem steps_not {f : File} {r : Rec} (h : ∀ e ∈ f, ¬ touches e r.key) : f.foldl step r = r := by
  induction f with
  | nil => rfl
  | cons e f ih =>
    rw [List.foldl_cons, step_not (h e List.mem_cons_self)]
    exact ih fun e he => h e (List.mem_cons_of_mem _ he)

/-! ### Consequences of `FileOk` -/

theorem FileOk.struct_split {f : File} (h : FileOk f) {k : Key} {fp : Fp} (hm : Entry.struct (some k) fp ∈ f) :
    ∃ pre post, f = pre ++ .struct (some k) fp :: post ∧ ∀ fp', .struct (some k) fp' ∉ pre ∧ .struct (some k) fp' ∉ post := by
  obtain ⟨pre, post, rfl⟩ := List.append_of_mem hm
  refine ⟨pre, post, rfl, fun fp' => ?_⟩
  have := h.keys
  simp only [List.filterMap_append, List.filterMap_cons] at this
  rw [List.nodup_append] at this
  obtain ⟨-, h2, h3⟩ := this
  rw [List.nodup_cons] at h2
  constructor
  · intro hc
    exact h3 k (List.mem_filterMap.2 ⟨_, hc, rfl⟩) k List.mem_cons_self rfl
  · intro hc
    exact h2.1 (List.mem_filterMap.2 ⟨_, hc, rfl⟩)

theorem FileOk.struct_unique {f : File} (h : FileOk f) {k : Key} {fp fp' : Fp} (hm : Entry.struct (some k) fp ∈ f)
    (hm' : Entry.struct (some k) fp' ∈ f) : fp = fp' := by
  obtain ⟨pre, post, rfl, hn⟩ := h.struct_split hm
  rcases List.mem_append.1 hm' with h' | h'
  · exact absurd h' (hn fp').1
  · rcases List.mem_cons.1 h' with h' | h'
    · injection h' with h1 h2; exact h2.symm
    · exact absurd h' (hn fp').2

theorem FileOk.obj_split {f : File} (h : FileOk f) {n : Nat} {fp : Fp} {a : Option Nat} (hm : Entry.obj n fp a ∈ f) :
    ∃ pre post, f = pre ++ .obj n fp a :: post ∧ ∀ e ∈ post, ¬ touches e (0, n) := by
  obtain ⟨pre, post, rfl⟩ := List.append_of_mem hm
  refine ⟨pre, post, rfl, fun e he ht => ?_⟩
  have := h.names
  simp only [List.filterMap_append, List.filterMap_cons] at this
  rw [List.nodup_append] at this
  obtain ⟨-, h2, -⟩ := this
  rw [List.nodup_cons] at h2
  cases e with
  | struct k fp' =>
    simp only [touches] at ht; subst ht
    exact h.obj n fp a hm fp' (List.mem_append_right _ (List.mem_cons_of_mem _ he))
  | typ m => simp only [touches, Prod.mk.injEq, true_and] at ht; subst ht; exact h2.1 (List.mem_filterMap.2 ⟨_, he, rfl⟩)
  | obj m fp' a' => simp only [touches, Prod.mk.injEq, true_and] at ht; subst ht; exact h2.1 (List.mem_filterMap.2 ⟨_, he, rfl⟩)

theorem FileOk.not_both {f : File} (h : FileOk f) {n : Nat} {fp : Fp} {a : Option Nat} (hm : Entry.obj n fp a ∈ f) : .typ n ∉ f := by
  intro ht
  obtain ⟨pre, post, he⟩ := List.append_of_mem ht
  obtain ⟨fp', h'⟩ := h.typ _ _ _ he
  exact h.obj _ _ _ hm fp' (by rw [he]; exact List.mem_append_left _ h')

theorem FileOk.typ_split {f : File} (h : FileOk f) {n : Nat} (hm : Entry.typ n ∈ f) :
    ∃ pre mid post fp, f = pre ++ .struct (some (0, n)) fp :: (mid ++ .typ n :: post) ∧
      (∀ e ∈ pre, ¬ touches e (0, n)) ∧ (∀ e ∈ mid, ¬ touches e (0, n)) ∧ ∀ e ∈ post, ¬ touches e (0, n) := by
  obtain ⟨a, post, he⟩ := List.append_of_mem hm
  obtain ⟨fp, h'⟩ := h.typ _ _ _ he
  obtain ⟨pre, mid, rfl⟩ := List.append_of_mem h'
  refine ⟨pre, mid, post, fp, by rw [he]; simp, ?_⟩
  subst he
  have key : ∀ e ∈ pre ++ mid ++ post, ¬ touches e (0, n) := by
    intro e hin ht
    have hk := h.keys
    have hn := h.names
    simp only [List.filterMap_append, List.filterMap_cons] at hk hn
    cases e with
    | struct k fp' =>
      simp only [touches] at ht; subst ht
      rw [List.append_assoc, List.nodup_append] at hk
      obtain ⟨-, hk2, hk3⟩ := hk
      rw [List.cons_append, List.nodup_cons] at hk2
      simp only [List.mem_append] at hin
      rcases hin with (hin | hin) | hin
      · exact hk3 (0, n) (List.mem_filterMap.2 ⟨_, hin, rfl⟩) _ (by simp) rfl
      · exact hk2.1 (List.mem_append_left _ (List.mem_filterMap.2 ⟨_, hin, rfl⟩))
      · exact hk2.1 (List.mem_append_right _ (List.mem_filterMap.2 ⟨_, hin, rfl⟩))
    | typ m =>
      simp only [touches, Prod.mk.injEq, true_and] at ht; subst ht
      rw [List.nodup_append] at hn
      obtain ⟨-, hn2, hn3⟩ := hn
      rw [List.nodup_cons] at hn2
      simp only [List.mem_append] at hin
      rcases hin with (hin | hin) | hin
      · exact hn3 n (List.mem_append_left _ (List.mem_filterMap.2 ⟨_, hin, rfl⟩)) n List.mem_cons_self rfl
      · exact hn3 n (List.mem_append_right _ (List.mem_filterMap.2 ⟨_, hin, rfl⟩)) n List.mem_cons_self rfl
      · exact hn2.1 (List.mem_filterMap.2 ⟨_, hin, rfl⟩)
    | obj m fp' a' =>
      simp only [touches, Prod.mk.injEq, true_and] at ht; subst ht
      refine h.obj n fp' a' ?_ fp (by simp)
      simp only [List.mem_append] at hin
      simp only [List.mem_append, List.mem_cons]
      tauto
  refine ⟨fun e he => key e (by simp [he]), fun e he => key e (by simp [he]), fun e he => key e (by simp [he])⟩

/-! ### The history of a declared object -/

theorem steps_append (f g : File) (r : Rec) : (f ++ g).foldl step r = g.foldl step (f.foldl step r) := List.foldl_append

theorem hist_obj {f : File} (h : FileOk f) {r : Rec} {n : Nat} {fp : Fp} {a : Option Nat} (hk : r.key = (0, n))
    (hm : Entry.obj n fp a ∈ f) :
    (f.foldl step r).hist = if !r.exported then .removed else if fp.pb ≠ r.fp.pb then .pbmodified
      else if fp.pv ≠ r.fp.pv then .pvmodified else .same := by
  obtain ⟨pre, post, rfl, hp⟩ := h.obj_split hm
  rw [steps_append, List.foldl_cons]
  obtain ⟨e1, e2, e3, -⟩ := steps_eqs pre r
  rw [steps_not]
  · simp only [step, e1, hk, if_pos, cmpObj, e2, e3]
    repeat' split
    all_goals rfl
  · rw [(step_eqs _ _).1, e1, hk]; exact hp

theorem hist_typ {f : File} (h : FileOk f) {r : Rec} {n : Nat} {fp : Fp} (hk : r.key = (0, n)) (hi : r.hist = .inserted)
    (hm : Entry.typ n ∈ f) (hs : Entry.struct (some (0, n)) fp ∈ f) :
    (f.foldl step r).hist = if !r.exported then .removed else if r.fp.pb ≠ fp.pb then .pbmodified
      else if r.fp.pv ≠ fp.pv then .pvmodified else .same := by
  obtain ⟨pre, mid, post, fp', he, h1, h2, h3⟩ := h.typ_split hm
  have : fp = fp' := h.struct_unique hs (by rw [he]; simp)
  subst this
  rw [he, steps_append, List.foldl_cons, steps_append, List.foldl_cons, steps_not (r := r) (by rw [hk]; exact h1)]
  have e1 : step r (.struct (some (0, n)) fp) = cmpStruct fp r := by simp only [step, hk, if_pos]
  obtain ⟨c1, c2, c3, -⟩ := cmpStruct_eqs fp r
  rw [e1, steps_not (r := cmpStruct fp r) (by rw [c1, hk]; exact h2)]
  have e2 : step (cmpStruct fp r) (.typ n) = cmpTyp (cmpStruct fp r) := by simp only [step, c1, hk, if_pos]
  rw [e2, steps_not (by rw [(cmpTyp_eqs _).1, c1, hk]; exact h3)]
  simp only [cmpTyp, c2, cmpStruct, hk, ne_eq, not_true, if_false]
  by_cases h1 : r.exported = true <;> by_cases h2 : r.fp.pb = fp.pb <;> by_cases h3 : r.fp.pv = fp.pv <;> simp [h1, h2, h3]

theorem hist_struct {f : File} (h : FileOk f) {r : Rec} {k : Key} {fp : Fp} (hk : r.key = k)
    (hs : Entry.struct (some k) fp ∈ f) (hn : ∀ n, k = (0, n) → .typ n ∉ f ∧ ∀ fp a, .obj n fp a ∉ f) :
    f.foldl step r = cmpStruct fp r := by
  obtain ⟨pre, post, rfl, hp⟩ := h.struct_split hs
  have key : ∀ l : File, (∀ e ∈ l, e ∈ pre ++ .struct (some k) fp :: post) → (∀ fp', .struct (some k) fp' ∉ l) → ∀ e ∈ l, ¬ touches e k := by
    intro l hl hno e he ht
    cases e with
    | struct k' fp' => simp only [touches] at ht; subst ht; exact hno _ he
    | typ n => exact (hn n ht).1 (hl _ he)
    | obj n fp' a => exact (hn n ht).2 _ _ (hl _ he)
  rw [steps_append, List.foldl_cons, steps_not (r := r)]
  · have e1 : step r (.struct (some k) fp) = cmpStruct fp r := by simp only [step, hk, if_pos]
    rw [e1, steps_not]
    rw [(cmpStruct_eqs _ _).1, hk]
    exact key post (fun e he => by simp [he]) fun fp' => (hp fp').2
  · rw [hk]
    exact key pre (fun e he => by simp [he]) fun fp' => (hp fp').1

theorem hist_none {f : File} {r : Rec} (h : ∀ e ∈ f, ¬ touches e r.key) : f.foldl step r = r := steps_not h

/-! ### All objects -/

/-- What the symbol file adds. -/
structure Extra (S : List Rec) (f : File) (X : List Rec) : Prop where
  hist : ∀ x ∈ X, x.hist = .removed
  kind : ∀ x ∈ X, x.kind = none
  new : ∀ x ∈ X, ∀ r ∈ S, r.key ≠ x.key
  int : ∀ x ∈ X, x.exported = false → ∃ fp, .struct (some x.key) fp ∈ f
  ext : ∀ x ∈ X, x.exported = true → ∃ n fp a, x.key = (0, n) ∧ .obj n fp a ∈ f
  all : ∀ e ∈ f, ∀ k, touches e k → (∀ r ∈ S, r.key ≠ k) → ∃ x ∈ X, x.key = k

theorem update_spec (k : Key) (g : Rec → Rec) (new : Rec) (S X : List Rec) :
    update k g new (S ++ X) =
      if (∃ r ∈ S ++ X, r.key = k) then (S.map fun r => if r.key = k then g r else r) ++ X.map (fun r => if r.key = k then g r else r)
      else S ++ (X ++ [new]) := by
  unfold update
  by_cases h : ∃ r ∈ S ++ X, r.key = k
  · have : ((S ++ X).any fun r => decide (r.key = k)) = true := by
      rw [List.any_eq_true]; obtain ⟨r, h1, h2⟩ := h; exact ⟨r, h1, decide_eq_true h2⟩
    rw [if_pos h, if_pos this, List.map_append]
  · have : ((S ++ X).any fun r => decide (r.key = k)) = false := by
      rw [List.any_eq_false]; intro r hr hc; exact h ⟨r, hr, of_decide_eq_true hc⟩
    rw [if_neg h, this]
    simp

theorem FileOk.prefix {f : File} {e : Entry} (h : FileOk (f ++ [e])) : FileOk f where
  keys := by
    have := h.keys; rw [List.filterMap_append] at this; exact (List.nodup_append.1 this).1
  names := by
    have := h.names; rw [List.filterMap_append] at this; exact (List.nodup_append.1 this).1
  typ := by
    intro pre n post he
    exact h.typ pre n (post ++ [e]) (by rw [he]; simp)
  obj := by
    intro n fp a hm fp' hc
    exact h.obj n fp a (List.mem_append_left _ hm) fp' (List.mem_append_left _ hc)

theorem read_spec (S : List Rec) (f : File) (h : FileOk f) :
    ∃ X, f.foldl readEntry S = (S.map fun r => f.foldl step r) ++ X ∧ Extra S f X := by
  induction f using List.reverseRecOn with
  | nil =>
    refine ⟨[], by simp, ⟨?_, ?_, ?_, ?_, ?_, ?_⟩⟩ <;> simp
  | append_singleton f e ih =>
    obtain ⟨X, hX, hE⟩ := ih h.prefix
    rw [List.foldl_append, List.foldl_cons, List.foldl_nil, hX]
    have hmap : ∀ (k : Key) (g : Rec → Rec), (∀ r, step r e = if r.key = k then g r else r) →
        ((S.map fun r => f.foldl step r).map fun r => if r.key = k then g r else r) = S.map fun r => (f ++ [e]).foldl step r := by
      intro k g hg
      rw [List.map_map]
      apply List.map_congr_left
      intro r hr
      rw [List.foldl_append, List.foldl_cons, List.foldl_nil, hg]
      rfl
    have hkeys : ∀ k, (∃ r ∈ (S.map fun r => f.foldl step r), r.key = k) ↔ ∃ r ∈ S, r.key = k := by
      intro k
      constructor
      · rintro ⟨r, hr, hk⟩
        obtain ⟨r0, hr0, rfl⟩ := List.mem_map.1 hr
        exact ⟨r0, hr0, by rw [← (steps_eqs f r0).1]; exact hk⟩
      · rintro ⟨r, hr, hk⟩
        exact ⟨_, List.mem_map.2 ⟨r, hr, rfl⟩, by rw [(steps_eqs f r).1]; exact hk⟩
    -- the general step
    have gen : ∀ (k : Key) (g : Rec → Rec) (new : Rec), (∀ r, step r e = if r.key = k then g r else r) →
        (∀ k', touches e k' ↔ k' = k) → new.key = k → new.hist = .removed → new.kind = none →
        (∀ x ∈ X, x.key = k → g x = x) →
        ((∀ r ∈ S, r.key ≠ k) → (∀ x ∈ X, x.key ≠ k) → (new.exported = false → ∃ fp, .struct (some k) fp ∈ f ++ [e]) ∧
          (new.exported = true → ∃ n fp a, k = (0, n) ∧ .obj n fp a ∈ f ++ [e])) →
        ∃ Y, update k g new ((S.map fun r => f.foldl step r) ++ X) = (S.map fun r => (f ++ [e]).foldl step r) ++ Y ∧ Extra S (f ++ [e]) Y := by
      intro k g new hg ht hnk hnh hnd hfix hnew
      rw [update_spec]
      split
      · next hex =>
        refine ⟨X, ?_, ?_⟩
        · rw [hmap k g hg]
          congr 1
          conv => rhs; rw [← List.map_id X]
          apply List.map_congr_left
          intro x hx
          by_cases hxk : x.key = k
          · rw [if_pos hxk, hfix x hx hxk]; rfl
          · rw [if_neg hxk]; rfl
        · refine ⟨hE.hist, hE.kind, hE.new, ?_, ?_, ?_⟩
          · intro x hx hxe
            obtain ⟨fp, h'⟩ := hE.int x hx hxe
            exact ⟨fp, List.mem_append_left _ h'⟩
          · intro x hx hxe
            obtain ⟨n, fp, a, h', h''⟩ := hE.ext x hx hxe
            exact ⟨n, fp, a, h', List.mem_append_left _ h''⟩
          · intro e' he' k' ht' hno
            rcases List.mem_append.1 he' with he' | he'
            · exact hE.all e' he' k' ht' hno
            · rw [List.mem_singleton] at he'; subst he'
              have hk' := (ht k').1 ht'
              subst hk'
              obtain ⟨r, hr, hrk⟩ := hex
              rcases List.mem_append.1 hr with hr | hr
              · obtain ⟨r', hr', hrk'⟩ := (hkeys k').1 ⟨r, hr, hrk⟩
                exact absurd hrk' (hno r' hr')
              · exact ⟨r, hr, hrk⟩
      · next hex =>
        have hnoS : ∀ r ∈ S, r.key ≠ k := by
          intro r hr hrk
          obtain ⟨r', hr', hrk'⟩ := (hkeys k).2 ⟨r, hr, hrk⟩
          exact hex ⟨r', List.mem_append_left _ hr', hrk'⟩
        have hnoX : ∀ x ∈ X, x.key ≠ k := fun x hx hxk => hex ⟨x, List.mem_append_right _ hx, hxk⟩
        refine ⟨X ++ [new], ?_, ?_⟩
        · congr 1
          apply List.map_congr_left
          intro r hr
          rw [List.foldl_append, List.foldl_cons, List.foldl_nil, hg, if_neg]
          rw [(steps_eqs f r).1]; exact hnoS r hr
        · have hn := hnew hnoS hnoX
          refine ⟨?_, ?_, ?_, ?_, ?_, ?_⟩
          · intro x hx
            rcases List.mem_append.1 hx with hx | hx
            · exact hE.hist x hx
            · rw [List.mem_singleton] at hx; subst hx; exact hnh
          · intro x hx
            rcases List.mem_append.1 hx with hx | hx
            · exact hE.kind x hx
            · rw [List.mem_singleton] at hx; subst hx; exact hnd
          · intro x hx
            rcases List.mem_append.1 hx with hx | hx
            · exact hE.new x hx
            · rw [List.mem_singleton] at hx; subst hx; rw [hnk]; exact hnoS
          · intro x hx hxe
            rcases List.mem_append.1 hx with hx | hx
            · obtain ⟨fp, h'⟩ := hE.int x hx hxe
              exact ⟨fp, List.mem_append_left _ h'⟩
            · rw [List.mem_singleton] at hx; subst hx; rw [hnk]; exact hn.1 hxe
          · intro x hx hxe
            rcases List.mem_append.1 hx with hx | hx
            · obtain ⟨n, fp, a, h', h''⟩ := hE.ext x hx hxe
              exact ⟨n, fp, a, h', List.mem_append_left _ h''⟩
            · rw [List.mem_singleton] at hx; subst hx; rw [hnk]; exact hn.2 hxe
          · intro e' he' k' ht' hno
            rcases List.mem_append.1 he' with he' | he'
            · obtain ⟨x, hx, hxk⟩ := hE.all e' he' k' ht' hno
              exact ⟨x, List.mem_append_left _ hx, hxk⟩
            · rw [List.mem_singleton] at he'; subst he'
              have hk' := (ht k').1 ht'
              subst hk'
              exact ⟨new, by simp, hnk⟩
    cases e with
    | struct ok fp =>
      cases ok with
      | none =>
        refine ⟨X, ?_, ?_⟩
        · simp only [readEntry]
          congr 1
          apply List.map_congr_left
          intro r hr
          rw [List.foldl_append]; rfl
        · refine ⟨hE.hist, hE.kind, hE.new, ?_, ?_, ?_⟩
          · intro x hx hxe
            obtain ⟨fp, h'⟩ := hE.int x hx hxe
            exact ⟨fp, List.mem_append_left _ h'⟩
          · intro x hx hxe
            obtain ⟨n, fp, a, h', h''⟩ := hE.ext x hx hxe
            exact ⟨n, fp, a, h', List.mem_append_left _ h''⟩
          · intro e' he' k' ht' hno
            rcases List.mem_append.1 he' with he' | he'
            · exact hE.all e' he' k' ht' hno
            · rw [List.mem_singleton] at he'; subst he'
              simp [touches] at ht'
      | some k =>
        refine gen k (cmpStruct fp) _ (fun r => rfl) (fun k' => ?_) rfl rfl rfl ?_ ?_
        · simp only [touches, Option.some.injEq]; exact eq_comm
        · intro x hx hxk
          exfalso
          cases hxe : x.exported with
          | false =>
            obtain ⟨fp', h'⟩ := hE.int x hx hxe
            rw [hxk] at h'
            have hk := h.keys
            rw [List.filterMap_append, List.nodup_append] at hk
            exact hk.2.2 k (List.mem_filterMap.2 ⟨_, h', rfl⟩) k (by simp) rfl
          | true =>
            obtain ⟨n, fp', a, h', h''⟩ := hE.ext x hx hxe
            rw [hxk] at h'; subst h'
            exact h.obj n fp' a (List.mem_append_left _ h'') fp (by simp)
        · intro _ _
          exact ⟨fun _ => ⟨fp, by simp⟩, fun hc => by simp at hc⟩
    | typ n =>
      obtain ⟨fp0, h0⟩ := h.typ f n [] rfl
      refine gen (0, n) cmpTyp _ (fun r => rfl) (fun k' => by simp only [touches]) rfl rfl rfl ?_ ?_
      · intro x hx hxk
        cases hxe : x.exported with
        | false =>
          have hh := hE.hist x hx
          cases x with
          | mk key exported fp hist kind =>
            simp only at hxe hh; subst hxe; subst hh
            simp [cmpTyp]
        | true =>
          exfalso
          obtain ⟨m, fp', a, h', h''⟩ := hE.ext x hx hxe
          rw [hxk] at h'
          simp only [Prod.mk.injEq, true_and] at h'; subst h'
          exact h.obj n fp' a (List.mem_append_left _ h'') fp0 (List.mem_append_left _ h0)
      · intro hS hXn
        exfalso
        obtain ⟨x, hx, hxk⟩ := hE.all _ h0 (0, n) rfl hS
        exact hXn x hx hxk
    | obj n fp a =>
      refine gen (0, n) (cmpObj fp) _ (fun r => rfl) (fun k' => by simp only [touches]) rfl rfl rfl ?_ ?_
      · intro x hx hxk
        exfalso
        cases hxe : x.exported with
        | false =>
          obtain ⟨fp', h'⟩ := hE.int x hx hxe
          rw [hxk] at h'
          exact h.obj n fp a (by simp) fp' (List.mem_append_left _ h')
        | true =>
          obtain ⟨m, fp', a', h', h''⟩ := hE.ext x hx hxe
          rw [hxk] at h'
          simp only [Prod.mk.injEq, true_and] at h'; subst h'
          have hn := h.names
          rw [List.filterMap_append, List.nodup_append] at hn
          exact hn.2.2 n (List.mem_filterMap.2 ⟨_, h'', rfl⟩) n (by simp) rfl
      · intro _ _
        exact ⟨fun hc => by simp at hc, fun _ => ⟨n, fp, a, rfl, by simp⟩⟩

end Verif.SymUpdate
