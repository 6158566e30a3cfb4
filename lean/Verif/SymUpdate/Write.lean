import Verif.SymUpdate.Read

/-! Lemmas about writing a symbol file (C69). -/
namespace Verif.SymUpdate
open Verif.FPrint

/-- More types than a symbol file can hold. -/
def Big (M : Nat → Prop) : Prop := ∃ l : List Nat, l.Nodup ∧ l.length = 241 ∧ ∀ x ∈ l, M x

/-- What writing types `ts` does: `new` are those not written before. -/
structure Wrote (S : List Rec) (tys : Nat → Ty) (M : Nat → Prop) (ts : List Nat) (w w' : W) (new : List Nat) : Prop where
  refs : w'.refs = w.refs ++ new
  nodup : w'.refs.Nodup
  len : w'.refs.length ≤ 240
  mem : ∀ x ∈ new, M x
  file : w'.file = w.file ++ new.map fun x => tyEntry S (tys x).key
  reffp : w'.reffp = w.reffp
  mono : ∀ c ∈ w.codes, c ∈ w'.codes
  done : Big M ∧ 228 ∈ w'.codes ∨
    (∀ c, c ∈ w'.codes ↔ c ∈ w.codes ∨ ∃ x ∈ new, c ∈ tyCodes S (tys x).key) ∧ (∀ t ∈ ts, t ∈ w'.refs) ∧
      ∀ x ∈ new, ∀ u ∈ (tys x).kids, u ∈ w'.refs

theorem Wrote.trans {S : List Rec} {tys : Nat → Ty} {M : Nat → Prop} {a b : List Nat} {w w1 w2 : W} {n1 n2 : List Nat}
    (h1 : Wrote S tys M a w w1 n1) (h2 : Wrote S tys M b w1 w2 n2) : Wrote S tys M (a ++ b) w w2 (n1 ++ n2) where
  refs := by rw [h2.refs, h1.refs, List.append_assoc]
  nodup := h2.nodup
  len := h2.len
  mem := by
    intro x hx
    rcases List.mem_append.1 hx with hx | hx
    · exact h1.mem x hx
    · exact h2.mem x hx
  file := by rw [h2.file, h1.file, List.map_append, List.append_assoc]
  reffp := h2.reffp.trans h1.reffp
  mono := fun c hc => h2.mono c (h1.mono c hc)
  done := by
    rcases h2.done with h | ⟨g1, g2, g3⟩
    · exact .inl h
    · rcases h1.done with h | ⟨f1, f2, f3⟩
      · exact .inl ⟨h.1, h2.mono _ h.2⟩
      · refine .inr ⟨?_, ?_, ?_⟩
        · intro c
          rw [g1, f1, or_assoc]
          constructor
          · rintro (h | ⟨x, hx, h⟩ | ⟨x, hx, h⟩)
            · exact .inl h
            · exact .inr ⟨x, List.mem_append_left _ hx, h⟩
            · exact .inr ⟨x, List.mem_append_right _ hx, h⟩
          · rintro (h | ⟨x, hx, h⟩)
            · exact .inl h
            · rcases List.mem_append.1 hx with hx | hx
              · exact .inr (.inl ⟨x, hx, h⟩)
              · exact .inr (.inr ⟨x, hx, h⟩)
        · intro t ht
          rcases List.mem_append.1 ht with ht | ht
          · rw [h2.refs]; exact List.mem_append_left _ (f2 t ht)
          · exact g2 t ht
        · intro x hx u hu
          rcases List.mem_append.1 hx with hx | hx
          · rw [h2.refs]; exact List.mem_append_left _ (f3 x hx u hu)
          · exact g3 x hx u hu

theorem Wrote.refl {S : List Rec} {tys : Nat → Ty} {M : Nat → Prop} {w : W} (hn : w.refs.Nodup) (hl : w.refs.length ≤ 240) :
    Wrote S tys M [] w w [] where
  refs := by simp
  nodup := hn
  len := hl
  mem := by simp
  file := by simp
  reffp := rfl
  mono := fun _ h => h
  done := .inr ⟨by simp, by simp, by simp⟩

theorem foldl_wrote {S : List Rec} {tys : Nat → Ty} {M : Nat → Prop} {g : Nat → W → W} {B : Nat}
    (hg : ∀ t w, M t → w.refs.Nodup → (∀ x ∈ w.refs, M x) → w.refs.length ≤ 240 → B ≤ w.refs.length →
      ∃ new, Wrote S tys M [t] w (g t w) new) (ts : List Nat) :
    ∀ w : W, (∀ t ∈ ts, M t) → w.refs.Nodup → (∀ x ∈ w.refs, M x) → w.refs.length ≤ 240 → B ≤ w.refs.length →
      ∃ new, Wrote S tys M ts w (ts.foldl (fun w u => g u w) w) new := by
  induction ts with
  | nil => exact fun w _ hn _ hl _ => ⟨[], Wrote.refl hn hl⟩
  | cons t ts ih =>
    intro w ht hn hm hl hB
    obtain ⟨n1, h1⟩ := hg t w (ht t List.mem_cons_self) hn hm hl hB
    obtain ⟨n2, h2⟩ := ih (g t w) (fun u hu => ht u (List.mem_cons_of_mem _ hu)) h1.nodup
      (by
        intro x hx
        rw [h1.refs] at hx
        rcases List.mem_append.1 hx with hx | hx
        · exact hm x hx
        · exact h1.mem x hx) h1.len (by rw [h1.refs, List.length_append]; omega)
    exact ⟨_, h1.trans h2⟩

theorem outTy_wrote {S : List Rec} {tys : Nat → Ty} {M : Nat → Prop} (hM : ∀ t, M t → ∀ u ∈ (tys t).kids, M u) (fuel : Nat) :
    ∀ t w, M t → w.refs.Nodup → (∀ x ∈ w.refs, M x) → w.refs.length ≤ 240 → 241 - fuel ≤ w.refs.length →
      ∃ new, Wrote S tys M [t] w (outTy S tys fuel t w) new := by
  induction fuel with
  | zero => intro t w _ _ _ h1 h2; omega
  | succ fuel ih =>
    intro t w ht hn hm hl hB
    rw [outTy]
    split
    · next hin =>
      refine ⟨[], ?_⟩
      have := Wrote.refl (S := S) (tys := tys) (M := M) hn hl
      refine ⟨this.refs, this.nodup, this.len, this.mem, this.file, rfl, this.mono, .inr ⟨by simp, ?_, by simp⟩⟩
      intro u hu; rw [List.mem_singleton] at hu; subst hu; exact hin
    · next hin =>
      split
      · next hbig =>
        refine ⟨[], ⟨by simp, hn, hl, by simp, by simp, rfl, fun c hc => by simp [hc], .inl ⟨?_, by simp⟩⟩⟩
        refine ⟨w.refs ++ [t], ?_, ?_, ?_⟩
        · rw [List.nodup_append]
          refine ⟨hn, by simp, ?_⟩
          intro x hx y hy
          rw [List.mem_singleton] at hy; subst hy
          rintro rfl; exact hin hx
        · rw [List.length_append, List.length_singleton]; omega
        · intro x hx
          rcases List.mem_append.1 hx with hx | hx
          · exact hm x hx
          · rw [List.mem_singleton] at hx; subst hx; exact ht
      · next hsm =>
        let w1 : W := { w with
          refs := w.refs ++ [t]
          file := w.file ++ [tyEntry S (tys t).key]
          codes := w.codes ++ tyCodes S (tys t).key }
        have hn1 : w1.refs.Nodup := by
          rw [List.nodup_append]
          refine ⟨hn, by simp, ?_⟩
          intro x hx y hy
          rw [List.mem_singleton] at hy; subst hy
          rintro rfl; exact hin hx
        have hl1 : w1.refs.length = w.refs.length + 1 := by
          show (w.refs ++ [t]).length = _; simp
        obtain ⟨new, h⟩ := foldl_wrote (S := S) (tys := tys) (M := M) (g := outTy S tys fuel) (B := 241 - fuel) ih (tys t).kids w1
          (hM t ht) hn1
          (by
            intro x hx
            rcases List.mem_append.1 hx with hx | hx
            · exact hm x hx
            · rw [List.mem_singleton] at hx; subst hx; exact ht)
          (by omega) (by omega)
        refine ⟨t :: new, ⟨?_, h.nodup, h.len, ?_, ?_, h.reffp, ?_, ?_⟩⟩
        · rw [h.refs]; show (w.refs ++ [t]) ++ new = _; simp
        · intro x hx
          rcases List.mem_cons.1 hx with rfl | hx
          · exact ht
          · exact h.mem x hx
        · rw [h.file]; show (w.file ++ _) ++ _ = _; simp
        · intro c hc
          exact h.mono c (List.mem_append_left _ hc)
        · rcases h.done with hd | ⟨d1, d2, d3⟩
          · exact .inl hd
          · refine .inr ⟨?_, ?_, ?_⟩
            · intro c
              rw [d1]
              show c ∈ w.codes ++ tyCodes S (tys t).key ∨ _ ↔ _
              rw [List.mem_append, or_assoc]
              simp only [List.mem_cons, exists_eq_or_imp]
            · intro u hu
              rw [List.mem_singleton] at hu; subst hu
              rw [h.refs]
              exact List.mem_append_left _ (List.mem_append_right _ (by simp))
            · intro x hx u hu
              rcases List.mem_cons.1 hx with rfl | hx
              · exact d2 u hu
              · exact d3 x hx u hu

theorem outTys_wrote {S : List Rec} {tys : Nat → Ty} {M : Nat → Prop} (hM : ∀ t, M t → ∀ u ∈ (tys t).kids, M u) (ts : List Nat) (w : W)
    (ht : ∀ t ∈ ts, M t) (hn : w.refs.Nodup) (hm : ∀ x ∈ w.refs, M x) (hl : w.refs.length ≤ 240) :
    ∃ new, Wrote S tys M ts w (outTys S tys ts w) new :=
  foldl_wrote (B := 0) (fun t w a b c d _ => outTy_wrote hM 255 t w a b c d (by omega)) ts w ht hn hm hl (Nat.zero_le _)

/-! ### Objects -/

/-- Is this object written? -/
def written (r : Rec) : Prop := r.hist ≠ .removed ∧ r.exported = true
instance (r : Rec) : Decidable (written r) := inferInstanceAs (Decidable (_ ∧ _))

def recKids (r : Rec) : List Nat := match r.kind with | some k => k.kids | none => []

/-- The state while objects are written. -/
structure State (S : List Rec) (tys : Nat → Ty) (M : Nat → Prop) (rs : List Rec) (w : W) : Prop where
  nodup : w.refs.Nodup
  len : w.refs.length ≤ 240
  mem : ∀ x ∈ w.refs, M x
  done : Big M ∧ 228 ∈ w.codes ∨
    (∀ c, c ∈ w.codes ↔ (∃ r ∈ rs, c ∈ objCodes r) ∨ ∃ x ∈ w.refs, c ∈ tyCodes S (tys x).key) ∧
    (∀ r ∈ rs, written r → ∀ t ∈ recKids r, t ∈ w.refs) ∧ ∀ x ∈ w.refs, ∀ u ∈ (tys x).kids, u ∈ w.refs
  structs : (w.file.filterMap fun | .struct k _ => some k | _ => none) = w.refs.map fun x => (tys x).key
  structs' : ∀ k fp, .struct k fp ∈ w.file → ∃ x ∈ w.refs, .struct k fp = tyEntry S (tys x).key
  structs2 : ∀ x ∈ w.refs, tyEntry S (tys x).key ∈ w.file
  names : (w.file.filterMap fun | .typ n => some n | .obj n _ _ => some n | _ => none) =
    (rs.filter fun r => written r ∧ r.kind.isSome).map fun r => r.key.2
  objs : ∀ n fp a, .obj n fp a ∈ w.file → ∃ r ∈ rs, written r ∧ r.key.2 = n ∧ r.fp = fp ∧ ∃ ks an, r.kind = some (.other ks an)
  objs' : ∀ r ∈ rs, written r → ∀ ks an, r.kind = some (.other ks an) → ∃ a, .obj r.key.2 r.fp a ∈ w.file
  typs : ∀ n, .typ n ∈ w.file → ∃ r ∈ rs, written r ∧ r.key.2 = n ∧ ∃ t, r.kind = some (.typ t)
  typs' : ∀ r ∈ rs, written r → ∀ t, r.kind = some (.typ t) → .typ r.key.2 ∈ w.file
  order : 228 ∉ w.codes → ∀ pre n post, w.file = pre ++ .typ n :: post →
    ∃ r ∈ rs, r.key.2 = n ∧ ∃ t, r.kind = some (.typ t) ∧ tyEntry S (tys t).key ∈ pre
  reffp : w.reffp = w.file.foldl readFp 0

theorem State.init (S : List Rec) (tys : Nat → Ty) (M : Nat → Prop) : State S tys M [] {} where
  nodup := by simp
  len := by simp
  mem := by simp
  done := .inr ⟨by simp, by simp, by simp⟩
  structs := by simp
  structs' := by simp
  structs2 := by simp
  names := by simp
  objs := by simp
  objs' := by simp
  typs := by simp
  typs' := by simp
  order := by simp
  reffp := by simp

theorem tyEntry_struct (S : List Rec) (k : Option Key) : ∃ fp, tyEntry S k = .struct k fp := by
  cases k with
  | none => exact ⟨_, rfl⟩
  | some k => exact ⟨_, rfl⟩

theorem readFp_structs (S : List Rec) (tys : Nat → Ty) (l : List Nat) (w : Word) :
    (l.map fun x => tyEntry S (tys x).key).foldl readFp w = w := by
  induction l with
  | nil => rfl
  | cons x l ih =>
    rw [List.map_cons, List.foldl_cons]
    obtain ⟨fp, h⟩ := tyEntry_struct S (tys x).key
    rw [h]; exact ih

theorem struct_of_tyEntry {S : List Rec} {k' : Option Key} {e : Entry} (h : e = tyEntry S k') :
    ∃ fp, e = .struct k' fp := by
  obtain ⟨fp, h'⟩ := tyEntry_struct S k'
  exact ⟨fp, h.trans h'⟩

theorem filter_structs_names (S : List Rec) (tys : Nat → Ty) (l : List Nat) :
    ((l.map fun x => tyEntry S (tys x).key).filterMap fun | .typ n => some n | .obj n _ _ => some n | _ => none) = [] := by
  rw [List.filterMap_eq_nil_iff]
  intro e he
  obtain ⟨x, -, rfl⟩ := List.mem_map.1 he
  obtain ⟨fp, h⟩ := tyEntry_struct S (tys x).key
  rw [h]

theorem filter_structs (S : List Rec) (tys : Nat → Ty) (l : List Nat) :
    ((l.map fun x => tyEntry S (tys x).key).filterMap fun | .struct k _ => some k | _ => none) = l.map fun x => (tys x).key := by
  induction l with
  | nil => rfl
  | cons x l ih =>
    obtain ⟨fp, h⟩ := tyEntry_struct S (tys x).key
    rw [List.map_cons, List.filterMap_cons, h, List.map_cons, ih]

theorem State.step_not {S : List Rec} {tys : Nat → Ty} {M : Nat → Prop} {rs : List Rec} {w : W} (h : State S tys M rs w) (r : Rec)
    (hr : written r → r.kind = none) : State S tys M (rs ++ [r]) { w with codes := w.codes ++ objCodes r } where
  nodup := h.nodup
  len := h.len
  mem := h.mem
  done := by
    rcases h.done with hd | ⟨d1, d2, d3⟩
    · exact .inl ⟨hd.1, List.mem_append_left _ hd.2⟩
    · refine .inr ⟨?_, ?_, d3⟩
      · intro c
        show c ∈ w.codes ++ objCodes r ↔ _
        rw [List.mem_append, d1]
        constructor
        · rintro ((⟨x, hx, hc⟩ | hc) | hc)
          · exact .inl ⟨x, List.mem_append_left _ hx, hc⟩
          · exact .inr hc
          · exact .inl ⟨r, by simp, hc⟩
        · rintro (⟨x, hx, hc⟩ | hc)
          · rcases List.mem_append.1 hx with hx | hx
            · exact .inl (.inl ⟨x, hx, hc⟩)
            · rw [List.mem_singleton] at hx; subst hx; exact .inr hc
          · exact .inl (.inr hc)
      · intro x hx hw t ht
        rcases List.mem_append.1 hx with hx | hx
        · exact d2 x hx hw t ht
        · rw [List.mem_singleton] at hx; subst hx
          simp only [recKids, hr hw] at ht
          exact absurd ht List.not_mem_nil
  structs := h.structs
  structs' := h.structs'
  structs2 := h.structs2
  names := by
    rw [List.filter_append, List.filter_singleton]
    have : decide (written r ∧ r.kind.isSome = true) = false := by
      rw [decide_eq_false_iff_not]
      rintro ⟨h1, h2⟩
      rw [hr h1] at h2; simp at h2
    rw [this]
    simpa using h.names
  objs := by
    intro n fp a hm
    obtain ⟨x, hx, h'⟩ := h.objs n fp a hm
    exact ⟨x, List.mem_append_left _ hx, h'⟩
  objs' := by
    intro x hx hw ks an hk
    rcases List.mem_append.1 hx with hx | hx
    · exact h.objs' x hx hw ks an hk
    · rw [List.mem_singleton] at hx; subst hx; rw [hr hw] at hk; cases hk
  typs := by
    intro n hm
    obtain ⟨x, hx, h'⟩ := h.typs n hm
    exact ⟨x, List.mem_append_left _ hx, h'⟩
  typs' := by
    intro x hx hw t hk
    rcases List.mem_append.1 hx with hx | hx
    · exact h.typs' x hx hw t hk
    · rw [List.mem_singleton] at hx; subst hx; rw [hr hw] at hk; cases hk
  order := by
    intro hc pre n post he
    obtain ⟨x, hx, h'⟩ := h.order (fun hc' => hc (List.mem_append_left _ hc')) pre n post he
    exact ⟨x, List.mem_append_left _ hx, h'⟩
  reffp := h.reffp

/-- The entry for a written object. -/
def IsEntry (r : Rec) (e : Entry) : Prop :=
  (∃ t, r.kind = some (.typ t)) ∧ e = .typ r.key.2 ∨ (∃ ks an, r.kind = some (.other ks an)) ∧ ∃ a, e = .obj r.key.2 r.fp a

theorem State.step_written {S : List Rec} {tys : Nat → Ty} {M : Nat → Prop} {rs : List Rec} {w w1 : W} {new : List Nat}
    (h : State S tys M rs w) (r : Rec) (hw : written r) {e : Entry} (he : IsEntry r e)
    (hk : Wrote S tys M (recKids r) { w with codes := w.codes ++ objCodes r } w1 new) :
    State S tys M (rs ++ [r]) { w1 with file := w1.file ++ [e], reffp := readFp w1.reffp e } := by
  have hrefs : w1.refs = w.refs ++ new := hk.refs
  have hfile : w1.file = w.file ++ new.map fun x => tyEntry S (tys x).key := hk.file
  have hmono : ∀ c ∈ w.codes, c ∈ w1.codes := fun c hc => hk.mono c (List.mem_append_left _ hc)
  have hns : ∀ k fp, e ≠ .struct k fp := by
    intro k fp hc
    rcases he with ⟨-, h'⟩ | ⟨-, a, h'⟩ <;> rw [h'] at hc <;> cases hc
  have hsome : r.kind.isSome = true := by
    rcases he with ⟨⟨t, h'⟩, -⟩ | ⟨⟨ks, an, h'⟩, -⟩ <;> rw [h'] <;> rfl
  constructor
  · exact hk.nodup
  · exact hk.len
  · intro x hx
    rw [hrefs] at hx
    rcases List.mem_append.1 hx with hx | hx
    · exact h.mem x hx
    · exact hk.mem x hx
  · rcases h.done with hd | ⟨d1, d2, d3⟩
    · exact .inl ⟨hd.1, hmono _ hd.2⟩
    · rcases hk.done with hd | ⟨e1, e2, e3⟩
      · exact .inl hd
      · refine .inr ⟨?_, ?_, ?_⟩
        · intro c
          dsimp only
          rw [e1]
          dsimp only
          rw [List.mem_append, d1, hrefs]
          constructor
          · rintro (((⟨x, hx, hc⟩ | ⟨x, hx, hc⟩) | hc) | ⟨x, hx, hc⟩)
            · exact .inl ⟨x, List.mem_append_left _ hx, hc⟩
            · exact .inr ⟨x, List.mem_append_left _ hx, hc⟩
            · exact .inl ⟨r, by simp, hc⟩
            · exact .inr ⟨x, List.mem_append_right _ hx, hc⟩
          · rintro (⟨x, hx, hc⟩ | ⟨x, hx, hc⟩)
            · rcases List.mem_append.1 hx with hx | hx
              · exact .inl (.inl (.inl ⟨x, hx, hc⟩))
              · rw [List.mem_singleton] at hx; subst hx; exact .inl (.inr hc)
            · rcases List.mem_append.1 hx with hx | hx
              · exact .inl (.inl (.inr ⟨x, hx, hc⟩))
              · exact .inr ⟨x, hx, hc⟩
        · intro x hx hw' t ht
          rcases List.mem_append.1 hx with hx | hx
          · show t ∈ w1.refs
            rw [hrefs]; exact List.mem_append_left _ (d2 x hx hw' t ht)
          · rw [List.mem_singleton] at hx; subst hx
            exact e2 t ht
        · intro x hx u hu
          show u ∈ w1.refs
          have hx : x ∈ w1.refs := hx
          rw [hrefs] at hx
          rcases List.mem_append.1 hx with hx | hx
          · rw [hrefs]; exact List.mem_append_left _ (d3 x hx u hu)
          · exact e3 x hx u hu
  · dsimp only
    rw [List.filterMap_append, hfile, List.filterMap_append, h.structs, filter_structs, hrefs, List.map_append]
    have : ([e].filterMap fun | .struct k _ => some k | _ => none) = [] := by
      rcases he with ⟨-, h'⟩ | ⟨-, a, h'⟩ <;> rw [h'] <;> rfl
    rw [this, List.append_nil]
  · intro k fp hm
    dsimp only at hm ⊢
    rw [hfile] at hm
    rcases List.mem_append.1 hm with hm | hm
    · rcases List.mem_append.1 hm with hm | hm
      · obtain ⟨x, hx, h'⟩ := h.structs' k fp hm
        exact ⟨x, by rw [hrefs]; exact List.mem_append_left _ hx, h'⟩
      · obtain ⟨x, hx, h'⟩ := List.mem_map.1 hm
        exact ⟨x, by rw [hrefs]; exact List.mem_append_right _ hx, h'.symm⟩
    · rw [List.mem_singleton] at hm
      exact absurd hm.symm (hns k fp)
  · intro x hx
    dsimp only at hx ⊢
    rw [hrefs] at hx
    rw [hfile]
    rcases List.mem_append.1 hx with hx | hx
    · exact List.mem_append_left _ (List.mem_append_left _ (h.structs2 x hx))
    · exact List.mem_append_left _ (List.mem_append_right _ (List.mem_map.2 ⟨x, hx, rfl⟩))
  · dsimp only
    rw [List.filterMap_append, hfile, List.filterMap_append, h.names, filter_structs_names, List.append_nil, List.filter_append,
      List.filter_singleton, List.map_append]
    have : decide (written r ∧ r.kind.isSome = true) = true := decide_eq_true ⟨hw, hsome⟩
    rw [this]
    congr 1
    rcases he with ⟨-, h'⟩ | ⟨-, a, h'⟩ <;> rw [h'] <;> rfl
  · intro n fp a hm
    dsimp only at hm
    rw [hfile] at hm
    rcases List.mem_append.1 hm with hm | hm
    · rcases List.mem_append.1 hm with hm | hm
      · obtain ⟨x, hx, h'⟩ := h.objs n fp a hm
        exact ⟨x, List.mem_append_left _ hx, h'⟩
      · obtain ⟨x, hx, h'⟩ := List.mem_map.1 hm
        obtain ⟨fp', h''⟩ := tyEntry_struct S (tys x).key
        rw [h''] at h'; cases h'
    · rw [List.mem_singleton] at hm
      rcases he with ⟨-, h'⟩ | ⟨hkd, a', h'⟩
      · rw [h'] at hm; cases hm
      · rw [h'] at hm
        injection hm with m1 m2 m3
        exact ⟨r, by simp, hw, m1.symm, m2.symm, hkd⟩
  · intro x hx hw' ks an hkd
    dsimp only
    rcases List.mem_append.1 hx with hx | hx
    · obtain ⟨a, h'⟩ := h.objs' x hx hw' ks an hkd
      exact ⟨a, by rw [hfile]; exact List.mem_append_left _ (List.mem_append_left _ h')⟩
    · rw [List.mem_singleton] at hx; subst hx
      rcases he with ⟨⟨t, h''⟩, -⟩ | ⟨-, a', h'⟩
      · rw [h''] at hkd; cases hkd
      · exact ⟨a', by rw [h']; simp⟩
  · intro n hm
    dsimp only at hm
    rw [hfile] at hm
    rcases List.mem_append.1 hm with hm | hm
    · rcases List.mem_append.1 hm with hm | hm
      · obtain ⟨x, hx, h'⟩ := h.typs n hm
        exact ⟨x, List.mem_append_left _ hx, h'⟩
      · obtain ⟨x, hx, h'⟩ := List.mem_map.1 hm
        obtain ⟨fp', h''⟩ := tyEntry_struct S (tys x).key
        rw [h''] at h'; cases h'
    · rw [List.mem_singleton] at hm
      rcases he with ⟨hkd, h'⟩ | ⟨-, a', h'⟩
      · rw [h'] at hm
        injection hm with m1
        exact ⟨r, by simp, hw, m1.symm, hkd⟩
      · rw [h'] at hm; cases hm
  · intro x hx hw' t hkd
    dsimp only
    rcases List.mem_append.1 hx with hx | hx
    · have h' := h.typs' x hx hw' t hkd
      rw [hfile]; exact List.mem_append_left _ (List.mem_append_left _ h')
    · rw [List.mem_singleton] at hx; subst hx
      rcases he with ⟨-, h'⟩ | ⟨⟨ks, an, h''⟩, -⟩
      · rw [h']; simp
      · rw [h''] at hkd; cases hkd
  · intro hc pre n post hsplit
    dsimp only at hc hsplit
    have hc0 : 228 ∉ w.codes := fun hc' => hc (hmono _ hc')
    -- the entry is the last, or before
    rcases List.eq_nil_or_concat post with rfl | ⟨post', y, rfl⟩
    · have := List.append_inj' hsplit rfl
      obtain ⟨hp, hl⟩ := this
      rcases he with ⟨⟨t, hkd⟩, h'⟩ | ⟨-, a', h'⟩
      · rw [h'] at hl
        injection hl with hl _
        injection hl with hl
        refine ⟨r, by simp, hl, t, hkd, ?_⟩
        rw [← hp]
        rcases hk.done with hd | ⟨-, e2, -⟩
        · exact absurd hd.2 hc
        · have ht : t ∈ w1.refs := e2 t (by simp only [recKids, hkd, Kind.kids, List.mem_singleton])
          rw [hrefs] at ht
          rw [hfile]
          rcases List.mem_append.1 ht with ht | ht
          · exact List.mem_append_left _ (h.structs2 t ht)
          · exact List.mem_append_right _ (List.mem_map.2 ⟨t, ht, rfl⟩)
      · rw [h'] at hl; injection hl with hl _; cases hl
    · rw [List.concat_eq_append, ← List.cons_append, ← List.append_assoc] at hsplit
      have := List.append_inj' hsplit rfl
      obtain ⟨hp, -⟩ := this
      -- the entry is in w.file
      have hmem : Entry.typ n ∈ w.file := by
        have : Entry.typ n ∈ w1.file := by rw [hp]; simp
        rw [hfile] at this
        rcases List.mem_append.1 this with hm | hm
        · exact hm
        · obtain ⟨x, hx, h'⟩ := List.mem_map.1 hm
          obtain ⟨fp', h''⟩ := tyEntry_struct S (tys x).key
          rw [h''] at h'; cases h'
      rw [hfile] at hp
      -- split w.file
      rcases List.append_eq_append_iff.1 hp with ⟨a, ha1, ha2⟩ | ⟨c, hc1, hc2⟩
      · -- pre = w.file ++ a; the typ is among the structs: impossible
        exfalso
        have : Entry.typ n ∈ new.map fun x => tyEntry S (tys x).key := by rw [ha2]; simp
        obtain ⟨x, hx, h'⟩ := List.mem_map.1 this
        obtain ⟨fp', h''⟩ := tyEntry_struct S (tys x).key
        rw [h''] at h'; cases h'
      · cases c with
        | nil =>
          exfalso
          rw [List.nil_append] at hc2
          have : Entry.typ n ∈ new.map fun x => tyEntry S (tys x).key := by rw [← hc2]; simp
          obtain ⟨x, hx, h'⟩ := List.mem_map.1 this
          obtain ⟨fp', h''⟩ := tyEntry_struct S (tys x).key
          rw [h''] at h'; cases h'
        | cons z c =>
          rw [List.cons_append] at hc2
          injection hc2 with hz hc2
          subst hz
          obtain ⟨x, hx, h'⟩ := h.order hc0 pre n c hc1
          exact ⟨x, List.mem_append_left _ hx, h'⟩
  · dsimp only
    rw [List.foldl_append, hfile, List.foldl_append, readFp_structs, ← h.reffp, hk.reffp]
    rfl

theorem outObj_state {S : List Rec} {tys : Nat → Ty} {M : Nat → Prop} (hM : ∀ t, M t → ∀ u ∈ (tys t).kids, M u) {rs : List Rec} {w : W}
    (h : State S tys M rs w) (r : Rec) (hr : written r → ∀ t ∈ recKids r, M t) : State S tys M (rs ++ [r]) (outObj S tys w r) := by
  unfold outObj
  dsimp only
  split
  · next hw =>
    have hw' : written r := hw
    split
    · next t hk =>
      have hkids : recKids r = [t] := by simp only [recKids, hk, Kind.kids]
      obtain ⟨new, hn⟩ := outTys_wrote (S := S) hM [t] { w with codes := w.codes ++ objCodes r } (by rw [← hkids]; exact hr hw') h.nodup h.mem h.len
      rw [← hkids] at hn
      have := h.step_written r hw' (e := .typ r.key.2) (.inl ⟨⟨t, hk⟩, rfl⟩) hn
      rw [hkids] at this
      exact this
    · next kids anon hk =>
      have hkids : recKids r = kids := by simp only [recKids, hk, Kind.kids]
      obtain ⟨new, hn⟩ := outTys_wrote (S := S) hM kids { w with codes := w.codes ++ objCodes r } (by rw [← hkids]; exact hr hw') h.nodup h.mem h.len
      rw [← hkids] at hn
      cases anon with
      | none =>
        have := h.step_written r hw' (e := .obj r.key.2 r.fp none) (.inr ⟨⟨kids, none, hk⟩, none, rfl⟩) hn
        rw [hkids] at this
        exact this
      | some t =>
        have := h.step_written r hw' (e := .obj r.key.2 r.fp (some ((outTys S tys kids { w with codes := w.codes ++ objCodes r }).refs.idxOf t)))
          (.inr ⟨⟨kids, some t, hk⟩, _, rfl⟩) hn
        rw [hkids] at this
        exact this
    · next hk => exact h.step_not r fun _ => hk
  · next hw => exact h.step_not r fun hw' => absurd hw' hw

theorem outAll_state {S : List Rec} {tys : Nat → Ty} {M : Nat → Prop} (hM : ∀ t, M t → ∀ u ∈ (tys t).kids, M u)
    (hr : ∀ r ∈ S, r.key.1 = 0 → written r → ∀ t ∈ recKids r, M t) :
    State S tys M (S.filter fun r => r.key.1 = 0) (outAll S tys) := by
  unfold outAll
  have key : ∀ (l done : List Rec) (w : W), State S tys M done w → (∀ r ∈ l, written r → ∀ t ∈ recKids r, M t) →
      State S tys M (done ++ l) (l.foldl (outObj S tys) w) := by
    intro l
    induction l with
    | nil => intro done w h _; simpa using h
    | cons r l ih =>
      intro done w h hl
      rw [List.foldl_cons]
      have := ih (done ++ [r]) _ (outObj_state hM h r (hl r List.mem_cons_self)) fun x hx => hl x (List.mem_cons_of_mem _ hx)
      simpa using this
  have := key (S.filter fun r => r.key.1 = 0) [] {} (State.init S tys M) (by
    intro r hrm hw
    rw [List.mem_filter] at hrm
    exact hr r hrm.1 (of_decide_eq_true hrm.2) hw)
  simpa using this

/-! ### Error codes -/

/-- This code is no error. -/
def okCode (newsf extsf : Bool) (c : Nat) : Bool :=
  if c = 228 then false else if c = 249 then false else if c = 253 then extsf else newsf

theorem codes_spec (newsf extsf : Bool) (hne : newsf = true → extsf = true) (cs : List Nat) :
    ∀ p : Rep, (p.noerr = true → p.symNew = true → newsf = true) → (p.noerr = true → p.symExtended = true → extsf = true) →
      (cs.foldl (fprintErr newsf extsf) p).noerr = (p.noerr && cs.all (okCode newsf extsf)) ∧
      (cs.foldl (fprintErr newsf extsf) p).symNew = (p.symNew || cs.any fun c => c ≠ 228 ∧ c ≠ 249 ∧ c ≠ 253) ∧
      (cs.foldl (fprintErr newsf extsf) p).symExtended = (p.symExtended || cs.any fun c => c = 253) := by
  induction cs with
  | nil => intro p _ _; simp
  | cons c cs ih =>
    intro p h1 h2
    rw [List.foldl_cons, List.all_cons, List.any_cons, List.any_cons]
    cases p with
    | mk a b e =>
    dsimp only at h1 h2 ⊢
    by_cases c1 : c = 228
    · subst c1
      obtain ⟨g1, g2, g3⟩ := ih (fprintErr newsf extsf ⟨a, b, e⟩ 228) (by simp [fprintErr]) (by simp [fprintErr])
      rw [g1, g2, g3]; simp [fprintErr, okCode]
    by_cases c2 : c = 249
    · subst c2
      obtain ⟨g1, g2, g3⟩ := ih (fprintErr newsf extsf ⟨a, b, e⟩ 249) (by simp [fprintErr]) (by simp [fprintErr])
      rw [g1, g2, g3]; simp [fprintErr, okCode]
    by_cases c3 : c = 253
    · subst c3
      have e0 : fprintErr newsf extsf ⟨a, b, e⟩ 253 = ⟨a, true, e && (a || b || extsf)⟩ := rfl
      rw [e0]
      obtain ⟨g1, g2, g3⟩ := ih ⟨a, true, e && (a || b || extsf)⟩ (by
          dsimp only
          intro he ha
          rw [Bool.and_eq_true] at he
          exact h1 he.1 ha) (by
          dsimp only
          intro he _
          rw [Bool.and_eq_true] at he
          rcases Bool.or_eq_true _ _ ▸ he.2 with h | h
          · rcases Bool.or_eq_true _ _ ▸ h with h | h
            · exact hne (h1 he.1 h)
            · exact h2 he.1 h
          · exact h)
      rw [g1, g2, g3]
      simp only [okCode]
      cases a <;> cases b <;> cases e <;> cases newsf <;> cases extsf <;> simp_all
    · have e0 : fprintErr newsf extsf ⟨a, b, e⟩ c = ⟨true, b, e && (a || newsf)⟩ := by
        simp only [fprintErr, c1, c2, c3, if_false]
      rw [e0]
      obtain ⟨g1, g2, g3⟩ := ih ⟨true, b, e && (a || newsf)⟩ (by
          dsimp only
          intro he _
          rw [Bool.and_eq_true] at he
          rcases Bool.or_eq_true _ _ ▸ he.2 with h | h
          · exact h1 he.1 h
          · exact h) (by
          dsimp only
          intro he hb
          rw [Bool.and_eq_true] at he
          exact h2 he.1 hb)
      rw [g1, g2, g3]
      have e1 : okCode newsf extsf c = newsf := by simp only [okCode, c1, c2, c3, if_false]
      rw [e1]
      cases a <;> cases b <;> cases e <;> cases newsf <;> cases extsf <;> simp_all

end Verif.SymUpdate
