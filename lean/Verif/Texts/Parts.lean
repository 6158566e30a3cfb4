import Verif.Texts.Runs

/-!
# `Merge` and `Splice`
-/
namespace Verif.Texts

variable {fs : Nat → List Nat} {fx : Nat → Bool}

/-! ### Merge -/

theorem merge_no {h : Hp} {T : Text} {u v : Nat} (hv : (h.run u).kind = .head ∨ (h.run v).kind = .head) : merge h T u v = some (h, T, v) := by
  unfold merge
  rcases hv with hv | hv
  · rw [hv]
  · rw [hv]; cases (h.run u).kind <;> rfl

/-- Either nothing changes or `v` is the continuation of `u`. -/
theorem merge_cases {h : Hp} {T : Text} {u v : Nat} (hu : (h.run u).look.fnt ≠ none) (hv : (h.run v).look.fnt ≠ none) :
    merge h T u v = some (h, T, v) ∨
    ∃ f o a, (h.run u).kind = .piece f o a ∧ (h.run v).kind = .piece f (o + (h.run u).len) a ∧ (h.run u).look = (h.run v).look ∧
      merge h T u v = some (h.setRun u { h.run u with len := (h.run u).len + (h.run v).len },
        (if T.cache = u then { T with corg := T.corg + (h.run v).len } else if T.cache = v then { T with cache := T.head, corg := 0 } else T),
        h.nxt v) := by
  unfold merge
  rcases hk : (h.run u).kind with _ | ⟨f, o, a⟩ | _
  · exact .inl rfl
  · rcases hk' : (h.run v).kind with _ | ⟨f', o', a'⟩ | _
    · exact .inl rfl
    · obtain ⟨n, hn⟩ := Option.ne_none_iff_exists'.mp hu
      obtain ⟨n', hn'⟩ := Option.ne_none_iff_exists'.mp hv
      simp only [hn, hn']
      by_cases h1 : n = n' ∧ (h.run u).look.col = (h.run v).look.col ∧ (h.run u).look.voff = (h.run v).look.voff ∧ a = a'
      · rw [if_pos h1]
        by_cases h2 : f = f' ∧ o + (h.run u).len = o'
        · rw [if_pos h2]
          right
          obtain ⟨e1, e2, e3, rfl⟩ := h1
          obtain ⟨rfl, rfl⟩ := h2
          refine ⟨f, o, a, rfl, rfl, ?_, rfl⟩
          have : (h.run u).look.fnt = (h.run v).look.fnt := by rw [hn, hn', e1]
          revert this e2 e3
          rcases (h.run u).look with ⟨_, _, _⟩
          rcases (h.run v).look with ⟨_, _, _⟩
          rintro rfl rfl rfl; rfl
        · rw [if_neg h2]; exact .inl rfl
      · rw [if_neg h1]; exact .inl rfl
    · exact .inl rfl
  · exact .inl rfl

theorem items_congr' {h h' : Hp} {l : List Nat} (he : ∀ a ∈ l, runItems fs (h'.run a) = runItems fs (h.run a)) : items h' fs l = items h fs l := by
  induction l with
  | nil => rfl
  | cons a l ih =>
    rw [items_cons, items_cons, he a (by simp), ih fun b hb => he b (List.mem_cons_of_mem _ hb)]

theorem setRun_same (h : Hp) (u : Nat) (r : Run) : (h.setRun u r).run u = r := upd_same _ _ _
theorem setRun_ne {h : Hp} {u c : Nat} {r : Run} (hc : c ≠ u) : (h.setRun u r).run c = h.run c := upd_ne hc

theorem runItems_join {r r' : Run} {f o : Nat} {a : Bool} (hk : r.kind = .piece f o a) (hk' : r'.kind = .piece f (o + r.len) a)
    (hl : r.look = r'.look) : runItems fs { r with len := r.len + r'.len } = runItems fs r ++ runItems fs r' := by
  simp only [runItems, hk, hk', ← hl]
  rw [← List.map_append, ← take_add_map]

/-- `Merge` of the last of `k` with the first of a chain `M`. -/
theorem merge_spec {h : Hp} {T : Text} {base base' : Option Nat} {hd e : Nat} {k M : List Nat}
    (hk : ∀ a ∈ k, RunOk fs fx base (h.run a)) (hhd : (h.run hd).kind = .head) (hnd : (hd :: k).Nodup)
    (hM : ∀ a ∈ M, RunOk fs fx base' (h.run a)) (he : (h.run e).kind = .head) (hlk : Linked h (M ++ [e]))
    (hdj : ∀ a ∈ M, a ∉ hd :: k) (hc : CacheIn h T hd k) :
    ∃ h' T' M', merge h T (lst hd k) (fst M e) = some (h', T', fst M' e) ∧ (M' = M ∨ ∃ v, M = v :: M') ∧
      h'.nxt = h.nxt ∧ h'.prv = h.prv ∧ h'.free = h.free ∧ (∀ c, c ∉ k → h'.run c = h.run c) ∧
      (∀ a ∈ k, RunOk fs fx base (h'.run a)) ∧ items h' fs k ++ items h fs M' = items h fs k ++ items h fs M ∧
      sum h' k + sum h M' = sum h k + sum h M ∧ CacheIn h' T' hd k ∧ T'.len = T.len ∧ T'.head = T.head := by
  have triv : merge h T (lst hd k) (fst M e) = some (h, T, fst M e) → ∃ h' T' M', merge h T (lst hd k) (fst M e) = some (h', T', fst M' e) ∧ (M' = M ∨ ∃ v, M = v :: M') ∧
      h'.nxt = h.nxt ∧ h'.prv = h.prv ∧ h'.free = h.free ∧ (∀ c, c ∉ k → h'.run c = h.run c) ∧
      (∀ a ∈ k, RunOk fs fx base (h'.run a)) ∧ items h' fs k ++ items h fs M' = items h fs k ++ items h fs M ∧
      sum h' k + sum h M' = sum h k + sum h M ∧ CacheIn h' T' hd k ∧ T'.len = T.len ∧ T'.head = T.head := fun hm =>
    ⟨h, T, M, hm, .inl rfl, rfl, rfl, rfl, fun _ _ => rfl, hk, rfl, rfl, hc, rfl, rfl⟩
  rcases M with _ | ⟨v, M⟩
  · exact triv (merge_no (.inr he))
  · rcases snoc_cases k with rfl | ⟨k', u, rfl⟩
    · exact triv (merge_no (.inl hhd))
    · rw [lst_snoc, fst_cons] at *
      have hu := hk u (by simp)
      have hv := hM v (by simp)
      rcases merge_cases (T := T) hu.fnt hv.fnt with hm | ⟨f, o, a, hk1, hk2, hl, hm⟩
      · exact triv hm
      · have hnv : h.nxt v = fst M e := (ring_first (by simpa using hlk)).1
        have hvu : v ≠ u := fun h1 => hdj v (by simp) (by simp [h1])
        obtain ⟨hk'u, hdu⟩ : u ∉ k' ∧ u ≠ hd := by
          simp only [List.nodup_cons, List.nodup_append, List.mem_append, List.mem_singleton] at hnd
          exact ⟨fun h1 => hnd.2.2.2 u h1 u rfl rfl, fun h1 => hnd.1 (.inr h1.symm)⟩
        obtain ⟨r, hr⟩ : ∃ r, r = { h.run u with len := (h.run u).len + (h.run v).len } := ⟨_, rfl⟩
        rw [← hr] at hm
        have hsu : (h.setRun u r).run u = r := setRun_same _ _ _
        have hsk : ∀ c ∈ k', (h.setRun u r).run c = h.run c := fun c hc => setRun_ne fun h1 => hk'u (h1 ▸ hc)
        refine ⟨h.setRun u r, _, M, by rw [hm, hnv], .inr ⟨v, rfl⟩, rfl, rfl, rfl, ?_, ?_, ?_, ?_, ?_, ?_, ?_⟩
        · exact fun c h1 => setRun_ne fun h2 => h1 (by simp [h2])
        · intro c h1
          rcases List.mem_append.mp h1 with h1 | h1
          · rw [hsk c h1]; exact hk c (by simp [h1])
          · obtain rfl := List.mem_singleton.mp h1
            rw [hsu, hr]
            refine ⟨by show 1 ≤ (h.run c).len + _; have := hu.pos; omega, hu.fnt, hu.head, ?_, ?_⟩
            · intro f' o' a' h2
              have h2 : (h.run c).kind = .piece f' o' a' := h2
              rw [hk1] at h2; cases h2
              refine ⟨?_, (hu.piece _ _ _ hk1).2⟩
              have := (hv.piece _ _ _ hk2).1
              show o + ((h.run c).len + (h.run v).len) ≤ _
              omega
            · intro g b h2
              have h2 : (h.run c).kind = .elem g b := h2
              rw [hk1] at h2; cases h2
        · rw [items_append, items_append, items_congr hsk, items_cons, items_cons, items_cons, hsu, hr, runItems_join hk1 hk2 hl]; simp
        · rw [sum_append, sum_append, sum_congr hsk, sum_cons, sum_cons, sum_cons, hsu, hr]; simp; ring
        · obtain ⟨a1, a2, e1, e2, e3⟩ := hc
          rcases snoc_cases a2 with rfl | ⟨a2, u', rfl⟩
          · rw [List.append_nil] at e1
            refine ⟨k' ++ [u], [], by simp, ?_, ?_⟩
            · rw [← e1, lst_snoc] at e2
              rw [if_pos e2, lst_snoc]; exact e2
            · rw [← e1] at e2 e3
              rw [lst_snoc] at e2
              rw [if_pos e2]
              show T.corg + _ = _
              rw [e3, sum_append, sum_append, sum_congr hsk, sum_cons, sum_cons, hsu, hr]; simp; ring
          · rw [← List.append_assoc] at e1
            obtain ⟨rfl, e4⟩ := List.append_inj' e1 rfl
            have hcu : T.cache ∈ hd :: a1 := e2 ▸ lst_mem hd a1
            rw [if_neg, if_neg]
            · exact ⟨a1, a2 ++ [u], by simp, e2, by rw [e3, sum_congr fun c h1 => hsk c (by simp [h1])]⟩
            · intro h1; rw [h1] at hcu
              exact hdj v (by simp) (by simp at hcu ⊢; tauto)
            · intro h1; rw [h1] at hcu
              rcases List.mem_cons.mp hcu with h2 | h2
              · exact hdu h2
              · exact hk'u (by simp [h2])
        · split_ifs <;> rfl
        · split_ifs <;> rfl

/-! ### Splice -/

/-- A run whose element belongs to another text. -/
def rebase (base : Option Nat) (r : Run) : Run :=
  match r.kind with
  | .elem g _ => { r with kind := .elem g base }
  | _ => r

theorem rebase_len (base : Option Nat) (r : Run) : (rebase base r).len = r.len := by unfold rebase; cases r.kind <;> rfl
theorem rebase_items (base : Option Nat) (r : Run) : runItems fs (rebase base r) = runItems fs r := by
  unfold rebase; rcases hk : r.kind <;> simp [runItems, hk]
theorem rebase_ok {b base : Option Nat} {r : Run} (h : RunOk fs fx b r) : RunOk fs fx base (rebase base r) := by
  unfold rebase
  rcases hk : r.kind with _ | ⟨f, o, a⟩ | ⟨g, b'⟩
  · exact absurd hk h.head
  · simp only []
    exact ⟨h.pos, h.fnt, h.head, h.piece, fun g b' h1 => by rw [hk] at h1; cases h1⟩
  · simp only []
    exact ⟨h.pos, h.fnt, by simp, fun _ _ _ h1 => by simp at h1, fun g' b'' h1 => ⟨(h.elem _ _ hk).1, by cases h1; rfl⟩⟩

/-- One turn of the loop of `Splice`. -/
theorem setBase_succ (h : Hp) (base : Option Nat) (un f v : Nat) : ∃ h1 : Hp,
    setBase h base un (f + 1) v = (if h1.nxt v = un then some h1 else setBase h1 base un f (h1.nxt v)) ∧ h1.nxt = h.nxt ∧ h1.prv = h.prv ∧
    h1.free = h.free ∧ ∀ c, h1.run c = if c = v then rebase base (h.run c) else h.run c := by
  unfold rebase
  cases hk : (h.run v).kind with
  | elem g b =>
    refine ⟨h.setRun v { h.run v with kind := .elem g base }, by rw [setBase]; simp only [hk], rfl, rfl, rfl, fun c => ?_⟩
    by_cases hc : c = v
    · subst hc; rw [if_pos rfl, hk, setRun_same]
    · rw [if_neg hc, setRun_ne hc]
  | head =>
    refine ⟨h, by rw [setBase]; simp only [hk], rfl, rfl, rfl, fun c => ?_⟩
    by_cases hc : c = v
    · subst hc; rw [if_pos rfl, hk]
    · rw [if_neg hc]
  | piece f o a =>
    refine ⟨h, by rw [setBase]; simp only [hk], rfl, rfl, rfl, fun c => ?_⟩
    by_cases hc : c = v
    · subst hc; rw [if_pos rfl, hk]
    · rw [if_neg hc]

/-- The loop of `Splice` along a chain `M` that ends before `un`. -/
theorem setBase_spec {base : Option Nat} {un : Nat} : ∀ {M : List Nat} {v f : Nat} {h : Hp}, Linked h (v :: M ++ [un]) → (v :: M).Nodup → un ∉ v :: M →
    M.length < f → ∃ h', setBase h base un f v = some h' ∧ h'.nxt = h.nxt ∧ h'.prv = h.prv ∧ h'.free = h.free ∧
      (∀ c, h'.run c = if c ∈ v :: M then rebase base (h.run c) else h.run c)
  | M, v, 0, h, _, _, _, hf => by omega
  | [], v, f + 1, h, hl, hn, hu, hf => by
    obtain ⟨h1, e0, e1, e2, e3, e4⟩ := setBase_succ h base un f v
    refine ⟨h1, ?_, e1, e2, e3, by simpa using e4⟩
    rw [e0, if_pos]; rw [e1]; exact hl.1
  | w :: M, v, f + 1, h, hl, hn, hu, hf => by
    obtain ⟨h1, e0, e1, e2, e3, e4⟩ := setBase_succ h base un f v
    have hv : h.nxt v = w := hl.1
    have hl1 : Linked h1 (w :: M ++ [un]) := linked_frame (fun a _ => by rw [e1]) (fun a _ => by rw [e2]) (linked_right (l1 := [v]) hl)
    obtain ⟨h', s1, s2, s3, s4, s5⟩ := setBase_spec (base := base) (f := f) hl1 (List.nodup_cons.mp hn).2 (fun h2 => hu (by simp at h2 ⊢; tauto))
      (by simp at hf; omega)
    refine ⟨h', ?_, s2.trans e1, s3.trans e2, s4.trans e3, ?_⟩
    · rw [e0, if_neg, e1, hv]
      · exact s1
      · rw [e1, hv]; rintro rfl; exact hu (by simp)
    · intro c
      rw [s5, e4]
      have hvn := (List.nodup_cons.mp hn).1
      by_cases hc : c = v
      · subst hc; rw [if_neg hvn]; simp
      · simp [hc]

theorem splice_no {h : Hp} {un v w : Nat} {base : Option Nat} (hw : h.nxt w = v) : splice h un v w base = some h := by
  rw [splice, if_neg]; simp [hw]

/-- `Splice` of a chain `M` into a ring. -/
theorem splice_spec {h : Hp} {base base' : Option Nat} {hd e x : Nat} {k k2 M : List Nat} (hr : Ring h fs fx base hd (k ++ k2))
    (hM : ∀ a ∈ M, RunOk fs fx base' (h.run a)) (hlk : Linked h (M ++ [e])) (hMn : M.Nodup) (heM : e ∉ M) (hMl : ∀ a ∈ M, a < h.free)
    (hdj : ∀ a ∈ M, a ∉ hd :: (k ++ k2)) (hne : M ≠ []) :
    ∃ h', splice h (fst k2 hd) (fst M e) (lst x M) base = some h' ∧ Ring h' fs fx base hd (k ++ M ++ k2) ∧ h'.free = h.free ∧
      (∀ c, h'.run c = if c ∈ M then rebase base (h.run c) else h.run c) ∧
      (∀ c, c ≠ lst hd k → c ≠ lst x M → h'.nxt c = h.nxt c) ∧ (∀ c, c ≠ fst M e → c ≠ fst k2 hd → h'.prv c = h.prv c) ∧
      items h' fs M = items h fs M ∧ sum h' M = sum h M := by
  obtain ⟨v, M, rfl⟩ : ∃ v M', M = v :: M' := by
    cases M with
    | nil => exact absurd rfl hne
    | cons v M => exact ⟨v, M, rfl⟩
  rw [fst_cons, lst_cons]
  have hw : h.nxt (lst v M) = e := by
    have := ring_mid (h := h) (a := v) (b := e) (l1 := M) (l2 := []) (by simpa using hlk)
    exact this.1
  have hu : h.prv (fst k2 hd) = lst hd k := (ring_mid hr.linked).2
  have hlm := lst_mem v M
  have hyr : fst k2 hd ∈ hd :: (k ++ k2) := by cases k2 <;> simp
  have hlr : lst hd k ∈ hd :: (k ++ k2) := by have := lst_mem hd k; simp at this ⊢; tauto
  obtain ⟨y, hy⟩ : ∃ y, y = fst k2 hd := ⟨_, rfl⟩
  obtain ⟨u, hu'⟩ : ∃ u, u = lst hd k := ⟨_, rfl⟩
  obtain ⟨w, hw'⟩ : ∃ w, w = lst v M := ⟨_, rfl⟩
  have hne1 : v ≠ e := fun h1 => heM (by simp [h1])
  have hvy : v ≠ y := fun h1 => hdj v (by simp) (by rw [h1, hy]; exact hyr)
  have huw : u ≠ w := fun h1 => hdj w (hw' ▸ hlm) (by rw [← h1, hu']; exact hlr)
  obtain ⟨h1, hh1⟩ : ∃ h1, h1 = link (link h u v) w y := ⟨_, rfl⟩
  have hs : splice h y v w base = setBase h1 base y (h1.free + 1) v := by
    rw [splice, if_pos (by rw [hw', hw]; exact hne1)]
    have : h.prv y = u := by rw [hy, hu, hu']
    simp only [this, hh1]
    have ee : (((h.setNxt u v).setPrv v u).setPrv y w).setNxt w y = link (link h u v) w y := rfl
    rw [ee]
  have h1f : h1.free = h.free := by rw [hh1]; rfl
  have h1r : h1.run = h.run := by rw [hh1]; rfl
  have hrk : Linked h (hd :: k) := by
    have : Linked h ((hd :: k) ++ (k2 ++ [hd])) := by simpa using hr.linked
    exact linked_left this
  have hrk2 : Linked h (k2 ++ [hd]) := by
    have : Linked h ((hd :: k) ++ (k2 ++ [hd])) := by simpa using hr.linked
    exact linked_right this
  have hvM : Linked h (v :: M) := linked_left (l2 := [e]) (by simpa using hlk)
  have hnd1 : (hd :: k).Nodup := (List.nodup_append.mp (by simpa using hr.nodup : ((hd :: k) ++ k2).Nodup)).1
  have hdk2 : ∀ a ∈ hd :: k, ∀ b ∈ k2, a ≠ b := (List.nodup_append.mp (by simpa using hr.nodup : ((hd :: k) ++ k2).Nodup)).2.2
  have hk2n : (k2 ++ [hd]).Nodup := by
    have h2 := (List.nodup_append.mp (by simpa using hr.nodup : ((hd :: k) ++ k2).Nodup)).2.1
    exact List.nodup_append.mpr ⟨h2, by simp, fun a ha b hb => by simp at hb; subst hb; exact (hdk2 b (by simp) a ha).symm⟩
  have hdM : ∀ a ∈ hd :: k, a ∉ v :: M := fun a ha hb => hdj a hb (by simp at ha ⊢; tauto)
  have hall : (hd :: (k ++ (v :: M) ++ k2)).Nodup := by
    have e1 : hd :: (k ++ (v :: M) ++ k2) = (hd :: k) ++ ((v :: M) ++ k2) := by simp
    rw [e1]
    refine List.nodup_append.mpr ⟨hnd1, List.nodup_append.mpr ⟨hMn, (List.nodup_append.mp hk2n).1, fun a ha b hb => ?_⟩, fun a ha b hb => ?_⟩
    · rintro rfl; exact hdj a ha (by simp [hb])
    · rintro rfl
      rcases List.mem_append.mp hb with hb | hb
      · exact hdM a ha hb
      · exact hdk2 a ha a hb rfl
  have hL1 : Linked h1 (hd :: (k ++ (v :: M) ++ k2) ++ [hd]) := by
    -- first link
    have c1 : Linked (link h u v) (hd :: k ++ (v :: M)) := by
      rcases snoc_form v M with ⟨m, hm⟩
      rw [hm] at hvM hMn ⊢
      have := link_join (h := h) (a := hd) (b := lst v M) (A := k) (C := m) hrk hvM hnd1 hMn
        (fun c hc h2 => hdM c hc (by rw [hm]; simp [h2])) (fun h2 => hdM (lst v M) (by simp [h2]) hlm)
      have e2 : fst m (lst v M) = v := by
        cases m with
        | nil => simp at hm; simp [hm.2]
        | cons a m => simp at hm; simp [hm.1]
      rw [e2, ← hu'] at this
      simpa using this
    have c2 : Linked (link h u v) (k2 ++ [hd]) := by
      refine linked_link hrk2 ?_ ?_
      · rw [List.dropLast_concat, hu']; exact fun h2 => hdk2 _ (lst_mem hd k) _ h2 rfl
      · intro h2; have := List.mem_of_mem_tail h2
        exact hdj v (by simp) (by simp at this ⊢; tauto)
    have := link_join (a := hd) (b := hd) (A := k ++ (v :: M)) (C := k2) c1 c2
      (List.nodup_append.mp (by simpa using hall : ((hd :: (k ++ (v :: M))) ++ k2).Nodup)).1 hk2n ?_ ?_
    · have e3 : lst hd (k ++ v :: M) = w := by rw [lst_append, lst_cons, hw']
      rw [e3, ← hy, ← hh1] at this
      simpa using this
    · intro c hc h2
      exact (List.nodup_append.mp (by simpa using hall : ((hd :: (k ++ (v :: M))) ++ k2).Nodup)).2.2 c hc c h2 rfl
    · exact fun h2 => (List.nodup_cons.mp hall).1 (by simp at h2 ⊢; tauto)
  have hLv : Linked h1 (v :: M ++ [y]) := by
    have e1 : hd :: (k ++ (v :: M) ++ k2) ++ [hd] = (hd :: k) ++ ((v :: M) ++ (k2 ++ [hd])) := by simp
    rw [e1] at hL1
    have := linked_right hL1
    cases k2 with
    | nil => rw [hy]; simpa using this
    | cons z k2 =>
      rw [hy]
      have e2 : (v :: M) ++ ((z :: k2) ++ [hd]) = ((v :: M) ++ [z]) ++ (k2 ++ [hd]) := by simp
      rw [e2] at this; exact linked_left this
  have hyM : y ∉ v :: M := fun h2 => hdj y h2 (hy ▸ hyr)
  have hlenM : M.length < h1.free + 1 := by
    have := length_le_of_nodup hMn hMl; simp at this; omega
  obtain ⟨h', s1, s2, s3, s4, s5⟩ := setBase_spec (base := base) (f := h1.free + 1) hLv hMn hyM hlenM
  have hR' : ∀ c, h'.run c = if c ∈ v :: M then rebase base (h.run c) else h.run c := by intro c; rw [s5, h1r]
  rw [← hy, ← hw', hs]
  refine ⟨h', s1, ?_, s4.trans h1f, hR', ?_, ?_, ?_, ?_⟩
  · refine ⟨linked_frame (fun a _ => by rw [s2]) (fun a _ => by rw [s3]) hL1, hall, ?_, ?_, ?_⟩
    · intro a ha
      rw [s4, h1f]
      simp only [List.mem_cons, List.mem_append] at ha
      by_cases hm : a ∈ v :: M
      · exact hMl a hm
      · exact hr.lt a (by simp at hm ⊢; tauto)
    · rw [hR', if_neg (hdM hd (by simp))]; exact hr.head
    · intro a ha
      rw [hR']
      by_cases hm : a ∈ v :: M
      · rw [if_pos hm]; exact rebase_ok (hM a hm)
      · rw [if_neg hm]; exact hr.ok a (by simp at ha hm ⊢; tauto)
  · intro c hc1 hc2
    rw [s2, hh1, link_nxt, if_neg hc2, link_nxt, if_neg (by rw [hu']; exact hc1)]
  · intro c hc1 hc2
    rw [s3, hh1, link_prv, if_neg (by exact hc2), link_prv, if_neg hc1]
  · exact items_congr' fun a ha => by rw [hR', if_pos ha, rebase_items]
  · unfold sum
    congr 1
    exact List.map_congr_left fun a ha => by rw [hR', if_pos ha, rebase_len]

end Verif.Texts
