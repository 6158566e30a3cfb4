import Verif.Texts.Parts

/-!
# The procedures on rings
-/
namespace Verif.Texts

variable {fs : Nat → List Nat} {fx : Nat → Bool}

/-! ### Insert and Append -/

theorem attach_spec {h : Hp} {T : Text} {self hd bd : Nat} {k k2 m : List Nat} (hT : Ring h fs fx (some self) hd (k ++ k2))
    (hB : Ring h fs fx none bd m) (hdj : ∀ c ∈ hd :: (k ++ k2), c ∉ bd :: m) (hc : CacheIn h T hd k) :
    ∃ h1 T1 v1 h2 M, merge h T (lst hd k) (h.nxt bd) = some (h1, T1, v1) ∧ splice h1 (fst k2 hd) v1 (h1.prv bd) (some self) = some h2 ∧
      T1.head = T.head ∧ T1.len = T.len ∧
      Ring ((h2.setNxt bd bd).setPrv bd bd) fs fx (some self) hd (k ++ M ++ k2) ∧ Ring ((h2.setNxt bd bd).setPrv bd bd) fs fx none bd [] ∧
      CacheIn ((h2.setNxt bd bd).setPrv bd bd) T1 hd (k ++ M ++ k2) ∧
      items ((h2.setNxt bd bd).setPrv bd bd) fs (k ++ M ++ k2) = items h fs k ++ items h fs m ++ items h fs k2 ∧
      sum ((h2.setNxt bd bd).setPrv bd bd) (k ++ M ++ k2) = sum h k + sum h m + sum h k2 ∧
      (∀ c ∈ M, c ∈ m) ∧ Agree h ((h2.setNxt bd bd).setPrv bd bd) (hd :: (k ++ k2) ++ bd :: m) ∧
      ((h2.setNxt bd bd).setPrv bd bd).run hd = h.run hd := by
  have hTn : ((hd :: k) ++ k2).Nodup := by simpa using hT.nodup
  have hkk2 := (List.nodup_append.mp hTn).2.2
  have hmk : ∀ a ∈ m, a ∉ hd :: (k ++ k2) := fun a h1 h2 => hdj a h2 (by simp [h1])
  have hbd : bd ∉ hd :: (k ++ k2) := fun h2 => hdj bd h2 (by simp)
  have hbl : Linked h (m ++ [bd]) := linked_right (l1 := [bd]) (by simpa using hB.linked)
  have hnb : h.nxt bd = fst m bd := (ring_first hB.linked).1
  have hpb := (ring_mid (l1 := m) (l2 := []) (by simpa using hB.linked))
  simp only [fst_nil] at hpb
  obtain ⟨h1, T1, M, m1, m2, m3, m4, m5, m6, m7, m8, m9, m10, m11, m12⟩ := merge_spec (T := T) (fun a ha => hT.ok a (by simp [ha])) hT.head
    (List.nodup_append.mp hTn).1 hB.ok hB.head hbl (fun a h1 h2 => hmk a h1 (by simp at h2 ⊢; tauto)) hc
  have hMm : ∀ c ∈ M, c ∈ m := by
    rcases m2 with rfl | ⟨v, rfl⟩
    · exact fun _ h => h
    · exact fun c h => List.mem_cons_of_mem _ h
  have hR1 : Ring h1 fs fx (some self) hd (k ++ k2) := by
    refine ⟨linked_frame (fun _ _ => by rw [m3]) (fun _ _ => by rw [m4]) hT.linked, hT.nodup, fun a ha => by rw [m5]; exact hT.lt a ha, ?_, ?_⟩
    · rw [m6 hd fun h2 => (List.nodup_cons.mp hT.nodup).1 (by simp [h2])]; exact hT.head
    · intro a ha
      by_cases hak : a ∈ k
      · exact m7 a hak
      · rw [m6 a hak]; exact hT.ok a ha
  have hnk : ∀ c ∈ bd :: m, c ∉ k := fun c h2 h3 => hdj c (by simp [h3]) h2
  have hMr : ∀ c ∈ M, h1.run c = h.run c := fun c h2 => m6 c (hnk c (by simp [hMm c h2]))
  have hk2r : ∀ c ∈ k2, h1.run c = h.run c := fun c h2 => m6 c fun h3 => hkk2 c (by simp [h3]) c h2 rfl
  obtain ⟨h2, s1, s2, s3, s4, s5, s6, s7, s8⟩ : ∃ h2, splice h1 (fst k2 hd) (fst M bd) (h1.prv bd) (some self) = some h2 ∧
      Ring h2 fs fx (some self) hd (k ++ M ++ k2) ∧ h2.free = h.free ∧ (∀ c, c ∉ M → h2.run c = h1.run c) ∧
      items h2 fs M = items h fs M ∧ sum h2 M = sum h M ∧
      (∀ c, c ∉ hd :: (k ++ k2) ++ bd :: m → h2.nxt c = h.nxt c) ∧ (∀ c, c ∉ hd :: (k ++ k2) ++ bd :: m → h2.prv c = h.prv c) := by
    by_cases hM0 : M = []
    · subst hM0
      refine ⟨h1, splice_no (by rw [m3, m4, hpb.2, hpb.1]; rfl), by simpa using hR1, m5, fun _ _ => rfl, rfl, rfl, fun _ _ => by rw [m3], fun _ _ => by rw [m4]⟩
    · obtain ⟨x, hx⟩ : ∃ x, h1.prv bd = lst x M := by
        rw [m4, hpb.2]
        rcases m2 with rfl | ⟨v, rfl⟩
        · exact ⟨bd, rfl⟩
        · exact ⟨v, lst_cons _ _ _⟩
      have hml : M.Nodup ∧ bd ∉ M ∧ Linked h (M ++ [bd]) := by
        rcases m2 with rfl | ⟨v, rfl⟩
        · exact ⟨(List.nodup_cons.mp hB.nodup).2, (List.nodup_cons.mp hB.nodup).1, hbl⟩
        · have := List.nodup_cons.mp hB.nodup
          exact ⟨(List.nodup_cons.mp this.2).2, fun h => this.1 (by simp [h]), linked_right (l1 := [v]) hbl⟩
      have hMl : Linked h1 (M ++ [bd]) := linked_frame (fun _ _ => by rw [m3]) (fun _ _ => by rw [m4]) hml.2.2
      obtain ⟨h2, s1, s2, s3, s4, s5, s6, s7, s8⟩ := splice_spec (x := x) hR1 (fun a ha => by rw [hMr a ha]; exact hB.ok a (hMm a ha)) hMl
        hml.1 hml.2.1 (fun a ha => by rw [m5]; exact hB.lt a (by simp [hMm a ha])) (fun a ha => hmk a (hMm a ha)) hM0
      refine ⟨h2, by rw [hx]; exact s1, s2, s3.trans m5, fun c h => by rw [s4, if_neg h], by rw [s7, items_congr hMr], by rw [s8, sum_congr hMr], ?_, ?_⟩
      · intro c h3
        rw [s5, m3]
        · rintro rfl; have := lst_mem hd k; simp at h3 this; tauto
        · rintro rfl; have := hMm _ (lst_mem' (a := x) hM0); simp at h3; tauto
      · intro c h3
        rw [s6, m4]
        · rintro rfl
          have : fst M bd ∈ bd :: m := by
            cases M with
            | nil => simp
            | cons v M => simp [hMm v]
          simp at h3 this; tauto
        · rintro rfl
          have : fst k2 hd ∈ hd :: k2 := by cases k2 <;> simp
          simp at h3 this; tauto
  obtain ⟨h', hh'⟩ : ∃ h', h' = (h2.setNxt bd bd).setPrv bd bd := ⟨_, rfl⟩
  have hlk : h' = link h2 bd bd := hh'
  have hA : Agree h2 h' [bd] := by rw [hlk]; exact agree_link h2 (.inl (by simp)) (.inl (by simp))
  have hrun : h'.run = h2.run := by rw [hlk]; rfl
  have hb' : ∀ a ∈ hd :: (k ++ M ++ k2), a ∉ [bd] := by
    intro a ha hb
    obtain rfl := List.mem_singleton.mp hb
    simp only [List.mem_cons, List.mem_append] at ha hbd
    rcases ha with ha | (ha | ha) | ha
    · exact hbd (.inl ha)
    · exact hbd (.inr (.inl ha))
    · exact (List.nodup_cons.mp hB.nodup).1 (hMm _ ha)
    · exact hbd (.inr (.inr ha))
  have hkM : ∀ c ∈ k, h2.run c = h1.run c := fun c h3 => s4 c fun h4 => hnk c (by simp [hMm c h4]) h3
  have hk2M : ∀ c ∈ k2, h2.run c = h1.run c := fun c h3 => s4 c fun h4 => hmk c (hMm c h4) (by simp [h3])
  have hk2h : ∀ c ∈ k2, h2.run c = h.run c := fun c h3 => (hk2M c h3).trans (hk2r c h3)
  have hits : items h' fs (k ++ M ++ k2) = items h fs k ++ items h fs m ++ items h fs k2 := by
    have : items h' fs (k ++ M ++ k2) = items h2 fs (k ++ M ++ k2) := by unfold items; rw [hrun]
    rw [this, items_append, items_append, items_congr hkM, s5, m8, items_congr hk2h]
  have hsums : sum h' (k ++ M ++ k2) = sum h k + sum h m + sum h k2 := by
    have : sum h' (k ++ M ++ k2) = sum h2 (k ++ M ++ k2) := by unfold sum; rw [hrun]
    rw [this, sum_append, sum_append, sum_congr hkM, s6, m9, sum_congr hk2h]
  rw [← hnb] at m1
  refine ⟨h1, T1, _, h2, M, m1, s1, m12, m11, ?_⟩
  rw [← hh']
  refine ⟨s2.keep hA hb', ?_, ?_, hits, hsums, hMm, ?_, ?_⟩
  · refine ⟨?_, by simp, ?_, ?_, by simp⟩
    · rw [hlk]; exact ⟨by rw [link_nxt, if_pos rfl], by rw [link_prv, if_pos rfl], trivial⟩
    · intro a ha; obtain rfl := List.mem_singleton.mp ha
      rw [hlk, link_free, s3]; exact hB.lt _ (by simp)
    · rw [hrun, s4 bd fun h3 => (List.nodup_cons.mp hB.nodup).1 (hMm _ h3), m6 bd (hnk bd (by simp))]; exact hB.head
  · rw [List.append_assoc]
    exact (m10.congr fun a ha => by rw [hrun]; exact hkM a ha).app
  · refine Agree.trans ⟨fun a _ h3 => s7 a h3, fun a _ h3 => s8 a h3, fun a _ h3 => ?_, le_of_eq s3.symm⟩ hA (fun c hc => .inl ?_)
    · have h4 : a ∉ k := fun h5 => h3 (by simp [h5])
      have h6 : a ∉ M := fun h5 => h3 (by simp [hMm a h5])
      rw [s4 a h6, m6 a h4]
    · obtain rfl := List.mem_singleton.mp hc; simp
  · rw [hrun, s4 hd fun h3 => hmk hd (hMm _ h3) (by simp), m6 hd fun h3 => (List.nodup_cons.mp hT.nodup).1 (by simp [h3])]

/-- A text and its ring. -/
structure TOk (h : Hp) (fs : Nat → List Nat) (fx : Nat → Bool) (me : Nat) (T : Text) (l : List Nat) : Prop where
  ring : Ring h fs fx (some me) T.head l
  len : T.len = sum h l
  cache : CacheIn h T T.head l

/-- A buffer and its ring. -/
structure BOk (h : Hp) (fs : Nat → List Nat) (fx : Nat → Bool) (B : Buf) (m : List Nat) : Prop where
  ring : Ring h fs fx none B.head m
  len : B.len = sum h m

theorem CacheIn.of {h : Hp} {T T' : Text} {hd : Nat} {k : List Nat} (hc : CacheIn h T hd k) (h1 : T'.cache = T.cache) (h2 : T'.corg = T.corg) :
    CacheIn h T' hd k := by
  obtain ⟨a, b, e1, e2, e3⟩ := hc
  exact ⟨a, b, e1, h1.trans e2, h2.trans e3⟩

theorem insert_spec {h : Hp} {T : Text} {B : Buf} {self : Nat} {l m : List Nat} (pos : Nat) (hT : TOk h fs fx self T l)
    (hB : BOk h fs fx B m) (hdj : ∀ c ∈ T.head :: l, c ∉ B.head :: m) :
    ∃ h' T' l', insert h T pos B self = some (h', T', { B with len := 0 }, min pos T.len) ∧ T'.head = T.head ∧ TOk h' fs fx self T' l' ∧
      BOk h' fs fx { B with len := 0 } [] ∧
      items h' fs l' = (items h fs l).take (min pos T.len) ++ items h fs m ++ (items h fs l).drop (min pos T.len) ∧
      (∀ c ∈ l', c ∈ l ∨ c ∈ m ∨ h.free ≤ c) ∧ B.head ∉ l' ∧ Agree h h' (T.head :: l ++ B.head :: m) ∧ h'.run T.head = h.run T.head := by
  obtain ⟨x, h1, k, k2, c1, c2, c3, c4, c5, c6, c7, c8, c9, c10, c11, c12, c13, c14⟩ := cut_spec (K1 := []) (K2 := l) pos (by simpa using hT.ring)
    (by simpa using hT.len) (by simpa using hT.cache) (by simp)
  simp only [List.nil_append] at *
  have hB1 : Ring h1 fs fx none B.head m := hB.ring.keep c13 fun a h2 h3 => hdj a h3 h2
  have hdj1 : ∀ c ∈ T.head :: (k ++ k2), c ∉ B.head :: m := by
    intro c h2 h3
    rcases List.mem_cons.mp h2 with h2 | h2
    · exact hdj c (by simp [h2]) h3
    · rcases c14 c h2 with h4 | h4
      · exact hdj c (by simp [h4]) h3
      · have := hB.ring.lt c h3; omega
  obtain ⟨h2, T2, v, h3, M, a1, a2, a3, a4, a5, a6, a7, a8, a9, a10, a11, a12⟩ := attach_spec (T := x.T) c6 hB1 hdj1 c7
  have hmr : ∀ c ∈ m, h1.run c = h.run c := fun c h4 => c13.run c (hB.ring.lt c (by simp [h4])) fun h5 => hdj c h5 (by simp [h4])
  have hsk : sum h1 k2 + x.pos = T.len := by
    have h4 : (items h1 fs k2).length = sum h1 k2 := items_length fun a ha => c6.ok a (by simp [ha])
    rw [c9, List.length_drop, items_length hT.ring.ok, ← hT.len] at h4
    omega
  refine ⟨_, { T2 with len := T2.len + B.len }, k ++ M ++ k2, ?_, a3.trans c4, ⟨?_, ?_, ?_⟩, ⟨a6, rfl⟩, ?_, ?_, ?_, ?_, ?_⟩
  · unfold insert
    rw [c1, Option.bind_some, c2, Option.bind_some]
    simp only [a1, Option.bind_some, a2, Option.map_some, c3]
  · show Ring _ fs fx _ T2.head _
    rw [a3, c4]; exact a5
  · show T2.len + B.len = _
    rw [a4, c5, a9, c10, hB.len, sum_congr hmr]; omega
  · show CacheIn _ _ T2.head _
    rw [a3, c4]; exact a7.of rfl rfl
  · rw [a8, c8, c9, items_congr hmr, c3]
  · intro c h4
    simp only [List.mem_append] at h4
    rcases h4 with (h4 | h4) | h4
    · have := c14 c (by simp [h4]); tauto
    · exact .inr (.inl (a10 c h4))
    · have := c14 c (by simp [h4]); tauto
  · intro h4
    simp only [List.mem_append] at h4
    rcases h4 with (h4 | h4) | h4
    · exact hdj1 B.head (by simp [h4]) (by simp)
    · exact (List.nodup_cons.mp hB.ring.nodup).1 (a10 _ h4)
    · exact hdj1 B.head (by simp [h4]) (by simp)
  · refine (c13.mono fun c h4 => ?_).trans a11 fun c h4 => ?_
    · simp at h4 ⊢; tauto
    · simp only [List.cons_append, List.mem_cons, List.mem_append] at h4 ⊢
      rcases h4 with h4 | h4 | h4
      · exact .inl (.inl h4)
      · have := c14 c (by simpa using h4); tauto
      · tauto
  · rw [a12, c11 T.head (by simp)]

theorem append_spec {h : Hp} {T : Text} {B : Buf} {self : Nat} {l m : List Nat} (hT : TOk h fs fx self T l)
    (hB : BOk h fs fx B m) (hdj : ∀ c ∈ T.head :: l, c ∉ B.head :: m) :
    ∃ h' T' l', append h T B self = some (h', T', { B with len := 0 }) ∧ T'.head = T.head ∧ TOk h' fs fx self T' l' ∧
      BOk h' fs fx { B with len := 0 } [] ∧ items h' fs l' = items h fs l ++ items h fs m ∧
      (∀ c ∈ l', c ∈ l ∨ c ∈ m ∨ h.free ≤ c) ∧ B.head ∉ l' ∧ Agree h h' (T.head :: l ++ B.head :: m) ∧ h'.run T.head = h.run T.head := by
  obtain ⟨h2, T2, v, h3, M, a1, a2, a3, a4, a5, a6, a7, a8, a9, a10, a11, a12⟩ := attach_spec (k2 := []) (T := T) (by simpa using hT.ring) hB.ring
    (by simpa using hdj) hT.cache
  simp only [List.append_nil] at *
  have hp : h.prv T.head = lst T.head l := (ring_mid (l1 := l) (l2 := []) (by simpa using hT.ring.linked)).2
  refine ⟨_, { T2 with len := T2.len + B.len }, l ++ M, ?_, a3, ⟨?_, ?_, ?_⟩, ⟨a6, rfl⟩, ?_, ?_, ?_, ?_, ?_⟩
  · unfold append
    rw [hp]
    simp only [a1, Option.bind_some, a3]
    rw [fst_nil] at a2
    simp only [a2, Option.map_some]
  · show Ring _ fs fx _ T2.head _
    rw [a3]; exact a5
  · show T2.len + B.len = _
    rw [a4, a9, hB.len, hT.len]; simp
  · show CacheIn _ _ T2.head _
    rw [a3]; exact a7.of rfl rfl
  · rw [a8]; simp
  · intro c h4
    rcases List.mem_append.mp h4 with h4 | h4
    · exact .inl h4
    · exact .inr (.inl (a10 c h4))
  · intro h4
    rcases List.mem_append.mp h4 with h4 | h4
    · exact hdj B.head (by simp [h4]) (by simp)
    · exact (List.nodup_cons.mp hB.ring.nodup).1 (a10 _ h4)
  · exact a11
  · exact a12

/-! ### Delete -/

/-- The two cuts at the beginning of `Delete` and `ChangeLooks`. -/
theorem cut2_spec {h : Hp} {T : Text} {self : Nat} {l : List Nat} {beg end_ : Nat} (hT : TOk h fs fx self T l) (hbe : beg ≤ end_) :
    ∃ x h1 x' h2 k j k3, find h T beg = some x ∧ split h x.off x.u = some (h1, lst T.head k, fst (j ++ k3) T.head) ∧
      find h1 x.T end_ = some x' ∧ split h1 x'.off x'.u = some (h2, lst T.head (k ++ j), fst k3 T.head) ∧
      x.pos = min beg T.len ∧ x'.pos = min end_ T.len ∧ x'.T.head = T.head ∧ x'.T.len = T.len ∧
      Ring h2 fs fx (some self) T.head (k ++ j ++ k3) ∧ CacheIn h2 x.T T.head k ∧
      items h2 fs k = (items h fs l).take (min beg T.len) ∧ items h2 fs j = ((items h fs l).take (min end_ T.len)).drop (min beg T.len) ∧
      items h2 fs k3 = (items h fs l).drop (min end_ T.len) ∧ sum h2 (k ++ j ++ k3) = sum h l ∧ sum h2 j = min end_ T.len - min beg T.len ∧
      Agree h h2 (T.head :: l) ∧ (∀ c ∈ k ++ j ++ k3, c ∈ l ∨ h.free ≤ c) ∧ h2.run T.head = h.run T.head := by
  obtain ⟨x, h1, k, k2, c1, c2, c3, c4, c5, c6, c7, c8, c9, c10, c11, c12, c13, c14⟩ := cut_spec (K1 := []) (K2 := l) beg (by simpa using hT.ring)
    (by simpa using hT.len) (by simpa using hT.cache) (by simp)
  simp only [List.nil_append] at *
  have hi1 : items h1 fs (k ++ k2) = items h fs l := by rw [items_append, c8, c9, List.take_append_drop]
  have hl1 : sum h1 (k ++ k2) = sum h l := by
    rw [← items_length c6.ok, hi1, items_length hT.ring.ok]
  obtain ⟨x', h2, j, k3, d1, d2, d3, d4, d5, d6, d7, d8, d9, d10, d11, d12, d13, d14⟩ := cut_spec (T := x.T) (K1 := k) (K2 := k2) end_ (by rw [c4]; exact c6)
    (by rw [c5, hl1]; exact hT.len) (by rw [c4]; exact c7.app) (by rw [c10, c3]; omega)
  rw [c4] at d2 d6 d7 d11 d12 d13
  have hkr : ∀ c ∈ k, h2.run c = h1.run c := fun c hc => d11 c (by simp [hc])
  have hik : items h2 fs k = (items h fs l).take (min beg T.len) := by rw [items_congr hkr, c8, c3]
  have hpl : (items h2 fs k).length = min beg T.len := by
    rw [hik, List.length_take, items_length hT.ring.ok, ← hT.len]; omega
  have hij : items h2 fs j = ((items h fs l).take (min end_ T.len)).drop (min beg T.len) := by
    rw [items_append, hi1, d3, c5] at d8
    rw [← d8, ← hpl, List.drop_left]
  have hi3 : items h2 fs k3 = (items h fs l).drop (min end_ T.len) := by rw [d9, hi1, d3, c5]
  have hmem : ∀ c ∈ k ++ j ++ k3, c ∈ l ∨ h.free ≤ c := by
    intro c hc
    rw [List.append_assoc] at hc
    rcases List.mem_append.mp hc with hc | hc
    · exact c14 c (by simp [hc])
    · rcases d14 c hc with h3 | h3
      · exact c14 c (by simp [h3])
      · have := c13.le; exact .inr (by omega)
  refine ⟨x, h1, x', h2, k, j, k3, c1, ?_, d1, d2, c3, by rw [d3, c5], d4.trans c4, d5.trans c5, d6, c7.congr hkr, hik, hij, hi3, ?_, ?_, ?_, hmem, ?_⟩
  · rw [c2, d12]
  · rw [← items_length d6.ok, items_append, d8, d9, List.take_append_drop, items_length c6.ok, hl1]
  · rw [← items_length fun a ha => d6.ok a (by simp [ha]), hij, List.length_drop, List.length_take, items_length hT.ring.ok, ← hT.len]; omega
  · refine c13.trans d13 fun c hc => ?_
    rcases List.mem_cons.mp hc with hc | hc
    · exact .inl (by simp [hc])
    · rcases c14 c hc with h3 | h3
      · exact .inl (by simp [h3])
      · exact .inr h3
  · rw [d11 T.head (by simp), c11 T.head (by simp)]

theorem openBuf_spec (h : Hp) : (openBuf h).2 = ⟨0, h.free⟩ ∧ Ring (openBuf h).1 fs fx none h.free [] ∧ (openBuf h).1.free = h.free + 1 ∧
    (∀ c, c ≠ h.free → (openBuf h).1.nxt c = h.nxt c) ∧ (∀ c, c ≠ h.free → (openBuf h).1.prv c = h.prv c) ∧
    (∀ c, c ≠ h.free → (openBuf h).1.run c = h.run c) := by
  refine ⟨rfl, ⟨⟨upd_same _ _ _, upd_same _ _ _, trivial⟩, by simp, fun a ha => ?_, ?_, by simp⟩, rfl, fun c hc => upd_ne hc, fun c hc => upd_ne hc, fun c hc => upd_ne hc⟩
  · obtain rfl := List.mem_singleton.mp ha; exact Nat.lt_succ_self _
  · show (upd h.run h.free _ h.free).kind = _
    rw [upd_same]

theorem openBuf_agree (h : Hp) (S : List Nat) : Agree h (openBuf h).1 S := by
  obtain ⟨-, -, h3, h4, h5, h6⟩ := openBuf_spec (fs := fun _ => []) (fx := fun _ => false) h
  exact ⟨fun c h1 _ => h4 c (by omega), fun c h1 _ => h5 c (by omega), fun c h1 _ => h6 c (by omega), by omega⟩

theorem delete_spec {h : Hp} {T : Text} {self : Nat} {l : List Nat} {beg end_ : Nat} (hT : TOk h fs fx self T l) (hbe : beg ≤ end_) :
    ∃ h' T' B l' j, delete h T beg end_ = some (h', T', B, min beg T.len, min end_ T.len) ∧ T'.head = T.head ∧ TOk h' fs fx self T' l' ∧
      BOk h' fs fx B j ∧ items h' fs l' = (items h fs l).take (min beg T.len) ++ (items h fs l).drop (min end_ T.len) ∧
      items h' fs j = ((items h fs l).take (min end_ T.len)).drop (min beg T.len) ∧
      (∀ c ∈ l' ++ B.head :: j, c ∈ l ∨ h.free ≤ c) ∧ (∀ c ∈ T.head :: l', c ∉ B.head :: j) ∧ Agree h h' (T.head :: l) ∧
      h'.run T.head = h.run T.head := by
  obtain ⟨x, h1, x', h2, k, j, k3, c1, c2, c3, c4, c5, c6, c7, c8, c9, c10, c11, c12, c13, c14, c15, c16, c17, c18⟩ := cut2_spec (beg := beg) (end_ := end_) hT hbe
  obtain ⟨hd, hhd⟩ : ∃ hd, hd = T.head := ⟨_, rfl⟩
  rw [← hhd] at c2 c4 c7 c9 c10 c16 c18 ⊢
  obtain ⟨n, hn⟩ : ∃ n, n = h2.free := ⟨_, rfl⟩
  obtain ⟨o1, o2, o3, o4, o5, o6⟩ := openBuf_spec (fs := fs) (fx := fx) h2
  obtain ⟨h3, hh3⟩ : ∃ h3, h3 = (openBuf h2).1 := ⟨_, rfl⟩
  rw [← hh3] at o2 o3 o4 o5 o6
  rw [← hn] at o1 o2 o4 o5 o6
  have hne : ∀ c ∈ hd :: (k ++ j ++ k3), c ≠ n := fun c hc h4 => by have := c9.lt c hc; omega
  have hT3 : Ring h3 fs fx (some self) hd (k ++ j ++ k3) := by
    rw [hh3]; exact c9.keep (openBuf_agree h2 []) fun _ _ => by simp
  have hnd : ((hd :: k) ++ (j ++ k3)).Nodup := by simpa using c9.nodup
  have hndj : (j ++ k3).Nodup := (List.nodup_append.mp hnd).2.1
  have hkd := (List.nodup_append.mp hnd).2.2
  have hjd := (List.nodup_append.mp hndj).2.2
  have hLk : Linked h3 (hd :: k) := linked_left (l2 := j ++ k3 ++ [hd]) (by simpa using hT3.linked)
  have hLj : Linked h3 ((j ++ k3) ++ [hd]) := linked_right (l1 := hd :: k) (by simpa using hT3.linked)
  have hLk3 : Linked h3 (k3 ++ [hd]) := linked_right (l1 := j) (by simpa using hLj)
  have hLj' : Linked h3 (j ++ [fst k3 hd]) := by
    cases k3 with
    | nil => simpa using hLj
    | cons y k3 => exact linked_left (l2 := k3 ++ [hd]) (by simpa using hLj)
  have hhdj : hd ∉ k ++ j ++ k3 := (List.nodup_cons.mp c9.nodup).1
  have hfk3 : fst k3 hd ∈ hd :: k3 := by cases k3 <;> simp
  obtain ⟨h4, s1, s2, s3, s4, s5, s6, s7, s8⟩ : ∃ h4, splice h3 n (fst (j ++ k3) hd) (lst hd (k ++ j)) none = some h4 ∧
      Ring h4 fs fx none n j ∧ h4.free = h3.free ∧ (∀ c, c ∉ j → h4.run c = h3.run c) ∧
      items h4 fs j = items h3 fs j ∧ sum h4 j = sum h3 j ∧
      (∀ c, c ≠ n → c ∉ j → h4.nxt c = h3.nxt c) ∧ (∀ c, c ≠ n → c ∉ j → h4.prv c = h3.prv c) := by
    by_cases hj : j = []
    · subst hj
      refine ⟨h3, splice_no ?_, o2, rfl, fun _ _ => rfl, rfl, rfl, fun _ _ _ => rfl, fun _ _ _ => rfl⟩
      have := (ring_mid (l1 := k) (l2 := k3) (by simpa using hT3.linked)).1
      simpa using this
    · have g1 : fst k3 hd ∉ j := by
        intro h5
        rcases List.mem_cons.mp hfk3 with h6 | h6
        · exact hhdj (by rw [← h6]; simp [h5])
        · exact hjd _ h5 _ h6 rfl
      have g2 : ∀ a ∈ j, a ∉ n :: ([] ++ []) := by
        intro a ha
        simp only [List.append_nil, List.mem_singleton]
        exact hne a (by simp [ha])
      obtain ⟨h4, s1, s2, s3, s4, s5, s6, s7, s8⟩ := splice_spec (k := []) (k2 := []) (x := lst hd k) (by simpa using o2)
        (fun a ha => hT3.ok a (by simp [ha])) hLj' (List.nodup_append.mp hndj).1 g1 (fun a ha => hT3.lt a (by simp [ha])) g2 hj
      · refine ⟨h4, ?_, by simpa using s2, s3, fun c hc => by rw [s4, if_neg hc], s7, s8, ?_, ?_⟩
        · rw [lst_append]
          have : fst (j ++ k3) hd = fst j (fst k3 hd) := by cases j <;> simp at hj ⊢
          rw [this]; simpa using s1
        · intro c h5 h6
          exact s5 c (by simpa using h5) fun h7 => h6 (h7 ▸ lst_mem' hj)
        · intro c h5 h6
          refine s6 c (fun h7 => h6 ?_) (by simpa using h5)
          rw [h7]; cases j with
          | nil => exact absurd rfl hj
          | cons y j => simp
  have hkj : ∀ c ∈ hd :: k, c ≠ n ∧ c ∉ j := fun c hc => ⟨hne c (by simp at hc ⊢; tauto), fun h5 => hkd c hc c (by simp [h5]) rfl⟩
  have hk3j : ∀ c ∈ k3 ++ [hd], c ≠ n ∧ c ∉ j := by
    intro c hc
    rcases List.mem_append.mp hc with hc | hc
    · exact ⟨hne c (by simp [hc]), fun h5 => hjd c h5 c hc rfl⟩
    · obtain rfl := List.mem_singleton.mp hc; exact hkj _ (by simp)
  have hLk' : Linked h4 (hd :: k) := linked_frame (fun a ha => s7 a (hkj a (List.dropLast_subset _ ha)).1 (hkj a (List.dropLast_subset _ ha)).2)
    (fun a ha => s8 a (hkj a (List.mem_of_mem_tail ha)).1 (hkj a (List.mem_of_mem_tail ha)).2) hLk
  have hLk3' : Linked h4 (k3 ++ [hd]) := linked_frame (fun a ha => s7 a (hk3j a (List.dropLast_subset _ ha)).1 (hk3j a (List.dropLast_subset _ ha)).2)
    (fun a ha => s8 a (hk3j a (List.mem_of_mem_tail ha)).1 (hk3j a (List.mem_of_mem_tail ha)).2) hLk3
  have hrun2 : ∀ c, c ≠ n → c ∉ j → h4.run c = h2.run c := fun c h5 h6 => (s4 c h6).trans (o6 c h5)
  have hk4 : ∀ c ∈ hd :: k, h4.run c = h2.run c := fun c hc => hrun2 c (hkj c hc).1 (hkj c hc).2
  have hk34 : ∀ c ∈ k3, h4.run c = h2.run c := fun c hc => hrun2 c (hk3j c (by simp [hc])).1 (hk3j c (by simp [hc])).2
  have hjr : ∀ c ∈ j, h3.run c = h2.run c := fun c hc => o6 c (hne c (by simp [hc]))
  obtain ⟨T'', hT''⟩ : ∃ T'' : Text, T'' = { x'.T with cache := x.T.cache, corg := x.T.corg } := ⟨_, rfl⟩
  obtain ⟨h5, T5, M, m1, m2, m3, m4, m5, m6, m7, m8, m9, m10, m11, m12⟩ := merge_spec (fs := fs) (fx := fx) (h := h4) (T := T'') (base := some self) (base' := some self) (hd := hd) (e := hd) (k := k) (M := k3)
    (fun a ha => by rw [hk4 a (by simp [ha])]; exact c9.ok a (by simp [ha]))
    (by rw [hk4 hd (by simp)]; exact c9.head) (List.nodup_append.mp hnd).1
    (fun a ha => by rw [hk34 a ha]; exact c9.ok a (by simp [ha])) (by rw [hk4 hd (by simp)]; exact c9.head) hLk3'
    (fun a ha hb => hkd a hb a (by simp [ha]) rfl)
    ((c10.congr fun a ha => hk4 a (by simp [ha])).of (T' := T'') (by rw [hT'']) (by rw [hT'']))
  have hMk : ∀ c ∈ M, c ∈ k3 := by
    rcases m2 with rfl | ⟨v, rfl⟩
    · exact fun _ h => h
    · exact fun c h => List.mem_cons_of_mem _ h
  have hML : Linked h5 (M ++ [hd]) ∧ (M ++ [hd]).Nodup := by
    have hk3n : (k3 ++ [hd]).Nodup := List.nodup_append.mpr ⟨(List.nodup_append.mp hndj).2.1, by simp, fun a ha b hb => by
      obtain rfl := List.mem_singleton.mp hb
      rintro rfl; exact hhdj (by simp [ha])⟩
    have hf : Linked h5 (k3 ++ [hd]) := linked_frame (fun _ _ => by rw [m3]) (fun _ _ => by rw [m4]) hLk3'
    rcases m2 with rfl | ⟨v, rfl⟩
    · exact ⟨hf, hk3n⟩
    · exact ⟨linked_right (l1 := [v]) hf, (List.nodup_cons.mp hk3n).2⟩
  obtain ⟨h6, hh6⟩ : ∃ h6, h6 = link h5 (lst hd k) (fst M hd) := ⟨_, rfl⟩
  have hLf : Linked h6 (hd :: (k ++ M) ++ [hd]) := by
    have := link_join (h := h5) (a := hd) (b := hd) (A := k) (C := M) (linked_frame (fun _ _ => by rw [m3]) (fun _ _ => by rw [m4]) hLk') hML.1
      (List.nodup_append.mp hnd).1 hML.2 (fun c hc h7 => hkd c hc c (by simp [hMk c h7]) rfl) (fun h7 => hhdj (by simp [h7]))
    rw [hh6]; simpa using this
  have h6r : h6.run = h5.run := by rw [hh6]; rfl
  have h6f : h6.free = h2.free + 1 := by rw [hh6, link_free, m5, s3, o3]
  have hMn : ((hd :: k) ++ M).Nodup := List.nodup_append.mpr ⟨(List.nodup_append.mp hnd).1, (List.nodup_append.mp hML.2).1,
    fun a ha b hb => fun h7 => hkd a ha b (by simp [hMk b hb]) h7⟩
  have hMr : ∀ c ∈ M, h6.run c = h2.run c := fun c hc => by
    rw [h6r, m6 c fun h7 => hkd c (by simp [h7]) c (by simp [hMk c hc]) rfl, hk34 c (hMk c hc)]
  have hA46 : Agree h4 h6 (hd :: (k ++ k3)) := by
    refine (Agree.trans (S' := hd :: (k ++ k3)) ⟨fun _ _ _ => by rw [m3], fun _ _ _ => by rw [m4], fun a _ h7 => m6 a fun h8 => h7 (by simp [h8]), by omega⟩ ?_ fun c hc => .inl hc)
    rw [hh6]
    refine agree_link h5 (.inl ?_) (.inl ?_)
    · have := lst_mem hd k; simp at this ⊢; tauto
    · cases M with
      | nil => simp
      | cons y M => simp [hMk y]
  have hTr : Ring h6 fs fx (some self) hd (k ++ M) := by
    refine ⟨hLf, by simpa using hMn, ?_, ?_, ?_⟩
    · intro a ha
      rw [h6f]
      have : a ∈ hd :: (k ++ j ++ k3) := by
        simp only [List.mem_cons, List.mem_append] at ha ⊢
        rcases ha with ha | ha | ha
        · exact .inl ha
        · exact .inr (.inl (.inl ha))
        · exact .inr (.inr (hMk a ha))
      have := c9.lt a this; omega
    · rw [h6r, m6 hd fun h7 => hhdj (by simp [h7]), hk4 hd (by simp)]; exact c9.head
    · intro a ha
      rcases List.mem_append.mp ha with ha | ha
      · rw [h6r]; exact m7 a ha
      · rw [hMr a ha]; exact c9.ok a (by simp [hMk a ha])
  have hjT : ∀ c ∈ n :: j, c ∉ hd :: (k ++ k3) := by
    intro c hc h7
    rcases List.mem_cons.mp hc with rfl | hc
    · exact hne c (by simp at h7 ⊢; tauto) rfl
    · simp only [List.mem_cons, List.mem_append] at h7
      rcases h7 with rfl | h7 | h7
      · exact hhdj (by simp [hc])
      · exact hkd c (by simp [h7]) c (by simp [hc]) rfl
      · exact hjd c hc c h7 rfl
  have hBr : Ring h6 fs fx none n j := s2.keep hA46 hjT
  have hjr6 : ∀ c ∈ j, h6.run c = h4.run c := fun c hc => hA46.run c (s2.lt c (by simp [hc])) (hjT c (by simp [hc]))
  have hsM : sum h6 k + sum h6 M = sum h2 k + sum h2 k3 := by
    have e1 : sum h6 k = sum h5 k := by unfold sum; rw [h6r]
    have e2 : sum h6 M = sum h4 M := sum_congr fun c hc => by rw [hMr c hc, hk34 c (hMk c hc)]
    rw [e1, e2, m9, sum_congr hk34, sum_congr fun c hc => hk4 c (by simp [hc])]
  refine ⟨h6, { T5 with len := T5.len - (x'.pos - x.pos) }, ⟨x'.pos - x.pos, n⟩, k ++ M, j, ?_, ?_, ⟨?_, ?_, ?_⟩, ⟨hBr, ?_⟩, ?_, ?_, ?_, ?_, ?_, ?_⟩
  · unfold delete
    rw [c1, Option.bind_some, c2, Option.bind_some]
    simp only [c3, Option.bind_some, c4, ← hT'', o1, ← hh3, s1, m1, Option.map_some, c5, c6]
    rw [hh6]; rfl
  · show T5.head = _
    rw [m12, hT'']; exact c7
  · show Ring _ _ _ _ T5.head _
    rw [m12, hT'']; simp only [c7]; exact hTr
  · show T5.len - (x'.pos - x.pos) = _
    rw [m11, hT'']; simp only [c8, c5, c6]
    simp only [sum_append] at c14 hsM ⊢
    rw [hsM, hT.len]
    rw [hT.len] at c15
    omega
  · show CacheIn _ _ T5.head _
    rw [m12, hT'']; simp only [c7]
    exact ((m10.congr fun a _ => by rw [h6r]).of rfl rfl).app
  · show x'.pos - x.pos = _
    rw [sum_congr hjr6, s6, sum_congr hjr, c15, c5, c6]
  · rw [items_append]
    have e1 : items h6 fs k = items h5 fs k := by unfold items; rw [h6r]
    have e2 : items h6 fs M = items h4 fs M := items_congr fun c hc => by rw [hMr c hc, hk34 c (hMk c hc)]
    rw [e1, e2, m8, items_congr hk34, items_congr fun c hc => hk4 c (by simp [hc]), c11, c13]
  · rw [items_congr hjr6, s5, items_congr hjr, c12]
  · intro c hc
    simp only [List.mem_append, List.mem_cons] at hc
    rcases hc with (hc | hc) | hc | hc
    · exact c17 c (by simp [hc])
    · exact c17 c (by simp [hMk c hc])
    · have := c16.le; exact .inr (by omega)
    · exact c17 c (by simp [hc])
  · intro c hc h7
    refine hjT c h7 ?_
    simp only [List.mem_cons, List.mem_append] at hc ⊢
    rcases hc with hc | hc | hc
    · exact .inl hc
    · exact .inr (.inl hc)
    · exact .inr (.inr (hMk c hc))
  · have hA24 : Agree h2 h4 j := by
      refine ⟨fun c h7 h8 => ?_, fun c h7 h8 => ?_, fun c h7 h8 => hrun2 c (by omega) h8, by omega⟩
      · rw [s7 c (by omega) h8, o4 c (by omega)]
      · rw [s8 c (by omega) h8, o5 c (by omega)]
    have hA26 : Agree h2 h6 (hd :: (k ++ j ++ k3)) :=
      (hA24.mono fun c hc => by simp [hc]).trans hA46 fun c hc => .inl (by simp at hc ⊢; tauto)
    refine c16.trans hA26 fun c hc => ?_
    rcases List.mem_cons.mp hc with hc | hc
    · exact .inl (by simp [hc])
    · rcases c17 c hc with h7 | h7
      · exact .inl (by simp [h7])
      · exact .inr h7
  · rw [h6r, m6 hd fun h7 => hhdj (by simp [h7]), hk4 hd (by simp), c18]

/-! ### ChangeLooks -/

theorem link_self {h : Hp} {a b : Nat} (h1 : h.nxt a = b) (h2 : h.prv b = a) : link h a b = h := by
  rcases h with ⟨nx, pv, rn, fr⟩
  have e1 : (link ⟨nx, pv, rn, fr⟩ a b).nxt = nx := funext fun c => by
    rw [link_nxt]; split_ifs with hc
    · subst hc; exact h1.symm
    · rfl
  have e2 : (link ⟨nx, pv, rn, fr⟩ a b).prv = pv := funext fun c => by
    rw [link_prv]; split_ifs with hc
    · subst hc; exact h2.symm
    · rfl
  show Hp.mk (link ⟨nx, pv, rn, fr⟩ a b).nxt (link ⟨nx, pv, rn, fr⟩ a b).prv rn fr = _
  rw [e1, e2]

/-- `Merge` inside a ring and the following link. -/
theorem mlink_spec {h : Hp} {T : Text} {base : Option Nat} {hd : Nat} {k K : List Nat} (hr : Ring h fs fx base hd (k ++ K)) (hc : CacheIn h T hd k) :
    ∃ h1 T' M, merge h T (lst hd k) (fst K hd) = some (h1, T', fst M hd) ∧ (M = K ∨ ∃ v, K = v :: M) ∧ h1.nxt = h.nxt ∧ h1.prv = h.prv ∧
      Ring (link h1 (lst hd k) (fst M hd)) fs fx base hd (k ++ M) ∧ CacheIn (link h1 (lst hd k) (fst M hd)) T' hd k ∧ T'.len = T.len ∧ T'.head = T.head ∧
      (∀ c, c ∉ k → (link h1 (lst hd k) (fst M hd)).run c = h.run c) ∧
      items (link h1 (lst hd k) (fst M hd)) fs k ++ items h fs M = items h fs k ++ items h fs K ∧
      sum (link h1 (lst hd k) (fst M hd)) k + sum h M = sum h k + sum h K ∧
      Agree h (link h1 (lst hd k) (fst M hd)) (hd :: (k ++ K)) ∧ h1.free = h.free := by
  have hnd : ((hd :: k) ++ K).Nodup := by simpa using hr.nodup
  have hkd := (List.nodup_append.mp hnd).2.2
  have hhd := (List.nodup_cons.mp hr.nodup).1
  have hLk : Linked h (hd :: k) := linked_left (l2 := K ++ [hd]) (by simpa using hr.linked)
  have hLK : Linked h (K ++ [hd]) := linked_right (l1 := hd :: k) (by simpa using hr.linked)
  obtain ⟨h1, T', M, m1, m2, m3, m4, m5, m6, m7, m8, m9, m10, m11, m12⟩ := merge_spec (fs := fs) (fx := fx) (T := T) (base := base) (base' := base) (e := hd)
    (fun a ha => hr.ok a (by simp [ha])) hr.head (List.nodup_append.mp hnd).1 (fun a ha => hr.ok a (by simp [ha])) hr.head hLK
    (fun a ha hb => hkd a hb a ha rfl) hc
  have hMK : ∀ c ∈ M, c ∈ K := by
    rcases m2 with rfl | ⟨v, rfl⟩
    · exact fun _ h => h
    · exact fun c h => List.mem_cons_of_mem _ h
  have hML : Linked h1 (M ++ [hd]) ∧ (M ++ [hd]).Nodup := by
    have hKn : (K ++ [hd]).Nodup := List.nodup_append.mpr ⟨(List.nodup_append.mp hnd).2.1, by simp, fun a ha b hb => by
      obtain rfl := List.mem_singleton.mp hb
      rintro rfl; exact hhd (by simp [ha])⟩
    have hf : Linked h1 (K ++ [hd]) := linked_frame (fun _ _ => by rw [m3]) (fun _ _ => by rw [m4]) hLK
    rcases m2 with rfl | ⟨v, rfl⟩
    · exact ⟨hf, hKn⟩
    · exact ⟨linked_right (l1 := [v]) hf, (List.nodup_cons.mp hKn).2⟩
  have hLf : Linked (link h1 (lst hd k) (fst M hd)) (hd :: (k ++ M) ++ [hd]) := by
    have := link_join (h := h1) (a := hd) (b := hd) (A := k) (C := M) (linked_frame (fun _ _ => by rw [m3]) (fun _ _ => by rw [m4]) hLk) hML.1
      (List.nodup_append.mp hnd).1 hML.2 (fun c hc h7 => hkd c hc c (hMK c h7) rfl) (fun h7 => hhd (by simp [h7]))
    simpa using this
  have hMn : ((hd :: k) ++ M).Nodup := List.nodup_append.mpr ⟨(List.nodup_append.mp hnd).1, (List.nodup_append.mp hML.2).1,
    fun a ha b hb => fun h7 => hkd a ha b (hMK b hb) h7⟩
  refine ⟨h1, T', M, m1, m2, m3, m4, ⟨hLf, by simpa using hMn, ?_, ?_, ?_⟩, m10.congr fun _ _ => rfl, m11, m12, m6, m8, m9, ?_, m5⟩
  · intro a ha
    rw [link_free, m5]
    refine hr.lt a ?_
    simp only [List.mem_cons, List.mem_append] at ha ⊢
    rcases ha with ha | ha | ha
    · exact .inl ha
    · exact .inr (.inl ha)
    · exact .inr (.inr (hMK a ha))
  · rw [link_run, m6 hd fun h7 => hhd (by simp [h7])]; exact hr.head
  · intro a ha
    rw [link_run]
    rcases List.mem_append.mp ha with ha | ha
    · exact m7 a ha
    · rw [m6 a fun h7 => hkd a (by simp [h7]) a (hMK a ha) rfl]; exact hr.ok a (by simp [hMK a ha])
  · refine (Agree.trans (S' := hd :: (k ++ K)) ⟨fun _ _ _ => by rw [m3], fun _ _ _ => by rw [m4], fun a _ h7 => m6 a fun h8 => h7 (by simp [h8]), by omega⟩ ?_ fun c hc => .inl hc)
    refine agree_link h1 (.inl ?_) (.inl ?_)
    · have := lst_mem hd k; simp at this ⊢; tauto
    · cases M with
      | nil => simp
      | cons y M => simp [hMK y]

theorem relook_items {r : Run} (sel : Nat → Bool) (n : Look) :
    runItems fs { r with look := relook r.look sel n } = (runItems fs r).map (Item.relook sel n) := by
  have k1 : ∀ c l, Item.ch c (relook l sel n) = Item.relook sel n (Item.ch c l) := by
    intro c l
    unfold relook Item.relook
    cases sel 0 <;> cases sel 1 <;> cases sel 2 <;> cases n.fnt <;> rfl
  have k2 : ∀ c l, Item.el c (relook l sel n) = Item.relook sel n (Item.el c l) := by
    intro c l
    unfold relook Item.relook
    cases sel 0 <;> cases sel 1 <;> cases sel 2 <;> cases n.fnt <;> rfl
  unfold runItems
  cases r.kind with
  | head => rfl
  | piece f o a => simp only [List.map_map]; exact List.map_congr_left fun c _ => by simp only [Function.comp, k1]
  | elem g b => simp only [List.map_cons, List.map_nil, k2]

theorem relook_ok {base : Option Nat} {r : Run} (sel : Nat → Bool) (n : Look) (h : RunOk fs fx base r) :
    RunOk fs fx base { r with look := relook r.look sel n } := by
  refine ⟨h.pos, ?_, h.head, h.piece, h.elem⟩
  show (if sel 0 && n.fnt.isSome then n.fnt else r.look.fnt) ≠ none
  split_ifs with h1
  · intro h2; rw [h2] at h1; simp at h1
  · exact h.fnt

theorem looks_spec {base : Option Nat} {hd : Nat} {k3 : List Nat} (sel : Nat → Bool) (n : Look) : ∀ {j k : List Nat} {h : Hp} {T : Text} {f : Nat},
    Ring h fs fx base hd (k ++ j ++ k3) → CacheIn h T hd k → j.length < f →
    ∃ h' T' l', looksLoop sel n (fst k3 hd) f h T (lst hd k) (fst (j ++ k3) hd) = some (h', T') ∧ Ring h' fs fx base hd l' ∧ CacheIn h' T' hd l' ∧
      T'.len = T.len ∧ T'.head = T.head ∧ items h' fs l' = items h fs k ++ (items h fs j).map (Item.relook sel n) ++ items h fs k3 ∧
      sum h' l' = sum h (k ++ j ++ k3) ∧ (∀ c ∈ l', c ∈ k ++ j ++ k3) ∧ Agree h h' (hd :: (k ++ j ++ k3)) ∧ h'.run hd = h.run hd
  | j, k, h, T, 0, _, _, hf => by omega
  | [], k, h, T, f + 1, hr, hc, hf => by
    obtain ⟨h1, T', M, m1, m2, m3, m4, m5, m6, m7, m8, m9, m10, m11, m12, m13⟩ := mlink_spec (T := T) (k := k) (K := k3) (by simpa using hr) hc
    have hkd := (List.nodup_append.mp (by simpa using hr.nodup : ((hd :: k) ++ k3).Nodup)).2.2
    have hMK : ∀ c ∈ M, c ∈ k3 := by
      rcases m2 with rfl | ⟨v, rfl⟩
      · exact fun _ h => h
      · exact fun c h => List.mem_cons_of_mem _ h
    have hMr : ∀ c ∈ M, (link h1 (lst hd k) (fst M hd)).run c = h.run c := fun c h2 => m9 c fun h3 => hkd c (by simp [h3]) c (hMK c h2) rfl
    refine ⟨link h1 (lst hd k) (fst M hd), T', k ++ M, ?_, m5, m6.app, m7, m8, ?_, ?_, ?_, by simpa using m12, ?_⟩
    · rw [looksLoop, if_pos (by simp)]
      simp only [List.nil_append, m1, Option.map_some]; rfl
    · rw [items_append, items_congr hMr, m10]; simp
    · rw [sum_append, sum_congr hMr, m11]; simp
    · intro c h2
      rcases List.mem_append.mp h2 with h2 | h2
      · simp [h2]
      · simp [hMK c h2]
    · exact m9 hd fun h3 => (List.nodup_cons.mp hr.nodup).1 (by simp [h3])
  | x :: j, k, h, T, f + 1, hr, hc, hf => by
    obtain ⟨h0, hh0⟩ : ∃ h0, h0 = h.setRun x { h.run x with look := relook (h.run x).look sel n } := ⟨_, rfl⟩
    have hnd : ((hd :: k) ++ (x :: (j ++ k3))).Nodup := by simpa using hr.nodup
    have hkd := (List.nodup_append.mp hnd).2.2
    have hxj := List.nodup_cons.mp (List.nodup_append.mp hnd).2.1
    have h0x : h0.run x = { h.run x with look := relook (h.run x).look sel n } := by rw [hh0]; exact setRun_same _ _ _
    have h0n : ∀ c, c ≠ x → h0.run c = h.run c := fun c h1 => by rw [hh0]; exact setRun_ne h1
    have hkx : ∀ c ∈ hd :: k, c ≠ x := fun c h1 => hkd c h1 x (by simp)
    have hjx : ∀ c ∈ j ++ k3, c ≠ x := fun c h1 h2 => hxj.1 (h2 ▸ h1)
    have hr0 : Ring h0 fs fx base hd (k ++ (x :: (j ++ k3))) := by
      have hr : Ring h fs fx base hd (k ++ (x :: (j ++ k3))) := by simpa using hr
      refine ⟨linked_frame (fun _ _ => by rw [hh0]; rfl) (fun _ _ => by rw [hh0]; rfl) hr.linked, hr.nodup, fun a ha => by rw [hh0]; exact hr.lt a ha, ?_, ?_⟩
      · rw [h0n hd (hkx hd (by simp))]; exact hr.head
      · intro a ha
        by_cases hax : a = x
        · subst hax; rw [h0x]; exact relook_ok sel n (hr.ok a ha)
        · rw [h0n a hax]; exact hr.ok a ha
    have hc0 : CacheIn h0 T hd k := hc.congr fun a ha => h0n a (hkx a (by simp [ha]))
    have hA0 : Agree h h0 (hd :: (k ++ (x :: j) ++ k3)) := by rw [hh0]; exact agree_setRun h (.inl (by simp))
    obtain ⟨h1, T', M, m1, m2, m3, m4, m5, m6, m7, m8, m9, m10, m11, m12, m13⟩ := mlink_spec (T := T) hr0 hc0
    rw [fst_cons] at m1
    have hux : h0.nxt (lst hd k) = x := (ring_mid hr0.linked).1
    have hxu : h0.prv x = lst hd k := (ring_mid hr0.linked).2
    have hik : items h0 fs k = items h fs k := items_congr fun a ha => h0n a (hkx a (by simp [ha]))
    have hij : items h0 fs (j ++ k3) = items h fs (j ++ k3) := items_congr fun a ha => h0n a (hjx a ha)
    have hsk : sum h0 k = sum h k := sum_congr fun a ha => h0n a (hkx a (by simp [ha]))
    have hsj : sum h0 (j ++ k3) = sum h (j ++ k3) := sum_congr fun a ha => h0n a (hjx a ha)
    have hsx : (h0.run x).len = (h.run x).len := by rw [h0x]
    have hvn : x ≠ fst k3 hd := by
      cases k3 with
      | nil => exact fun h2 => hkx hd (by simp) h2.symm
      | cons y k3 => exact fun h2 => hjx y (by simp) h2.symm
    obtain ⟨h2, hh2⟩ : ∃ h2, h2 = link h1 (lst hd k) (fst M hd) := ⟨_, rfl⟩
    rw [← hh2] at m5 m6 m9 m10 m11 m12
    have hrun2 : ∀ c ∈ x :: (j ++ k3), h2.run c = h0.run c := fun c h3 => m9 c fun h4 => hkd c (by simp [h4]) c h3 rfl
    have hhd2 : h2.run hd = h0.run hd := m9 hd fun h4 => (List.nodup_cons.mp hr0.nodup).1 (by simp [h4])
    rcases m2 with rfl | ⟨v, hv⟩
    · -- not merged
      have hid : h2 = h1 := by rw [hh2]; exact link_self (by rw [m3]; exact hux) (by rw [m4]; exact hxu)
      have hi2 : items h2 fs k = items h fs k := by rw [← hik]; exact List.append_cancel_right m10
      have hs2 : sum h2 k = sum h k := by rw [← hsk]; omega
      have hnx : h1.nxt x = fst (j ++ k3) hd := by
        rw [← hid]
        have := (ring_mid (l1 := k ++ [x]) (l2 := j ++ k3) (by simpa using m5.linked)).1
        simpa using this
      obtain ⟨h', T'', l', i1, i2, i3, i4, i5, i6, i7, i8, i9, i10⟩ := looks_spec (base := base) (hd := hd) (k3 := k3) sel n (j := j) (k := k ++ [x]) (h := h2) (T := T') (f := f)
        (by simpa using m5) m6.app (by simp at hf; omega)
      refine ⟨h', T'', l', ?_, i2, i3, i4.trans m7, i5.trans m8, ?_, ?_, by simpa using i8, ?_, ?_⟩
      · rw [looksLoop]
        simp only [List.cons_append, fst_cons, if_neg hvn, ← hh0, m1, Option.bind_some]
        rw [if_pos (by rw [m3]; exact hux), hnx, ← hid]
        rw [lst_snoc] at i1; exact i1
      · rw [i6, items_append, hi2, items_cons, items_nil, hrun2 x (by simp), h0x, relook_items, items_congr fun c h3 => hrun2 c (by simp [h3]),
          items_congr fun c h3 => hrun2 c (by simp [h3]), items_cons]
        have e1 : items h0 fs j = items h fs j := items_congr fun a ha => h0n a (hjx a (by simp [ha]))
        have e2 : items h0 fs k3 = items h fs k3 := items_congr fun a ha => h0n a (hjx a (by simp [ha]))
        rw [e1, e2]; simp
      · rw [i7]
        have e1 : sum h2 (j ++ k3) = sum h (j ++ k3) := by rw [sum_congr fun c h3 => hrun2 c (by simp [h3]), hsj]
        have e2 : (h2.run x).len = (h.run x).len := by rw [hrun2 x (by simp), hsx]
        simp only [sum_append, sum_cons, sum_nil] at e1 ⊢; omega
      · exact hA0.trans (m12.trans i9 fun c h3 => .inl (by simpa using h3)) fun c h3 => .inl (by simpa using h3)
      · rw [i10, hhd2, h0n hd (hkx hd (by simp))]
    · -- merged
      obtain ⟨rfl, rfl⟩ := List.cons.inj hv
      have hi2 : items h2 fs k = items h fs k ++ (runItems fs (h.run x)).map (Item.relook sel n) := by
        rw [items_cons, h0x, relook_items, ← List.append_assoc, hik] at m10
        exact List.append_cancel_right m10
      have hs2 : sum h2 k = sum h k + (h.run x).len := by rw [sum_cons, hsk, hsx] at m11; omega
      obtain ⟨h', T'', l', i1, i2, i3, i4, i5, i6, i7, i8, i9, i10⟩ := looks_spec (base := base) (hd := hd) (k3 := k3) sel n (j := j) (k := k) (h := h2) (T := T') (f := f)
        (by simpa using m5) m6 (by simp at hf; omega)
      refine ⟨h', T'', l', ?_, i2, i3, i4.trans m7, i5.trans m8, ?_, ?_, ?_, ?_, ?_⟩
      · rw [looksLoop]
        simp only [List.cons_append, fst_cons, if_neg hvn, ← hh0, m1, Option.bind_some]
        rw [if_neg]
        · rw [hh2] at i1; exact i1
        · rw [m3, hux]
          cases hjk : j ++ k3 with
          | nil => exact fun h2 => hkx hd (by simp) h2.symm
          | cons y ys => exact fun h2 => hjx y (by simp [hjk]) h2.symm
      · rw [i6, hi2, items_congr fun c h3 => hrun2 c (by simp [h3]),
          items_congr fun c h3 => hrun2 c (by simp [h3]), items_cons]
        have e1 : items h0 fs j = items h fs j := items_congr fun a ha => h0n a (hjx a (by simp [ha]))
        have e2 : items h0 fs k3 = items h fs k3 := items_congr fun a ha => h0n a (hjx a (by simp [ha]))
        rw [e1, e2]; simp
      · rw [i7]
        have e1 : sum h2 (j ++ k3) = sum h (j ++ k3) := by rw [sum_congr fun c h3 => hrun2 c (by simp [h3]), hsj]
        simp only [sum_append, sum_cons] at e1 ⊢; omega
      · intro c h3
        have := i8 c h3
        simp at this ⊢; tauto
      · refine hA0.trans (m12.trans i9 fun c h3 => .inl ?_) fun c h3 => .inl (by simpa using h3)
        simp at h3 ⊢; tauto
      · rw [i10, hhd2, h0n hd (hkx hd (by simp))]

theorem changeLooks_spec {h : Hp} {T : Text} {self : Nat} {l : List Nat} {beg end_ : Nat} (sel : Nat → Bool) (n : Look) (hT : TOk h fs fx self T l)
    (hbe : beg ≤ end_) :
    ∃ h' T' l', changeLooks h T beg end_ sel n = some (h', T', min beg T.len, min end_ T.len) ∧ T'.head = T.head ∧ TOk h' fs fx self T' l' ∧
      items h' fs l' = (items h fs l).take (min beg T.len) ++ (((items h fs l).take (min end_ T.len)).drop (min beg T.len)).map (Item.relook sel n) ++
        (items h fs l).drop (min end_ T.len) ∧
      (∀ c ∈ l', c ∈ l ∨ h.free ≤ c) ∧ Agree h h' (T.head :: l) ∧ h'.run T.head = h.run T.head := by
  obtain ⟨x, h1, x', h2, k, j, k3, c1, c2, c3, c4, c5, c6, c7, c8, c9, c10, c11, c12, c13, c14, c15, c16, c17, c18⟩ := cut2_spec (beg := beg) (end_ := end_) hT hbe
  have hjf : j.length < h2.free + 1 := by have := c9.length; simp at this; omega
  obtain ⟨T'', hT''⟩ : ∃ T'' : Text, T'' = { x'.T with cache := x.T.cache, corg := x.T.corg } := ⟨_, rfl⟩
  obtain ⟨h', T', l', i1, i2, i3, i4, i5, i6, i7, i8, i9, i10⟩ := looks_spec sel n (T := T'') c9 (c10.of (by rw [hT'']) (by rw [hT''])) hjf
  have e1 : T'.head = T.head := by rw [i5, hT'']; exact c7
  refine ⟨h', T', l', ?_, e1, ⟨?_, ?_, ?_⟩, ?_, fun c hc => c17 c (i8 c hc), ?_, i10.trans c18⟩
  · unfold changeLooks
    rw [c1, Option.bind_some, c2, Option.bind_some]
    simp only [c3, Option.bind_some, c4, ← hT'', i1, Option.map_some, c5, c6]
  · rw [e1]; exact i2
  · rw [i4, hT'', i7, c14, ← hT.len]; exact c8
  · rw [e1]; exact i3
  · rw [i6, c11, c12, c13]
  · refine c16.trans i9 fun c hc => ?_
    rcases List.mem_cons.mp hc with hc | hc
    · exact .inl (by simp [hc])
    · rcases c17 c hc with h7 | h7
      · exact .inl (by simp [h7])
      · exact .inr h7

end Verif.Texts
