import Verif.Texts.Ops

/-!
# `Copy`, `Save`, `Write`, `Open`
-/
namespace Verif.Texts

variable {fs : Nat → List Nat} {fx : Nat → Bool}

/-- A ring that need not be closed. -/
structure Chain (h : Hp) (fs : Nat → List Nat) (fx : Nat → Bool) (hd : Nat) (d : List Nat) : Prop where
  linked : Linked h (hd :: d)
  nodup : (hd :: d).Nodup
  lt : ∀ a ∈ hd :: d, a < h.free
  head : (h.run hd).kind = .head
  ok : ∀ a ∈ d, RunOk fs fx none (h.run a)

theorem Ring.chain {h : Hp} {hd : Nat} {d : List Nat} (hr : Ring h fs fx none hd d) : Chain h fs fx hd d :=
  ⟨linked_left (l2 := [hd]) (by simpa using hr.linked), hr.nodup, hr.lt, hr.head, hr.ok⟩

theorem Chain.close {h : Hp} {hd : Nat} {d : List Nat} (hc : Chain h fs fx hd d) : Ring (link h (lst hd d) hd) fs fx none hd d := by
  refine ⟨?_, hc.nodup, hc.lt, hc.head, hc.ok⟩
  have := link_join (h := h) (a := hd) (b := hd) (A := d) (C := []) hc.linked trivial hc.nodup (by simp) (by simp) (List.nodup_cons.mp hc.nodup).1
  simpa using this

/-- A new run after `v`. -/
def grow (h : Hp) (v : Nat) (r : Run) : Hp := ((h.new.setRun h.free r).setNxt v h.free).setPrv h.free v

theorem grow_nxt (h : Hp) (v : Nat) (r : Run) (c : Nat) : (grow h v r).nxt c = if c = v then h.free else h.nxt c := rfl
theorem grow_prv (h : Hp) (v : Nat) (r : Run) (c : Nat) : (grow h v r).prv c = if c = h.free then v else h.prv c := rfl
theorem grow_run (h : Hp) (v : Nat) (r : Run) (c : Nat) : (grow h v r).run c = if c = h.free then r else h.run c := rfl
theorem grow_free (h : Hp) (v : Nat) (r : Run) : (grow h v r).free = h.free + 1 := rfl

theorem grow_agree (h : Hp) (v : Nat) (r : Run) : Agree h (grow h v r) [v] :=
  ⟨fun c h1 h2 => by rw [grow_nxt, if_neg (by simpa using h2)], fun c h1 h2 => by rw [grow_prv, if_neg (by omega)],
    fun c h1 h2 => by rw [grow_run, if_neg (by omega)], by rw [grow_free]; omega⟩

theorem Chain.grow {h : Hp} {hd : Nat} {d : List Nat} {r : Run} (hc : Chain h fs fx hd d) (hr : RunOk fs fx none r) :
    Chain (grow h (lst hd d) r) fs fx hd (d ++ [h.free]) := by
  have hlt : ∀ a ∈ hd :: d, a ≠ h.free := fun a ha => by have := hc.lt a ha; omega
  obtain ⟨m, hm⟩ := snoc_form hd d
  have hmn : (m ++ [lst hd d]).Nodup := hm ▸ hc.nodup
  refine ⟨?_, ?_, ?_, ?_, ?_⟩
  · have e : hd :: (d ++ [h.free]) = m ++ lst hd d :: h.free :: [] := by rw [← List.cons_append, hm]; simp
    rw [e]
    refine linked_join ?_ trivial (by rw [grow_nxt, if_pos rfl]) (by rw [grow_prv, if_pos rfl])
    rw [← hm]
    refine linked_frame (fun a ha => ?_) (fun a ha => ?_) hc.linked
    · rw [grow_nxt, if_neg]
      rintro rfl
      rw [hm, List.dropLast_concat] at ha
      exact (List.nodup_append.mp hmn).2.2 _ ha _ (by simp) rfl
    · rw [grow_prv, if_neg (hlt a (List.mem_of_mem_tail ha))]
  · have : ((hd :: d) ++ [h.free]).Nodup := List.nodup_append.mpr ⟨hc.nodup, by simp, fun a ha b hb => by
      obtain rfl := List.mem_singleton.mp hb; exact hlt a ha⟩
    simpa using this
  · intro a ha
    rw [grow_free]
    have : a ∈ (hd :: d) ++ [h.free] := by simpa using ha
    rcases List.mem_append.mp this with h1 | h1
    · have := hc.lt a h1; omega
    · obtain rfl := List.mem_singleton.mp h1; omega
  · rw [grow_run, if_neg (hlt hd (by simp))]; exact hc.head
  · intro a ha
    rcases List.mem_append.mp ha with h1 | h1
    · rw [grow_run, if_neg (hlt a (by simp [h1]))]; exact hc.ok a h1
    · obtain rfl := List.mem_singleton.mp h1
      rw [grow_run, if_pos rfl]; exact hr

theorem clone_part (r : Run) : clone r = clonePart r 0 := by
  rcases r with ⟨len, look, kind⟩
  cases kind <;> rfl

theorem copyLoop_save (stop : Nat) : ∀ (f : Nat) (h : Hp) (u v : Nat),
    copyLoop h stop f u v = (saveLoop h stop f u v 0).map fun z => (z.1, z.2.1)
  | 0, _, _, _ => rfl
  | f + 1, h, u, v => by
    rw [copyLoop, saveLoop]
    by_cases h1 : u = stop
    · rw [if_pos h1, if_pos h1]; rfl
    · rw [if_neg h1, if_neg h1]
      simp only [clone_part]
      exact copyLoop_save stop f _ _ _

theorem clonePart_ok {base : Option Nat} {r : Run} {d : Nat} (hr : RunOk fs fx base r) (hd : d < r.len) : RunOk fs fx none (clonePart r d) := by
  unfold clonePart
  rcases hk : r.kind with _ | ⟨f, o, a⟩ | ⟨g, b⟩
  · exact absurd hk hr.head
  · refine ⟨by show 1 ≤ r.len - d; omega, hr.fnt, by simp, fun f' o' a' h1 => ?_, fun _ _ h1 => by simp at h1⟩
    cases h1
    have := hr.piece _ _ _ hk
    exact ⟨by show o + d + (r.len - d) ≤ _; omega, this.2⟩
  · exact ⟨hr.pos, hr.fnt, by simp, fun _ _ _ h1 => by simp at h1, fun _ _ h1 => by cases h1; exact ⟨(hr.elem _ _ hk).1, rfl⟩⟩

theorem clonePart_len {base : Option Nat} {r : Run} {d : Nat} (hr : RunOk fs fx base r) (hd : d < r.len) : (clonePart r d).len = r.len - d := by
  unfold clonePart
  rcases hk : r.kind with _ | ⟨f, o, a⟩ | ⟨g, b⟩
  · exact absurd hk hr.head
  · rfl
  · have := (hr.elem _ _ hk).1
    simp only []; omega

theorem clonePart_items {base : Option Nat} {r : Run} {d : Nat} (hr : RunOk fs fx base r) (hd : d < r.len) :
    runItems fs (clonePart r d) = (runItems fs r).drop d := by
  unfold clonePart
  rcases hk : r.kind with _ | ⟨f, o, a⟩ | ⟨g, b⟩
  · exact absurd hk hr.head
  · simp only [runItems, hk]
    rw [← List.map_drop, List.drop_take, List.drop_drop]
  · have := (hr.elem _ _ hk).1
    have : d = 0 := by omega
    subst this
    simp [runItems, hk]

/-- The loops in `Copy` and `Save`. -/
theorem saveLoop_spec {base : Option Nat} {stop hd : Nat} : ∀ {rest d : List Nat} {h : Hp} {f ud : Nat}, Linked h (rest ++ [stop]) → stop ∉ rest →
    (∀ a ∈ rest, RunOk fs fx base (h.run a)) → (∀ a ∈ rest, a < h.free) → stop < h.free → Chain h fs fx hd d → (∀ a ∈ rest, a ∉ hd :: d) →
    (∀ x r, rest = x :: r → ud < (h.run x).len) → rest.length < f →
    ∃ h' e, saveLoop h stop f (fst rest stop) (lst hd d) ud = some (h', lst hd (d ++ e), if rest = [] then ud else 0) ∧
      Chain h' fs fx hd (d ++ e) ∧ (∀ c ∈ e, h.free ≤ c) ∧ items h' fs e = (items h fs rest).drop ud ∧
      (rest ≠ [] → sum h' e = sum h rest - ud) ∧ (rest = [] → e = [] ∧ h' = h) ∧ Agree h h' [lst hd d] ∧ (∀ c, c < h.free → h'.run c = h.run c)
  | rest, d, h, 0, ud, _, _, _, _, _, _, _, _, hf => by omega
  | [], d, h, f + 1, ud, hl, hs, hok, hlt, hsl, hc, hdj, hud, hf => by
    refine ⟨h, [], ?_, by simpa using hc, by simp, by simp, fun h1 => absurd rfl h1, fun _ => ⟨rfl, rfl⟩, Agree.refl _ _, fun _ _ => rfl⟩
    rw [saveLoop, if_pos (by simp)]; simp
  | x :: rest, d, h, f + 1, ud, hl, hs, hok, hlt, hsl, hc, hdj, hud, hf => by
    have hx := hok x (by simp)
    have hxu := hud x rest rfl
    obtain ⟨r, hr⟩ : ∃ r, r = clonePart (h.run x) ud := ⟨_, rfl⟩
    have hrok : RunOk fs fx none r := by rw [hr]; exact clonePart_ok hx hxu
    obtain ⟨h1, hh1⟩ : ∃ h1, h1 = grow h (lst hd d) r := ⟨_, rfl⟩
    have hlm := lst_mem hd d
    have hA1 : Agree h h1 [lst hd d] := by rw [hh1]; exact grow_agree h _ r
    have h1f : h1.free = h.free + 1 := by rw [hh1]; rfl
    have h1r : ∀ c, c < h.free → h1.run c = h.run c := fun c h2 => by rw [hh1, grow_run, if_neg (by omega)]
    have hnx : ∀ c ∈ x :: rest, h1.nxt c = h.nxt c := fun c h2 => by
      rw [hh1, grow_nxt, if_neg]; rintro rfl; exact hdj _ h2 hlm
    have hl1 : Linked h1 (rest ++ [stop]) := by
        refine linked_frame (fun a ha => hnx a ?_) (fun a ha => ?_) (linked_right (l1 := [x]) hl)
        · rw [List.dropLast_concat] at ha; simp [ha]
        · have := List.mem_of_mem_tail ha
          rw [hh1, grow_prv, if_neg]
          rcases List.mem_append.mp this with h2 | h2
          · have := hlt a (by simp [h2]); omega
          · obtain rfl := List.mem_singleton.mp h2; omega
    have hxn : h1.nxt x = fst rest stop := by
      rw [hnx x (by simp)]; exact (ring_first (by simpa using hl)).1
    · have hc1 : Chain h1 fs fx hd (d ++ [h.free]) := by rw [hh1]; exact hc.grow hrok
      obtain ⟨h', e, i1, i2, i3, i4, i5, i6, i7, i8⟩ := saveLoop_spec (base := base) (stop := stop) (hd := hd) (rest := rest) (d := d ++ [h.free]) (h := h1) (f := f) (ud := 0)
        hl1 (fun h2 => hs (by simp [h2])) (fun a ha => by rw [h1r a (hlt a (by simp [ha]))]; exact hok a (by simp [ha]))
        (fun a ha => by have := hlt a (by simp [ha]); omega) (by omega) hc1
        (fun a ha h2 => by
          have h3 : a ∈ (hd :: d) ++ [h.free] := by simpa using h2
          rcases List.mem_append.mp h3 with h3 | h3
          · exact hdj a (by simp [ha]) h3
          · have := hlt a (by simp [ha]); simp at h3; omega)
        (fun y r' h2 => by subst h2; rw [h1r y (hlt y (by simp))]; exact (hok y (by simp)).pos) (by simp at hf; omega)
      have hrr : h'.run h.free = r := by rw [i8 _ (by omega), hh1, grow_run, if_pos rfl]
      have hre : ∀ c ∈ rest, h1.run c = h.run c := fun c h2 => h1r c (hlt c (by simp [h2]))
      refine ⟨h', h.free :: e, ?_, by simpa using i2, ?_, ?_, fun _ => ?_, fun h2 => by simp at h2, ?_, fun c h2 => by rw [i8 c (by omega), h1r c h2]⟩
      · rw [saveLoop, if_neg (fun h2 => hs (by rw [fst_cons] at h2; simp [h2]))]
        rw [lst_snoc] at i1
        simp only [fst_cons]
        have ee : ((h.new.setRun h.free (clonePart (h.run x) ud)).setNxt (lst hd d) h.free).setPrv h.free (lst hd d) = h1 := by rw [hh1, hr]; rfl
        simp only [ee, hxn, i1]
        congr 3
        · simp
        · simp
      · intro c h2
        rcases List.mem_cons.mp h2 with rfl | h2
        · exact le_rfl
        · have := i3 c h2; omega
      · rw [items_cons, hrr, hr, clonePart_items hx hxu, i4, items_congr hre, List.drop_zero, items_cons,
          List.drop_append_of_le_length (by rw [runItems_length hx]; omega)]
      · rw [sum_cons, hrr, hr, clonePart_len hx hxu, sum_cons]
        by_cases h2 : rest = []
        · subst h2
          obtain ⟨rfl, -⟩ := i6 rfl
          simp
        · rw [i5 h2, sum_congr hre]; omega
      · refine hA1.trans i7 fun c h2 => ?_
        rw [lst_snoc] at h2
        exact .inr (by simp at h2; omega)

theorem copy_spec {h : Hp} {SB DB : Buf} {m d : List Nat} (hS : BOk h fs fx SB m) (hD : BOk h fs fx DB d)
    (hdj : ∀ c ∈ SB.head :: m, c ∉ DB.head :: d) :
    ∃ h' d', copy h SB DB = some (h', { DB with len := DB.len + SB.len }) ∧ BOk h' fs fx { DB with len := DB.len + SB.len } d' ∧
      items h' fs d' = items h fs d ++ items h fs m ∧ (∀ c ∈ d', c ∈ d ∨ h.free ≤ c) ∧ Agree h h' (DB.head :: d) := by
  have hp : h.prv DB.head = lst DB.head d := (ring_mid (l1 := d) (l2 := []) (by simpa using hD.ring.linked)).2
  have hn : h.nxt SB.head = fst m SB.head := (ring_first hS.ring.linked).1
  have hmf : m.length < h.free + 1 := by have := hS.ring.length; omega
  obtain ⟨h1, e, i1, i2, i3, i4, i5, i6, i7, i8⟩ := saveLoop_spec (fs := fs) (fx := fx) (base := none) (stop := SB.head) (hd := DB.head) (rest := m) (d := d) (h := h) (f := h.free + 1) (ud := 0)
    (linked_right (l1 := [SB.head]) (by simpa using hS.ring.linked)) (List.nodup_cons.mp hS.ring.nodup).1 hS.ring.ok (fun a ha => hS.ring.lt a (by simp [ha]))
    (hS.ring.lt _ (by simp)) hD.ring.chain (fun a ha => hdj a (by simp [ha])) (fun x r hx => (hS.ring.ok x (by simp [hx])).pos) hmf
  have hr := i2.close
  have hdr : ∀ c ∈ d, (link h1 (lst DB.head (d ++ e)) DB.head).run c = h.run c := fun c h2 => by
    rw [link_run]; exact i8 c (hD.ring.lt c (by simp [h2]))
  have hit : items (link h1 (lst DB.head (d ++ e)) DB.head) fs (d ++ e) = items h fs d ++ items h fs m := by
    rw [items_append, items_congr hdr]
    have : items (link h1 (lst DB.head (d ++ e)) DB.head) fs e = items h1 fs e := rfl
    rw [this, i4, List.drop_zero]
  refine ⟨link h1 (lst DB.head (d ++ e)) DB.head, d ++ e, ?_, ⟨hr, ?_⟩, hit, ?_, ?_⟩
  · unfold copy
    rw [hn, hp, copyLoop_save, i1]; rfl
  · rw [← items_length hr.ok, hit, List.length_append, items_length hD.ring.ok, items_length hS.ring.ok, ← hD.len, ← hS.len]
  · intro c h2
    rcases List.mem_append.mp h2 with h2 | h2
    · exact .inl h2
    · exact .inr (i3 c h2)
  · have hA : Agree h h1 (DB.head :: d) := i7.mono fun c h2 => by
      rw [List.mem_singleton.mp h2]; exact lst_mem _ _
    refine hA.trans (agree_link (S := DB.head :: (d ++ e)) h1 (.inl (lst_mem _ _)) (.inl (by simp))) fun c h2 => ?_
    rcases List.mem_cons.mp h2 with h2 | h2
    · exact .inl (by simp [h2])
    · rcases List.mem_append.mp h2 with h2 | h2
      · exact .inl (by simp [h2])
      · exact .inr (i3 c h2)

/-! ### Save -/

/-- The part of a list between two positions. -/
theorem take_drop_mid {X Y Z : List Item} {q p : Nat} (h1 : X.length ≤ p) (h2 : q - X.length ≤ Y.length) (h3 : X.length ≤ q) :
    ((X ++ Y ++ Z).take q).drop p = (Y.take (q - X.length)).drop (p - X.length) := by
  rw [List.append_assoc, List.take_append, List.take_of_length_le h3, List.take_append_of_le_length h2, List.drop_append,
    List.drop_of_length_le h1, List.nil_append]

theorem save_spec {h : Hp} {T : Text} {B : Buf} {self : Nat} {l d : List Nat} {beg end_ : Nat} (hT : TOk h fs fx self T l) (hB : BOk h fs fx B d)
    (hdj : ∀ c ∈ T.head :: l, c ∉ B.head :: d) (hbe : beg < end_ ∨ beg = end_ ∧ T.len ≤ beg) :
    ∃ h' T' B' d', save h T beg end_ B = some (h', T', B') ∧ B'.head = B.head ∧ T'.head = T.head ∧ T'.len = T.len ∧ CacheIn h' T' T.head l ∧
      BOk h' fs fx B' d' ∧ items h' fs d' = items h fs d ++ ((items h fs l).take end_).drop beg ∧ (∀ c ∈ d', c ∈ d ∨ h.free ≤ c) ∧
      Agree h h' (B.head :: d) := by
  have hp : h.prv B.head = lst B.head d := (ring_mid (l1 := d) (l2 := []) (by simpa using hB.ring.linked)).2
  have hLl : (items h fs l).length = T.len := by rw [items_length hT.ring.ok, hT.len]
  have hlnd := List.nodup_cons.mp hT.ring.nodup
  -- the end of the procedure
  have fin : ∀ (h1 : Hp) (e : List Nat) (Y : List Item), Chain h1 fs fx B.head (d ++ e) → (∀ c ∈ e, h.free ≤ c) → items h1 fs e = Y →
      Agree h h1 (B.head :: d) → (∀ c, c < h.free → h1.run c = h.run c) →
      ∀ (n : Nat), n = Y.length → ∀ (T' : Text), T'.head = T.head → T'.len = T.len → CacheIn h T' T.head l →
      Y = ((items h fs l).take end_).drop beg →
      save h T beg end_ B = some ((h1.setNxt (lst B.head (d ++ e)) B.head).setPrv B.head (lst B.head (d ++ e)), T', { B with len := B.len + n }) →
      ∃ h' T' B' d', save h T beg end_ B = some (h', T', B') ∧ B'.head = B.head ∧ T'.head = T.head ∧ T'.len = T.len ∧ CacheIn h' T' T.head l ∧
      BOk h' fs fx B' d' ∧ items h' fs d' = items h fs d ++ ((items h fs l).take end_).drop beg ∧ (∀ c ∈ d', c ∈ d ∨ h.free ≤ c) ∧
      Agree h h' (B.head :: d) := by
    intro h1 e Y hc he hY hA hrun n hn T' t1 t2 t3 hYe hs
    have hr := hc.close
    have hdr : ∀ c ∈ d, (link h1 (lst B.head (d ++ e)) B.head).run c = h.run c := fun c h2 => by
      rw [link_run]; exact hrun c (hB.ring.lt c (by simp [h2]))
    have hit : items (link h1 (lst B.head (d ++ e)) B.head) fs (d ++ e) = items h fs d ++ Y := by
      rw [items_append, items_congr hdr, ← hY]; rfl
    refine ⟨link h1 (lst B.head (d ++ e)) B.head, T', { B with len := B.len + n }, d ++ e, hs, rfl, t1, t2, ?_, ⟨hr, ?_⟩, by rw [hit, hYe], ?_, ?_⟩
    · exact t3.congr fun a ha => by rw [link_run]; exact hrun a (hT.ring.lt a (by simp [ha]))
    · show B.len + n = _
      rw [← items_length hr.ok, hit, List.length_append, items_length hB.ring.ok, ← hB.len, hn]
    · intro c h2
      rcases List.mem_append.mp h2 with h2 | h2
      · exact .inl h2
      · exact .inr (he c h2)
    · refine hA.trans (agree_link (S := B.head :: (d ++ e)) h1 (.inl (lst_mem _ _)) (.inl (by simp))) fun c h2 => ?_
      rcases List.mem_cons.mp h2 with h2 | h2
      · exact .inl (by simp [h2])
      · rcases List.mem_append.mp h2 with h2 | h2
        · exact .inl (by simp [h2])
        · exact .inr (he c h2)
  rcases find_spec beg hT.ring hT.len hT.cache with ⟨b1, hf⟩ | ⟨b1, a, u, b, hab, b2, b3, hf⟩
  · obtain ⟨T1, hT1⟩ : ∃ T1 : Text, T1 = { T with cache := T.head, corg := 0 } := ⟨_, rfl⟩
    rw [← hT1] at hf
    have hf2 : find h T1 end_ = some ⟨T.len, T.head, T.len, 0, T1⟩ := by
      rw [find, if_pos (by rw [hT1]; show T.len ≤ end_; omega), hT1]
    refine fin h [] [] (by simpa using hB.ring.chain) (by simp) rfl (Agree.refl _ _) (fun _ _ => rfl) 0 rfl T1 (by rw [hT1]) (by rw [hT1])
      ⟨[], l, rfl, by rw [hT1]; rfl, by rw [hT1]; rfl⟩ ?_ ?_
    · rw [List.take_of_length_le (by omega), List.drop_of_length_le (by omega)]
    · unfold save
      rw [hf, Option.bind_some, hf2, Option.bind_some]
      simp only [hp]
      rw [saveLoop, if_pos rfl]
      simp
  · have hbe' : beg < end_ := by omega
    obtain ⟨T1, hT1⟩ : ∃ T1 : Text, T1 = { T with cache := lst T.head a, corg := sum h a } := ⟨_, rfl⟩
    rw [← hT1] at hf
    have hT1h : T1.head = T.head := by rw [hT1]
    have hT1l : T1.len = T.len := by rw [hT1]
    have hcin : CacheIn h T1 T.head l := ⟨a, u :: b, hab, by rw [hT1], by rw [hT1]⟩
    have hu := hT.ring.ok u (by simp [hab])
    have hXl : (items h fs a).length = sum h a := items_length fun c hc => hT.ring.ok c (by simp [hab, hc])
    rcases find_spec end_ (T := T1) (by rw [hT1h]; exact hT.ring) (by rw [hT1l]; exact hT.len) (by rw [hT1h]; exact hcin) with ⟨e1, hf2⟩ | ⟨e1, a2, u2, b2', hab2, e2, e3, hf2⟩
    · -- to the end of the text
      rw [hT1l] at e1 hf2
      rw [hT1h] at hf2
      have hlk : Linked h (u :: b ++ [T.head]) := by
        have := hT.ring.linked
        rw [hab] at this
        exact linked_right (l1 := T.head :: a) (by simpa using this)
      obtain ⟨h1, e, i1, i2, i3, i4, i5, i6, i7, i8⟩ := saveLoop_spec (fs := fs) (fx := fx) (base := some self) (stop := T.head) (hd := B.head) (rest := u :: b) (d := d) (h := h) (f := h.free + 1) (ud := beg - sum h a)
        hlk (fun h2 => hlnd.1 (by rw [hab]; simp only [List.mem_append]; exact .inr h2)) (fun c hc => hT.ring.ok c (by rw [hab]; simp only [List.mem_append]; exact .inr hc))
        (fun c hc => hT.ring.lt c (by rw [hab]; simp only [List.mem_append, List.mem_cons] at hc ⊢; tauto)) (hT.ring.lt _ (by simp)) hB.ring.chain
        (fun c hc => hdj c (by rw [hab]; simp only [List.mem_append, List.mem_cons] at hc ⊢; tauto)) (fun x r hx => by cases hx; exact b3)
        (by have := hT.ring.length; rw [hab] at this; simp at this ⊢; omega)
      have hY : (items h fs (u :: b)).drop (beg - sum h a) = ((items h fs l).take end_).drop beg := by
        rw [List.take_of_length_le (by omega), hab, items_append, List.drop_append, List.drop_of_length_le (l := items h fs a) (by omega), List.nil_append, hXl]
      refine fin h1 e _ i2 i3 i4 (i7.mono fun c h2 => by rw [List.mem_singleton.mp h2]; exact lst_mem _ _) i8 (T.len - beg) ?_
        ⟨T.len, T.head, T.head, 0⟩ rfl rfl ⟨[], l, rfl, rfl, rfl⟩ hY ?_
      · rw [hY, List.length_drop, List.take_of_length_le (by omega), hLl]
      · unfold save
        rw [hf, Option.bind_some, hf2, Option.bind_some]
        simp only [hp]
        rw [fst_cons] at i1
        rw [i1, Option.bind_some]
        simp
    · -- inside the text
      rw [hT1l] at e1
      rw [hT1h] at hf2
      obtain ⟨c, hc1, hc2⟩ : ∃ c, a2 = a ++ c ∧ u :: b = c ++ u2 :: b2' := by
        rcases List.append_eq_append_iff.mp (hab.symm.trans hab2) with ⟨c, g1, g2⟩ | ⟨c, g1, g2⟩
        · exact ⟨c, g1, g2⟩
        · cases c with
          | nil => exact ⟨[], by simpa using g1.symm, by simpa using g2.symm⟩
          | cons y c =>
            obtain ⟨rfl, -⟩ := List.cons.inj (by simpa using g2)
            exfalso
            rw [g1] at b2; simp at b2; omega
      have hu2 := hT.ring.ok u2 (by simp [hab2])
      have hcl : ∀ y ∈ c ++ [u2], y ∈ l := fun y hy => by rw [hab2, hc1]; simp at hy ⊢; tauto
      have hlk : Linked h (c ++ [u2]) := by
        have := hT.ring.linked
        rw [hab2, hc1] at this
        have := linked_right (l1 := T.head :: a) (l2 := c ++ u2 :: b2' ++ [T.head]) (by simpa using this)
        exact linked_left (l2 := b2' ++ [T.head]) (by simpa using this)
      have hu2c : u2 ∉ c := by
        have := hlnd.2
        rw [hab2, hc1] at this
        have := (List.nodup_append.mp this).2.2
        exact fun h2 => this u2 (by simp [h2]) u2 (by simp) rfl
      have hcu : ∀ x r, c = x :: r → x = u := fun x r hx => by rw [hx] at hc2; exact (List.cons.inj hc2).1.symm
      obtain ⟨h1, e, i1, i2, i3, i4, i5, i6, i7, i8⟩ := saveLoop_spec (fs := fs) (fx := fx) (base := some self) (stop := u2) (hd := B.head) (rest := c) (d := d) (h := h) (f := h.free + 1) (ud := beg - sum h a)
        hlk hu2c (fun y hy => hT.ring.ok y (hcl y (by simp [hy])))
        (fun y hy => hT.ring.lt y (by simp [hcl y (by simp [hy])])) (hT.ring.lt _ (by simp [hcl u2])) hB.ring.chain
        (fun y hy => hdj y (by simp [hcl y (by simp [hy])])) (fun x r hx => by rw [hcu x r hx]; exact b3)
        (by have := hT.ring.length; rw [hab2, hc1] at this; simp at this ⊢; omega)
      have hfu : fst c u2 = u := by
        cases c with
        | nil => exact (List.cons.inj hc2).1.symm
        | cons y c => exact hcu y c rfl
      rw [hfu] at i1
      have hCl : (items h fs c).length = sum h c := items_length fun y hy => hT.ring.ok y (hcl y (by simp [hy]))
      have hU2l : (runItems fs (h.run u2)).length = (h.run u2).len := runItems_length hu2
      have hs2 : sum h a2 = sum h a + sum h c := by rw [hc1, sum_append]
      obtain ⟨off, hoff⟩ : ∃ off, off = end_ - sum h a2 := ⟨_, rfl⟩
      -- what has to be copied
      have hYd : ((items h fs l).take end_).drop beg = (items h fs c ++ (runItems fs (h.run u2)).take off).drop (beg - sum h a) := by
        have g : items h fs l = items h fs a ++ (items h fs c ++ runItems fs (h.run u2)) ++ items h fs b2' := by rw [hab2, hc1]; simp
        rw [g, take_drop_mid (by omega) (by rw [List.length_append]; omega) (by omega), hXl, List.take_append, List.take_of_length_le (by omega)]
        congr 3; omega
      have hYl : end_ - beg = (((items h fs l).take end_).drop beg).length := by
        rw [List.length_drop, List.length_take, hLl]; omega
      have hcne : c ≠ [] → beg - sum h a ≤ (items h fs c).length := by
        intro h2
        cases c with
        | nil => exact absurd rfl h2
        | cons y c =>
          rw [hCl, sum_cons, hcu y c rfl]; omega
      rw [← hoff] at hf2
      by_cases h0 : off = 0
      · have hc0 : c ≠ [] := by rintro rfl; simp at hs2; omega
        have hY : (items h fs c).drop (beg - sum h a) = ((items h fs l).take end_).drop beg := by rw [hYd, h0, List.take_zero, List.append_nil]
        refine fin h1 e _ i2 i3 i4 (i7.mono fun y h2 => by rw [List.mem_singleton.mp h2]; exact lst_mem _ _) i8 (end_ - beg) (by rw [hY]; exact hYl)
          ⟨T1.len, T.head, lst T.head a2, sum h a2⟩ rfl hT1l ⟨a2, u2 :: b2', hab2, rfl, rfl⟩ hY ?_
        unfold save
        rw [hf, Option.bind_some, hf2, Option.bind_some]
        simp only [hp]
        rw [i1, Option.bind_some]
        simp [h0]
      · rcases hk : (h.run u2).kind with _ | ⟨f, o, as⟩ | ⟨g, bb⟩
        · exact absurd hk hu2.head
        · obtain ⟨ud, hud⟩ : ∃ ud, ud = if c = [] then beg - sum h a else 0 := ⟨_, rfl⟩
          rw [← hud] at i1
          have hud1 : ud < off := by
            rw [hud]; split_ifs with h2
            · subst h2; simp at hs2; omega
            · omega
          have hr2 : h1.run u2 = h.run u2 := i8 _ (hT.ring.lt _ (by simp [hcl u2]))
          obtain ⟨r, hr⟩ : ∃ r : Run, r = { h.run u2 with len := off - ud, kind := .piece f (o + ud) as } := ⟨_, rfl⟩
          have hrok : RunOk fs fx none r := by
            rw [hr]
            refine ⟨by show 1 ≤ off - ud; omega, hu2.fnt, by simp, fun f' o' a' h1 => ?_, fun _ _ h1 => by simp at h1⟩
            cases h1
            have := hu2.piece _ _ _ hk
            exact ⟨by show o + ud + (off - ud) ≤ _; omega, this.2⟩
          have hri : runItems fs r = ((runItems fs (h.run u2)).take off).drop ud := by
            rw [hr]
            simp only [runItems, hk]
            rw [← List.map_take, ← List.map_drop, List.take_take, min_eq_left (by omega), List.drop_take, List.drop_drop]
          have hgr := i2.grow hrok
          have hlf : h.free ≤ h1.free := i7.le
          have hY : items (grow h1 (lst B.head (d ++ e)) r) fs (e ++ [h1.free]) = ((items h fs l).take end_).drop beg := by
            have g1 : items (grow h1 (lst B.head (d ++ e)) r) fs e = items h1 fs e := items_congr fun y hy => by
              rw [grow_run, if_neg]
              have := i2.lt y (by simp [hy]); omega
            rw [items_append, g1, i4, items_cons, items_nil, grow_run, if_pos rfl, hri, hYd, List.append_nil]
            by_cases h2 : c = []
            · subst h2; rw [hud, if_pos rfl]; simp
            · rw [hud, if_neg h2, List.drop_zero, List.drop_append_of_le_length (hcne h2)]
          refine fin (grow h1 (lst B.head (d ++ e)) r) (e ++ [h1.free]) _ (by simpa using hgr) ?_ rfl ?_ ?_ (end_ - beg) (by rw [hY]; exact hYl)
            ⟨T1.len, T.head, lst T.head a2, sum h a2⟩ rfl hT1l ⟨a2, u2 :: b2', hab2, rfl, rfl⟩ hY ?_
          · intro y hy
            rcases List.mem_append.mp hy with hy | hy
            · exact i3 y hy
            · rw [List.mem_singleton.mp hy]; exact hlf
          · have hA : Agree h h1 (B.head :: d) := i7.mono fun y h2 => by rw [List.mem_singleton.mp h2]; exact lst_mem _ _
            refine hA.trans (grow_agree h1 _ r) fun y h2 => ?_
            rw [List.mem_singleton.mp h2]
            have := lst_mem B.head (d ++ e)
            rcases List.mem_cons.mp this with h3 | h3
            · exact .inl (by rw [h3]; simp)
            · rcases List.mem_append.mp h3 with h3 | h3
              · exact .inl (by simp [h3])
              · exact .inr (i3 _ h3)
          · intro y hy
            rw [grow_run, if_neg (by omega), i8 y hy]
          · unfold save
            rw [hf, Option.bind_some, hf2, Option.bind_some]
            simp only [hp]
            rw [i1, Option.bind_some]
            simp only [hr2, hk, if_pos (show off > 0 by omega), ← hr]
            rw [← List.append_assoc, lst_snoc]
            rfl
        · have := (hu2.elem _ _ hk).1; omega

/-! ### Files that grow -/

/-- `fs'` has at least the bytes of `fs`. -/
def Grows (fs fs' : Nat → List Nat) : Prop := ∀ f, ∃ t, fs' f = fs f ++ t

theorem grows_upd {fs : Nat → List Nat} {f : Nat} (t : List Nat) : Grows fs (upd fs f (fs f ++ t)) := fun g => by
  by_cases h : g = f
  · subst h; exact ⟨t, upd_same _ _ _⟩
  · exact ⟨[], by rw [upd_ne h, List.append_nil]⟩

theorem RunOk.grows {fs' : Nat → List Nat} {fx' : Nat → Bool} {base : Option Nat} {r : Run} (h : RunOk fs fx base r) (hg : Grows fs fs')
    (hx : ∀ f, fx f = true → fx' f = true) : RunOk fs' fx' base r := by
  refine ⟨h.pos, h.fnt, h.head, fun f o a hk => ?_, h.elem⟩
  obtain ⟨t, ht⟩ := hg f
  have := h.piece f o a hk
  exact ⟨by rw [ht, List.length_append]; omega, fun ha => hx f (this.2 ha)⟩

theorem runItems_grows {fs' : Nat → List Nat} {base : Option Nat} {r : Run} (h : RunOk fs fx base r) (hg : Grows fs fs') : runItems fs' r = runItems fs r := by
  unfold runItems
  rcases hk : r.kind with _ | ⟨f, o, a⟩ | _
  · rfl
  · obtain ⟨t, ht⟩ := hg f
    have := (h.piece f o a hk).1
    simp only []
    rw [ht, List.drop_append_of_le_length (by omega), List.take_append_of_le_length (by rw [List.length_drop]; omega)]
  · rfl

theorem items_grows {fs' : Nat → List Nat} {base : Option Nat} {h : Hp} {l : List Nat} (hk : ∀ a ∈ l, RunOk fs fx base (h.run a)) (hg : Grows fs fs') :
    items h fs' l = items h fs l := by
  induction l with
  | nil => rfl
  | cons a l ih => rw [items_cons, items_cons, runItems_grows (hk a (by simp)) hg, ih fun b hb => hk b (by simp [hb])]

theorem Ring.grows {fs' : Nat → List Nat} {fx' : Nat → Bool} {base : Option Nat} {h : Hp} {hd : Nat} {l : List Nat} (hr : Ring h fs fx base hd l)
    (hg : Grows fs fs') (hx : ∀ f, fx f = true → fx' f = true) : Ring h fs' fx' base hd l :=
  ⟨hr.linked, hr.nodup, hr.lt, hr.head, fun a ha => (hr.ok a ha).grows hg hx⟩

/-! ### Writers -/

/-- The last piece of a buffer, if it is in the file, ends where the file ends. -/
def LastOk (h : Hp) (fs : Nat → List Nat) (file : Nat) (m : List Nat) : Prop :=
  ∀ m' u o a, m = m' ++ [u] → (h.run u).kind = .piece file o a → o + (h.run u).len = (fs file).length

/-- A new run at the end of a buffer. -/
theorem addRun_spec {h : Hp} {B : Buf} {m : List Nat} {r : Run} (hB : BOk h fs fx B m) (hr : RunOk fs fx none r) (hl : r.len = 1) :
    BOk (link (grow h (h.prv B.head) r) h.free B.head) fs fx { B with len := B.len + 1 } (m ++ [h.free]) ∧
    items (link (grow h (h.prv B.head) r) h.free B.head) fs (m ++ [h.free]) = items h fs m ++ runItems fs r ∧
    (link (grow h (h.prv B.head) r) h.free B.head).run h.free = r ∧
    Agree h (link (grow h (h.prv B.head) r) h.free B.head) (B.head :: m) := by
  have hp : h.prv B.head = lst B.head m := (ring_mid (l1 := m) (l2 := []) (by simpa using hB.ring.linked)).2
  rw [hp]
  have hg := (hB.ring.chain.grow hr).close
  rw [lst_snoc] at hg
  have hmr : ∀ c ∈ m, (link (grow h (lst B.head m) r) h.free B.head).run c = h.run c := fun c hc => by
    rw [link_run, grow_run, if_neg]; have := hB.ring.lt c (by simp [hc]); omega
  have hn : (link (grow h (lst B.head m) r) h.free B.head).run h.free = r := by rw [link_run, grow_run, if_pos rfl]
  refine ⟨⟨hg, ?_⟩, ?_, hn, ?_⟩
  · show B.len + 1 = _
    rw [sum_append, sum_congr hmr, sum_cons, hn, hl, sum_nil, ← hB.len]
  · rw [items_append, items_congr hmr, items_cons, hn, items_nil, List.append_nil]
  · refine ((grow_agree h (lst B.head m) r).mono fun c hc => ?_).trans (agree_link (S := [h.free, B.head]) _ (.inl (by simp)) (.inl (by simp))) fun c hc => ?_
    · rw [List.mem_singleton.mp hc]; exact lst_mem _ _
    · simp only [List.mem_cons, List.not_mem_nil, or_false] at hc
      rcases hc with rfl | rfl
      · exact .inr le_rfl
      · exact .inl (by simp)

theorem write_spec {h : Hp} {B : Buf} {W : Writer} {m : List Nat} {ch : Nat} (hB : BOk h fs fx B m) (hW : W.look.fnt ≠ none) (hl : LastOk h fs W.file m) :
    ∃ h' m', write h B W (fs W.file ++ [ch]).length = some (h', { B with len := B.len + 1 }) ∧
      BOk h' (upd fs W.file (fs W.file ++ [ch])) fx { B with len := B.len + 1 } m' ∧
      items h' (upd fs W.file (fs W.file ++ [ch])) m' = items h fs m ++ [.ch ch W.look] ∧
      LastOk h' (upd fs W.file (fs W.file ++ [ch])) W.file m' ∧ (∀ c ∈ m', c ∈ m ∨ h.free ≤ c) ∧ Agree h h' (B.head :: m) := by
  have hp : h.prv B.head = lst B.head m := (ring_mid (l1 := m) (l2 := []) (by simpa using hB.ring.linked)).2
  obtain ⟨fs', hfs'⟩ : ∃ fs', fs' = upd fs W.file (fs W.file ++ [ch]) := ⟨_, rfl⟩
  have hg : Grows fs fs' := by rw [hfs']; exact grows_upd _
  have hff : fs' W.file = fs W.file ++ [ch] := by rw [hfs']; exact upd_same _ _ _
  rw [← hfs']
  have hB' : BOk h fs' fx B m := ⟨hB.ring.grows hg fun _ h => h, hB.len⟩
  -- a new piece
  have new : write h B W (fs W.file ++ [ch]).length = some (link (grow h (h.prv B.head) ⟨1, W.look, .piece W.file (fs W.file).length false⟩) h.free B.head, { B with len := B.len + 1 }) →
      ∃ h' m', write h B W (fs W.file ++ [ch]).length = some (h', { B with len := B.len + 1 }) ∧
      BOk h' fs' fx { B with len := B.len + 1 } m' ∧ items h' fs' m' = items h fs m ++ [.ch ch W.look] ∧
      LastOk h' fs' W.file m' ∧ (∀ c ∈ m', c ∈ m ∨ h.free ≤ c) ∧ Agree h h' (B.head :: m) := by
    intro hw
    have hrok : RunOk fs' fx none ⟨1, W.look, .piece W.file (fs W.file).length false⟩ := by
      refine ⟨le_rfl, hW, by simp, fun f o a h1 => ?_, fun _ _ h1 => by simp at h1⟩
      cases h1
      exact ⟨by rw [hff]; simp, by simp⟩
    obtain ⟨a1, a2, a3, a4⟩ := addRun_spec hB' hrok rfl
    refine ⟨_, m ++ [h.free], hw, a1, ?_, ?_, ?_, a4⟩
    · rw [a2, items_grows hB.ring.ok hg]
      simp [runItems, hff, trch]
    · intro m' u o a h1 h2
      obtain ⟨-, h3⟩ := List.append_inj' h1 rfl
      obtain rfl := (List.cons.inj h3).1
      rw [a3] at h2 ⊢
      cases h2
      rw [hff]; simp
    · intro c hc
      rcases List.mem_append.mp hc with hc | hc
      · exact .inl hc
      · rw [List.mem_singleton.mp hc]; exact .inr le_rfl
  have hlen : (fs W.file ++ [ch]).length - 1 = (fs W.file).length := by simp
  have newW : extends_ (h.run (h.prv B.head)) W = some false → write h B W (fs W.file ++ [ch]).length = some (link (grow h (h.prv B.head) ⟨1, W.look, .piece W.file (fs W.file).length false⟩) h.free B.head, { B with len := B.len + 1 }) := by
    intro he
    unfold write
    simp only [he, Option.map_some, hlen]
    rfl
  rcases snoc_cases m with rfl | ⟨m', u, rfl⟩
  · refine new (newW ?_)
    rw [hp, lst_nil, extends_, hB.ring.head]
  · rw [lst_snoc] at hp
    have hu := hB.ring.ok u (by simp)
    rcases hk : (h.run u).kind with _ | ⟨f, o, a⟩ | _
    · exact absurd hk hu.head
    · by_cases hf : f = W.file
      · obtain ⟨n, hn⟩ := Option.ne_none_iff_exists'.mp hu.fnt
        obtain ⟨n', hn'⟩ := Option.ne_none_iff_exists'.mp hW
        have hex : extends_ (h.run u) W = some (decide (n = n' ∧ (h.run u).look.col = W.look.col ∧ (h.run u).look.voff = W.look.voff ∧ a = false)) := by
          unfold extends_
          simp only [hk, if_pos hf, hn, hn']
        by_cases hc : n = n' ∧ (h.run u).look.col = W.look.col ∧ (h.run u).look.voff = W.look.voff ∧ a = false
        · obtain ⟨c1, c2, c3, rfl⟩ := hc
          have hlook : (h.run u).look = W.look := by
            have : (h.run u).look.fnt = W.look.fnt := by rw [hn, hn', c1]
            revert this c2 c3
            rcases (h.run u).look with ⟨_, _, _⟩
            rcases W.look with ⟨_, _, _⟩
            rintro rfl rfl rfl; rfl
          obtain ⟨r, hr⟩ : ∃ r, r = { h.run u with len := (h.run u).len + 1 } := ⟨_, rfl⟩
          have hsu : (h.setRun u r).run u = r := setRun_same _ _ _
          have hum : u ∉ B.head :: m' := by
            have := hB.ring.nodup
            intro h1
            exact (List.nodup_append.mp (by simpa using this : ((B.head :: m') ++ [u]).Nodup)).2.2 u h1 u (by simp) rfl
          have hsn : ∀ c ∈ B.head :: m', (h.setRun u r).run c = h.run c := fun c hc => setRun_ne fun h1 => hum (h1 ▸ hc)
          subst hf
          have hlast := hl m' u o false rfl hk
          have hri : runItems fs' r = runItems fs (h.run u) ++ [.ch ch W.look] := by
            rw [hr]
            simp only [runItems, hk, hlook]
            rw [hff, List.drop_append_of_le_length (by omega)]
            rw [List.take_of_length_le (by simp; omega), List.take_of_length_le (l := List.drop o (fs W.file)) (by simp; omega)]
            simp [trch]
          have hrok : RunOk fs' fx none r := by
            rw [hr]
            refine ⟨by show 1 ≤ (h.run u).len + 1; omega, hu.fnt, hu.head, fun f o' a' h1 => ?_, fun _ _ h1 => ?_⟩
            · have h1 : (h.run u).kind = .piece f o' a' := h1
              rw [hk] at h1; cases h1
              exact ⟨by show o + ((h.run u).len + 1) ≤ _; rw [hff]; simp; omega, by simp⟩
            · have h1 : (h.run u).kind = _ := h1
              rw [hk] at h1; cases h1
          refine ⟨h.setRun u r, m' ++ [u], ?_, ⟨⟨linked_frame (h := h) (fun _ _ => rfl) (fun _ _ => rfl) hB.ring.linked, hB.ring.nodup, hB.ring.lt, ?_, ?_⟩, ?_⟩, ?_, ?_, fun c hc => .inl hc, ?_⟩
          · unfold write
            have hex' : extends_ (h.run u) W = some true := by rw [hex, decide_eq_true ⟨c1, c2, c3, rfl⟩]
            simp only [hp, hex', Option.map_some, if_true, hr]
          · rw [hsn _ (by simp)]; exact hB.ring.head
          · intro c hc
            rcases List.mem_append.mp hc with hc | hc
            · rw [hsn c (by simp [hc])]; exact hB'.ring.ok c (by simp [hc])
            · rw [List.mem_singleton.mp hc, hsu]; exact hrok
          · show B.len + 1 = _
            rw [hB.len, sum_append, sum_append, sum_congr fun c hc => hsn c (by simp [hc]), sum_cons, sum_cons, hsu, hr]; simp; ring
          · rw [items_append, items_congr fun c hc => hsn c (by simp [hc]), items_grows (fun c hc => hB.ring.ok c (by simp [hc])) hg, items_cons, hsu, hri]; simp
          · intro m'' u' o' a' h1 h2
            obtain ⟨-, h3⟩ := List.append_inj' h1 rfl
            obtain rfl := (List.cons.inj h3).1
            rw [hsu, hr] at h2 ⊢
            have h2 : (h.run u).kind = _ := h2
            rw [hk] at h2; cases h2
            show o + ((h.run u).len + 1) = _
            rw [hff]; simp; omega
          · exact agree_setRun h (.inl (by simp))
        · refine new (newW ?_)
          rw [hp, hex, decide_eq_false hc]
      · refine new (newW ?_)
        rw [hp]
        unfold extends_
        simp only [hk, if_neg hf]
    · refine new (newW ?_)
      rw [hp]
      unfold extends_
      simp only [hk]

theorem writeElem_spec {h : Hp} {B : Buf} {W : Writer} {m : List Nat} {g : Nat} (hB : BOk h fs fx B m) (hW : W.look.fnt ≠ none) :
    ∃ h' m', writeElem h B W g = (h', { B with len := B.len + 1 }) ∧ BOk h' fs fx { B with len := B.len + 1 } m' ∧
      items h' fs m' = items h fs m ++ [.el g W.look] ∧ LastOk h' fs W.file m' ∧ (∀ c ∈ m', c ∈ m ∨ h.free ≤ c) ∧ Agree h h' (B.head :: m) := by
  have hrok : RunOk fs fx none ⟨1, W.look, .elem g none⟩ :=
    ⟨le_rfl, hW, by simp, fun _ _ _ h1 => by simp at h1, fun _ _ h1 => by cases h1; exact ⟨rfl, rfl⟩⟩
  obtain ⟨a1, a2, a3, a4⟩ := addRun_spec hB hrok rfl
  refine ⟨_, m ++ [h.free], rfl, a1, a2, ?_, ?_, a4⟩
  · intro m' u o a h1 h2
    obtain ⟨-, h3⟩ := List.append_inj' h1 rfl
    obtain rfl := (List.cons.inj h3).1
    have h2 : (Hp.run (link (grow h (h.prv B.head) ⟨1, W.look, .elem g none⟩) h.free B.head) h.free).kind = _ := h2
    rw [a3] at h2; cases h2
  · intro c hc
    rcases List.mem_append.mp hc with hc | hc
    · exact .inl hc
    · rw [List.mem_singleton.mp hc]; exact .inr le_rfl

/-! ### Open -/

theorem openText_spec (h : Hp) (t file : Nat) (bytes : List Nat) (h0 : fs file = []) :
    ∃ h' T l, openText h file bytes.length = (h', T) ∧ TOk h' (upd fs file bytes) (upd fx file true) t T l ∧
      items h' (upd fs file bytes) l = bytes.map fileItem ∧ (∀ c ∈ T.head :: l, h.free ≤ c) ∧ Agree h h' [] ∧
      (h'.run T.head).len = maxLen := by
  by_cases hb : bytes = []
  · subst hb
    refine ⟨_, _, [], by rw [openText, if_neg (by simp)], ⟨⟨⟨upd_same _ _ _, upd_same _ _ _, trivial⟩, by simp, ?_, ?_, by simp⟩, rfl, ⟨[], [], rfl, rfl, rfl⟩⟩, rfl, ?_, ?_, ?_⟩
    · intro a ha; rw [List.mem_singleton.mp ha]; exact Nat.lt_succ_self _
    · show (upd h.run h.free _ h.free).kind = _; rw [upd_same]
    · intro c hc; rw [List.mem_singleton.mp hc]
    · exact ⟨fun c h1 _ => upd_ne (by omega), fun c h1 _ => upd_ne (by omega), fun c h1 _ => upd_ne (by omega), Nat.le_succ _⟩
    · show (upd h.run h.free _ h.free).len = _; rw [upd_same]
  · have hlen : bytes.length > 0 := List.length_pos_iff.mpr hb
    obtain ⟨u, hu⟩ : ∃ u, u = h.free := ⟨_, rfl⟩
    obtain ⟨h', o1, hN, hP, hR, hF⟩ : ∃ h', openText h file bytes.length = (h', ⟨bytes.length, u, u, 0⟩) ∧
        (∀ c, h'.nxt c = if c = u + 1 then u else if c = u then u + 1 else h.nxt c) ∧
        (∀ c, h'.prv c = if c = u + 1 then u else if c = u then u + 1 else h.prv c) ∧
        (∀ c, h'.run c = if c = u + 1 then ⟨bytes.length, stdLook, .piece file 0 true⟩ else if c = u then ⟨maxLen, ⟨none, 15, 0⟩, .head⟩ else h.run c) ∧
        h'.free = u + 2 := by
      refine ⟨_, by rw [openText, if_pos hlen, hu], ?_, ?_, ?_, by rw [hu]; rfl⟩
      all_goals intro c; rw [hu]; rfl
    have hRp : h'.run (u + 1) = ⟨bytes.length, stdLook, .piece file 0 true⟩ := by rw [hR, if_pos rfl]
    have hRu : h'.run u = ⟨maxLen, ⟨none, 15, 0⟩, .head⟩ := by rw [hR, if_neg (by omega), if_pos rfl]
    have hff : upd fs file bytes file = bytes := upd_same _ _ _
    refine ⟨h', _, [u + 1], o1, ⟨⟨⟨?_, ?_, ?_, ?_, trivial⟩, by simp, ?_, ?_, ?_⟩, ?_, ⟨[], [u + 1], rfl, rfl, rfl⟩⟩, ?_, ?_, ?_, ?_⟩
    · rw [hN, if_neg (by simp), if_pos rfl]
    · rw [hP, if_pos rfl]
    · rw [hN, if_pos rfl]
    · rw [hP, if_neg (by simp), if_pos rfl]
    · intro a ha
      simp only [List.mem_cons, List.not_mem_nil, or_false] at ha
      rw [hF]; omega
    · show (h'.run u).kind = _; rw [hRu]
    · intro a ha
      rw [List.mem_singleton.mp ha, hRp]
      refine ⟨hlen, by simp [stdLook], by simp, fun f o a h1 => ?_, fun _ _ h1 => by simp at h1⟩
      cases h1
      exact ⟨by simp [hff], fun _ => upd_same _ _ _⟩
    · show bytes.length = _
      rw [sum_cons, hRp]; simp
    · rw [items_cons, hRp]
      simp only [runItems, hff, List.drop_zero, List.take_length, items_nil, List.append_nil]
      exact List.map_congr_left fun c _ => by simp [trch, fileItem]
    · intro c hc
      simp only [List.mem_cons, List.not_mem_nil, or_false] at hc
      omega
    · refine ⟨fun c h1 _ => ?_, fun c h1 _ => ?_, fun c h1 _ => ?_, by omega⟩
      · rw [hN, if_neg (by omega), if_neg (by omega)]
      · rw [hP, if_neg (by omega), if_neg (by omega)]
      · rw [hR, if_neg (by omega), if_neg (by omega)]
    · show (h'.run u).len = _; rw [hRu]

end Verif.Texts
