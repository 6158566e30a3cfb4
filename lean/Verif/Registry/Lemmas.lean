import Verif.Common
import Verif.Registry.Spec

namespace Verif.Registry

/-- The commands in the list starting at `a`. -/
def CChain (cs : Nat → Cmd) : Nat → List (Name × Nat) → Prop
  | a, [] => a = 0
  | a, (n, c) :: l => a ≠ 0 ∧ (cs a).name = n ∧ (cs a).cmd = c ∧ CChain cs (cs a).next l

/-- All the addresses in the list of commands starting at `a` are below `b`. -/
def CBelow (cs : Nat → Cmd) (b : Nat) : Nat → List (Name × Nat) → Prop
  | _, [] => True
  | a, _ :: l => a < b ∧ CBelow cs b (cs a).next l

/-- The list of modules starting at `a`. -/
def MChain (s : RS) : Nat → List Entry → Prop
  | a, [] => a = 0
  | a, e :: l => a ≠ 0 ∧ a = e.id ∧ a < s.fm ∧ (s.mods a).name = e.name ∧ (s.mods a).refcnt = e.refs ∧
      CChain s.cs (s.mods a).cmds e.cmds ∧ CBelow s.cs s.fc (s.mods a).cmds e.cmds ∧ MChain s (s.mods a).next l

/-- The code's records describe the entries `es`. -/
structure Abs (s : RS) (es : List Entry) : Prop where
  chain : MChain s s.modules es
  nodup : (es.map (·.id)).Nodup
  fm : 1 ≤ s.fm
  fc : 1 ≤ s.fc

theorem cchain_upd {cs : Nat → Cmd} {b : Nat} {x : Cmd} : ∀ {l : List (Name × Nat)} {a : Nat}, CChain cs a l → CBelow cs b a l →
    CChain (updC cs b x) a l ∧ CBelow (updC cs b x) (b + 1) a l
  | [], a, h, _ => ⟨h, trivial⟩
  | (n, c) :: l, a, ⟨h1, h2, h3, h4⟩, ⟨h5, h6⟩ => by
    have e : updC cs b x a = cs a := by unfold updC; rw [if_neg (by omega)]
    obtain ⟨i1, i2⟩ := cchain_upd h4 h6 (x := x)
    refine ⟨⟨h1, by rw [e]; exact h2, by rw [e]; exact h3, by rw [e]; exact i1⟩, ⟨by omega, by rw [e]; exact i2⟩⟩

theorem mchain_mem {s : RS} : ∀ {es : List Entry} {a : Nat}, MChain s a es → ∀ e ∈ es, e.id ≠ 0 ∧ e.id < s.fm
  | [], _, _, _, he => absurd he (by simp)
  | e' :: l, a, ⟨h1, h2, h3, _, _, _, _, h8⟩, e, he => by
    rcases List.mem_cons.1 he with rfl | he
    · rw [← h2]; exact ⟨h1, h3⟩
    · exact mchain_mem h8 e he

/-- A change to the record `m` that keeps the other records. -/
theorem mchain_map {s s' : RS} {m : Nat} {g : Entry → Entry} (hm : ∀ k, k ≠ m → s'.mods k = s.mods k) (hfm : s.fm ≤ s'.fm)
    (hg : ∀ e, (g e).id = e.id)
    (hold : ∀ e : Entry, e.id ≠ m → g e = e)
    (hcs : ∀ (a : Nat) (l : List (Name × Nat)), CChain s.cs a l → CBelow s.cs s.fc a l → CChain s'.cs a l ∧ CBelow s'.cs s'.fc a l)
    (hnew : ∀ e : Entry, e.id = m → (s.mods m).name = e.name → (s.mods m).refcnt = e.refs →
      CChain s.cs (s.mods m).cmds e.cmds → CBelow s.cs s.fc (s.mods m).cmds e.cmds →
      (s'.mods m).name = (g e).name ∧ (s'.mods m).refcnt = (g e).refs ∧ CChain s'.cs (s'.mods m).cmds (g e).cmds ∧
        CBelow s'.cs s'.fc (s'.mods m).cmds (g e).cmds ∧ (s'.mods m).next = (s.mods m).next) :
    ∀ {es : List Entry} {a : Nat}, MChain s a es → MChain s' a (es.map g)
  | [], _, h => h
  | e :: l, a, ⟨h1, h2, h3, h4, h5, h6, h7, h8⟩ => by
    have ih := mchain_map hm hfm hg hold hcs hnew h8
    by_cases ha : a = m
    · subst ha
      obtain ⟨n1, n2, n3, n4, n5⟩ := hnew e h2.symm h4 h5 h6 h7
      exact ⟨h1, by rw [hg]; exact h2, by omega, n1, n2, n3, n4, by rw [n5]; exact ih⟩
    · have hge : g e = e := hold e (by omega)
      obtain ⟨c1, c2⟩ := hcs _ _ h6 h7
      refine ⟨h1, by rw [hg]; exact h2, by omega, ?_, ?_, ?_, ?_, ?_⟩
      · rw [hm a ha, hge]; exact h4
      · rw [hm a ha, hge]; exact h5
      · rw [hm a ha, hge]; exact c1
      · rw [hm a ha, hge]; exact c2
      · rw [hm a ha]; exact ih

theorem abs_regMod {s : RS} {es : List Entry} (h : Abs s es) (n : Name) :
    Abs (regMod s n).1 (⟨s.fm, n.take 19, 0, []⟩ :: es) := by
  have hm : ∀ k, k ≠ s.fm → (regMod s n).1.mods k = s.mods k := fun k hk => by
    simp only [regMod, updM]; rw [if_neg hk]
  have hs : (regMod s n).1.mods s.fm = ⟨s.modules, n.take 19, 0, 0⟩ := by simp [regMod, updM, copyName]
  have hc : MChain (regMod s n).1 s.modules es := by
    have gen : ∀ {es : List Entry} {a : Nat}, MChain s a es → MChain (regMod s n).1 a es := by
      intro es
      induction es with
      | nil => exact fun h => h
      | cons e l ih =>
        rintro a ⟨h1, h2, h3, h4, h5, h6, h7, h8⟩
        have e1 := hm a (by omega)
        refine ⟨h1, h2, by simp only [regMod]; omega, ?_, ?_, ?_, ?_, ?_⟩ <;> rw [e1] <;> try assumption
        exact ih h8
    exact gen h.chain
  refine ⟨⟨?_, rfl, ?_, ?_, ?_, ?_, ?_, ?_⟩, ?_, ?_, h.fc⟩
  · have := h.fm; simp only [regMod]; omega
  · simp only [regMod]; omega
  · show ((regMod s n).1.mods s.fm).name = _; rw [hs]
  · show ((regMod s n).1.mods s.fm).refcnt = _; rw [hs]
  · show CChain _ ((regMod s n).1.mods s.fm).cmds _; rw [hs]; rfl
  · trivial
  · show MChain _ ((regMod s n).1.mods s.fm).next _; rw [hs]; exact hc
  · simp only [List.map_cons, List.nodup_cons]
    refine ⟨?_, h.nodup⟩
    intro hx
    obtain ⟨e, he, hid⟩ := List.mem_map.1 hx
    have := (mchain_mem h.chain e he).2
    omega
  · simp only [regMod]; omega

theorem map_ids {es : List Entry} {g : Entry → Entry} (hg : ∀ e, (g e).id = e.id) :
    (es.map g).map (·.id) = es.map (·.id) := by
  rw [List.map_map]; apply List.map_congr_left; intro e _; exact hg e

theorem abs_regCmd {s : RS} {es : List Entry} (h : Abs s es) (m : Nat) (n : Name) (c : Nat) :
    Abs (regCmd s m n c) (es.map fun e => if e.id = m then { e with cmds := (n.take 23, c) :: e.cmds } else e) := by
  obtain ⟨g, hg⟩ : ∃ g : Entry → Entry, g = fun e => if e.id = m then { e with cmds := (n.take 23, c) :: e.cmds } else e := ⟨_, rfl⟩
  rw [← hg]
  have hid : ∀ e, (g e).id = e.id := by intro e; rw [hg]; dsimp only; split <;> rfl
  have hs : (regCmd s m n c).mods m = { s.mods m with cmds := s.fc } := by simp [regCmd, updM]
  have hc : (regCmd s m n c).cs s.fc = ⟨n.take 23, (s.mods m).cmds, c⟩ := by simp [regCmd, updC, copyName]
  refine ⟨?_, by rw [map_ids hid]; exact h.nodup, h.fm, by simp only [regCmd]; omega⟩
  refine mchain_map (s := s) (s' := regCmd s m n c) (m := m) ?_ (Nat.le_refl _) hid ?_ ?_ ?_ h.chain
  · intro k hk; simp only [regCmd, updM]; rw [if_neg hk]
  · intro e he; rw [hg]; dsimp only; rw [if_neg he]
  · intro a l h1 h2; exact cchain_upd h1 h2
  · intro e he h1 h2 h3 h4
    have hge : g e = { e with cmds := (n.take 23, c) :: e.cmds } := by rw [hg]; dsimp only; rw [if_pos he]
    rw [hge, hs]
    obtain ⟨c1, c2⟩ := cchain_upd (x := ⟨n.take 23, (s.mods m).cmds, c⟩) h3 h4
    refine ⟨h1, h2, ⟨?_, ?_, ?_, ?_⟩, ⟨?_, ?_⟩, rfl⟩
    · have := h.fc; show s.fc ≠ 0; omega
    · show ((regCmd s m n c).cs s.fc).name = _; rw [hc]
    · show ((regCmd s m n c).cs s.fc).cmd = _; rw [hc]
    · show CChain _ ((regCmd s m n c).cs s.fc).next _; rw [hc]; exact c1
    · show s.fc < _; simp only [regCmd]; omega
    · show CBelow _ _ ((regCmd s m n c).cs s.fc).next _; rw [hc]; exact c2

theorem abs_incRef {s : RS} {es : List Entry} (h : Abs s es) (m : Nat) :
    Abs (incRef s m) (es.map fun e => if e.id = m then { e with refs := e.refs + 1 } else e) := by
  obtain ⟨g, hg⟩ : ∃ g : Entry → Entry, g = fun e => if e.id = m then { e with refs := e.refs + 1 } else e := ⟨_, rfl⟩
  rw [← hg]
  have hid : ∀ e, (g e).id = e.id := by intro e; rw [hg]; dsimp only; split <;> rfl
  have hs : (incRef s m).mods m = { s.mods m with refcnt := (s.mods m).refcnt + 1 } := by simp [incRef, updM]
  refine ⟨?_, by rw [map_ids hid]; exact h.nodup, h.fm, h.fc⟩
  refine mchain_map (s := s) (s' := incRef s m) (m := m) ?_ (Nat.le_refl _) hid ?_ (fun _ _ h1 h2 => ⟨h1, h2⟩) ?_ h.chain
  · intro k hk; simp only [incRef, updM]; rw [if_neg hk]
  · intro e he; rw [hg]; dsimp only; rw [if_neg he]
  · intro e he h1 h2 h3 h4
    have hge : g e = { e with refs := e.refs + 1 } := by rw [hg]; dsimp only; rw [if_pos he]
    rw [hge, hs]
    exact ⟨h1, by simp only; omega, h3, h4, rfl⟩

/-- The search stops at the first entry with the name. -/
theorem search_ok {s : RS} {n : Name} : ∀ {es : List Entry} {a p : Nat}, MChain s a es →
    ∃ r, (∃ F, ∀ f, F ≤ f → search f s n a p = some r) ∧
      ((r.1 = 0 ∧ ∀ e ∈ es, e.name ≠ n) ∨
        ∃ l1 e l2, es = l1 ++ e :: l2 ∧ (∀ e' ∈ l1, e'.name ≠ n) ∧ e.name = n ∧ r.1 = e.id ∧ (s.mods e.id).refcnt = e.refs ∧
          MChain s (s.mods e.id).next l2 ∧
          r.2 = match l1.getLast? with | none => p | some e' => e'.id)
  | [], a, p, h => by
    refine ⟨(a, p), ⟨1, fun f hf => ?_⟩, Or.inl ⟨h, by simp⟩⟩
    obtain ⟨g, rfl⟩ : ∃ g, f = g + 1 := ⟨f - 1, by omega⟩
    have h' : a = 0 := h
    simp [search, h']
  | e :: es, a, p, ⟨h1, h2, h3, h4, h5, h6, h7, h8⟩ => by
    by_cases hn : e.name = n
    · refine ⟨(a, p), ⟨1, fun f hf => ?_⟩, Or.inr ⟨[], e, es, rfl, by simp, hn, h2, by rw [← h2]; exact h5, by rw [← h2]; exact h8, rfl⟩⟩
      obtain ⟨g, rfl⟩ : ∃ g, f = g + 1 := ⟨f - 1, by omega⟩
      simp only [search]
      rw [if_neg (by rw [h4]; exact fun h => h.2 hn)]
    · obtain ⟨r, ⟨F, hF⟩, hr⟩ := search_ok (n := n) (p := a) h8
      refine ⟨r, ⟨F + 1, fun f hf => ?_⟩, ?_⟩
      · obtain ⟨g, rfl⟩ : ∃ g, f = g + 1 := ⟨f - 1, by omega⟩
        simp only [search]
        rw [if_pos ⟨h1, by rw [h4]; exact hn⟩]
        exact hF g (by omega)
      · rcases hr with ⟨r0, hall⟩ | ⟨l1, e', l2, rfl, q1, q2, q3, q4, q5, q6⟩
        · refine Or.inl ⟨r0, ?_⟩
          intro e' he'
          rcases List.mem_cons.1 he' with rfl | he'
          · exact hn
          · exact hall e' he'
        · refine Or.inr ⟨e :: l1, e', l2, rfl, ?_, q2, q3, q4, q5, ?_⟩
          · intro x hx
            rcases List.mem_cons.1 hx with rfl | hx
            · exact hn
            · exact q1 x hx
          · rw [q6]
            cases l1 with
            | nil => simp [h2]
            | cons x l1 =>
              obtain ⟨z, hz⟩ : ∃ z, (x :: l1).getLast? = some z := ⟨_, List.getLast?_eq_some_getLast (by simp)⟩
              rw [List.getLast?_cons_cons, hz]

/-- The list with the entry after `l0` taken out. -/
theorem mchain_unlink {s : RS} {q v : Nat} : ∀ {l0 : List Entry} {x e : Entry} {l2 : List Entry} {a : Nat},
    MChain s a (l0 ++ x :: e :: l2) → ((l0 ++ x :: e :: l2).map (·.id)).Nodup → q = x.id → v = (s.mods e.id).next →
    MChain { s with mods := updM s.mods q { s.mods q with next := v } } a (l0 ++ x :: l2)
  | [], x, e, l2, a, ⟨h1, h2, h3, h4, h5, h6, h7, _, h9, _, _, _, _, _, h15⟩, hnd, hq, hv => by
    have hqa : q = a := by omega
    subst hqa
    have gen : ∀ {es : List Entry} {b : Nat}, q ∉ es.map (·.id) → MChain s b es →
        MChain { s with mods := updM s.mods q { s.mods q with next := v } } b es := by
      intro es
      induction es with
      | nil => exact fun _ h => h
      | cons y l ih =>
        rintro b hn ⟨k1, k2, k3, k4, k5, k6, k7, k8⟩
        simp only [List.map_cons, List.mem_cons, not_or] at hn
        have e1 : updM s.mods q { s.mods q with next := v } b = s.mods b := by
          unfold updM; rw [if_neg (by omega)]
        refine ⟨k1, k2, k3, ?_, ?_, ?_, ?_, ?_⟩ <;> simp only [e1] <;> try assumption
        exact ih hn.2 k8
    have e1 : updM s.mods q { s.mods q with next := v } q = { s.mods q with next := v } := by simp [updM]
    simp only [List.nil_append, List.map_cons, List.nodup_cons, List.mem_cons, not_or] at hnd
    refine ⟨h1, h2, h3, ?_, ?_, ?_, ?_, ?_⟩
    · simp only [e1]; exact h4
    · simp only [e1]; exact h5
    · simp only [e1]; exact h6
    · simp only [e1]; exact h7
    · simp only [e1]
      apply gen
      · rw [hq]; exact hnd.1.2
      · rw [hv, ← h9]; exact h15
  | y :: l0, x, e, l2, a, ⟨h1, h2, h3, h4, h5, h6, h7, h8⟩, hnd, hq, hv => by
    simp only [List.cons_append, List.map_cons, List.nodup_cons] at hnd
    have hne : a ≠ q := by
      intro h
      apply hnd.1
      simp only [List.map_append, List.map_cons, List.mem_append, List.mem_cons]
      right; left; omega
    have e1 : updM s.mods q { s.mods q with next := v } a = s.mods a := by
      unfold updM; rw [if_neg hne]
    have ih := mchain_unlink h8 hnd.2 hq hv
    refine ⟨h1, h2, h3, ?_, ?_, ?_, ?_, ?_⟩ <;> simp only [e1] <;> try assumption

/-- `FreeModule` on the entries. -/
def freeSpec (es : List Entry) (n : Name) : List Entry × Int :=
  match es.find? (fun e => e.name == n) with
  | some e => if e.refs = 0 then (es.filter (fun e' => e'.id ≠ e.id), 0) else (es, e.refs)
  | none => (es, -1)

theorem find_split {es l1 l2 : List Entry} {e : Entry} {n : Name} (he : es = l1 ++ e :: l2) (h1 : ∀ e' ∈ l1, e'.name ≠ n)
    (h2 : e.name = n) : es.find? (fun e => e.name == n) = some e := by
  rw [he, List.find?_append]
  have : l1.find? (fun e => e.name == n) = none := by
    rw [List.find?_eq_none]; intro x hx; simp [h1 x hx]
  rw [this]
  simp [h2]

theorem filter_split {l1 l2 : List Entry} {e : Entry} (hnd : ((l1 ++ e :: l2).map (·.id)).Nodup) :
    (l1 ++ e :: l2).filter (fun e' => e'.id ≠ e.id) = l1 ++ l2 := by
  simp only [List.map_append, List.map_cons, List.nodup_append, List.nodup_cons, List.mem_map, List.mem_cons] at hnd
  obtain ⟨_, ⟨h1, _⟩, h2⟩ := hnd
  rw [List.filter_append, List.filter_cons]
  simp only [ne_eq, not_true_eq_false, decide_false, Bool.false_eq_true, if_false]
  congr 1
  · rw [List.filter_eq_self]
    intro x hx
    simpa using h2 x.id ⟨x, hx, rfl⟩ e.id (Or.inl rfl)
  · rw [List.filter_eq_self]
    intro x hx
    simpa using fun h => h1 ⟨x, hx, h⟩

theorem abs_free {s : RS} {es : List Entry} (h : Abs s es) (n : Name) :
    ∃ s', (∃ F, ∀ f, F ≤ f → freeModule f s n = some (s', (freeSpec es n).2)) ∧ Abs s' (freeSpec es n).1 ∧ s'.fm = s.fm := by
  obtain ⟨r, ⟨F, hF⟩, hr⟩ := search_ok (n := n) (p := 0) h.chain
  rcases hr with ⟨r0, hall⟩ | ⟨l1, e, l2, hes, q1, q2, q3, q4, q5, q6⟩
  · have hfs : freeSpec es n = (es, -1) := by
      have : es.find? (fun e => e.name == n) = none := by
        rw [List.find?_eq_none]; intro x hx; simp [hall x hx]
      simp only [freeSpec, this]
    rw [hfs]
    refine ⟨s, ⟨F, fun f hf => ?_⟩, h, rfl⟩
    simp only [freeModule, hF f hf, Option.bind_some]
    rw [if_neg (by simp [r0]), if_pos r0]
  · have hfi := find_split hes q1 q2
    have hmem : e ∈ es := by rw [hes]; simp
    have he0 := (mchain_mem h.chain e hmem).1
    by_cases hz : e.refs = 0
    · have hfs : freeSpec es n = (l1 ++ l2, 0) := by
        have hnd := h.nodup
        rw [hes] at hnd
        simp only [freeSpec, hfi, if_pos hz, Prod.mk.injEq, and_true]
        rw [hes]; exact filter_split hnd
      rw [hfs]
      have hsub : ((l1 ++ l2).map (·.id)).Nodup := by
        refine h.nodup.sublist (List.Sublist.map _ ?_)
        rw [hes]; exact List.Sublist.append_left (List.sublist_cons_self _ _) _
      by_cases hh : e.id = s.modules
      · have hl1 : l1 = [] := by
          cases l1 with
          | nil => rfl
          | cons y l1 =>
            exfalso
            have hc := h.chain
            have hnd := h.nodup
            rw [hes] at hc hnd
            simp only [List.cons_append, List.map_cons, List.nodup_cons, List.map_append, List.mem_append, List.mem_cons] at hnd
            exact hnd.1 (Or.inr (Or.inl (by rw [← hc.2.1, hh])))
        subst hl1
        refine ⟨{ s with modules := (s.mods e.id).next }, ⟨F, fun f hf => ?_⟩, ⟨?_, hsub, h.fm, h.fc⟩, rfl⟩
        · simp only [freeModule, hF f hf, Option.bind_some, q3]
          rw [if_pos ⟨he0, by omega⟩, if_pos hh]
        · have gen : ∀ {es : List Entry} {b : Nat}, MChain s b es → MChain { s with modules := (s.mods e.id).next } b es := by
            intro es
            induction es with
            | nil => exact fun h => h
            | cons y l ih =>
              rintro b ⟨k1, k2, k3, k4, k5, k6, k7, k8⟩
              exact ⟨k1, k2, k3, k4, k5, k6, k7, ih k8⟩
          exact gen q5
      · have hl1 : l1 ≠ [] := by
          rintro rfl
          have hc := h.chain
          rw [hes] at hc
          exact hh (hc.2.1).symm
        obtain ⟨l0, x, rfl⟩ : ∃ l0 x, l1 = l0 ++ [x] := ⟨l1.dropLast, l1.getLast hl1, (List.dropLast_append_getLast hl1).symm⟩
        have hp : r.2 = x.id := by rw [q6]; simp
        have hc := h.chain
        have hnd := h.nodup
        rw [hes] at hc hnd
        simp only [List.append_assoc, List.cons_append, List.nil_append] at hc hnd hsub ⊢
        refine ⟨{ s with mods := updM s.mods r.2 { s.mods r.2 with next := (s.mods e.id).next } }, ⟨F, fun f hf => ?_⟩,
          ⟨?_, hsub, h.fm, h.fc⟩, rfl⟩
        · simp only [freeModule, hF f hf, Option.bind_some, q3]
          rw [if_pos ⟨he0, by omega⟩, if_neg hh]
        · exact mchain_unlink hc hnd hp rfl
    · have hfs : freeSpec es n = (es, (e.refs : Int)) := by
        simp only [freeSpec, hfi, if_neg hz]
      rw [hfs]
      refine ⟨s, ⟨F, fun f hf => ?_⟩, h, rfl⟩
      simp only [freeModule, hF f hf, Option.bind_some, q3]
      rw [if_neg (by rintro ⟨_, h⟩; omega), if_neg he0, q4]

theorem searchCmd_ok {s : RS} {n : Name} : ∀ {l : List (Name × Nat)} {a : Nat}, CChain s.cs a l →
    ∃ r, (∃ F, ∀ f, F ≤ f → searchCmd f s n a = some r) ∧
      match l.find? (fun x => x.1 == n) with
      | some x => r ≠ 0 ∧ (s.cs r).cmd = x.2
      | none => r = 0
  | [], a, h => by
    have h' : a = 0 := h
    refine ⟨a, ⟨1, fun f hf => ?_⟩, h'⟩
    obtain ⟨g, rfl⟩ : ∃ g, f = g + 1 := ⟨f - 1, by omega⟩
    simp [searchCmd, h']
  | (m, c) :: l, a, ⟨h1, h2, h3, h4⟩ => by
    by_cases hn : m = n
    · refine ⟨a, ⟨1, fun f hf => ?_⟩, ?_⟩
      · obtain ⟨g, rfl⟩ : ∃ g, f = g + 1 := ⟨f - 1, by omega⟩
        simp only [searchCmd]
        rw [if_neg (by rw [h2]; exact fun h => h.2 hn)]
      · simp [hn, h1, h3]
    · obtain ⟨r, ⟨F, hF⟩, hr⟩ := searchCmd_ok (n := n) h4
      refine ⟨r, ⟨F + 1, fun f hf => ?_⟩, ?_⟩
      · obtain ⟨g, rfl⟩ : ∃ g, f = g + 1 := ⟨f - 1, by omega⟩
        simp only [searchCmd]
        rw [if_pos ⟨h1, by rw [h2]; exact hn⟩]
        exact hF g (by omega)
      · rw [List.find?_cons]
        have : ((m, c).1 == n) = false := by simp [hn]
        rw [this]; exact hr

end Verif.Registry
