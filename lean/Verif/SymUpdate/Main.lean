import Verif.SymUpdate.Write

/-! The history of all objects and the resulting error codes (C69). -/
namespace Verif.SymUpdate
open Verif.FPrint

def recOf (d : Decl) : Rec := ⟨(0, d.name), d.exported, d.fp, .inserted, some d.kind⟩
def recOfF (x : Foreign) : Rec := ⟨x.key, false, x.fp, if x.consistent then .same else .inconsistent, none⟩

/-- The history of an object by the comparison of fingerprints. -/
def diff (a b : Fp) (h : Hist) : Hist := if a.pb ≠ b.pb then .pbmodified else if a.pv ≠ b.pv then .pvmodified else h

theorem diff_self (a : Fp) (h : Hist) : diff a a h = h := by simp [diff]

theorem diff_ne {a b : Fp} (h : Hist) (hn : a ≠ b) : diff a b h = .pbmodified ∨ diff a b h = .pvmodified := by
  unfold diff
  by_cases h1 : a.pb = b.pb
  · by_cases h2 : a.pv = b.pv
    · exact absurd (by cases a; cases b; simp_all) hn
    · right; simp [h1, h2]
  · left; simp [h1]

/-- The objects after the old symbol file is read. -/
def after (s : Src) (f : File) : List Rec := f.foldl readEntry s.scope

theorem scope_eq (s : Src) : s.scope = s.decls.map recOf ++ s.foreign.map recOfF := rfl

theorem decl_hist {f : File} (h : FileOk f) (d : Decl) :
    (∃ fp, Exports f d.name fp ∧ (Describes f (0, d.name) fp ∨ ∀ fp', ¬ Describes f (0, d.name) fp') ∧
      (f.foldl step (recOf d)).hist = if d.exported then diff d.fp fp .same else .removed) ∨
    (∀ fp, ¬ Exports f d.name fp) ∧ (∃ fp, Describes f (0, d.name) fp ∧
      (f.foldl step (recOf d)).hist = diff d.fp fp (if d.exported then .inserted else .same)) ∨
    (∀ fp, ¬ Exports f d.name fp) ∧ (∀ fp, ¬ Describes f (0, d.name) fp) ∧ (f.foldl step (recOf d)).hist = .inserted := by
  by_cases h1 : ∃ fp a, Entry.obj d.name fp a ∈ f
  · obtain ⟨fp, a, hm⟩ := h1
    refine .inl ⟨fp, .inl ⟨a, hm⟩, .inr (fun fp' => h.obj _ _ _ hm fp'), ?_⟩
    rw [hist_obj h (r := recOf d) rfl hm]
    simp only [recOf, diff]
    by_cases e1 : d.exported = true <;> by_cases e2 : fp.pb = d.fp.pb <;> by_cases e3 : fp.pv = d.fp.pv <;>
      simp_all [eq_comm (a := d.fp.pb), eq_comm (a := d.fp.pv)]
  by_cases h2 : Entry.typ d.name ∈ f
  · obtain ⟨pre, post, he⟩ := List.append_of_mem h2
    obtain ⟨fp, hs⟩ := h.typ _ _ _ he
    have hs : Entry.struct (some (0, d.name)) fp ∈ f := by rw [he]; exact List.mem_append_left _ hs
    refine .inl ⟨fp, .inr ⟨h2, hs⟩, .inl hs, ?_⟩
    rw [hist_typ h (r := recOf d) rfl rfl h2 hs]
    simp only [recOf, diff]
    by_cases e1 : d.exported = true <;> by_cases e2 : d.fp.pb = fp.pb <;> by_cases e3 : d.fp.pv = fp.pv <;> simp [e1, e2, e3]
  have hno : ∀ fp, ¬ Exports f d.name fp := by
    rintro fp (⟨a, hm⟩ | ⟨hm, -⟩)
    · exact h1 ⟨fp, a, hm⟩
    · exact h2 hm
  right
  by_cases h3 : ∃ fp, Entry.struct (some (0, d.name)) fp ∈ f
  · obtain ⟨fp, hs⟩ := h3
    refine .inl ⟨hno, fp, hs, ?_⟩
    rw [hist_struct h (r := recOf d) rfl hs]
    · simp only [cmpStruct, recOf, ne_eq, not_true, if_false, diff]
      by_cases e1 : d.exported = true <;> by_cases e2 : d.fp.pb = fp.pb <;> by_cases e3 : d.fp.pv = fp.pv <;> simp [e1, e2, e3]
    · intro n hn
      have hn : d.name = n := by simpa [recOf] using hn
      subst hn
      exact ⟨h2, fun fp a hm => h1 ⟨fp, a, hm⟩⟩
  · refine .inr ⟨hno, fun fp hd => h3 ⟨fp, hd⟩, ?_⟩
    rw [steps_not]
    · rfl
    · intro e he ht
      cases e with
      | struct k fp => simp only [touches] at ht; subst ht; exact h3 ⟨fp, he⟩
      | typ n =>
        simp only [touches, recOf, Prod.mk.injEq, true_and] at ht; subst ht; exact h2 he
      | obj n fp a =>
        simp only [touches, recOf, Prod.mk.injEq, true_and] at ht; subst ht; exact h1 ⟨fp, a, he⟩

theorem foreign_hist {f : File} (h : FileOk f) (x : Foreign) (hx : x.key.1 ≠ 0) :
    (∃ fp, Describes f x.key fp ∧ (f.foldl step (recOfF x)).hist = if x.consistent then diff x.fp fp .same else .inconsistent) ∨
    (∀ fp, ¬ Describes f x.key fp) ∧ (f.foldl step (recOfF x)).hist = if x.consistent then .same else .inconsistent := by
  by_cases h3 : ∃ fp, Entry.struct (some x.key) fp ∈ f
  · obtain ⟨fp, hs⟩ := h3
    refine .inl ⟨fp, hs, ?_⟩
    rw [hist_struct h (r := recOfF x) rfl hs]
    · simp only [cmpStruct, recOfF, ne_eq, hx, not_false_eq_true, if_true, diff]
      by_cases e1 : x.consistent = true <;> by_cases e2 : x.fp.pb = fp.pb <;> by_cases e3 : x.fp.pv = fp.pv <;> simp [e1, e2, e3]
    · intro n hn
      have hn : x.key = (0, n) := hn
      exact absurd (by rw [hn]) hx
  · refine .inr ⟨fun fp hd => h3 ⟨fp, hd⟩, ?_⟩
    rw [steps_not]
    · rfl
    · intro e he ht
      cases e with
      | struct k fp => simp only [touches] at ht; subst ht; exact h3 ⟨fp, he⟩
      | typ n => exact hx (by have : x.key = (0, n) := ht; rw [this])
      | obj n fp a => exact hx (by have : x.key = (0, n) := ht; rw [this])

/-! ### Finding objects -/

theorem scope_keys {s : Src} (h : s.Ok) : (s.scope.map Rec.key).Nodup := by
  rw [scope_eq, List.map_append, List.map_map, List.map_map, List.nodup_append]
  refine ⟨?_, ?_, ?_⟩
  · have : (s.decls.map (Rec.key ∘ recOf)) = (s.decls.map Decl.name).map fun n => (0, n) := by
      rw [List.map_map]; rfl
    rw [this]
    exact h.names.map (fun a b hab => (Prod.mk.injEq _ _ _ _ ▸ hab).2)
  · exact h.foreign
  · intro a ha b hb hab
    obtain ⟨d, hd, rfl⟩ := List.mem_map.1 ha
    obtain ⟨x, hx, rfl⟩ := List.mem_map.1 hb
    exact h.other x hx (by
      have : (recOf d).key = (recOfF x).key := hab
      have h2 : x.key = (0, d.name) := this.symm
      rw [h2])

theorem find_after {s : Src} (h : s.Ok) {f : File} (hf : FileOk f) {r : Rec} (hr : r ∈ s.scope) :
    find (after s f) r.key = some (f.foldl step r) := by
  obtain ⟨X, hX, -⟩ := read_spec s.scope f hf
  unfold after
  rw [hX, find, List.find?_append]
  have key : ∀ (l : List Rec), (l.map Rec.key).Nodup → r ∈ l →
      (l.map fun r => f.foldl step r).find? (fun r' => decide (r'.key = r.key)) = some (f.foldl step r) := by
    intro l
    induction l with
    | nil => intro _ h; cases h
    | cons x l ih =>
      intro hn hm
      rw [List.map_cons, List.nodup_cons] at hn
      rw [List.map_cons]
      rcases List.mem_cons.1 hm with rfl | hm
      · rw [List.find?_cons_of_pos]
        exact decide_eq_true (steps_eqs f r).1
      · rw [List.find?_cons_of_neg, ih hn.2 hm]
        rw [decide_eq_true_eq, (steps_eqs f x).1]
        intro hc
        exact hn.1 (by rw [hc]; exact List.mem_map.2 ⟨r, hm, rfl⟩)
  rw [key _ (scope_keys h) hr]
  rfl

theorem decl_mem {s : Src} {d : Decl} (hd : d ∈ s.decls) : recOf d ∈ s.scope := by
  rw [scope_eq]; exact List.mem_append_left _ (List.mem_map.2 ⟨d, hd, rfl⟩)

theorem foreign_mem {s : Src} {x : Foreign} (hx : x ∈ s.foreign) : recOfF x ∈ s.scope := by
  rw [scope_eq]; exact List.mem_append_right _ (List.mem_map.2 ⟨x, hx, rfl⟩)

theorem after_mem {s : Src} {f : File} (hf : FileOk f) {r : Rec} (hr : r ∈ s.scope) : f.foldl step r ∈ after s f := by
  obtain ⟨X, hX, -⟩ := read_spec s.scope f hf
  unfold after
  rw [hX]; exact List.mem_append_left _ (List.mem_map.2 ⟨r, hr, rfl⟩)

/-- The local objects after reading: the declarations, and those that are no longer declared. -/
theorem after_local {s : Src} (h : s.Ok) {f : File} (hf : FileOk f) {r : Rec} (hr : r ∈ after s f) (h0 : r.key.1 = 0) :
    (∃ d ∈ s.decls, r = f.foldl step (recOf d)) ∨
      r.hist = .removed ∧ r.kind = none ∧ ∃ n, r.key = (0, n) ∧ (∀ d ∈ s.decls, d.name ≠ n) ∧
        ((∃ fp, Exports f n fp) ∨ ∃ fp, Describes f (0, n) fp) := by
  obtain ⟨X, hX, hE⟩ := read_spec s.scope f hf
  unfold after at hr
  rw [hX] at hr
  rcases List.mem_append.1 hr with hr | hr
  · obtain ⟨r0, hr0, rfl⟩ := List.mem_map.1 hr
    rw [scope_eq] at hr0
    rcases List.mem_append.1 hr0 with h1 | h1
    · obtain ⟨d, hd, rfl⟩ := List.mem_map.1 h1
      exact .inl ⟨d, hd, rfl⟩
    · obtain ⟨x, hx, rfl⟩ := List.mem_map.1 h1
      rw [(steps_eqs f (recOfF x)).1] at h0
      exact absurd h0 (h.other x hx)
  · right
    refine ⟨hE.hist r hr, hE.kind r hr, r.key.2, ?_, ?_, ?_⟩
    · rw [← h0]
    · intro d hd hn
      refine hE.new r hr (recOf d) (decl_mem hd) ?_
      show (0, d.name) = r.key
      rw [hn, ← h0]
    · have hk : r.key = (0, r.key.2) := by rw [← h0]
      cases hx : r.exported with
      | false =>
        obtain ⟨fp, h'⟩ := hE.int r hr hx
        rw [hk] at h'
        exact .inr ⟨fp, h'⟩
      | true =>
        obtain ⟨n, fp, a, h', h''⟩ := hE.ext r hr hx
        rw [h']
        exact .inl ⟨fp, .inl ⟨a, h''⟩⟩

theorem extra_of {s : Src} {f : File} (hf : FileOk f) {n : Nat} (hn : ∀ d ∈ s.decls, d.name ≠ n) (h : s.Ok)
    (ht : ∃ e ∈ f, touches e (0, n)) : ∃ r ∈ after s f, r.key = (0, n) ∧ r.hist = .removed := by
  obtain ⟨X, hX, hE⟩ := read_spec s.scope f hf
  obtain ⟨e, he, ht⟩ := ht
  obtain ⟨x, hx, hk⟩ := hE.all e he (0, n) ht (by
    intro r hr hrk
    rw [scope_eq] at hr
    rcases List.mem_append.1 hr with hr | hr
    · obtain ⟨d, hd, rfl⟩ := List.mem_map.1 hr
      exact hn d hd (Prod.mk.injEq _ _ _ _ ▸ hrk).2
    · obtain ⟨y, hy, rfl⟩ := List.mem_map.1 hr
      exact h.other y hy (by have : y.key = (0, n) := hrk; rw [this]))
  refine ⟨x, ?_, hk, hE.hist x hx⟩
  unfold after
  rw [hX]; exact List.mem_append_right _ hx

/-! ### Which objects are written -/

theorem written_decl {f : File} (hf : FileOk f) (d : Decl) : written (f.foldl step (recOf d)) ↔ d.exported = true := by
  unfold written
  rw [(steps_eqs f (recOf d)).2.1]
  show _ ∧ d.exported = true ↔ _
  constructor
  · exact fun h => h.2
  · intro h
    refine ⟨?_, h⟩
    rcases decl_hist hf d with ⟨fp, -, -, hh⟩ | ⟨-, fp, -, hh⟩ | ⟨-, -, hh⟩
    · rw [hh, h]; simp only [if_true, diff]; repeat' split
      all_goals simp
    · rw [hh, h]; simp only [if_true, diff]; repeat' split
      all_goals simp
    · rw [hh]; simp

theorem roots {s : Src} (h : s.Ok) {f : File} (hf : FileOk f) :
    ∀ r ∈ after s f, r.key.1 = 0 → written r → ∀ t ∈ recKids r, Mentioned s t := by
  intro r hr h0 hw t ht
  rcases after_local h hf hr h0 with ⟨d, hd, rfl⟩ | ⟨-, hk, -⟩
  · have hx := (written_decl hf d).1 hw
    simp only [recKids, (steps_eqs f (recOf d)).2.2.2] at ht
    exact .root hd hx ht
  · simp only [recKids, hk] at ht
    exact absurd ht List.not_mem_nil

theorem the_state {s : Src} (h : s.Ok) {f : File} (hf : FileOk f) :
    State (after s f) s.tys (Mentioned s) ((after s f).filter fun r => r.key.1 = 0) (outAll (after s f) s.tys) :=
  outAll_state (fun _ ht _ hu => .kid ht hu) (roots h hf)

theorem not_big {s : Src} (h : Writable s) : ¬ Big (Mentioned s) := by
  rintro ⟨l, hn, hl, hm⟩
  obtain ⟨l', hl', hm'⟩ := h.size
  have := (List.subperm_of_subset hn fun x hx => hm' x (hm x hx)).length_le
  omega

/-- All types mentioned are written. -/
theorem refs_all {s : Src} {f : File} (hf : FileOk f) {w : W}
    (h2 : ∀ r ∈ (after s f).filter (fun r => r.key.1 = 0), written r → ∀ t ∈ recKids r, t ∈ w.refs)
    (h3 : ∀ x ∈ w.refs, ∀ u ∈ (s.tys x).kids, u ∈ w.refs) {t : Nat} (ht : Mentioned s t) : t ∈ w.refs := by
  induction ht with
  | root hd hx ht =>
    rename_i d t
    refine h2 (f.foldl step (recOf d)) ?_ ((written_decl hf d).2 hx) _ ?_
    · rw [List.mem_filter]
      exact ⟨after_mem hf (decl_mem hd), decide_eq_true (by rw [(steps_eqs f (recOf d)).1]; rfl)⟩
    · simp only [recKids, (steps_eqs f (recOf d)).2.2.2]
      exact ht
  | kid _ hu ih => exact h3 _ ih _ hu

/-! ### The codes -/

theorem ok_of {newsf extsf : Bool} {cs : List Nat} (h : cs.all (okCode newsf extsf) = true) {c : Nat} (hc : c ∈ cs) :
    okCode newsf extsf c = true := List.all_eq_true.1 h c hc

theorem name_unique {s : Src} (h : s.Ok) {d d' : Decl} (hd : d ∈ s.decls) (hd' : d' ∈ s.decls) (hn : d.name = d'.name) : d = d' := by
  have := h.names
  exact List.inj_on_of_nodup_map this hd hd' hn

theorem foreign_unique {s : Src} (h : s.Ok) {d d' : Foreign} (hd : d ∈ s.foreign) (hd' : d' ∈ s.foreign) (hn : d.key = d'.key) : d = d' :=
  List.inj_on_of_nodup_map h.foreign hd hd' hn

theorem exports_fp {f : File} (hf : FileOk f) {n : Nat} {fp fp' : Fp} (h : Exports f n fp) (h' : Exports f n fp') : fp = fp' := by
  rcases h with ⟨a, h⟩ | ⟨h1, h2⟩
  · rcases h' with ⟨a', h'⟩ | ⟨h1', h2'⟩
    · obtain ⟨pre, post, rfl, hp⟩ := hf.obj_split h
      rcases List.mem_append.1 h' with h' | h'
      · exfalso
        have hn := hf.names
        rw [List.filterMap_append, List.nodup_append] at hn
        exact hn.2.2 n (List.mem_filterMap.2 ⟨_, h', rfl⟩) n (by simp) rfl
      · rcases List.mem_cons.1 h' with h' | h'
        · injection h' with _ h2; exact h2.symm
        · exact absurd rfl (hp _ h')
    · exact absurd h1' (hf.not_both h)
  · rcases h' with ⟨a', h'⟩ | ⟨h1', h2'⟩
    · exact absurd h1 (hf.not_both h')
    · exact hf.struct_unique h2 h2'

theorem codes_ok {s : Src} (h : s.Ok) {f : File} (hf : FileOk f) {newsf extsf : Bool} (hne : newsf = true → extsf = true) :
    (outAll (after s f) s.tys).codes.all (okCode newsf extsf) = true ↔
      Writable s ∧ (newsf = false → Kept f s) ∧ (extsf = false → NothingNew f s) := by
  have st := the_state h hf
  constructor
  · intro hall
    have h228 : 228 ∉ (outAll (after s f) s.tys).codes := by
      intro hc; have := ok_of hall hc; simp [okCode] at this
    rcases st.done with hd | ⟨d1, d2, d3⟩
    · exact absurd hd.2 h228
    have hrefs := fun {t} (ht : Mentioned s t) => refs_all hf d2 d3 ht
    have hobj : ∀ r ∈ after s f, r.key.1 = 0 → ∀ c ∈ objCodes r, okCode newsf extsf c = true := by
      intro r hr h0 c hc
      exact ok_of hall ((d1 c).2 (.inl ⟨r, List.mem_filter.2 ⟨hr, decide_eq_true h0⟩, hc⟩))
    have htyp : ∀ t, Mentioned s t → ∀ c ∈ tyCodes (after s f) (s.tys t).key, okCode newsf extsf c = true := by
      intro t ht c hc
      exact ok_of hall ((d1 c).2 (.inr ⟨t, hrefs ht, hc⟩))
    have hdecl : ∀ d ∈ s.decls, ∀ c ∈ objCodes (f.foldl step (recOf d)), okCode newsf extsf c = true := by
      intro d hd
      exact hobj _ (after_mem hf (decl_mem hd)) (by rw [(steps_eqs f (recOf d)).1]; rfl)
    have hcons : ∀ x ∈ s.foreign, Seen s x.key → ∃ t, Mentioned s t ∧ (s.tys t).key = some x.key := by
      intro x hx hs
      generalize hk : x.key = k at hs
      cases hs with
      | decl hd _ => exact absurd (by rw [hk]) (h.other x hx)
      | typ ht hk' => exact ⟨_, ht, hk'⟩
    have hW : Writable s := by
      refine ⟨⟨(outAll (after s f) s.tys).refs, st.len, fun t ht => hrefs ht⟩, ?_⟩
      intro x hx hs
      obtain ⟨t, ht, hk⟩ := hcons x hx hs
      by_contra hc
      have hc : x.consistent = false := by simpa using hc
      have := htyp t ht 249 (by
        rw [hk]
        simp only [tyCodes]
        have hfd := find_after h hf (foreign_mem hx)
        have : (recOfF x).key = x.key := rfl
        rw [this] at hfd
        rw [hfd]
        dsimp only
        rcases foreign_hist hf x (h.other x hx) with ⟨fp, -, hh⟩ | ⟨-, hh⟩ <;> rw [hh, hc] <;> simp)
      simp [okCode] at this
    refine ⟨hW, ?_, ?_⟩
    · intro hnew
      subst hnew
      have hrem : ∀ r ∈ after s f, r.key.1 = 0 → r.hist ≠ .removed := by
        intro r hr h0 hh
        have := hobj r hr h0 250 (by simp [objCodes, hh])
        simp [okCode] at this
      have hdecl_mod : ∀ d ∈ s.decls, d.exported = true → (f.foldl step (recOf d)).hist ≠ .pbmodified ∧
          (f.foldl step (recOf d)).hist ≠ .pvmodified := by
        intro d hd hx
        have hx' : (f.foldl step (recOf d)).exported = true := by rw [(steps_eqs f (recOf d)).2.1]; exact hx
        constructor
        · intro hh
          have := hdecl d hd 252 (by simp [objCodes, hh, hx'])
          simp [okCode] at this
        · intro hh
          have := hdecl d hd 251 (by simp [objCodes, hh, hx'])
          simp [okCode] at this
      have htyp_mod : ∀ t, Mentioned s t → ∀ r ∈ s.scope, (s.tys t).key = some r.key →
          (f.foldl step r).hist ≠ .pbmodified ∧ (f.foldl step r).hist ≠ .pvmodified := by
        intro t ht r hr hk
        have hfd := find_after h hf hr
        constructor
        · intro hh
          have := htyp t ht 252 (by rw [hk]; simp [tyCodes, hfd, hh])
          simp [okCode] at this
        · intro hh
          have := htyp t ht 251 (by rw [hk]; simp [tyCodes, hfd, hh])
          simp [okCode] at this
      have hex : ∀ n, (∃ e ∈ f, touches e (0, n)) → ∃ d ∈ s.decls, d.name = n := by
        intro n ht
        by_contra hc
        have hc : ∀ d ∈ s.decls, d.name ≠ n := fun d hd hn => hc ⟨d, hd, hn⟩
        obtain ⟨r, hr, hk, hh⟩ := extra_of hf hc h ht
        exact hrem r hr (by rw [hk]) hh
      refine ⟨?_, ?_, ?_⟩
      · intro n fp he
        obtain ⟨d, hd, rfl⟩ := hex n (by
          rcases he with ⟨a, hm⟩ | ⟨hm, -⟩
          · exact ⟨_, hm, rfl⟩
          · exact ⟨_, hm, rfl⟩)
        refine ⟨d, hd, rfl, ?_⟩
        rcases decl_hist hf d with ⟨fp', he', -, hh⟩ | ⟨hno, -⟩ | ⟨hno, -⟩
        · have : fp' = fp := exports_fp hf he' he
          subst this
          cases hx : d.exported with
          | false =>
            rw [hx] at hh
            exact absurd hh (hrem _ (after_mem hf (decl_mem hd)) (by rw [(steps_eqs f (recOf d)).1]; rfl))
          | true =>
            refine ⟨rfl, ?_⟩
            by_contra hc
            rw [hx, if_pos rfl] at hh
            have hm := hdecl_mod d hd hx
            rcases diff_ne .same hc with h' | h'
            · exact hm.1 (hh.trans h')
            · exact hm.2 (hh.trans h')
        · exact absurd he (hno fp)
        · exact absurd he (hno fp)
      · intro n fp hd
        exact hex n ⟨_, hd, rfl⟩
      · intro k fp fp' hd hs hn
        cases hn with
        | decl hdm =>
          rename_i d
          by_contra hc
          have hmod : (f.foldl step (recOf d)).hist ≠ .pbmodified ∧ (f.foldl step (recOf d)).hist ≠ .pvmodified := by
            generalize hk : ((0, d.name) : Key) = k at hs
            cases hs with
            | decl hd' hx =>
              have := name_unique h hdm hd' (Prod.mk.injEq _ _ _ _ ▸ hk).2
              subst this
              exact hdecl_mod d hdm hx
            | typ ht hk' =>
              subst hk
              exact htyp_mod _ ht (recOf d) (decl_mem hdm) hk'
          rcases decl_hist hf d with ⟨fp2, -, hdd, hh⟩ | ⟨-, fp2, hdd, hh⟩ | ⟨-, hno, -⟩
          · rcases hdd with hdd | hdd
            · have : fp2 = fp := hf.struct_unique hdd hd
              subst this
              cases hx : d.exported with
              | false =>
                rw [hx] at hh
                exact absurd hh (hrem _ (after_mem hf (decl_mem hdm)) (by rw [(steps_eqs f (recOf d)).1]; rfl))
              | true =>
                rw [hx, if_pos rfl] at hh
                rcases diff_ne .same hc with h' | h'
                · exact hmod.1 (hh.trans h')
                · exact hmod.2 (hh.trans h')
            · exact absurd hd (hdd fp)
          · have : fp2 = fp := hf.struct_unique hdd hd
            subst this
            rcases diff_ne (if d.exported then .inserted else .same) hc with h' | h'
            · exact hmod.1 (hh.trans h')
            · exact hmod.2 (hh.trans h')
          · exact absurd hd (hno fp)
        | foreign hx =>
          rename_i x
          by_contra hc
          obtain ⟨t, ht, hk⟩ := hcons x hx hs
          have hmod := htyp_mod t ht (recOfF x) (foreign_mem hx) hk
          have hxc := hW.consistent x hx hs
          rcases foreign_hist hf x (h.other x hx) with ⟨fp2, hdd, hh⟩ | ⟨hno, -⟩
          · have : fp2 = fp := hf.struct_unique hdd hd
            subst this
            rw [hxc, if_pos rfl] at hh
            rcases diff_ne .same hc with h' | h'
            · exact hmod.1 (hh.trans h')
            · exact hmod.2 (hh.trans h')
          · exact absurd hd (hno fp)
    · intro hext
      subst hext
      have hnew : newsf = false := by
        cases newsf with
        | false => rfl
        | true => exact absurd (hne rfl) (by simp)
      subst hnew
      intro d hd hx
      by_contra hc
      have hx' : (f.foldl step (recOf d)).exported = true := by rw [(steps_eqs f (recOf d)).2.1]; exact hx
      have hbad : ∀ hh : (f.foldl step (recOf d)).hist = .inserted ∨ (f.foldl step (recOf d)).hist = .pbmodified ∨
          (f.foldl step (recOf d)).hist = .pvmodified, False := by
        rintro (hh | hh | hh)
        · have := hdecl d hd 253 (by simp [objCodes, hh, hx'])
          simp [okCode] at this
        · have := hdecl d hd 252 (by simp [objCodes, hh, hx'])
          simp [okCode] at this
        · have := hdecl d hd 251 (by simp [objCodes, hh, hx'])
          simp [okCode] at this
      rcases decl_hist hf d with ⟨fp', he', -⟩ | ⟨-, fp2, -, hh⟩ | ⟨-, -, hh⟩
      · exact hc ⟨fp', he'⟩
      · rw [hx, if_pos rfl] at hh
        by_cases he : d.fp = fp2
        · rw [he, diff_self] at hh; exact hbad (.inl hh)
        · rcases diff_ne .inserted he with h' | h'
          · exact hbad (.inr (.inl (hh.trans h')))
          · exact hbad (.inr (.inr (hh.trans h')))
      · exact hbad (.inl hh)
  · rintro ⟨hW, hK, hN⟩
    rcases st.done with hd | ⟨d1, d2, d3⟩
    · exact absurd hd.1 (not_big hW)
    rw [List.all_eq_true]
    intro c hc
    rcases (d1 c).1 hc with ⟨r, hr, hc⟩ | ⟨t, ht, hc⟩
    · rw [List.mem_filter] at hr
      obtain ⟨hr, h0⟩ := hr
      have h0 := of_decide_eq_true h0
      have ok2 : newsf = true → c ≠ 228 → c ≠ 249 → okCode newsf extsf c = true := by
        intro hn h1 h2
        simp only [okCode, h1, h2, if_false]
        split
        · exact hne hn
        · exact hn
      have hcs : c = 250 ∨ c = 253 ∨ c = 252 ∨ c = 251 := by
        revert hc
        simp only [objCodes]
        repeat' split
        all_goals simp_all
      cases hnew : newsf with
      | true =>
        have := ok2 hnew (by rcases hcs with h | h | h | h <;> rw [h] <;> simp) (by rcases hcs with h | h | h | h <;> rw [h] <;> simp)
        rw [hnew] at this
        exact this
      | false =>
        have hK := hK hnew
        rcases after_local h hf hr h0 with ⟨d, hd, rfl⟩ | ⟨hh, -, n, hk, hno, hex⟩
        · have hx' : (f.foldl step (recOf d)).exported = d.exported := (steps_eqs f (recOf d)).2.1
          rcases decl_hist hf d with ⟨fp, he, -, hh⟩ | ⟨hno, fp2, hdd, hh⟩ | ⟨hne', -, hh⟩
          · obtain ⟨d', hd', hn, hx, hfp⟩ := hK.objs _ _ he
            have := name_unique h hd' hd hn
            subst this
            rw [hx, if_pos rfl, hfp, diff_self] at hh
            exfalso
            simp [objCodes, hh] at hc
          · cases hx : d.exported with
            | false =>
              exfalso
              rw [hx] at hh
              have hr' : (f.foldl step (recOf d)).hist ≠ .removed := by
                rw [hh]; simp only [diff]; repeat' split
                all_goals simp
              simp [objCodes, hr', hx', hx] at hc
            | true =>
              have hfp := hK.same _ _ _ hdd (.decl hd hx) (.decl hd)
              rw [hx, if_pos rfl, hfp, diff_self] at hh
              simp only [objCodes, hh, hx', hx] at hc
              have hc : c = 253 := by simpa using hc
              subst hc
              simp only [okCode]
              by_contra hext
              have hext : extsf = false := by simpa using hext
              obtain ⟨fp, he⟩ := hN hext d hd hx
              exact absurd he (hno fp)
          · simp only [objCodes, hh, hx'] at hc
            cases hx : d.exported with
            | false => rw [hx] at hc; simp at hc
            | true =>
              rw [hx] at hc
              have hc : c = 253 := by simpa using hc
              subst hc
              simp only [okCode]
              by_contra hext
              have hext : extsf = false := by simpa using hext
              obtain ⟨fp, he⟩ := hN hext d hd hx
              exact absurd he (hne' fp)
        · exfalso
          rcases hex with ⟨fp, he⟩ | ⟨fp, he⟩
          · obtain ⟨d, hd, hn, -⟩ := hK.objs _ _ he
            exact hno d hd hn
          · obtain ⟨d, hd, hn⟩ := hK.types _ _ he
            exact hno d hd hn
    · have htm := st.mem t ht
      cases hk : (s.tys t).key with
      | none => rw [hk] at hc; simp [tyCodes] at hc
      | some k =>
        rw [hk] at hc
        rcases h.key t k hk with ⟨d, hd, rfl, hkd⟩ | ⟨x, hx, rfl⟩
        · have hfd := find_after h hf (decl_mem hd)
          have : (recOf d).key = (0, d.name) := rfl
          rw [this] at hfd
          simp only [tyCodes, hfd] at hc
          have hnoinc : (f.foldl step (recOf d)).hist ≠ .inconsistent := by
            rcases decl_hist hf d with ⟨fp, -, -, hh⟩ | ⟨-, fp, -, hh⟩ | ⟨-, -, hh⟩ <;> rw [hh]
            · simp only [diff]; repeat' split
              all_goals simp
            · simp only [diff]; repeat' split
              all_goals simp
            · simp
          have hcs : (c = 252 ∧ (f.foldl step (recOf d)).hist = .pbmodified) ∨ (c = 251 ∧ (f.foldl step (recOf d)).hist = .pvmodified) := by
            revert hc
            split <;> simp_all
          cases hnew : newsf with
          | true => rcases hcs with ⟨rfl, -⟩ | ⟨rfl, -⟩ <;> simp [okCode]
          | false =>
            exfalso
            have hK := hK hnew
            have hs : Seen s (0, d.name) := .typ htm hk
            have hmod : (f.foldl step (recOf d)).hist = .pbmodified ∨ (f.foldl step (recOf d)).hist = .pvmodified := by
              rcases hcs with ⟨-, h'⟩ | ⟨-, h'⟩
              · exact .inl h'
              · exact .inr h'
            rcases decl_hist hf d with ⟨fp, he, -, hh⟩ | ⟨-, fp, hdd, hh⟩ | ⟨-, -, hh⟩
            · obtain ⟨d', hd', hn, hxx, hfp⟩ := hK.objs _ _ he
              have := name_unique h hd' hd hn
              subst this
              rw [hxx, if_pos rfl, hfp, diff_self] at hh
              rw [hh] at hmod; simp at hmod
            · have hfp := hK.same _ _ _ hdd hs (.decl hd)
              rw [hfp, diff_self] at hh
              rw [hh] at hmod
              split at hmod <;> simp at hmod
            · rw [hh] at hmod; simp at hmod
        · have hfd := find_after h hf (foreign_mem hx)
          have : (recOfF x).key = x.key := rfl
          rw [this] at hfd
          simp only [tyCodes, hfd] at hc
          have hs : Seen s x.key := .typ htm hk
          have hxc := hW.consistent x hx hs
          rcases foreign_hist hf x (h.other x hx) with ⟨fp, hdd, hh⟩ | ⟨-, hh⟩
          · rw [hxc, if_pos rfl] at hh
            cases hnew : newsf with
            | true =>
              have hcs : c = 252 ∨ c = 251 := by
                rw [hh] at hc
                by_cases e1 : x.fp = fp
                · rw [e1, diff_self] at hc; simp at hc
                · rcases diff_ne .same e1 with h' | h'
                  · rw [h'] at hc; left; simpa using hc
                  · rw [h'] at hc; right; simpa using hc
              rcases hcs with rfl | rfl <;> simp [okCode]
            | false =>
              exfalso
              have hfp := (hK hnew).same _ _ _ hdd hs (.foreign hx)
              rw [hfp, diff_self] at hh
              rw [hh] at hc
              simp at hc
          · rw [hxc, if_pos rfl] at hh
            rw [hh] at hc
            simp at hc

end Verif.SymUpdate
