import Verif.Decls.Block

/-!
# One declaration after the other
-/
namespace Verif.Decls
open Verif.Types

/-- From `s` to `s'` the innermost scope has got `names`. -/
structure Scp (s s' : St) (names : List Nat) : Prop where
  nobj : s.nobj ≤ s'.nobj
  objs : ∀ i < s.nobj, s'.objs i = s.objs i
  imports : s'.imports = s.imports
  sc : ∃ f fs g, s.scopes = f :: fs ∧ s'.scopes = (f ++ g) :: fs ∧ g.map Prod.fst = names ∧
    (∀ p ∈ g, s.nobj ≤ p.2 ∧ p.2 < s'.nobj ∧ (s'.objs p.2).mode ≠ .mod) ∧ names.Nodup ∧ ∀ x ∈ names, f.lookup x = none

theorem Scp.refl {s : St} (h : s.scopes ≠ []) : Scp s s [] := by
  cases hs : s.scopes with
  | nil => contradiction
  | cons f fs => exact ⟨Nat.le_refl _, fun _ _ => rfl, rfl, f, fs, [], hs, by simp [hs], rfl, by simp, by simp, by simp⟩

theorem Scp.ne {s s' : St} {names : List Nat} (h : Scp s s' names) : s'.scopes ≠ [] := by
  obtain ⟨f, fs, g, _, h2, _⟩ := h.sc
  rw [h2]
  simp

theorem lookup_append' {x : Nat} (f g : List (Nat × Nat)) : (f ++ g).lookup x =
    match f.lookup x with
    | some i => some i
    | none => g.lookup x := by
  induction f with
  | nil => rfl
  | cons p f ih =>
    simp only [List.cons_append, List.lookup]
    by_cases h : x == p.1
    · simp [h]
    · simp only [h, ih]

theorem lookup_some {f : List (Nat × Nat)} {x : Nat} (h : x ∈ f.map Prod.fst) : ∃ i, f.lookup x = some i := by
  cases c : f.lookup x with
  | none => exact absurd h (lookup_none c)
  | some i => exact ⟨i, rfl⟩

theorem lookup_not {f : List (Nat × Nat)} {x : Nat} (h : x ∉ f.map Prod.fst) : f.lookup x = none := by
  cases c : f.lookup x with
  | none => rfl
  | some i => exact absurd (List.mem_map.mpr ⟨_, lookup_mem c, rfl⟩) h

theorem Scp.trans {s s1 s2 : St} {a b : List Nat} (h : Scp s s1 a) (k : Scp s1 s2 b) : Scp s s2 (a ++ b) := by
  obtain ⟨f, fs, g, h1, h2, h3, h4, h5, h6⟩ := h.sc
  obtain ⟨f', fs', g', k1, k2, k3, k4, k5, k6⟩ := k.sc
  rw [h2] at k1
  obtain ⟨rfl, rfl⟩ := List.cons.inj k1
  refine ⟨h.nobj.trans k.nobj, fun i hi => ?_, k.imports.trans h.imports, f, fs, g ++ g', h1, by rw [k2, List.append_assoc], by rw [List.map_append, h3, k3], ?_, ?_, ?_⟩
  · rw [k.objs i (by have := h.nobj; omega), h.objs i hi]
  · intro p hp
    rcases List.mem_append.mp hp with c | c
    · obtain ⟨x1, x2, x3⟩ := h4 p c
      exact ⟨x1, by have := k.nobj; omega, by rw [k.objs p.2 x2]; exact x3⟩
    · obtain ⟨x1, x2, x3⟩ := k4 p c
      exact ⟨by have := h.nobj; omega, x2, x3⟩
  · rw [List.nodup_append]
    refine ⟨h5, k5, ?_⟩
    intro x hx y hy e
    subst e
    have := k6 x hy
    rw [lookup_append', h6 x hx] at this
    rw [← h3] at hx
    exact lookup_none this hx
  · intro x hx
    rcases List.mem_append.mp hx with c | c
    · exact h6 x c
    · have := k6 x c
      rw [lookup_append'] at this
      cases e : f.lookup x with
      | none => rfl
      | some i => rw [e] at this; cases this

theorem Scp.insert {s : St} {x : Nat} {ob : Obj} (hs : s.scopes ≠ []) (hm : ob.mode ≠ .mod) (he : (insert s x ob).errs = []) : Scp s (insert s x ob) [x] := by
  cases hsc : s.scopes with
  | nil => contradiction
  | cons f fs =>
    obtain ⟨h1, h2⟩ := insert_clean s x ob f fs hsc he
    rw [h2]
    refine ⟨Nat.le_succ _, fun i hi => ?_, rfl, f, fs, [(x, s.nobj)], hsc, rfl, rfl, ?_, by simp, ?_⟩
    · exact upd_ne _ _ (by omega)
    · intro p hp
      simp only [List.mem_singleton] at hp
      subst hp
      simp only [upd_self]
      exact ⟨Nat.le_refl _, Nat.lt_succ_self _, hm⟩
    · intro y hy
      simp only [List.mem_singleton] at hy
      subst hy
      exact h1

theorem Scp.fr {s s1 s2 : St} {a : List Nat} (h : Scp s s1 a) {P Q : Nat → Prop} (k : Fr P Q s1 s2) (hQ : ∀ i < s.nobj, ¬ Q i) (hs : s2.scopes = s1.scopes) : Scp s s2 a := by
  obtain ⟨f, fs, g, h1, h2, h3, h4, h5, h6⟩ := h.sc
  refine ⟨h.nobj.trans k.nobj, fun i hi => ?_, k.imports.trans h.imports, f, fs, g, h1, hs.trans h2, h3, ?_, h5, h6⟩
  · rw [k.objs i (by have := h.nobj; omega) (hQ i hi), h.objs i hi]
  · intro p hp
    obtain ⟨x1, x2, x3⟩ := h4 p hp
    exact ⟨x1, by have := k.nobj; omega, by rw [k.mode p.2 x2]; exact x3⟩

theorem Scp.find {s s' : St} {names : List Nat} (h : Scp s s' names) (x : Nat) :
    (x ∈ names → ∃ i f fs, s'.scopes = f :: fs ∧ f.lookup x = some i ∧ findIn x s'.scopes = some i ∧ s.nobj ≤ i ∧ i < s'.nobj ∧ (s'.objs i).mode ≠ .mod) ∧
    (x ∉ names → findIn x s'.scopes = findIn x s.scopes) := by
  obtain ⟨f, fs, g, h1, h2, h3, h4, h5, h6⟩ := h.sc
  constructor
  · intro hx
    obtain ⟨i, hi⟩ := lookup_some (h3 ▸ hx)
    obtain ⟨x1, x2, x3⟩ := h4 _ (lookup_mem hi)
    have hl : (f ++ g).lookup x = some i := by rw [lookup_append', h6 x hx]; exact hi
    refine ⟨i, f ++ g, fs, h2, hl, ?_, x1, x2, x3⟩
    rw [h2, findIn, hl]
  · intro hx
    rw [h1, h2, findIn, findIn, lookup_append', lookup_not (f := g) (by rw [h3]; exact hx)]
    cases f.lookup x <;> rfl

theorem Scp.top {s s' : St} {names : List Nat} (h : Scp s s' names) {f : List (Nat × Nat)} {fs : List (List (Nat × Nat))} {x i : Nat} (hs : s.scopes = f :: fs) (hl : f.lookup x = some i)
    (hi : i < s.nobj) : secType s' x = secType s x ∧ objType s' x = objType s x := by
  obtain ⟨f', fs', g, h1, h2, h3, h4, h5, h6⟩ := h.sc
  rw [hs] at h1
  obtain ⟨rfl, rfl⟩ := List.cons.inj h1
  have hl2 : (f ++ g).lookup x = some i := by rw [lookup_append', hl]
  simp only [secType, objType, hs, h2, hl, hl2, h.objs i hi]
  exact ⟨trivial, trivial⟩

/-- What the names stand for. -/
theorem env_visible {s0 s S : St} {done rest : List Nat} (h : Scp s0 s done) (k : Scp s S rest) (hb : ∀ x i, findIn x s0.scopes = some i → i < s0.nobj) :
    EnvOf s.scopes s.objs s.imports (visible (typeOf s0) (secType S) done) := by
  have key : ∀ x i, findIn x s.scopes = some i → (x ∈ done ∧ secType S x = secType s x ∧ secType s x = (if (s.objs i).mode = .typ then some (s.objs i).typ else none) ∧ (s.objs i).mode ≠ .mod) ∨
      (x ∉ done ∧ findIn x s0.scopes = some i ∧ s.objs i = s0.objs i) := by
    intro x i hi
    obtain ⟨a, b⟩ := h.find x
    by_cases c : x ∈ done
    · left
      obtain ⟨j, f, fs, k1, k2, k3, k4, k5, k6⟩ := a c
      rw [k3] at hi
      cases hi
      refine ⟨c, (k.top k1 k2 k5).1, ?_, k6⟩
      simp only [secType, k1, k2]
    · right
      rw [b c] at hi
      exact ⟨c, hi, h.objs i (hb x i hi)⟩
  refine ⟨?_, ?_, ?_⟩
  · intro x i hi hm
    simp only [visible]
    rcases key x i hi with ⟨c, e1, e2, _⟩ | ⟨c, e1, e2⟩
    · rw [if_pos c, e1, e2, if_pos hm]
    · rw [if_neg c]
      simp only [typeOf, qualident, e1, Option.map_some, ← e2, if_pos hm]
  · intro x hx
    simp only [visible]
    obtain ⟨a, b⟩ := h.find x
    by_cases c : x ∈ done
    · obtain ⟨j, f, fs, k1, k2, k3, _⟩ := a c
      rw [k3] at hx
      cases hx
    · rw [b c] at hx
      rw [if_neg c]
      simp only [typeOf, qualident, hx, Option.map_none]
  · intro m x i ob hi hm him hob
    simp only [visible]
    rcases key m i hi with ⟨c, e1, e2, e3⟩ | ⟨c, e1, e2⟩
    · exact absurd hm e3
    · rw [if_neg c]
      rw [h.imports] at him
      rw [e2] at hm
      simp only [typeOf, qualident, e1, hm, if_true, him, if_pos hob]

/-- Variables, constants. -/
theorem addObjs_block {pl : Prop × Prop} {s0 : St} (xs : List Nat) : ∀ s : St, Blk pl s0 s → s.scopes ≠ [] → (addObjs s xs).errs = [] →
    Blk pl s0 (addObjs s xs) ∧ Scp s (addObjs s xs) xs ∧ Fr No No s (addObjs s xs) ∧ (addObjs s xs).nobj = s.nobj + xs.length := by
  induction xs with
  | nil => exact fun s h hs _ => ⟨h, Scp.refl hs, Fr.refl _ _ _, rfl⟩
  | cons x xs ih =>
    intro s h hs he
    have he1 : (insert s x {}).errs = [] := (fr_addObjs No No xs _).clean he
    have hb : Blk pl s0 (insert s x {}) := by
      cases hsc : s.scopes with
      | nil => contradiction
      | cons f fs => exact h.insert hsc x {} (fun h => by cases h) he1
    have hsp : Scp s (insert s x {}) [x] := Scp.insert hs (by simp) he1
    obtain ⟨a, b, c, d⟩ := ih _ hb hsp.ne he
    refine ⟨a, hsp.trans b, (fr_insert No No s x).trans c (fun _ _ h => h) (fun _ _ h => h), ?_⟩
    show (addObjs (insert s x {}) xs).nobj = _
    rw [d, insert_nobj s x {} hs]
    simp only [List.length_cons]
    omega


/-- What one declaration does. -/
structure Step (pl : Prop × Prop) (s0 s s' : St) (d : Decl) : Prop where
  blk : Blk pl s0 s'
  scp : Scp s s' d.names
  desc : ∀ env sec, (∀ x ∈ d.names, sec x = secType s' x) → ∀ e t, Desc s No env sec e t → Desc s' No env sec e t
  typ : ∀ x e, d = .typ x e → ∃ t, secType s' x = some t ∧
    ∀ env sec, sec x = secType s' x → EnvOf s'.scopes s'.objs s'.imports env → Desc s' No env sec e t
  var : ∀ xs e, d = .var xs e → ∃ t, (∀ x ∈ xs, objType s' x = some t) ∧ t < s'.next ∧ (s'.tab t).comp ≠ .dyn ∧
    ∀ env sec, EnvOf s'.scopes s'.objs s'.imports env → Desc s' No env sec e t

theorem step_const {pl : Prop × Prop} {s0 s : St} (mx : Int) (x : Nat) (h : Blk pl s0 s) (hs : s.scopes ≠ []) (he : (declare mx s (.const x)).errs = []) :
    Step pl s0 s (declare mx s (.const x)) (.const x) := by
  have hb : Blk pl s0 (insert s x {}) := by
    cases hsc : s.scopes with
    | nil => contradiction
    | cons f fs => exact h.insert hsc x {} (fun h => by cases h) he
  refine ⟨hb, Scp.insert hs (by simp) he, fun env sec _ e t hd => ?_, fun _ _ h => (by cases h), fun _ _ h => (by cases h)⟩
  exact Desc.mono (fr_insert No No s x) (fun _ _ x => x) (fun _ _ x => x) e t hd

theorem step_typ {pl : Prop × Prop} {s0 s : St} (mx : Int) (x : Nat) (e : TE) (h : Blk pl s0 s) (hs : s.scopes ≠ []) (hd : (Decl.typ x e).ok pl)
    (he : (declare mx s (.typ x e)).errs = []) : Step pl s0 s (declare mx s (.typ x e)) (.typ x e) := by
  have he1 : (typeDecl mx (insert s x { mode := .typ }) (.obj s.nobj) (some s.nobj) e).1.errs = [] := by
    simp only [declare] at he
    split at he <;> exact he
  have hin : (insert s x { mode := .typ }).nobj = s.nobj + 1 := insert_nobj s x _ hs
  obtain ⟨a, asc, aat⟩ := frD mx e (insert s x { mode := .typ }) (.obj s.nobj) (some s.nobj) ⟨fun u e => (by cases e), fun i e => (by cases e; omega)⟩
  have he0 : (insert s x { mode := .typ }).errs = [] := a.clean he1
  have hsp : Scp s (insert s x { mode := .typ }) [x] := Scp.insert hs (by simp) he0
  obtain ⟨f, fs, hsc⟩ : ∃ f fs, s.scopes = f :: fs := by
    cases hsc : s.scopes with
    | nil => contradiction
    | cons f fs => exact ⟨f, fs, rfl⟩
  obtain ⟨hl0, e0⟩ := insert_clean s x { mode := .typ } f fs hsc he0
  have hb : Blk pl s0 (insert s x { mode := .typ }) := h.insert hsc x _ (fun _ => by have := h.pos; show (0 : Nat) < s.next; omega) he0
  have hobj0 : (insert s x { mode := .typ }).objs s.nobj = { mode := .typ } := by rw [e0]; simp only [upd_self]
  have hnx0 : (insert s x { mode := .typ }).next = s.next := (insert_next s x _).1
  have hfr0 : ∀ env sec e t, Desc s No env sec e t → Desc (insert s x { mode := .typ }) No env sec e t := by
    intro env sec e t hd
    refine Desc.mono' (P := No) ?_ (fun _ _ x => x) (fun _ _ x => x) e t hd
    rw [e0]
    exact ⟨Nat.le_refl _, fun _ _ _ => rfl, fun _ _ => ⟨rfl, rfl, rfl⟩, fun _ _ _ => rfl, fun _ _ _ => Iff.rfl⟩
  have hT := hb.typeDecl mx (.obj s.nobj) (some s.nobj) x e (.inr ⟨_, rfl, rfl⟩)
    (fun i hi => by cases hi; exact ⟨by omega, by rw [hobj0, hnx0]; have := h.pos; simp only [undftyp]; omega⟩)
    (fun y i hi ho => by
      cases ho
      rcases (insert_find s x { mode := .typ } y).1 _ hi with c | c
      · exact c.2.1
      · have := h.sc y _ c; omega) he1 ⟨fun p _ => hd.1 p, fun p _ => hd.2 p⟩
  have hT2 : ((typeDecl mx (insert s x { mode := .typ }) (.obj s.nobj) (some s.nobj) e).1.objs s.nobj).typ = (typeDecl mx (insert s x { mode := .typ }) (.obj s.nobj) (some s.nobj) e).2 := aat.2 _ rfl
  have hmode : ((typeDecl mx (insert s x { mode := .typ }) (.obj s.nobj) (some s.nobj) e).1.objs s.nobj).mode = .typ := by
    rw [a.mode s.nobj (by omega), hobj0]
  simp only [declare]
  have hsp2 : Scp s (typeDecl mx (insert s x { mode := .typ }) (.obj s.nobj) (some s.nobj) e).1 [x] := hsp.fr a (fun i hi hq => by cases hq; omega) asc
  have hE0 : ∀ env, EnvOf (typeDecl mx (insert s x { mode := .typ }) (.obj s.nobj) (some s.nobj) e).1.scopes (typeDecl mx (insert s x { mode := .typ }) (.obj s.nobj) (some s.nobj) e).1.objs
      (typeDecl mx (insert s x { mode := .typ }) (.obj s.nobj) (some s.nobj) e).1.imports env → EnvOf (insert s x { mode := .typ }).scopes
      (typeDecl mx (insert s x { mode := .typ }) (.obj s.nobj) (some s.nobj) e).1.objs (insert s x { mode := .typ }).imports env := by
    intro env hE
    rw [asc, a.imports] at hE
    exact hE
  generalize typeDecl mx (insert s x { mode := .typ }) (.obj s.nobj) (some s.nobj) e = r at *
  obtain ⟨hB, hlt, hD⟩ := hT
  -- the state with the name
  have hB2 : Blk pl s0 { r.1 with named := upd r.1.named r.2 true } := hB.congr rfl rfl rfl rfl rfl rfl rfl (fun _ _ => ⟨rfl, fun _ => rfl⟩)
  have a2 : Fr No No r.1 { r.1 with named := upd r.1.named r.2 true } :=
    ⟨Nat.le_refl _, Nat.le_refl _, fun _ _ _ => rfl, fun _ _ => ⟨rfl, rfl, rfl⟩, fun _ _ _ => rfl, fun _ _ _ => rfl, fun _ _ => rfl,
     fun _ a b => by simp only at b; omega, rfl, ⟨[], by simp⟩, ⟨[], by simp⟩, fun h => h, fun h => h⟩
  have hsp3 := hsp2.fr a2 (fun _ _ x => x) rfl
  have hP : ∀ t < (insert s x { mode := .typ }).next, LocP (.obj s.nobj) t → No t := fun t _ h => by cases h
  have hsec : secType { r.1 with named := upd r.1.named r.2 true } x = some r.2 := by
    obtain ⟨i, f', fs', k1, k2, k3, k4, k5, k6⟩ := (hsp3.find x).1 (by simp)
    have : i = s.nobj := by
      have k7 : findIn x (insert s x { mode := .typ }).scopes = some i := by rw [← asc]; exact k3
      rcases (insert_find s x { mode := .typ } x).1 _ k7 with c | c
      · exact c.1
      · have := h.sc x _ c; omega
    subst this
    simp only [secType]
    simp only at k1
    rw [k1]
    simp only [k2, hmode, if_true, hT2]
  by_cases c : (r.1.tab r.2).comp ≠ .basic
  · rw [if_pos c]
    have hsc2 : secType (resolve { r.1 with named := upd r.1.named r.2 true } x r.2) x = some r.2 := hsec
    refine ⟨hB2.resolve x r.2 hlt, ?_, ?_, ?_, fun _ _ h => by cases h⟩
    · exact ⟨hsp3.nobj, hsp3.objs, hsp3.imports, hsp3.sc⟩
    · intro env sec hsx e' t hd
      have hx := hsx x (by simp [Decl.names])
      rw [hsc2] at hx
      exact Desc.resolve hB2.fwd hlt c hx _ _ (Desc.mono a2 (fun _ _ x => x) (fun _ _ x => x) _ _ (Desc.mono a hP (fun _ _ x => x) _ _ (hfr0 _ _ _ _ hd)))
    · intro x' e' hx
      cases hx
      refine ⟨r.2, hsc2, fun env sec hx hE => ?_⟩
      rw [hsc2] at hx
      exact Desc.resolve hB2.fwd hlt c hx _ _ (Desc.mono a2 (fun _ _ x => x) (fun _ _ x => x) _ _ (hD env sec (hE0 env hE)))
  · rw [if_neg c]
    refine ⟨hB2, hsp3, ?_, ?_, fun _ _ h => by cases h⟩
    · intro env sec hsx e' t hd
      exact Desc.mono a2 (fun _ _ x => x) (fun _ _ x => x) _ _ (Desc.mono a hP (fun _ _ x => x) _ _ (hfr0 _ _ _ _ hd))
    · intro x' e' hx
      cases hx
      refine ⟨r.2, hsec, fun env sec hx hE => ?_⟩
      exact Desc.mono a2 (fun _ _ x => x) (fun _ _ x => x) _ _ (hD env sec (hE0 env hE))

theorem step_var {pl : Prop × Prop} {s0 s : St} (mx : Int) (xs : List Nat) (e : TE) (h : Blk pl s0 s) (hs : s.scopes ≠ [])
    (he : (declare mx s (.var xs e)).errs = []) : Step pl s0 s (declare mx s (.var xs e)) (.var xs e) := by
  have he1 : (noDyn (typeCheck (typeDecl mx (addObjs s xs) .tmp none e))).1.errs = [] := he
  obtain ⟨n1, hnd⟩ := noDyn_clean he1
  rw [n1] at he1
  have n2 := typeCheck_clean he1
  rw [n2] at he1 hnd n1
  obtain ⟨a, asc, aat⟩ := frD mx e (addObjs s xs) .tmp none ⟨fun u e => (by cases e), fun i e => (by cases e)⟩
  have he0 := a.clean he1
  obtain ⟨hb, hsp, a0, hno⟩ := addObjs_block xs s h hs he0
  have hT := hb.typeDecl mx .tmp none 0 e (.inl ⟨rfl, rfl⟩) (fun i hi => by cases hi) (fun y i hi ho => by cases ho) he1 ⟨fun p h => (by cases h), fun p h => (by cases h)⟩
  have hsp2 := hsp.fr a (fun i hi hq => by cases hq) asc
  simp only [declare, n2, n1]
  have hfresh : ∀ i, s.nobj ≤ i → i < s.nobj + xs.length → ((typeDecl mx (addObjs s xs) .tmp none e).1.objs i).mode = .other := by
    intro i h1 h2
    rw [a.mode i (by omega)]
    exact a0.fresh i h1 (by omega)
  have hE0 : ∀ env, EnvOf (typeDecl mx (addObjs s xs) .tmp none e).1.scopes (typeDecl mx (addObjs s xs) .tmp none e).1.objs
      (typeDecl mx (addObjs s xs) .tmp none e).1.imports env → EnvOf (addObjs s xs).scopes (typeDecl mx (addObjs s xs) .tmp none e).1.objs (addObjs s xs).imports env := by
    intro env hE
    rw [asc, a.imports] at hE
    exact hE
  have hnob := a.nobj
  have hP : ∀ t < (addObjs s xs).next, LocP .tmp t → No t := fun t _ h => by cases h
  have hrange : ∀ x ∈ xs, ∃ i f fs, (typeDecl mx (addObjs s xs) .tmp none e).1.scopes = f :: fs ∧ f.lookup x = some i ∧ s.nobj ≤ i ∧ i < s.nobj + xs.length := by
    intro x hx
    obtain ⟨i, f', fs', k1, k2, k3, k4, k5, k6⟩ := (hsp.find x).1 hx
    exact ⟨i, f', fs', by rw [asc]; exact k1, k2, k4, by omega⟩
  generalize typeDecl mx (addObjs s xs) .tmp none e = r at *
  obtain ⟨hB, hlt, hD⟩ := hT
  let S : St := { r.1 with objs := fun i => if s.nobj ≤ i ∧ i < s.nobj + xs.length then { r.1.objs i with typ := r.2 } else r.1.objs i }
  have hmode : ∀ i, (S.objs i).mode = (r.1.objs i).mode := by
    intro i
    simp only [S]
    split <;> rfl
  have a2 : Fr No (fun i => s.nobj ≤ i ∧ i < s.nobj + xs.length) r.1 S :=
    ⟨Nat.le_refl _, Nat.le_refl _, fun _ _ _ => rfl, fun _ _ => ⟨rfl, rfl, rfl⟩, fun _ _ _ => rfl, fun i _ h => (by simp only [S]; rw [if_neg h]), fun i _ => hmode i,
     fun _ a b => by simp only [S] at b; omega, rfl, ⟨[], by simp [S]⟩, ⟨[], by simp [S]⟩, fun h => h, fun h => h⟩
  have htyp : ∀ i, (r.1.objs i).mode ≠ .other → S.objs i = r.1.objs i := by
    intro i hi
    simp only [S]
    rw [if_neg]
    intro ⟨h1, h2⟩
    exact hi (hfresh i h1 h2)
  have hES : ∀ env, EnvOf S.scopes S.objs S.imports env → EnvOf r.1.scopes r.1.objs r.1.imports env := by
    intro env hE
    refine ⟨?_, hE.none, ?_⟩
    · intro x i hi hm
      have := hE.id x i hi (by rw [hmode]; exact hm)
      rw [htyp i (by rw [hm]; simp)] at this
      exact this
    · intro m x i ob hi hm
      exact hE.sel m x i ob hi (by rw [hmode]; exact hm)
  show Step pl s0 s S (.var xs e)
  refine ⟨?_, ?_, ?_, fun _ _ h => (by cases h), ?_⟩
  · exact hB.congr rfl rfl rfl rfl rfl rfl rfl (fun i _ => ⟨hmode i, fun hm => by rw [htyp i (by rw [hm]; simp)]⟩)
  · exact hsp2.fr a2 (fun i h1 h2 => by omega) rfl
  · intro env sec _ e' t hd
    exact Desc.mono a2 (fun _ _ x => x) (fun _ _ x => x) _ _ (Desc.mono a hP (fun _ _ x => x) _ _ (Desc.mono a0 (fun _ _ x => x) (fun _ _ x => x) _ _ hd))
  · intro xs' e' hx
    cases hx
    refine ⟨r.2, fun x hx => ?_, hlt, hnd, fun env sec hE => Desc.mono a2 (fun _ _ x => x) (fun _ _ x => x) _ _ (hD env sec (hE0 env (hES env hE)))⟩
    obtain ⟨i, f, fs, k1, k2, k3, k4⟩ := hrange x hx
    have k5 : S.scopes = f :: fs := k1
    simp only [objType, k5, k2, hmode, hfresh i k3 k4, if_true]
    simp only [S, k3, k4, and_self, if_true]

theorem step {pl : Prop × Prop} {s0 s : St} (mx : Int) (d : Decl) (h : Blk pl s0 s) (hs : s.scopes ≠ []) (hd : d.ok pl)
    (he : (declare mx s d).errs = []) : Step pl s0 s (declare mx s d) d := by
  cases d with
  | const x => exact step_const mx x h hs he
  | typ x e => exact step_typ mx x e h hs hd he
  | var xs e => exact step_var mx xs e h hs he

end Verif.Decls
