import Verif.Decls.Lengths

/-!
# C64: declarations of types mean what they say

A block of declarations that is accepted leaves a table of types in which every declared type is what its declaration says (`Describes`), no type
contains itself, and the entries are as the rules for types (C53, C54, C62, C63) take them to be (`Types.Wf`).
-/
namespace Verif.Decls
open Verif.Types

/-! ### Before a block -/

/-- The state before the declarations of a block: the types there are complete. -/
structure Init (s : St) : Prop where
  wf : Wf s.tab
  next : 10 ≤ s.next
  beyond : ∀ t, s.next ≤ t → s.tab t = { form := .no } ∧ s.fields t = []
  base : ∀ t b, t < s.next → (s.tab t).base = some b → b < s.next
  fields : ∀ t x v, (s.tab t).comp = .record → (x, v) ∈ s.fields t → v < s.next
  objs : ∀ i < s.nobj, (s.objs i).mode = .typ → (s.objs i).typ < s.next
  imps : ∀ i x ob, s.imports i x = some ob → ob.mode = .typ → ob.typ < s.next
  names : ∀ f ∈ s.scopes, ∀ p ∈ f, p.2 < s.nobj
  «open» : s.scopes ≠ []
  finite : WellFounded fun v u => Contains s.tab s.fields u v
  clean : s.errs = []

theorem findIn_mem {x i : Nat} : ∀ {sc : List (List (Nat × Nat))}, findIn x sc = some i → ∃ f ∈ sc, (x, i) ∈ f
  | [], h => by simp [findIn] at h
  | f :: fs, h => by
    simp only [findIn] at h
    cases c : f.lookup x with
    | some j =>
      rw [c] at h
      cases h
      exact ⟨f, List.mem_cons_self, lookup_mem c⟩
    | none =>
      rw [c] at h
      obtain ⟨g, hg, hm⟩ := findIn_mem h
      exact ⟨g, List.mem_cons_of_mem _ hg, hm⟩

theorem Init.names' {s : St} (h : Init s) : ∀ x i, findIn x s.scopes = some i → i < s.nobj := by
  intro x i hi
  obtain ⟨f, hf, hm⟩ := findIn_mem hi
  exact h.names f hf _ hm

/-- The start of the declarations. -/
def start (s : St) : St := { s with fwd := [] }

theorem Init.fin {s : St} (h : Init s) : ∀ u, u < s.next → Fin (start s) No No u := by
  intro u
  refine h.finite.induction (C := fun u => u < s.next → Fin (start s) No No u) u ?_
  intro u ih hu
  refine .mk u hu (fun x => x) fun v hv => ih v hv ?_
  rcases hv with ⟨_, hv⟩ | ⟨hr, x, hv⟩
  · exact h.base u v hu hv
  · exact h.fields u x v hr hv

theorem Init.lev {s : St} (h : Init s) : ∀ u < s.next, (s.tab u).comp = .record → ∀ v, (s.tab u).base = some v →
    v < s.next ∧ (s.tab v).comp = .record ∧ (s.tab u).extlev = (s.tab v).extlev + 1 := fun u hu hr v hv => ⟨h.base u v hu hv, h.wf.record u v hr hv⟩

theorem Init.blk {s : St} (h : Init s) (pl : Prop × Prop) : Blk pl s (start s) := by
  refine ⟨by have := h.next; simp only [start]; omega, Nat.le_refl _, ?_, h.fin, h.objs, h.imps, fun _ _ => ⟨rfl, rfl⟩, ?_, ?_, ?_, h.beyond,
    fun t _ => h.wf.comp t, rfl, h.lev⟩
  · intro u h1 h2
    simp only [start] at h2
    omega
  · intro p hp
    simp [start] at hp
  · intro p hp
    simp [start] at hp
  · exact h.names'

theorem Init.blk' {s : St} (h : Init s) (pl : Prop × Prop) : Blk pl (start s) (start s) := by
  have b := h.blk pl
  exact ⟨b.pos, b.le, b.good, b.fin, b.objs, b.imps, b.old, b.fwd, b.fnew, b.sc, b.beyond, b.cb, b.imports, h.lev⟩

/-! ### All declarations -/

theorem insert_ne (s : St) (x : Nat) (ob : Obj) (h : s.scopes ≠ []) : (insert s x ob).scopes ≠ [] := (insert_scopes s x ob).2 h

theorem declare_ext (mx : Int) (s : St) (d : Decl) (h : s.scopes ≠ []) : (∃ w, (declare mx s d).errs = s.errs ++ w) ∧ (declare mx s d).scopes ≠ [] := by
  cases d with
  | const x => exact ⟨insert_err s x {}, insert_ne s x {} h⟩
  | typ x e =>
    have hno : (insert s x { mode := .typ }).nobj = s.nobj + 1 := insert_nobj s x _ h
    obtain ⟨a, asc, _⟩ := frD mx e (insert s x { mode := .typ }) (.obj s.nobj) (some s.nobj) ⟨fun u e => (by cases e), fun i e => (by cases e; omega)⟩
    obtain ⟨w1, e1⟩ := insert_err s x { mode := .typ }
    obtain ⟨w2, e2⟩ := a.errs
    have h1 : (typeDecl mx (insert s x { mode := .typ }) (.obj s.nobj) (some s.nobj) e).1.scopes ≠ [] := by rw [asc]; exact insert_ne s x _ h
    simp only [declare]
    split
    · exact ⟨⟨w1 ++ w2, by simp only [resolve, e2, e1, List.append_assoc]⟩, h1⟩
    · exact ⟨⟨w1 ++ w2, by simp only [e2, e1, List.append_assoc]⟩, h1⟩
  | var xs e =>
    have a0 := fr_addObjs No No xs s
    obtain ⟨a, asc, _⟩ := frD mx e (addObjs s xs) .tmp none ⟨fun u e => (by cases e), fun i e => (by cases e)⟩
    obtain ⟨w1, e1⟩ := a0.errs
    obtain ⟨w2, e2⟩ := a.errs
    obtain ⟨w3, e3⟩ := (fr_typeCheck No No (typeDecl mx (addObjs s xs) .tmp none e)).errs
    obtain ⟨w4, e4⟩ := (fr_noDyn No No (typeCheck (typeDecl mx (addObjs s xs) .tmp none e))).errs
    refine ⟨⟨w1 ++ w2 ++ w3 ++ w4, ?_⟩, ?_⟩
    · show (noDyn (typeCheck (typeDecl mx (addObjs s xs) .tmp none e))).1.errs = _
      rw [e4, e3, e2, e1]
      simp only [List.append_assoc]
    · show (noDyn (typeCheck (typeDecl mx (addObjs s xs) .tmp none e))).1.scopes ≠ []
      rw [noDyn_scopes, typeCheck_scopes, asc]
      exact (addObjs_scopes xs s).2 h

theorem declares_ext (mx : Int) : ∀ (ds : List Decl) (s : St), s.scopes ≠ [] → ∃ w, (declares mx ds s).errs = s.errs ++ w
  | [], s, _ => ⟨[], by simp [declares]⟩
  | d :: ds, s, h => by
    obtain ⟨⟨w1, e1⟩, h1⟩ := declare_ext mx s d h
    obtain ⟨w2, e2⟩ := declares_ext mx ds (declare mx s d) h1
    exact ⟨w1 ++ w2, by rw [declares, e2, e1, List.append_assoc]⟩

theorem declare_keep (mx : Int) (s : St) (d : Decl) (h : s.scopes ≠ []) : s.next ≤ (declare mx s d).next ∧ ∀ t < s.next, ((declare mx s d).tab t).comp = (s.tab t).comp := by
  cases d with
  | const x => have a := fr_insert No No s x; exact ⟨a.next, fun t ht => (a.keep t ht).2.1⟩
  | typ x e =>
    have hno : (insert s x { mode := .typ }).nobj = s.nobj + 1 := insert_nobj s x _ h
    obtain ⟨a, _, _⟩ := frD mx e (insert s x { mode := .typ }) (.obj s.nobj) (some s.nobj) ⟨fun u e => (by cases e), fun i e => (by cases e; omega)⟩
    obtain ⟨n1, n2⟩ := insert_next s x { mode := .typ }
    have hn := a.next
    have hk := a.keep
    rw [n1] at hn hk
    rw [n2] at hk
    simp only [declare]
    split
    · exact ⟨hn, fun t ht => (resolve_keep _ _ _ t).2.1.trans (hk t ht).2.1⟩
    · exact ⟨hn, fun t ht => (hk t ht).2.1⟩
  | var xs e =>
    have a0 := fr_addObjs No No xs s
    obtain ⟨a, _, _⟩ := frD mx e (addObjs s xs) .tmp none ⟨fun u e => (by cases e), fun i e => (by cases e)⟩
    have a3 := fr_typeCheck No No (typeDecl mx (addObjs s xs) .tmp none e)
    have a4 := fr_noDyn No No (typeCheck (typeDecl mx (addObjs s xs) .tmp none e))
    refine ⟨a0.next.trans (a.next.trans (a3.next.trans a4.next)), fun t ht => ?_⟩
    have h0 := a0.next
    have h1 := a.next
    have h2 := a3.next
    exact (a4.keep t (by omega)).2.1.trans ((a3.keep t (by omega)).2.1.trans ((a.keep t (by omega)).2.1.trans (a0.keep t ht).2.1))

theorem declares_keep (mx : Int) : ∀ (ds : List Decl) (s : St), s.scopes ≠ [] → s.next ≤ (declares mx ds s).next ∧ ∀ t < s.next, ((declares mx ds s).tab t).comp = (s.tab t).comp
  | [], s, _ => ⟨Nat.le_refl _, fun _ _ => rfl⟩
  | d :: ds, s, h => by
    obtain ⟨_, h1⟩ := declare_ext mx s d h
    obtain ⟨k1, k2⟩ := declare_keep mx s d h
    obtain ⟨j1, j2⟩ := declares_keep mx ds (declare mx s d) h1
    exact ⟨k1.trans j1, fun t ht => (j2 t (by omega)).trans (k2 t ht)⟩

theorem ok_none (d : Decl) : d.ok (False, False) := by
  cases d with
  | typ x e => exact ⟨fun h => h.elim, fun h => h.elim⟩
  | _ => trivial

/-- The names declared by a list of declarations. -/
def allNames (ds : List Decl) : List Nat := ds.flatMap Decl.names

theorem chain1 {pl : Prop × Prop} {s0 : St} (mx : Int) : ∀ (ds : List Decl) (s : St), Blk pl s0 s → s.scopes ≠ [] → (∀ d ∈ ds, d.ok pl) →
    (declares mx ds s).errs = [] → Blk pl s0 (declares mx ds s) ∧ Scp s (declares mx ds s) (allNames ds)
  | [], s, h, hs, _, _ => ⟨h, Scp.refl hs⟩
  | d :: ds, s, h, hs, hp, he => by
    obtain ⟨_, h1⟩ := declare_ext mx s d hs
    obtain ⟨w, e⟩ := declares_ext mx ds (declare mx s d) h1
    have he1 := nil_of_prefix e he
    have st := step mx d h hs (hp d List.mem_cons_self) he1
    obtain ⟨a, b⟩ := chain1 mx ds (declare mx s d) st.blk h1 (fun d' hd => hp d' (List.mem_cons_of_mem _ hd)) he
    exact ⟨a, st.scp.trans b⟩

theorem top_of_scp {s0 s : St} {names : List Nat} (h : Scp s0 s names) {x : Nat} (hx : x ∈ names) {S : St} {rest : List Nat} (k : Scp s S rest) :
    secType S x = secType s x ∧ objType S x = objType s x := by
  obtain ⟨i, f, fs, k1, k2, k3, k4, k5, k6⟩ := (h.find x).1 hx
  exact k.top k1 k2 k5

theorem chain2 {s0 : St} (mx : Int) (hb0 : ∀ x i, findIn x s0.scopes = some i → i < s0.nobj) : ∀ (ds : List Decl) (s : St) (done : List Nat), Blk (False, False) s0 s → Scp s0 s done →
    (declares mx ds s).errs = [] →
    (∀ env e t, Desc s No env (secType (declares mx ds s)) e t → Desc (declares mx ds s) No env (secType (declares mx ds s)) e t) ∧
    (∀ i x e, ds[i]? = some (.typ x e) → ∃ t, secType (declares mx ds s) x = some t ∧
      Desc (declares mx ds s) No (visible (typeOf s0) (secType (declares mx ds s)) (done ++ allNames (ds.take (i + 1)))) (secType (declares mx ds s)) e t) ∧
    (∀ i xs e, ds[i]? = some (.var xs e) → ∃ t, (∀ x ∈ xs, objType (declares mx ds s) x = some t) ∧ ((declares mx ds s).tab t).comp ≠ .dyn ∧
      Desc (declares mx ds s) No (visible (typeOf s0) (secType (declares mx ds s)) (done ++ allNames (ds.take (i + 1)))) (secType (declares mx ds s)) e t)
  | [], s, done, h, hs, he => ⟨fun _ _ _ h => h, fun i x e h => by simp at h, fun i xs e h => by simp at h⟩
  | d :: ds, s, done, h, hs, he => by
    have hne := hs.ne
    obtain ⟨_, h1⟩ := declare_ext mx s d hne
    obtain ⟨w, e⟩ := declares_ext mx ds (declare mx s d) h1
    have he1 := nil_of_prefix e he
    have st := step mx d h hne (ok_none d) he1
    obtain ⟨_, ks⟩ := chain1 mx ds (declare mx s d) st.blk h1 (fun d _ => ok_none d) he
    have hs' := hs.trans st.scp
    obtain ⟨r1, r2, r3⟩ := chain2 mx hb0 ds (declare mx s d) (done ++ d.names) st.blk hs' he
    show (∀ env e t, Desc s No env (secType (declares mx ds (declare mx s d))) e t → Desc (declares mx ds (declare mx s d)) No env (secType (declares mx ds (declare mx s d))) e t) ∧
      (∀ i x e, (d :: ds)[i]? = some (.typ x e) → ∃ t, secType (declares mx ds (declare mx s d)) x = some t ∧
        Desc (declares mx ds (declare mx s d)) No (visible (typeOf s0) (secType (declares mx ds (declare mx s d))) (done ++ allNames ((d :: ds).take (i + 1)))) (secType (declares mx ds (declare mx s d))) e t) ∧
      (∀ i xs e, (d :: ds)[i]? = some (.var xs e) → ∃ t, (∀ x ∈ xs, objType (declares mx ds (declare mx s d)) x = some t) ∧ ((declares mx ds (declare mx s d)).tab t).comp ≠ .dyn ∧
        Desc (declares mx ds (declare mx s d)) No (visible (typeOf s0) (secType (declares mx ds (declare mx s d))) (done ++ allNames ((d :: ds).take (i + 1)))) (secType (declares mx ds (declare mx s d))) e t)
    have hE := env_visible hs' ks hb0
    have htop : ∀ x ∈ d.names, secType (declares mx ds (declare mx s d)) x = secType (declare mx s d) x ∧ objType (declares mx ds (declare mx s d)) x = objType (declare mx s d) x :=
      fun x hx => top_of_scp st.scp hx ks
    have hnm : ∀ i, done ++ allNames ((d :: ds).take (i + 1 + 1)) = done ++ d.names ++ allNames (ds.take (i + 1)) := by
      intro i
      simp [allNames]
    have hn0 : done ++ allNames ((d :: ds).take (0 + 1)) = done ++ d.names := by simp [allNames]
    have hkeep : ∀ t, t < (declare mx s d).next → ((declares mx ds (declare mx s d)).tab t).comp = ((declare mx s d).tab t).comp :=
      (declares_keep mx ds _ h1).2
    refine ⟨fun env e t hd => r1 env e t (st.desc env _ (fun x hx => (htop x hx).1) e t hd), ?_, ?_⟩
    · intro i x e hi
      cases i with
      | zero =>
        simp only [List.getElem?_cons_zero, Option.some.injEq] at hi
        obtain ⟨t, k1, k2⟩ := st.typ x e hi
        have hx := (htop x (by rw [hi]; simp [Decl.names])).1
        refine ⟨t, by rw [hx]; exact k1, ?_⟩
        rw [hn0]
        exact r1 _ e t (k2 _ _ hx hE)
      | succ i =>
        simp only [List.getElem?_cons_succ] at hi
        obtain ⟨t, k1, k2⟩ := r2 i x e hi
        exact ⟨t, k1, by rw [hnm]; exact k2⟩
    · intro i xs e hi
      cases i with
      | zero =>
        simp only [List.getElem?_cons_zero, Option.some.injEq] at hi
        obtain ⟨t, k1, k2, k3, k4⟩ := st.var xs e hi
        refine ⟨t, fun x hx => ?_, by rw [hkeep t k2]; exact k3, ?_⟩
        · rw [(htop x (by rw [hi]; exact hx)).2]
          exact k1 x hx
        · rw [hn0]
          exact r1 _ e t (k4 _ _ hE)
      | succ i =>
        simp only [List.getElem?_cons_succ] at hi
        obtain ⟨t, k1, k2, k3⟩ := r3 i xs e hi
        exact ⟨t, k1, k2, by rw [hnm]; exact k3⟩

/-! ### The block -/

theorem leftErr_clean {s : St} (h : (leftErr s).errs = []) : s.errs = [] ∧ ∀ u y, (u, some y) ∉ s.fwd := by
  obtain ⟨h1, h2⟩ := List.append_eq_nil_iff.mp h
  refine ⟨h1, fun u y hm => ?_⟩
  have : (u, some y) ∈ s.fwd.filter fun p => p.2.isSome := by simp [hm]
  rw [List.map_eq_nil_iff] at h2
  rw [h2] at this
  simp at this

theorem plain_of {ds : List Decl} (h : Plain ds) : ∀ d ∈ ds, d.ok (True, False) := by
  intro d hd
  cases d with
  | typ x e => exact ⟨fun _ => h x e hd, fun h => h.elim⟩
  | _ => trivial

theorem noInner_of {ds : List Decl} (h : NoInner ds) : ∀ d ∈ ds, d.ok (False, True) := by
  intro d hd
  cases d with
  | typ x e => exact ⟨fun h => h.elim, fun _ => h x e hd⟩
  | _ => trivial

theorem block_blk {pl : Prop × Prop} {s : St} {mx : Int} {ds : List Decl} (hi : Init s) (hp : ∀ d ∈ ds, d.ok pl) (he : (block mx s ds).errs = []) :
    Blk pl s (declares mx ds (start s)) ∧ Scp (start s) (declares mx ds (start s)) (allNames ds) :=
  chain1 mx ds (start s) (hi.blk pl) hi.open hp (leftErr_clean he).1

/-- **C64, no type contains itself.**  When the declarations of a block have been accepted, the types — those there were and those declared — contain, as elements,
fields and base types, only types that are built up from types without parts in finitely many steps. -/
theorem C64_finite {s : St} {mx : Int} {ds : List Decl} (hi : Init s) (he : (block mx s ds).errs = []) :
    WellFounded fun v u => Contains (block mx s ds).tab (block mx s ds).fields u v := by
  obtain ⟨hb, _⟩ := block_blk (pl := (False, False)) hi (fun d _ => ok_none d) he
  have key : ∀ u, Fin (declares mx ds (start s)) No No u → Acc (fun v u => Contains (block mx s ds).tab (block mx s ds).fields u v) u := by
    intro u h
    induction h with
    | stop u h => exact h.elim
    | mk u hl hb h ih => exact ⟨_, fun v hv => ih v hv⟩
  refine ⟨fun u => ?_⟩
  by_cases hu : u < (declares mx ds (start s)).next
  · exact key u (hb.fin u hu)
  · refine ⟨_, fun v hv => ?_⟩
    obtain ⟨k1, k2⟩ := hb.beyond u (by omega)
    have hv : Contains (declares mx ds (start s)).tab (declares mx ds (start s)).fields u v := hv
    unfold Contains at hv
    rw [k1, k2] at hv
    simp at hv

/-- **C64, what a type declaration declares.**  When the declarations of a block have been accepted, every declared name of a type stands for a type that is what its
declaration says: with names standing for what is visible there, and pointers possibly to types declared later. -/
theorem C64_meaning {s : St} {mx : Int} {ds : List Decl} (hi : Init s) (he : (block mx s ds).errs = []) {i x : Nat} {e : TE} (h : ds[i]? = some (.typ x e)) :
    ∃ t, secType (block mx s ds) x = some t ∧
      Describes (block mx s ds).tab (block mx s ds).fields (visible (typeOf s) (secType (block mx s ds)) ((ds.take (i + 1)).flatMap Decl.names)) (secType (block mx s ds)) e t := by
  obtain ⟨h1, h2⟩ := leftErr_clean he
  obtain ⟨_, k, _⟩ := chain2 (s0 := start s) mx hi.names' ds (start s) [] (hi.blk' (False, False)) (Scp.refl hi.open) h1
  obtain ⟨t, k1, k2⟩ := k i x e h
  exact ⟨t, k1, Desc.final h2 e t k2⟩

/-- **C64, what a declaration of variables declares.**  All variables of the list have one type, it is what the declaration says, and it is no open array. -/
theorem C64_variables {s : St} {mx : Int} {ds : List Decl} (hi : Init s) (he : (block mx s ds).errs = []) {i : Nat} {xs : List Nat} {e : TE} (h : ds[i]? = some (.var xs e)) :
    ∃ t, (∀ x ∈ xs, objType (block mx s ds) x = some t) ∧ ((block mx s ds).tab t).comp ≠ .dyn ∧
      Describes (block mx s ds).tab (block mx s ds).fields (visible (typeOf s) (secType (block mx s ds)) ((ds.take (i + 1)).flatMap Decl.names)) (secType (block mx s ds)) e t := by
  obtain ⟨h1, h2⟩ := leftErr_clean he
  obtain ⟨_, _, k⟩ := chain2 (s0 := start s) mx hi.names' ds (start s) [] (hi.blk' (False, False)) (Scp.refl hi.open) h1
  obtain ⟨t, k1, k2, k3⟩ := k i xs e h
  exact ⟨t, k1, k2, Desc.final h2 e t k3⟩

/-- **C64, no name twice.**  The names declared in an accepted block are different from each other and from those the scope had; so are the own fields of each new record. -/
theorem C64_names {s : St} {mx : Int} {ds : List Decl} (hi : Init s) (he : (block mx s ds).errs = []) :
    (ds.flatMap Decl.names).Nodup ∧ (∀ x ∈ ds.flatMap Decl.names, (s.scopes.headD []).lookup x = none) ∧
    ∀ t, s.next ≤ t → ((block mx s ds).tab t).comp = .record → (((block mx s ds).fields t).map Prod.fst).Nodup := by
  obtain ⟨hb, hs⟩ := block_blk (pl := (False, False)) hi (fun d _ => ok_none d) he
  obtain ⟨f, fs, g, h1, h2, h3, h4, h5, h6⟩ := hs.sc
  refine ⟨h5, fun x hx => ?_, fun t ht hr => ?_⟩
  · have : s.scopes = f :: fs := h1
    rw [this]
    exact h6 x hx
  · by_cases c : t < (declares mx ds (start s)).next
    · exact (hb.good t ht c).names hr
    · have : (block mx s ds).fields t = [] := (hb.beyond t (by omega)).2
      rw [this]
      simp

/-- **C64, what was there stays.**  The declarations of a block change no type that was there before, nor what its names stand for. -/
theorem C64_old {s : St} {mx : Int} {ds : List Decl} (hi : Init s) (he : (block mx s ds).errs = []) :
    (∀ t < s.next, (block mx s ds).tab t = s.tab t ∧ (block mx s ds).fields t = s.fields t) ∧
    ∀ q, (∀ x ∈ ds.flatMap Decl.names, q ≠ .id x ∧ ∀ y, q ≠ .sel x y) → typeOf (block mx s ds) q = typeOf s q := by
  obtain ⟨hb, hs⟩ := block_blk (pl := (False, False)) hi (fun d _ => ok_none d) he
  refine ⟨hb.old, fun q hq => ?_⟩
  have hf : ∀ x, x ∉ ds.flatMap Decl.names → findIn x (block mx s ds).scopes = findIn x s.scopes := fun x hx => (hs.find x).2 hx
  have ho : ∀ i < s.nobj, (block mx s ds).objs i = s.objs i := hs.objs
  have him : (block mx s ds).imports = s.imports := hs.imports
  cases q with
  | id x =>
    have e := hf x (fun hx => (hq x hx).1 rfl)
    cases c : findIn x s.scopes with
    | none => simp only [typeOf, qualident, e, c, Option.map_none]
    | some i => simp only [typeOf, qualident, e, c, Option.map_some, ho i (hi.names' x i c)]
  | sel m x =>
    have e := hf m (fun hx => (hq m hx).2 x rfl)
    cases c : findIn m s.scopes with
    | none => simp only [typeOf, qualident, e, c]
    | some i => simp only [typeOf, qualident, e, c, ho i (hi.names' m i c), him]

/-- **C64, well-formed types.**  When the declarations of a block without open arrays of themselves (`Plain`) have been accepted, the table of types is as the rules for
types (C53, C54, C62, C63) suppose, and further blocks can follow. -/
theorem C64_wf_partial {s : St} {mx : Int} {ds : List Decl} (hi : Init s) (hp : Plain ds) (he : (block mx s ds).errs = []) : Init (block mx s ds) := by
  obtain ⟨hb, hs⟩ := block_blk (pl := (True, False)) hi (plain_of hp) he
  have h10 := hi.next
  have ho : ∀ t < s.next, (block mx s ds).tab t = s.tab t := fun t ht => (hb.old t ht).1
  have hof : ∀ t < s.next, (block mx s ds).fields t = s.fields t := fun t ht => (hb.old t ht).2
  have hbe : ∀ t, (declares mx ds (start s)).next ≤ t → (block mx s ds).tab t = { form := .no } := fun t ht => (hb.beyond t ht).1
  have hg : ∀ t, s.next ≤ t → t < (declares mx ds (start s)).next → Good (True, False) (block mx s ds) No t := by
    intro t h1 h2
    have h := hb.good t h1 h2
    exact ⟨h.lt, h.notB, h.form, h.comp, h.base, h.record, h.array, h.dyn, h.ptr, h.names, fun h => h.elim⟩
  have tri : ∀ t, t < s.next ∨ (s.next ≤ t ∧ t < (declares mx ds (start s)).next) ∨ (declares mx ds (start s)).next ≤ t := by intro t; omega
  have form' : ∀ (f : Types.Form) (k : Nat), (f ≠ .comp ∧ f ≠ .ptr ∧ f ≠ .proc ∧ f ≠ .no) → (∀ t, (s.tab t).form = f → t = k) → ∀ t, ((block mx s ds).tab t).form = f → t = k := by
    intro f k ⟨n1, n2, n3, n4⟩ hk t ht
    rcases tri t with c | ⟨c1, c2⟩ | c
    · rw [ho t c] at ht; exact hk t ht
    · rcases (hg t c1 c2).form with g | g | g
      · exact absurd (g.symm.trans ht).symm n1
      · exact absurd (g.symm.trans ht).symm n2
      · exact absurd (g.symm.trans ht).symm n3
    · rw [hbe t c] at ht
      exact absurd ht.symm n4
  have w := hi.wf
  refine ⟨⟨?_, ?_, ?_, ?_, ?_, ?_, ?_, ?_, ?_, ?_, ?_, ?_, ?_, ?_, ?_, ?_, ?_, ?_, ?_, ?_, ?_, ?_, ?_⟩, ?_, hb.beyond, ?_, ?_, hb.objs, hb.imps, ?_, ?_, C64_finite hi he, he⟩
  · rw [ho _ (by simp only [undftyp]; omega)]; exact w.undf
  · rw [ho _ (by simp only [notyp]; omega)]; exact w.no
  · rw [ho _ (by simp only [stringtyp]; omega)]; exact w.str
  · rw [ho _ (by simp only [niltyp]; omega)]; exact w.nil
  · rw [ho _ (by simp only [bytetyp]; omega)]; exact w.byte
  · rw [ho _ (by simp only [sysptrtyp]; omega)]; exact w.sysptr
  · rw [ho _ (by simp only [booltyp]; omega)]; exact w.bool
  · rw [ho _ (by simp only [chartyp]; omega)]; exact w.char
  · rw [ho _ (by simp only [realtyp]; omega)]; exact w.real
  · rw [ho _ (by simp only [lrltyp]; omega)]; exact w.lreal
  · intro t
    rcases tri t with c | ⟨c1, c2⟩ | c
    · rw [ho t c]; exact w.comp t
    · exact (hg t c1 c2).comp
    · rw [hbe t c]; simp
  · exact form' _ _ (by simp) w.undf'
  · exact form' _ _ (by simp) w.str'
  · exact form' _ _ (by simp) w.nil'
  · exact form' _ _ (by simp) w.byte'
  · exact form' _ _ (by simp) w.bool'
  · exact form' _ _ (by simp) w.char'
  · exact form' _ _ (by simp) w.real'
  · exact form' _ _ (by simp) w.lreal'
  · intro t b h1 h2
    rcases tri t with c | ⟨c1, c2⟩ | c
    · rw [ho t c] at h1 h2 ⊢
      rw [ho b (hi.base t b c h2)]
      exact w.record t b h1 h2
    · exact (hg t c1 c2).record b h1 h2
    · rw [hbe t c] at h1; cases h1
  · intro t h1
    rcases tri t with c | ⟨c1, c2⟩ | c
    · rw [ho t c] at h1 ⊢
      obtain ⟨b, k1, k2⟩ := w.array t h1
      exact ⟨b, k1, by rw [ho b (hi.base t b c k1)]; exact k2⟩
    · exact (hg t c1 c2).array h1
    · rw [hbe t c] at h1; cases h1
  · intro t h1
    rcases tri t with c | ⟨c1, c2⟩ | c
    · rw [ho t c] at h1 ⊢
      obtain ⟨b, k1, k2⟩ := w.dyn t h1
      exact ⟨b, k1, by rw [ho b (hi.base t b c k1)]; exact k2⟩
    · obtain ⟨b, k1, k2⟩ := (hg t c1 c2).dyn h1
      exact ⟨b, k1, fun h => (k2 trivial h).2⟩
    · rw [hbe t c] at h1; cases h1
  · intro t h1
    rcases tri t with c | ⟨c1, c2⟩ | c
    · rw [ho t c] at h1 ⊢
      exact w.ptr t h1
    · exact (hg t c1 c2).ptr h1
    · rw [hbe t c] at h1; cases h1
  · exact h10.trans hb.le
  · intro t b ht h
    rcases tri t with c | ⟨c1, c2⟩ | c
    · rw [ho t c] at h
      exact Nat.lt_of_lt_of_le (hi.base t b c h) hb.le
    · exact (hg t c1 c2).base b h
    · exact absurd ht (Nat.not_lt.mpr c)
  · intro t x v hr hv
    by_cases c : t < (declares mx ds (start s)).next
    · have hf := hb.fin t c
      cases hf with
      | stop _ h => exact h.elim
      | mk _ _ _ h => exact (h v (.inr ⟨hr, x, hv⟩)).lt
    · rw [hbe t (by omega)] at hr; cases hr
  · intro f hf p hp
    obtain ⟨f0, fs, g, h1, h2, h3, h4, h5, h6⟩ := hs.sc
    have hf : f ∈ (declares mx ds (start s)).scopes := hf
    have h1 : s.scopes = f0 :: fs := h1
    have old : ∀ f ∈ s.scopes, ∀ p ∈ f, p.2 < (declares mx ds (start s)).nobj := fun f hf p hp => Nat.lt_of_lt_of_le (hi.names f hf p hp) hs.nobj
    rw [h2] at hf
    rcases List.mem_cons.mp hf with rfl | hf
    · rcases List.mem_append.mp hp with c | c
      · exact old f0 (by rw [h1]; simp) p c
      · exact (h4 p c).2.1
    · exact old f (by rw [h1]; simp [hf]) p hp
  · exact hs.ne

/-- **C64, inherited fields.**  When the declarations of a block in which no record is extended within its own declaration (`NoInner`) have been accepted, no field of a
new record has the name of a field of its base type, or of what that extends. -/
theorem C64_inherited_partial {s : St} {mx : Int} {ds : List Decl} (hi : Init s) (hn : NoInner ds) (he : (block mx s ds).errs = []) {t b x v : Nat} (ht : s.next ≤ t)
    (hr : ((block mx s ds).tab t).comp = .record) (hb : ((block mx s ds).tab t).base = some b) (hx : HasField (block mx s ds).tab (block mx s ds).fields b x) :
    (x, v) ∉ (block mx s ds).fields t := by
  obtain ⟨hB, _⟩ := block_blk (pl := (False, True)) hi (noInner_of hn) he
  by_cases c : t < (declares mx ds (start s)).next
  · obtain ⟨h1, h2⟩ := (hB.good t ht c).own trivial b hr hb
    intro hm
    have h3 := h2 (x, v) hm
    have h4 : findField (declares mx ds (start s)) x (((declares mx ds (start s)).tab b).extlev + 1) b = true := findField_has h1 hx
    rw [h4] at h3
    cases h3
  · have : (block mx s ds).tab t = { form := .no } := (hB.beyond t (by omega)).1
    rw [this] at hr
    cases hr

/-- **C64, the lengths of arrays.**  All lengths of arrays in the declarations of an accepted block are from 1 to the largest the compiler takes. -/
theorem C64_lengths {mx : Int} : ∀ {ds : List Decl} {s : St}, Init s → (block mx s ds).errs = [] →
    (∀ x e, .typ x e ∈ ds → Lengths mx e) ∧ ∀ xs e, .var xs e ∈ ds → Lengths mx e := by
  have key : ∀ (ds : List Decl) (s : St), s.scopes ≠ [] → (declares mx ds s).errs = [] → (∀ x e, .typ x e ∈ ds → Lengths mx e) ∧ ∀ xs e, .var xs e ∈ ds → Lengths mx e := by
    intro ds
    induction ds with
    | nil => intro s _ _; exact ⟨fun _ _ h => (by cases h), fun _ _ h => (by cases h)⟩
    | cons d ds ih =>
      intro s hs he
      obtain ⟨_, h1⟩ := declare_ext mx s d hs
      obtain ⟨w, e⟩ := declares_ext mx ds (declare mx s d) h1
      obtain ⟨k1, k2⟩ := declare_lengths mx s d hs (nil_of_prefix e he)
      obtain ⟨j1, j2⟩ := ih _ h1 he
      refine ⟨fun x e hm => ?_, fun x e hm => ?_⟩
      · rcases List.mem_cons.mp hm with h | h
        · exact k1 x e h.symm
        · exact j1 x e h
      · rcases List.mem_cons.mp hm with h | h
        · exact k2 x e h.symm
        · exact j2 x e h
  exact fun {_ _} hi he => key _ (start _) hi.open (leftErr_clean he).1

/-! ### An example and what goes wrong -/

/-- The predeclared types, INTEGER with number 10. -/
def tab0 : Tab
  | 0 => { form := .undef }
  | 2 => { form := .str }
  | 3 => { form := .nil }
  | 4 => { form := .byte }
  | 5 => { form := .ptr, size := 8 }
  | 6 => { form := .bool }
  | 7 => { form := .char }
  | 8 => { form := .real, size := 4 }
  | 9 => { form := .lreal, size := 8 }
  | 10 => { form := .int, size := 2 }
  | _ => { form := .no }

/-- The beginning of a module: the scope of the predeclared names, of which INTEGER is the name 100, and an empty scope. -/
def st0 : St where
  tab := tab0
  fields := fun _ => []
  named := fun t => t < 11
  next := 11
  objs := fun i => if i = 0 then { mode := .typ, typ := 10 } else {}
  nobj := 1
  scopes := [[], [(100, 0)]]
  imports := fun _ _ => none
  fwd := []
  errs := []

theorem tab0_comp (t : Nat) : (tab0 t).comp = .basic := by
  simp only [tab0]
  split <;> rfl

theorem tab0_form (f : Types.Form) (k : Nat) (hf : f ≠ .no) (h : ∀ t ≤ 10, (tab0 t).form = f → t = k) : ∀ t, (tab0 t).form = f → t = k := by
  intro t ht
  by_cases c : t ≤ 10
  · exact h t c ht
  · have : tab0 t = { form := .no } := by
      simp only [tab0]
      split <;> first | omega | rfl
    rw [this] at ht
    exact absurd ht.symm hf

theorem tab0_wf : Wf tab0 := by
  refine ⟨rfl, rfl, rfl, rfl, rfl, ⟨rfl, rfl⟩, rfl, rfl, rfl, rfl, ?_, ?_, ?_, ?_, ?_, ?_, ?_, ?_, ?_, ?_, ?_, ?_, ?_⟩
  · intro t
    simp only [tab0]
    split <;> simp
  · exact tab0_form _ _ (by simp) (by decide)
  · exact tab0_form _ _ (by simp) (by decide)
  · exact tab0_form _ _ (by simp) (by decide)
  · exact tab0_form _ _ (by simp) (by decide)
  · exact tab0_form _ _ (by simp) (by decide)
  · exact tab0_form _ _ (by simp) (by decide)
  · exact tab0_form _ _ (by simp) (by decide)
  · exact tab0_form _ _ (by simp) (by decide)
  · intro t b h; rw [tab0_comp] at h; cases h
  · intro t h; rw [tab0_comp] at h; cases h
  · intro t h; rw [tab0_comp] at h; cases h
  · intro t h
    have := tab0_form .ptr 5 (by simp) (by decide) t h
    subst this
    exact ⟨_, rfl⟩

theorem st0_init : Init st0 := by
  refine ⟨tab0_wf, by decide, ?_, ?_, ?_, ?_, ?_, by decide, by decide, ?_, rfl⟩
  · intro t ht
    have ht : 11 ≤ t := ht
    refine ⟨?_, rfl⟩
    show tab0 t = _
    simp only [tab0]
    split <;> first | omega | rfl
  · intro t b ht h
    have ht : t < 11 := ht
    have h : (tab0 t).base = some b := h
    have : ∀ t < 11, (tab0 t).base = some 0 := by decide
    rw [this t ht] at h
    cases h
    decide
  · intro t x v _ h; cases h
  · intro i hi h
    have hi : i < 1 := hi
    obtain rfl : i = 0 := by omega
    decide
  · intro i x ob h; cases h
  · refine ⟨fun u => ⟨_, fun v hv => ?_⟩⟩
    rcases hv with ⟨h, _⟩ | ⟨h, _⟩
    · have : (tab0 u).comp = .array ∨ (tab0 u).comp = .dyn ∨ (tab0 u).comp = .record := h
      rw [tab0_comp] at this
      simp at this
    · have : (tab0 u).comp = .record := h
      rw [tab0_comp] at this
      cases this

/-- `TYPE List = POINTER TO Node; Node = RECORD next: List; a: ARRAY 3 OF INTEGER END; Long = RECORD (Node) b: List END; VAR l, m: List`. -/
def exDecls : List Decl :=
  [.typ 1 (.ptrTo (.id 2)),
   .typ 2 (.recd none (.cons false [3] (.name (.id 1)) (.cons false [4] (.arr 3 (.name (.id 100))) .nil))),
   .typ 7 (.recd (some (.id 2)) (.cons false [8] (.name (.id 1)) .nil)),
   .var [5, 6] (.name (.id 1))]

/-- The declarations of the example are accepted, so the theorems above apply. -/
theorem exDecls_ok : (block 100 st0 exDecls).errs = [] := by decide +kernel

example : Init (block 100 st0 exDecls) := C64_wf_partial st0_init (fun x e h => by
  simp only [exDecls, List.mem_cons, Decl.typ.injEq, reduceCtorEq, List.not_mem_nil, or_false] at h
  rcases h with ⟨rfl, rfl⟩ | ⟨rfl, rfl⟩ | ⟨rfl, rfl⟩ <;> rfl) exDecls_ok

example : secType (block 100 st0 exDecls) 1 = some 11 ∧ secType (block 100 st0 exDecls) 2 = some 12 ∧ secType (block 100 st0 exDecls) 7 = some 14 ∧
    objType (block 100 st0 exDecls) 6 = some 11 ∧ ((block 100 st0 exDecls).tab 11).base = some 12 ∧ (block 100 st0 exDecls).fields 12 = [(3, 11), (4, 13)] := by decide +kernel

example : ∀ v, (4, v) ∉ (block 100 st0 exDecls).fields 14 := fun v => C64_inherited_partial (b := 12) st0_init (fun x e h => by
  simp only [exDecls, List.mem_cons, Decl.typ.injEq, reduceCtorEq, List.not_mem_nil, or_false] at h
  rcases h with ⟨rfl, rfl⟩ | ⟨rfl, rfl⟩ | ⟨rfl, rfl⟩ <;> rfl) exDecls_ok (by decide) (by decide +kernel) (by decide +kernel) (.own (v := 13) (by decide +kernel))

/-- A field of the name of one of the base type, or of what that extends, is rejected; so are arrays without elements and too long ones. -/
example : (block 100 st0 [.typ 1 (.recd none (.cons false [2] (.name (.id 100)) .nil)), .typ 3 (.recd (some (.id 1)) .nil),
      .typ 4 (.recd (some (.id 3)) (.cons false [2] (.name (.id 100)) .nil))]).errs = [1] ∧
    (block 100 st0 [.var [1] (.arr 0 (.name (.id 100)))]).errs = [63] ∧ (block 100 st0 [.var [1] (.arr 101 (.name (.id 100)))]).errs = [63] ∧
    (block 100 st0 [.var [1] (.arr 100 (.name (.id 100)))]).errs = [] := by decide +kernel

/-- Without the restriction the table need not be well-formed: `D = ARRAY OF ARRAY OF POINTER TO ARRAY OF D` is accepted, and the open array of `D` counts as many
dimensions as `D` itself. -/
theorem C64_open_array : (block 100 st0 [.typ 1 (.dyn (.dyn (.ptr (.dyn (.name (.id 1))))))]).errs = [] ∧
    ¬ Wf (block 100 st0 [.typ 1 (.dyn (.dyn (.ptr (.dyn (.name (.id 1))))))]).tab := by
  refine ⟨by decide +kernel, fun h => ?_⟩
  obtain ⟨b, h1, h2⟩ := h.dyn 14 (by decide +kernel)
  have e : ((block 100 st0 [.typ 1 (.dyn (.dyn (.ptr (.dyn (.name (.id 1))))))]).tab 14).base = some 11 := by decide +kernel
  rw [e] at h1
  cases h1
  revert h2
  decide +kernel

/-- `R = RECORD p: POINTER TO RECORD (R) q: INTEGER END; q: INTEGER END`. -/
def dupDecls : List Decl :=
  [.typ 1 (.recd none (.cons false [2] (.ptr (.recd (some (.id 1)) (.cons false [3] (.name (.id 100)) .nil))) (.cons false [3] (.name (.id 100)) .nil)))]

/-- A field of an extension can have the name of a field of its base type, if the extension is declared within the base type before that field: the report forbids
it. -/
theorem C64_duplicate_field : (block 100 st0 dupDecls).errs = [] ∧ ((block 100 st0 dupDecls).tab 13).base = some 11 ∧
    (3, 10) ∈ (block 100 st0 dupDecls).fields 13 ∧ (3, 10) ∈ (block 100 st0 dupDecls).fields 11 := by decide +kernel

/-- A field hides a type of the same name in the types of the fields after it: `RECORD INTEGER, x: INTEGER END` is rejected, although by the report names of fields
are valid in designators only. -/
theorem C64_field_hides : (block 100 st0 [.typ 1 (.recd none (.cons false [100] (.name (.id 100)) .nil))]).errs = [52] ∧
    (block 100 st0 [.typ 1 (.recd none (.cons false [101] (.name (.id 100)) .nil))]).errs = [] := by decide +kernel

/-- A record that contains itself, and one that contains itself in an array, are rejected; so is a pointer to a name that is not declared, and a declared name twice. -/
example : (block 100 st0 [.typ 1 (.recd none (.cons false [2] (.name (.id 1)) .nil))]).errs = [58] ∧
    (block 100 st0 [.typ 1 (.recd none (.cons false [2] (.arr 5 (.name (.id 1))) .nil))]).errs = [58] ∧
    (block 100 st0 [.typ 1 (.ptrTo (.id 2))]).errs = [128] ∧ (block 100 st0 [.const 1, .typ 1 (.name (.id 100))]).errs = [1] := by decide +kernel

end Verif.Decls
