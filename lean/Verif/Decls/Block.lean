import Verif.Decls.Sound

/-!
# The declarations of a block
-/
namespace Verif.Decls
open Verif.Types

/-- Nothing. -/
abbrev No : Nat → Prop := fun _ => False

/-! ### Pointers are completed -/

/-- The pointers of the list are pointers. -/
def FwdPtr (s : St) : Prop := ∀ p ∈ s.fwd, p.1 < s.next ∧ (s.tab p.1).form = .ptr ∧ (s.tab p.1).comp = .basic

theorem resolve_tab {s : St} {x t u : Nat} (h : (u, some x) ∉ s.fwd) : (resolve s x t).tab u = s.tab u := by simp [resolve, h]

theorem resolve_keep (s : St) (x t u : Nat) : ((resolve s x t).tab u).form = (s.tab u).form ∧ ((resolve s x t).tab u).comp = (s.tab u).comp ∧
    ((resolve s x t).tab u).extlev = (s.tab u).extlev ∧ ((resolve s x t).tab u).n = (s.tab u).n := by
  simp only [resolve]
  split <;> exact ⟨rfl, rfl, rfl, rfl⟩

theorem resolve_comp {s : St} {x t u : Nat} (hf : FwdPtr s) (h : (s.tab u).comp ≠ .basic) : (resolve s x t).tab u = s.tab u :=
  resolve_tab fun hm => h (hf _ hm).2.2

theorem resolve_form {s : St} {x t u : Nat} (hf : FwdPtr s) (h : (s.tab u).form ≠ .ptr) : (resolve s x t).tab u = s.tab u :=
  resolve_tab fun hm => h (hf _ hm).2.1

theorem resolve_contains {s : St} {x t u v : Nat} (hf : FwdPtr s) (h : Contains (resolve s x t).tab (resolve s x t).fields u v) : Contains s.tab s.fields u v := by
  by_cases c : (s.tab u).comp = .basic
  · unfold Contains at h
    rw [(resolve_keep s x t u).2.1, c] at h
    simp at h
  · exact contains_congr (resolve_comp hf c) rfl h

theorem Fin.resolve {s : St} {A B : Nat → Prop} {x t u : Nat} (hf : FwdPtr s) (h : Fin s A B u) : Fin (resolve s x t) A B u := by
  induction h with
  | stop u h hl => exact .stop u h hl
  | mk u hl hb h ih => exact .mk u hl hb fun v hv => ih v (resolve_contains hf hv)

theorem Good.resolve {pl : Prop × Prop} {s : St} {B : Nat → Prop} {x t u : Nat} (hf : FwdPtr s) (ht : t < s.next) (h : Good pl s B u) : Good pl (resolve s x t) B u := by
  obtain ⟨k1, k2, k3, k4⟩ := resolve_keep s x t u
  constructor
  · exact h.lt
  · exact h.notB
  · rw [k1]; exact h.form
  · rw [k1, k2]; exact h.comp
  · intro b hb
    by_cases c : (u, some x) ∈ s.fwd
    · simp [Decls.resolve, c] at hb; rw [← hb]; exact ht
    · rw [resolve_tab c] at hb; exact h.base b hb
  · intro b h1 h2
    rw [k2] at h1
    rw [resolve_comp hf (by rw [h1]; simp)] at h2
    obtain ⟨j1, j2, j3, j4⟩ := resolve_keep s x t b
    rw [j2, j3, k3]
    exact h.record b h1 h2
  · intro h1
    rw [k2] at h1
    obtain ⟨b, h2, h3⟩ := h.array h1
    exact ⟨b, by rw [resolve_comp hf (by rw [h1]; simp)]; exact h2, by rw [(resolve_keep s x t b).2.1]; exact h3⟩
  · intro h1
    rw [k2] at h1
    obtain ⟨b, h2, h3⟩ := h.dyn h1
    refine ⟨b, by rw [resolve_comp hf (by rw [h1]; simp)]; exact h2, ?_⟩
    obtain ⟨j1, j2, j3, j4⟩ := resolve_keep s x t b
    rw [j2, j4, k4]
    exact h3
  · intro h1
    by_cases c : (u, some x) ∈ s.fwd
    · exact ⟨t, by simp [Decls.resolve, c]⟩
    · rw [k1] at h1
      rw [resolve_tab c]; exact h.ptr h1
  · rw [k2]; exact h.names
  · exact fun p => (h.own p).mono' h.lt h.notB (Nat.le_refl _) (fun v _ => (resolve_keep s x t v).2.1) (fun v _ _ hr => ⟨resolve_comp hf (by rw [hr]; simp), rfl⟩) (fun _ _ x => x)

theorem resolve_fwd {s : St} {x t u y : Nat} : (u, some y) ∈ (resolve s x t).fwd ↔ (u, some y) ∈ s.fwd ∧ y ≠ x := by
  simp only [resolve, List.mem_map]
  constructor
  · rintro ⟨p, hp, he⟩
    split at he
    · simp at he
    · rename_i c
      subst he
      exact ⟨hp, fun h => c (by simp [h])⟩
  · rintro ⟨h1, h2⟩
    refine ⟨(u, some y), h1, ?_⟩
    rw [if_neg]
    simpa using h2

section
variable {s : St} {B : Nat → Prop} {env : Qual → Option Nat} {sec : Nat → Option Nat} {x t : Nat}

mutual
theorem Desc.resolve (hf : FwdPtr s) (ht : t < s.next) (hc : (s.tab t).comp ≠ .basic) (hs : sec x = some t) :
    ∀ (e : TE) (u : Nat), Desc s B env sec e u → Desc (resolve s x t) B env sec e u
  | .name q, u, h => h
  | .dyn e, u, h => by
    unfold Desc at h ⊢
    obtain ⟨h1, h2, h3, h4, b, h5, h6⟩ := h
    rw [resolve_comp hf (by rw [h4]; simp)]
    exact ⟨h1, h2, h3, h4, b, h5, Desc.resolve hf ht hc hs e b h6⟩
  | .arr n e, u, h => by
    unfold Desc at h ⊢
    obtain ⟨h1, h2, h3, h4, h5, h6, b, h7, h8, h9, h10⟩ := h
    rw [resolve_comp hf (by rw [h4]; simp)]
    exact ⟨h1, h2, h3, h4, h5, h6, b, h7, h8, by rw [(resolve_keep s x t b).2.1]; exact h9, Desc.resolve hf ht hc hs e b h10⟩
  | .recd q fs, u, h => by
    unfold Desc at h ⊢
    obtain ⟨h1, h2, h3, h4, h5, h6⟩ := h
    rw [resolve_comp hf (by rw [h4]; simp)]
    refine ⟨h1, h2, h3, h4, ?_, DescF.resolve hf ht hc hs fs _ h6⟩
    cases q with
    | none => exact h5
    | some q =>
      obtain ⟨b, k1, k2, k3, k4, k5⟩ := h5
      refine ⟨b, k1, k2, ?_, k4, ?_⟩
      · rw [(resolve_keep s x t b).2.1]; exact k3
      · rw [(resolve_keep s x t b).2.2.1]; exact k5
  | .ptrTo q, u, h => by
    unfold Desc at h ⊢
    obtain ⟨h1, h2, h3, h4, h5⟩ := h
    obtain ⟨k1, k2, k3, k4⟩ := resolve_keep s x t u
    refine ⟨h1, h2, by rw [k1]; exact h3, by rw [k2]; exact h4, ?_⟩
    simp only [resolve_fwd]
    rcases h5 with ⟨b, j1, j2, j3, j4, j5⟩ | ⟨y, j1, j2, j3, j4⟩ | ⟨y, b, j1, j2, j3, j4, j5, j6, j7⟩
    · exact .inl ⟨b, j1, by rw [resolve_tab (j5 x)]; exact j2, j3, by rw [(resolve_keep s x t b).2.1]; exact j4, fun z h => j5 z h.1⟩
    · by_cases c : y = x
      · subst c
        refine .inr (.inr ⟨y, t, j1, j2, hs, by simp [Decls.resolve, j3], ht, by rw [(resolve_keep s y t t).2.1]; exact hc, fun z h => h.2 (j4 z h.1)⟩)
      · exact .inr (.inl ⟨y, j1, j2, ⟨j3, c⟩, fun z h => j4 z h.1⟩)
    · exact .inr (.inr ⟨y, b, j1, j2, j3, by rw [resolve_tab (j7 x)]; exact j4, j5, by rw [(resolve_keep s x t b).2.1]; exact j6, fun z h => j7 z h.1⟩)
  | .ptr e, u, h => by
    unfold Desc at h ⊢
    obtain ⟨h1, h2, h3, h4, h5, b, h6, h7, h8, h9⟩ := h
    rw [resolve_tab (h5 x)]
    simp only [resolve_fwd]
    exact ⟨h1, h2, h3, h4, fun y h => h5 y h.1, b, h6, h7, by rw [(resolve_keep s x t b).2.1]; exact h8, Desc.resolve hf ht hc hs e b h9⟩
  | .proc ps res, u, h => by
    unfold Desc at h ⊢
    obtain ⟨h1, h2, h3, h4, h5, h6⟩ := h
    rw [resolve_form hf (by rw [h3]; simp)]
    refine ⟨h1, h2, h3, h4, DescP.resolve hf ht hc hs ps _ h5, ?_⟩
    cases res with
    | none => exact h6
    | some q =>
      obtain ⟨b, k1, k2, k3, k4⟩ := h6
      exact ⟨b, k1, k2, by rw [(resolve_keep s x t b).2.1]; exact k3, k4⟩
theorem DescF.resolve (hf : FwdPtr s) (ht : t < s.next) (hc : (s.tab t).comp ≠ .basic) (hs : sec x = some t) :
    ∀ (fs : GL) (l : List (Nat × Nat)), DescF s B env sec fs l → DescF (resolve s x t) B env sec fs l
  | .nil, l, h => h
  | .cons v xs e rest, l, h => by
    unfold DescF at h ⊢
    obtain ⟨u, r, h1, h2, h3, h4, h5⟩ := h
    exact ⟨u, r, h1, h2, by rw [(resolve_keep s x t u).2.1]; exact h3, Desc.resolve hf ht hc hs e u h4, DescF.resolve hf ht hc hs rest r h5⟩
theorem DescP.resolve (hf : FwdPtr s) (ht : t < s.next) (hc : (s.tab t).comp ≠ .basic) (hs : sec x = some t) :
    ∀ (fs : GL) (l : List Par), DescP s B env sec fs l → DescP (resolve s x t) B env sec fs l
  | .nil, l, h => h
  | .cons v xs e rest, l, h => by
    unfold DescP at h ⊢
    obtain ⟨u, r, h1, h4, h5⟩ := h
    exact ⟨u, r, h1, Desc.resolve hf ht hc hs e u h4, DescP.resolve hf ht hc hs rest r h5⟩
end

mutual
theorem Desc.final (hf : ∀ u y, (u, some y) ∉ s.fwd) : ∀ (e : TE) (u : Nat), Desc s B env sec e u → Describes s.tab s.fields env sec e u
  | .name q, u, h => h
  | .dyn e, u, h => by
    unfold Desc at h
    unfold Describes
    obtain ⟨h1, h2, h3, h4, b, h5, h6⟩ := h
    exact ⟨h3, h4, b, h5, Desc.final hf e b h6⟩
  | .arr n e, u, h => by
    unfold Desc at h
    unfold Describes
    obtain ⟨h1, h2, h3, h4, h5, h6, b, h7, h8, h9, h10⟩ := h
    exact ⟨h3, h4, h5, h6, b, h7, h9, Desc.final hf e b h10⟩
  | .recd q fs, u, h => by
    unfold Desc at h
    unfold Describes
    obtain ⟨h1, h2, h3, h4, h5, h6⟩ := h
    refine ⟨h3, h4, ?_, DescF.final hf fs _ h6⟩
    cases q with
    | none => exact h5
    | some q =>
      obtain ⟨b, k1, k2, k3, k4, k5⟩ := h5
      exact ⟨b, k1, k3, k4, k5⟩
  | .ptrTo q, u, h => by
    unfold Desc at h
    unfold Describes
    obtain ⟨h1, h2, h3, h4, h5⟩ := h
    refine ⟨h3, h4, ?_⟩
    rcases h5 with ⟨b, j1, j2, j3, j4, j5⟩ | ⟨y, j1, j2, j3, j4⟩ | ⟨y, b, j1, j2, j3, j4, j5, j6, j7⟩
    · exact ⟨b, j2, j4, .inl j1⟩
    · exact absurd j3 (hf u y)
    · exact ⟨b, j4, j6, .inr ⟨j2, y, j1, j3⟩⟩
  | .ptr e, u, h => by
    unfold Desc at h
    unfold Describes
    obtain ⟨h1, h2, h3, h4, h5, b, h6, h7, h8, h9⟩ := h
    exact ⟨h3, h4, b, h6, h8, Desc.final hf e b h9⟩
  | .proc ps res, u, h => by
    unfold Desc at h
    unfold Describes
    obtain ⟨h1, h2, h3, h4, h5, h6⟩ := h
    refine ⟨h3, h4, DescP.final hf ps _ h5, ?_⟩
    cases res with
    | none => exact h6
    | some q =>
      obtain ⟨b, k1, k2, k3, k4⟩ := h6
      exact ⟨b, k1, k3, k4⟩
theorem DescF.final (hf : ∀ u y, (u, some y) ∉ s.fwd) : ∀ (fs : GL) (l : List (Nat × Nat)), DescF s B env sec fs l → DescribesF s.tab s.fields env sec fs l
  | .nil, l, h => h
  | .cons v xs e rest, l, h => by
    unfold DescF at h
    unfold DescribesF
    obtain ⟨u, r, h1, h2, h3, h4, h5⟩ := h
    exact ⟨u, r, h1, h3, Desc.final hf e u h4, DescF.final hf rest r h5⟩
theorem DescP.final (hf : ∀ u y, (u, some y) ∉ s.fwd) : ∀ (fs : GL) (l : List Par), DescP s B env sec fs l → DescribesP s.tab s.fields env sec fs l
  | .nil, l, h => h
  | .cons v xs e rest, l, h => by
    unfold DescP at h
    unfold DescribesP
    obtain ⟨u, r, h1, h4, h5⟩ := h
    exact ⟨u, r, h1, Desc.final hf e u h4, DescP.final hf rest r h5⟩
end
end

/-! ### Between declarations -/

/-- The state between two declarations of a block that began in `s0`. -/
structure Blk (pl : Prop × Prop) (s0 s : St) : Prop where
  pos : 1 < s.next
  le : s0.next ≤ s.next
  good : ∀ u, s0.next ≤ u → u < s.next → Good pl s No u
  fin : ∀ u < s.next, Fin s No No u
  objs : ∀ i < s.nobj, (s.objs i).mode = .typ → (s.objs i).typ < s.next
  imps : ∀ i x ob, s.imports i x = some ob → ob.mode = .typ → ob.typ < s.next
  old : ∀ t < s0.next, s.tab t = s0.tab t ∧ s.fields t = s0.fields t
  fwd : FwdPtr s
  fnew : ∀ p ∈ s.fwd, s0.next ≤ p.1
  sc : ∀ x i, findIn x s.scopes = some i → i < s.nobj
  beyond : ∀ t, s.next ≤ t → s.tab t = { form := .no } ∧ s.fields t = []
  cb : ∀ t < s.next, (s.tab t).form = .comp ↔ (s.tab t).comp ≠ .basic
  imports : s.imports = s0.imports
  lev : ∀ u < s0.next, (s0.tab u).comp = .record → ∀ v, (s0.tab u).base = some v → v < s0.next ∧ (s0.tab v).comp = .record ∧ (s0.tab u).extlev = (s0.tab v).extlev + 1

theorem Blk.anc {pl : Prop × Prop} {s0 s : St} (h : Blk pl s0 s) {u : Nat} (hu : Fin s No No u) (hr : (s.tab u).comp = .record) : Anc s No u := by
  induction hu with
  | stop u h _ => exact h.elim
  | mk u hl hb hx ih =>
    have key : ∀ v, (s.tab u).base = some v → (s.tab v).comp = .record ∧ (s.tab u).extlev = (s.tab v).extlev + 1 := by
      intro v hv
      by_cases c : u < s0.next
      · obtain ⟨e1, _⟩ := h.old u c
        rw [e1] at hv hr ⊢
        obtain ⟨k1, k2, k3⟩ := h.lev u c hr v hv
        rw [(h.old v k1).1]
        exact ⟨k2, k3⟩
      · exact (h.good u (by omega) hl).record v hr hv
    refine .mk u hl hb hr (fun v hv => (key v hv).2) (fun v hv => ih v ?_ (key v hv).1)
    unfold Contains
    rw [hr]
    exact .inl ⟨.inr (.inr rfl), hv⟩

/-- The restrictions on a declaration. -/
def Decl.ok (pl : Prop × Prop) : Decl → Prop
  | .typ x e => (pl.1 → DynOf x e = false) ∧ (pl.2 → ExtOf x e = false)
  | _ => True

theorem insert_err (s : St) (x : Nat) (ob : Obj) : ∃ w, (insert s x ob).errs = s.errs ++ w := by
  unfold insert
  split
  · exact ⟨[], by simp⟩
  · simp only
    split
    · exact ⟨[1], rfl⟩
    · exact ⟨[], by simp⟩

theorem nil_of_prefix {a b w : List Nat} (h : a = b ++ w) (ha : a = []) : b = [] := by
  rw [ha] at h
  exact (List.append_eq_nil_iff.mp h.symm).1

/-- A new name in the innermost scope. -/
theorem Blk.insert {pl : Prop × Prop} {s0 s : St} {f : List (Nat × Nat)} {fs : List (List (Nat × Nat))} (h : Blk pl s0 s) (hs : s.scopes = f :: fs) (x : Nat) (ob : Obj)
    (ho : ob.mode = .typ → ob.typ < s.next) (he : (insert s x ob).errs = []) : Blk pl s0 (insert s x ob) := by
  obtain ⟨_, e⟩ := insert_clean s x ob f fs hs he
  have hfin : ∀ u, Fin s No No u → Fin (Decls.insert s x ob) No No u := fun u hu =>
    hu.mono' (by rw [e]) (fun t _ _ => by rw [e]; exact ⟨rfl, rfl⟩) (fun _ _ x => x) (fun _ x => x)
  have hgood : ∀ u, Good pl s No u → Good pl (Decls.insert s x ob) No u := by
    intro u hu
    rw [e]
    exact ⟨hu.lt, hu.notB, hu.form, hu.comp, hu.base, hu.record, hu.array, hu.dyn, hu.ptr, hu.names,
      fun p => (hu.own p).mono' hu.lt hu.notB (Nat.le_refl _) (fun _ _ => rfl) (fun _ _ _ _ => ⟨rfl, rfl⟩) (fun _ _ x => x)⟩
  have hsc : ∀ y i, findIn y (Decls.insert s x ob).scopes = some i → i < s.nobj + 1 := by
    intro y i hi
    rcases (insert_find s x ob y).1 i hi with c | c
    · omega
    · have := h.sc y i c; omega
  rw [e] at hfin hgood hsc ⊢
  exact ⟨h.pos, h.le, fun u h1 h2 => hgood u (h.good u h1 h2), fun u hu => hfin u (h.fin u hu),
    fun i hi hm => by
      by_cases c : i = s.nobj
      · subst c
        simp only [upd_self] at hm ⊢
        exact ho hm
      · simp only [upd_ne _ _ c] at hm ⊢
        exact h.objs i (by simp only at hi; omega) hm,
    h.imps, h.old, h.fwd, h.fnew, hsc, h.beyond, h.cb, h.imports, h.lev⟩

theorem Blk.hyp {pl : Prop × Prop} {s0 s : St} (h : Blk pl s0 s) (o : Option Nat) (x : Nat) (hc : ∀ i, o = some i → i < s.nobj ∧ (s.objs i).typ < s.next)
    (ho : ∀ y i, findIn y s.scopes = some i → o = some i → y = x) : Hyp o x No s :=
  ⟨h.pos, fun _ x => x.elim, h.sc, fun i hi hm _ => h.fin _ (h.objs i hi hm), fun i x ob hi hm => h.fin _ (h.imps i x ob hi hm), hc, ho, h.beyond,
   fun p hp => (h.fwd p hp).1, h.cb, fun i hi hm _ hr => h.anc (h.fin _ (h.objs i hi hm)) hr, fun i x ob hi hm hr => h.anc (h.fin _ (h.imps i x ob hi hm)) hr⟩

/-- A type expression on the level of the block. -/
theorem Blk.typeDecl {pl : Prop × Prop} {s0 s : St} (h : Blk pl s0 s) (mx : Int) (loc : Loc) (o : Option Nat) (x : Nat) (e : TE) (hl : loc = .tmp ∧ o = none ∨ ∃ i, loc = .obj i ∧ o = some i)
    (hc : ∀ i, o = some i → i < s.nobj ∧ (s.objs i).typ < s.next) (ho : ∀ y i, findIn y s.scopes = some i → o = some i → y = x)
    (he : (typeDecl mx s loc o e).1.errs = []) (hd : Ok pl o x e) :
    Blk pl s0 (typeDecl mx s loc o e).1 ∧ (typeDecl mx s loc o e).2 < (typeDecl mx s loc o e).1.next ∧
    ∀ env sec, EnvOf s.scopes (typeDecl mx s loc o e).1.objs s.imports env → Desc (typeDecl mx s loc o e).1 No env sec e (typeDecl mx s loc o e).2 := by
  have hy := h.hyp o x hc ho
  have hlo : LocOk o o No loc := by
    rcases hl with ⟨rfl, _⟩ | ⟨i, rfl, rfl⟩
    · exact ⟨fun u e => (by cases e), fun i e => (by cases e)⟩
    · exact ⟨fun u e => (by cases e), fun j e => (by cases e; exact ⟨rfl, rfl⟩)⟩
  obtain ⟨a, asc, aat⟩ := frD mx e s loc o (hlo.locIn hy)
  let A : Nat → Prop := fun t => ∃ i, o = some i ∧ t = ((Decls.typeDecl mx s loc o e).1.objs i).typ
  have R : ∀ env sec, EnvOf s.scopes (Decls.typeDecl mx s loc o e).1.objs s.imports env →
      Res pl x o o A No env sec s (Decls.typeDecl mx s loc o e).1 e (Decls.typeDecl mx s loc o e).2 := fun env sec hE =>
    soundD pl o x A env sec mx e s loc o No hy hlo (.inr rfl) he (fun i hi => ⟨i, hi, rfl⟩) hE hd
  obtain ⟨env0, hE0⟩ : ∃ env, EnvOf s.scopes (Decls.typeDecl mx s loc o e).1.objs s.imports env := by
    refine ⟨typeOf { s with objs := (Decls.typeDecl mx s loc o e).1.objs }, ?_, ?_, ?_⟩
    · intro y i hi hm
      simp [typeOf, qualident, hi, hm]
    · intro y hi
      simp [typeOf, qualident, hi]
    · intro m y i ob hi hm him hob
      simp [typeOf, qualident, hi, hm, him, hob]
  have R0 := R env0 (fun _ => none) hE0
  refine ⟨?_, R0.fin.lt, fun env sec hE => (R env sec hE).desc⟩
  have hres : Fin (Decls.typeDecl mx s loc o e).1 No No (Decls.typeDecl mx s loc o e).2 := by
    rcases hl with ⟨hl, ho⟩ | ⟨i, hl, ho⟩
    · exact R0.fin.weaken (fun _ x => x) (fun t ht => by obtain ⟨_, i, hi, _⟩ := ht; rw [ho] at hi; cases hi)
    · exact R0.fin.weaken (fun _ x => x) (fun t ht => by have := ht.1; rw [ho] at this; cases this)
  have hA : ∀ t, A t → Fin (Decls.typeDecl mx s loc o e).1 No No t := by
    rintro t ⟨i, hi, rfl⟩
    rcases hl with ⟨hl, ho⟩ | ⟨j, hl, ho⟩
    · rw [ho] at hi; cases hi
    · rw [ho] at hi
      cases hi
      rw [aat.2 i hl]
      exact hres
  have hP : ∀ t < s.next, LocP loc t → No t := by
    intro t _ ht
    exact hlo.base t ht
  generalize Decls.typeDecl mx s loc o e = r at *
  have hgood : ∀ u, s.next ≤ u → u < r.1.next → Good pl r.1 No u := fun u h1 h2 => (R0.new u h1 h2).1
  have hfin : ∀ u < r.1.next, Fin r.1 No No u := by
    intro u hu
    by_cases c : u < s.next
    · exact (h.fin u c).mono a hP (fun _ _ x => x) (fun _ x => x)
    · exact ((R0.new u (by omega) hu).2).close hA
  refine ⟨by have := h.pos; have := a.next; omega, h.le.trans a.next, ?_, hfin, ?_, ?_, ?_, ?_, ?_, ?_, a.beyond h.beyond, a.cb h.cb, a.imports.trans h.imports, h.lev⟩
  · intro u h1 h2
    by_cases c : u < s.next
    · exact (h.good u h1 c).mono a hP (fun _ _ x => x)
    · exact hgood u (by omega) h2
  · intro i hi hm
    by_cases c : i < s.nobj
    · by_cases c2 : loc = .obj i
      · rw [aat.2 i c2]
        exact hres.lt
      · rw [a.objs i c c2] at hm ⊢
        have := h.objs i c hm
        have := a.next
        omega
    · rw [a.fresh i (by omega) hi] at hm
      cases hm
  · intro i y ob hi hm
    rw [a.imports] at hi
    have := h.imps i y ob hi hm
    have := a.next
    omega
  · intro t ht
    have h1 : t < s.next := by have := h.le; omega
    rw [a.tab t h1 (hP t h1), a.fields t h1 (hP t h1)]
    exact h.old t ht
  · intro p hp
    obtain ⟨w, e, hw⟩ := a.fwd
    rw [e] at hp
    rcases List.mem_append.mp hp with c | c
    · obtain ⟨k1, k2, k3⟩ := h.fwd p c
      obtain ⟨j1, j2, _⟩ := a.keep p.1 k1
      exact ⟨by have := a.next; omega, j1.trans k2, j2.trans k3⟩
    · exact (hw p c).2
  · intro p hp
    obtain ⟨w, e, hw⟩ := a.fwd
    rw [e] at hp
    rcases List.mem_append.mp hp with c | c
    · exact h.fnew p c
    · have := (hw p c).1; have := h.le; omega
  · intro y i hi
    rw [asc] at hi
    have := h.sc y i hi
    have := a.nobj
    omega

theorem Blk.resolve {pl : Prop × Prop} {s0 s : St} (h : Blk pl s0 s) (x t : Nat) (ht : t < s.next) : Blk pl s0 (resolve s x t) := by
  refine ⟨h.pos, h.le, fun u h1 h2 => (h.good u h1 h2).resolve h.fwd ht, fun u hu => (h.fin u hu).resolve h.fwd, h.objs, h.imps, ?_, ?_, ?_, h.sc, ?_, ?_, h.imports, h.lev⟩
  · intro u hu
    rw [resolve_tab (fun hm => by have := h.fnew _ hm; simp only at this; omega)]
    exact h.old u hu
  · intro p hp
    simp only [Decls.resolve, List.mem_map] at hp
    obtain ⟨p', hp', e⟩ := hp
    have e1 : p.1 = p'.1 := by
      rw [← e]; split <;> rfl
    obtain ⟨k1, k2, _⟩ := resolve_keep s x t p.1
    rw [k1, k2, e1]
    exact h.fwd p' hp'
  · intro p hp
    simp only [Decls.resolve, List.mem_map] at hp
    obtain ⟨p', hp', e⟩ := hp
    have e1 : p.1 = p'.1 := by
      rw [← e]; split <;> rfl
    rw [e1]
    exact h.fnew p' hp'
  · intro u hu
    rw [resolve_tab (fun hm => by have := (h.fwd _ hm).1; simp only [Decls.resolve] at *; omega)]
    exact h.beyond u hu
  · intro u hu
    obtain ⟨k1, k2, _⟩ := resolve_keep s x t u
    rw [k1, k2]
    exact h.cb u hu

/-- Changes that nothing here depends on. -/
theorem Blk.congr {pl : Prop × Prop} {s0 s s' : St} (h : Blk pl s0 s) (h1 : s'.tab = s.tab) (h2 : s'.fields = s.fields) (h3 : s'.next = s.next) (h4 : s'.nobj = s.nobj)
    (h5 : s'.scopes = s.scopes) (h6 : s'.imports = s.imports) (h7 : s'.fwd = s.fwd)
    (h8 : ∀ i < s.nobj, (s'.objs i).mode = (s.objs i).mode ∧ ((s.objs i).mode = .typ → (s'.objs i).typ = (s.objs i).typ)) : Blk pl s0 s' := by
  have hfin : ∀ u, Fin s No No u → Fin s' No No u := fun u hu => hu.mono' (by rw [h3]) (fun t _ _ => by rw [h1, h2]; exact ⟨rfl, rfl⟩) (fun _ _ x => x) (fun _ x => x)
  refine ⟨by rw [h3]; exact h.pos, by rw [h3]; exact h.le, ?_, ?_, ?_, ?_, by rw [h1, h2]; exact h.old, ?_, by rw [h7]; exact h.fnew, by rw [h5, h4]; exact h.sc,
    by rw [h1, h2, h3]; exact h.beyond, by rw [h1, h3]; exact h.cb, h6.trans h.imports, h.lev⟩
  · intro u a b
    rw [h3] at b
    have g := h.good u a b
    exact ⟨by rw [h3]; exact g.lt, g.notB, by rw [h1]; exact g.form, by rw [h1]; exact g.comp, by rw [h1, h3]; exact g.base, by rw [h1]; exact g.record,
      by rw [h1]; exact g.array, by rw [h1]; exact g.dyn, by rw [h1]; exact g.ptr, by rw [h1, h2]; exact g.names,
      fun p => (g.own p).mono' g.lt g.notB (by rw [h3]) (fun _ _ => by rw [h1]) (fun _ _ _ _ => by rw [h1, h2]; exact ⟨rfl, rfl⟩) (fun _ _ x => x)⟩
  · intro u a
    rw [h3] at a
    exact hfin u (h.fin u a)
  · intro i a b
    rw [h4] at a
    obtain ⟨k1, k2⟩ := h8 i a
    rw [k1] at b
    rw [k2 b, h3]
    exact h.objs i a b
  · rw [h6, h3]; exact h.imps
  · intro p hp
    rw [h7] at hp
    rw [h1, h3]
    exact h.fwd p hp

end Verif.Decls
