import Verif.TDInit.Lemmas

/-!
# The list of nodes of a block
-/
namespace Verif.TDInit
open Verif.Types Verif.Decls

/-- From `s` to `s'` the records that were there stay. -/
structure Kp (s s' : St) : Prop where
  next : s.next ≤ s'.next
  comp : ∀ t < s.next, (s'.tab t).comp = (s.tab t).comp
  tab : ∀ t < s.next, (s.tab t).comp = .record → s'.tab t = s.tab t

theorem Kp.refl (s : St) : Kp s s := ⟨Nat.le_refl _, fun _ _ => rfl, fun _ _ _ => rfl⟩

theorem Kp.trans {s s1 s2 : St} (a : Kp s s1) (b : Kp s1 s2) : Kp s s2 :=
  ⟨a.next.trans b.next, fun t h => (b.comp t (by have := a.next; omega)).trans (a.comp t h),
   fun t h hr => (b.tab t (by have := a.next; omega) (by rw [a.comp t h]; exact hr)).trans (a.tab t h hr)⟩

theorem Kp.of {s s' : St} {P Q : Nat → Prop} (a : Fr P Q s s') (h : ∀ t < s.next, ¬ P t) : Kp s s' :=
  ⟨a.next, fun t ht => (a.keep t ht).2.1, fun t ht _ => a.tab t ht (h t ht)⟩

theorem Kp.lst {s1 s2 s3 : St} {R : Nat → Prop} {l : List Nat} (a : Kp s2 s3) (h : Lst s1 s2 R l) (hn : s3.next = s2.next) : Lst s1 s3 R l := by
  have key : ∀ t ∈ l, s3.tab t = s2.tab t := fun t ht => by
    obtain ⟨x, y, z⟩ := (h.mem t).mp ht
    exact a.tab t y z
  refine ⟨fun t => ?_, h.nodup, fun b t c e => ?_, fun t ht => ?_⟩
  · rw [h.mem t, hn]
    constructor
    · rintro ⟨x, y, z⟩
      exact ⟨x, y, by rw [a.comp t y]; exact z⟩
    · rintro ⟨x, y, z⟩
      exact ⟨x, y, by rw [a.comp t y] at z; exact z⟩
  · rw [key t (by rw [e]; simp)]
    exact h.ord b t c e
  · rw [key t ht]
    exact h.lev t ht

theorem Kp.append {s s1 s2 : St} {R : Nat → Prop} {l1 l2 : List Nat} (a : Kp s1 s2) (h1 : Lst s s1 R l1) (h2 : Lst s1 s2 (fun b => R b ∨ b ∈ l1) l2)
    (hn : s.next ≤ s1.next) : Lst s s2 R (l1 ++ l2) := by
  have key : ∀ t ∈ l1, s2.tab t = s1.tab t := fun t ht => by
    obtain ⟨x, y, z⟩ := (h1.mem t).mp ht
    exact a.tab t y z
  refine ⟨fun t => ?_, ?_, fun b t c e => ?_, fun t ht => ?_⟩
  · rw [List.mem_append, h1.mem t, h2.mem t]
    constructor
    · rintro (⟨x, y, z⟩ | ⟨x, y, z⟩)
      · exact ⟨x, by have := a.next; omega, by rw [a.comp t y]; exact z⟩
      · exact ⟨by omega, y, z⟩
    · rintro ⟨x, y, z⟩
      by_cases c : t < s1.next
      · exact .inl ⟨x, c, by rw [a.comp t c] at z; exact z⟩
      · exact .inr ⟨by omega, y, z⟩
  · rw [List.nodup_append]
    refine ⟨h1.nodup, h2.nodup, fun x hx y hy e => ?_⟩
    subst e
    have := ((h1.mem x).mp hx).2.1
    have := ((h2.mem x).mp hy).1
    omega
  · intro v hv
    rcases List.append_eq_append_iff.mp e with ⟨w, rfl, e2⟩ | ⟨w, e1, e2⟩
    · rcases h2.ord w t c e2 v hv with (k | k) | k
      · exact .inl k
      · exact .inr (List.mem_append_left _ k)
      · exact .inr (List.mem_append_right _ k)
    · cases w with
      | nil =>
        simp only [List.nil_append] at e2
        simp only [List.append_nil] at e1
        subst e1
        rcases h2.ord [] t c (by rw [← e2]; rfl) v hv with (k | k) | k
        · exact .inl k
        · exact .inr k
        · cases k
      | cons x w =>
        rw [List.cons_append] at e2
        obtain ⟨rfl, rfl⟩ := List.cons.inj e2
        rw [key t (by rw [e1]; simp)] at hv
        exact h1.ord b t w e1 v hv
  · rcases List.mem_append.mp ht with c | c
    · rw [key t c]; exact h1.lev t c
    · exact h2.lev t c

/-- The type of an expression that is no name is a new one. -/
theorem typeDecl_snd (mx : Int) (s : St) (loc : Loc) (ban : Option Nat) (e : TE) : (∃ q, e = .name q) ∨ (∀ q, e ≠ .name q) ∧ (typeDecl mx s loc ban e).2 = s.next := by
  cases e with
  | name q => exact .inl ⟨q, rfl⟩
  | dyn e => right; rw [typeDecl.eq_2]; exact ⟨fun q h => (by cases h), rfl⟩
  | arr n e => right; rw [typeDecl.eq_3]; exact ⟨fun q h => (by cases h), rfl⟩
  | recd b fs => right; rw [typeDecl.eq_4]; exact ⟨fun q h => (by cases h), rfl⟩
  | ptrTo q => right; rw [typeDecl.eq_5]; exact ⟨fun q h => (by cases h), rfl⟩
  | ptr e => right; rw [typeDecl.eq_6]; exact ⟨fun q h => (by cases h), rfl⟩
  | proc ps res => right; rw [typeDecl.eq_7]; exact ⟨fun q h => (by cases h), rfl⟩

theorem typeDecl_new (mx : Int) (s : St) (loc : Loc) (ban : Option Nat) (e : TE) (hl : LocIn s loc) (h : ∀ q, e ≠ .name q) : s.next < (typeDecl mx s loc ban e).1.next := by
  cases e with
  | name q => exact absurd rfl (h q)
  | dyn e =>
    rw [typeDecl.eq_2]
    try dsimp only
    have hn := new_next s loc { form := .comp, comp := .dyn }
    have a := (frD mx e (new s loc { form := .comp, comp := .dyn }) (.base s.next) ban ⟨fun u e => (by cases e; omega), fun i e => (by cases e)⟩).1.next
    have b := (fr_typeCheck No No (typeDecl mx (new s loc { form := .comp, comp := .dyn }) (.base s.next) ban e)).next
    rw [endDyn_next]
    omega
  | arr n e =>
    rw [typeDecl.eq_3]
    try dsimp only
    generalize (if n ≤ 0 ∨ n > mx then 1 else n.toNat) = k
    have hn := new_next s loc { form := .comp, comp := .array, n := k }
    generalize new s loc { form := .comp, comp := .array, n := k } = s0 at *
    have e0 : (if n ≤ 0 ∨ n > mx then err s0 63 else s0).next = s0.next := by split <;> rfl
    generalize (if n ≤ 0 ∨ n > mx then err s0 63 else s0) = s1 at *
    have a := (frD mx e s1 (.base s.next) ban ⟨fun u e => (by cases e; omega), fun i e => (by cases e)⟩).1.next
    have b := (fr_typeCheck No No (typeDecl mx s1 (.base s.next) ban e)).next
    rw [endArr_next]
    omega
  | recd b fs =>
    rw [typeDecl.eq_4]
    try dsimp only
    have hn := new_next s loc { form := .comp, comp := .record, base := none }
    obtain ⟨rn, _, _⟩ := recBase_next (new s loc { form := .comp, comp := .record, base := none }) s.next ban b
    generalize recBase (new s loc { form := .comp, comp := .record, base := none }) s.next ban b = s1 at *
    have hnx : s.next < (openScope s1).next := by show s.next < s1.next; omega
    have := (frF mx fs (openScope s1) s.next ban hnx).1.next
    exact Nat.lt_of_lt_of_le hnx this
  | ptrTo q =>
    rw [typeDecl.eq_5]
    try dsimp only
    rw [ptrName_next, new_next]
    omega
  | ptr e =>
    rw [typeDecl.eq_6]
    try dsimp only
    have hn := new_next s loc { form := .ptr }
    have a := (frD mx e (new s loc { form := .ptr }) (.base s.next) none ⟨fun u e => (by cases e; omega), fun i e => (by cases e)⟩).1.next
    have b := (fr_typeCheck No No (typeDecl mx (new s loc { form := .ptr }) (.base s.next) none e)).next
    rw [endPtr_next]
    omega
  | proc ps res =>
    rw [typeDecl.eq_7]
    try dsimp only
    have hn := new_next s loc { form := .proc }
    have a := (frP mx ps (openScope (new s loc { form := .proc }))).1.next
    have : (openScope (new s loc { form := .proc })).next = (new s loc { form := .proc }).next := rfl
    rw [endProc_next]
    omega

theorem resolve_kp {s : St} (x t : Nat) (hf : FwdPtr s) : Kp s (resolve s x t) :=
  ⟨Nat.le_refl _, fun u _ => (resolve_keep s x t u).2.1, fun u _ hr => resolve_comp hf (by rw [hr]; simp)⟩

theorem fwd_step {s s' : St} {P Q : Nat → Prop} (h : FwdPtr s) (a : Fr P Q s s') : FwdPtr s' := by
  obtain ⟨w, e, hw⟩ := a.fwd
  intro p hp
  rw [e] at hp
  rcases List.mem_append.mp hp with c | c
  · obtain ⟨k1, k2, k3⟩ := h p c
    obtain ⟨j1, j2, _⟩ := a.keep p.1 k1
    exact ⟨by have := a.next; omega, j1.trans k2, j2.trans k3⟩
  · exact (hw p c).2

/-- What one declaration does to the list. -/
theorem decl_lst {pl : Prop × Prop} {s0 s : St} {R : Nat → Prop} (mx : Int) (d : Decl) (hb : Blk pl s0 s) (hs : s.scopes ≠ []) (h : Rdy none R s)
    (hd : ∀ x e, d = .typ x e → ExtOf x e = false) (he : (declare mx s d).errs = []) :
    Lst s (declare mx s d) R (initsD mx s d) ∧ Kp s (declare mx s d) ∧ Rdy none (fun b => R b ∨ b ∈ initsD mx s d) (declare mx s d) := by
  have mono : ∀ {s : St} {l : List Nat}, Rdy none R s → Rdy none (fun b => R b ∨ b ∈ l) s := fun h =>
    ⟨h.sc, fun y i a b c => ⟨(h.obj y i a b c).1, fun d => .inl ((h.obj y i a b c).2 d)⟩, fun i x ob a b => ⟨(h.imp i x ob a b).1, fun d => .inl ((h.imp i x ob a b).2 d)⟩⟩
  cases d with
  | const x =>
    have a := fr_insert No No s x
    have hn := (insert_next s x {}).1
    exact ⟨.nil fun t h1 h2 => by simp only [declare] at h2; omega, .of a (fun _ _ h => h), mono (h.step a (finds_insert s x) (fun _ _ _ _ h => h))⟩
  | var xs e =>
    have a0 := fr_addObjs No No xs s
    have hr := h.step a0 (finds_addObjs xs s) (fun _ _ _ _ h => h)
    have n0 := addObjs_next xs s
    have he1 : (noDyn (typeCheck (typeDecl mx (addObjs s xs) .tmp none e))).1.errs = [] := he
    obtain ⟨n1, _⟩ := noDyn_clean he1
    rw [n1] at he1
    have n2 := typeCheck_clean he1
    rw [n2] at he1 n1
    obtain ⟨a, asc, _⟩ := frD mx e (addObjs s xs) .tmp none (LocOk.tmp (x0 := none)).1
    have L := (okD mx e R (addObjs s xs) .tmp none hr LocOk.tmp (fun x hx => by cases hx) he1).pre (s := s) (by omega) (fun t h1 h2 => by omega)
    have hr2 := rdyD hr mx none e
    have hk : Kp s (typeDecl mx (addObjs s xs) .tmp none e).1 := (Kp.of a0 (fun _ _ h => h)).trans (.of a (fun _ _ h => by cases h))
    simp only [declare, initsD, n2, n1]
    have hno := a.nobj
    have hfr : ∀ i, s.nobj ≤ i → i < s.nobj + xs.length → i < (addObjs s xs).nobj → ((typeDecl mx (addObjs s xs) .tmp none e).1.objs i).mode ≠ .typ := by
      intro i h1 h2 h3
      rw [a.mode i h3, a0.fresh i h1 h3]
      simp
    have hfr2 : ∀ i, (addObjs s xs).nobj ≤ i → i < (typeDecl mx (addObjs s xs) .tmp none e).1.nobj → ((typeDecl mx (addObjs s xs) .tmp none e).1.objs i).mode ≠ .typ := by
      intro i h1 h2
      rw [a.fresh i h1 h2]
      simp
    have hsc2 : ∀ y i, findIn y (typeDecl mx (addObjs s xs) .tmp none e).1.scopes = some i → i < (addObjs s xs).nobj := by
      intro y i hi
      rw [asc] at hi
      exact hr.sc y i hi
    generalize typeDecl mx (addObjs s xs) .tmp none e = r at *
    refine ⟨⟨L.mem, L.nodup, L.ord, L.lev⟩, ⟨hk.next, hk.comp, hk.tab⟩, ⟨hr2.sc, fun y i hi hx hm => ?_, fun i x ob hi hm => ?_⟩⟩
    · dsimp only at hi hm ⊢
      by_cases c : s.nobj ≤ i ∧ i < s.nobj + xs.length
      · rw [if_pos c] at hm
        exact absurd hm (hfr i c.1 c.2 (hsc2 y i hi))
      · rw [if_neg c] at hm ⊢
        obtain ⟨k1, k2⟩ := hr2.obj y i hi hx hm
        exact ⟨k1, fun h => .inl (k2 h)⟩
    · obtain ⟨k1, k2⟩ := hr2.imp i x ob hi hm
      exact ⟨k1, fun h => .inl (k2 h)⟩
  | typ x e =>
    have he1 : (typeDecl mx (insert s x { mode := .typ }) (.obj s.nobj) (some s.nobj) e).1.errs = [] := by
      simp only [declare] at he
      split at he <;> exact he
    have hin : (insert s x { mode := .typ }).nobj = s.nobj + 1 := insert_nobj s x _ hs
    obtain ⟨nx0, tb0⟩ := insert_next s x { mode := .typ }
    have hloc : LocIn (insert s x { mode := .typ }) (.obj s.nobj) := ⟨fun u e => (by cases e), fun i e => (by cases e; omega)⟩
    obtain ⟨a, asc, aat⟩ := frD mx e (insert s x { mode := .typ }) (.obj s.nobj) (some s.nobj) hloc
    have he0 : (insert s x { mode := .typ }).errs = [] := a.clean he1
    obtain ⟨f, fs, hsc⟩ : ∃ f fs, s.scopes = f :: fs := by
      cases hsc : s.scopes with
      | nil => contradiction
      | cons f fs => exact ⟨f, fs, rfl⟩
    obtain ⟨hl0, e0⟩ := insert_clean s x { mode := .typ } f fs hsc he0
    have hobj0 : (insert s x { mode := .typ }).objs s.nobj = { mode := .typ } := by rw [e0]; simp only [upd_self]
    have hobj1 : ∀ i, i ≠ s.nobj → (insert s x { mode := .typ }).objs i = s.objs i := fun i hi => by rw [e0]; exact upd_ne _ _ hi
    have him0 : (insert s x { mode := .typ }).imports = s.imports := by rw [e0]
    have hfw0 : (insert s x { mode := .typ }).fwd = s.fwd := by rw [e0]
    have hfind := insert_find s x { mode := .typ }
    have hr : Rdy (some x) R (insert s x { mode := .typ }) := by
      refine ⟨fun y i hi => ?_, fun y i hi hx hm => ?_, fun i z ob hi hm => ?_⟩
      · rcases (hfind y).1 i hi with c | c
        · omega
        · have := h.sc y i c; omega
      · rcases (hfind y).1 i hi with c | c
        · exact absurd (by rw [c.2.1]) hx
        · have := h.sc y i c
          rw [hobj1 i (by omega)] at hm ⊢
          rw [nx0, tb0]
          exact h.obj y i c (by simp) hm
      · rw [him0] at hi
        rw [nx0, tb0]
        exact h.imp i z ob hi hm
    have hlo : LocOk (some x) (insert s x { mode := .typ }) (.obj s.nobj) := ⟨hloc, fun i hi y hy => by
      cases hi
      rcases (hfind y).1 _ hy with c | c
      · rw [c.2.1]
      · have := h.sc y _ c; omega⟩
    have L := (okD mx e R (insert s x { mode := .typ }) (.obj s.nobj) (some s.nobj) hr hlo (fun y hy => by cases hy; exact hd x e rfl) he1).pre (s := s) (by omega) (fun t h1 h2 => by omega)
    have hfp : FwdPtr (insert s x { mode := .typ }) := by
      intro p hp
      rw [hfw0] at hp
      rw [nx0, tb0]
      exact hb.fwd p hp
    have hfp2 := fwd_step hfp a
    have hr2 : Rdy (some x) R (typeDecl mx (insert s x { mode := .typ }) (.obj s.nobj) (some s.nobj) e).1 :=
      hr.step a (Finds.of_eq asc) (fun y i hy hx hq => hx (hlo.2 i hq y hy))
    have hT2 : ((typeDecl mx (insert s x { mode := .typ }) (.obj s.nobj) (some s.nobj) e).1.objs s.nobj).typ = (typeDecl mx (insert s x { mode := .typ }) (.obj s.nobj) (some s.nobj) e).2 := aat.2 _ rfl
    have hk : Kp s (typeDecl mx (insert s x { mode := .typ }) (.obj s.nobj) (some s.nobj) e).1 := by
      have k := Kp.of a (fun t _ h => by cases h)
      exact ⟨by have := k.next; omega, fun t ht => by rw [k.comp t (by omega), tb0], fun t ht hr => by rw [k.tab t (by omega) (by rw [tb0]; exact hr), tb0]⟩
    have hx0 : ∀ i, findIn x (typeDecl mx (insert s x { mode := .typ }) (.obj s.nobj) (some s.nobj) e).1.scopes = some i → i = s.nobj := by
      intro i hi
      rw [asc, e0] at hi
      simp only [findIn] at hi
      rw [lookup_append', hl0] at hi
      simp at hi
      exact hi.symm
    -- the type of the name
    have hfin : (typeDecl mx (insert s x { mode := .typ }) (.obj s.nobj) (some s.nobj) e).2 < (typeDecl mx (insert s x { mode := .typ }) (.obj s.nobj) (some s.nobj) e).1.next ∧
        (((typeDecl mx (insert s x { mode := .typ }) (.obj s.nobj) (some s.nobj) e).1.tab (typeDecl mx (insert s x { mode := .typ }) (.obj s.nobj) (some s.nobj) e).2).comp = .record →
          R (typeDecl mx (insert s x { mode := .typ }) (.obj s.nobj) (some s.nobj) e).2 ∨
          (typeDecl mx (insert s x { mode := .typ }) (.obj s.nobj) (some s.nobj) e).2 ∈ initsT mx (insert s x { mode := .typ }) (.obj s.nobj) (some s.nobj) e) := by
      rcases typeDecl_snd mx (insert s x { mode := .typ }) (.obj s.nobj) (some s.nobj) e with ⟨q, rfl⟩ | ⟨hq, c⟩
      · have hnn := name_next mx (insert s x { mode := .typ }) (.obj s.nobj) (some s.nobj) q
        have hr3 : Rdy (some x) R (setLoc (insert s x { mode := .typ }) undftyp (.obj s.nobj)) :=
          hr.step (fr_setLoc No (fun i => i = s.nobj) _ _ _ hloc (fun _ h => by cases h) (fun _ h => by cases h; rfl)) (Finds.of_eq (setLoc_scopes _ _ _))
            (fun y i hy hx hq => hx (hlo.2 i (by rw [hq]) y hy))
        rw [hnn]
        rw [typeDecl.eq_1] at he1 ⊢
        try dsimp only at he1 ⊢
        cases hq : qualident (setLoc (insert s x { mode := .typ }) undftyp (.obj s.nobj)) q with
        | none => rw [hq] at he1; simp [err] at he1
        | some ob =>
          rw [hq] at he1
          dsimp only at he1 ⊢
          by_cases c1 : ob.mode = .typ
          · rw [if_pos c1] at he1 ⊢
            by_cases c2 : ob.typ = bannedTyp (setLoc (insert s x { mode := .typ }) undftyp (.obj s.nobj)) (some s.nobj)
            · rw [if_pos c2] at he1
              simp [err] at he1
            · rw [if_neg c2]
              have hqx : ∀ y, some x = some y → q ≠ .id y := by
                intro y hy hqy
                cases hy
                subst hqy
                simp only [qualident, Option.map_eq_some_iff] at hq
                obtain ⟨i, hi, ho⟩ := hq
                have hii : i = s.nobj := by
                  apply hx0
                  rw [asc]
                  rw [setLoc_scopes] at hi
                  exact hi
                apply c2
                rw [← ho, hii]
                rfl
              obtain ⟨k1, k2⟩ := hr3.qual hq c1 hqx
              refine ⟨by rw [setLoc_next] at k1; exact k1, fun hcr => .inl (k2 ?_)⟩
              dsimp only at hcr
              rw [setLoc_keep] at hcr
              exact hcr
          · rw [if_neg c1] at he1
            simp [err] at he1
      · rw [c]
        have hlt := typeDecl_new mx (insert s x { mode := .typ }) (.obj s.nobj) (some s.nobj) e hloc hq
        exact ⟨hlt, fun hcr => .inr ((L.mem _).mpr ⟨by omega, hlt, hcr⟩)⟩
    simp only [declare, initsD]
    generalize initsT mx (insert s x { mode := .typ }) (.obj s.nobj) (some s.nobj) e = l at *
    generalize typeDecl mx (insert s x { mode := .typ }) (.obj s.nobj) (some s.nobj) e = r at *
    let S : St := { r.1 with named := upd r.1.named r.2 true }
    have LS : Lst s S R l := ⟨L.mem, L.nodup, L.ord, L.lev⟩
    have kS : Kp s S := ⟨hk.next, hk.comp, hk.tab⟩
    have fS : FwdPtr S := hfp2
    have rS : Rdy none (fun b => R b ∨ b ∈ l) S := by
      refine ⟨hr2.sc, fun y i hi _ hm => ?_, fun i z ob hi hm => ?_⟩
      · by_cases c : y = x
        · subst c
          have := hx0 i hi
          subst this
          show (r.1.objs s.nobj).typ < r.1.next ∧ ((r.1.tab (r.1.objs s.nobj).typ).comp = .record → _)
          rw [hT2]
          exact hfin
        · obtain ⟨k1, k2⟩ := hr2.obj y i hi (fun h => c (by cases h; rfl)) hm
          exact ⟨k1, fun h => .inl (k2 h)⟩
      · obtain ⟨k1, k2⟩ := hr2.imp i z ob hi hm
        exact ⟨k1, fun h => .inl (k2 h)⟩
    by_cases c : (r.1.tab r.2).comp ≠ .basic
    · rw [if_pos c]
      have k2 := resolve_kp x r.2 fS
      refine ⟨k2.lst LS rfl, kS.trans k2, ⟨rS.sc, fun y i hi hx hm => ?_, fun i z ob hi hm => ?_⟩⟩
      · obtain ⟨j1, j2⟩ := rS.obj y i hi hx hm
        exact ⟨j1, fun h => j2 (by rw [← (resolve_keep S x r.2 _).2.1]; exact h)⟩
      · obtain ⟨j1, j2⟩ := rS.imp i z ob hi hm
        exact ⟨j1, fun h => j2 (by rw [← (resolve_keep S x r.2 _).2.1]; exact h)⟩
    · rw [if_neg c]
      exact ⟨LS, kS, rS⟩

theorem decls_lst {pl : Prop × Prop} {s0 : St} (mx : Int) : ∀ (ds : List Decl) (s : St) (R : Nat → Prop), Blk pl s0 s → s.scopes ≠ [] → Rdy none R s →
    (∀ d ∈ ds, d.ok pl) → (∀ x e, .typ x e ∈ ds → ExtOf x e = false) → (declares mx ds s).errs = [] →
    Lst s (declares mx ds s) R (initsDs mx ds s) ∧ Kp s (declares mx ds s)
  | [], s, R, _, _, _, _, _, _ => ⟨.nil fun t h1 h2 => by simp only [declares] at h2; omega, .refl _⟩
  | d :: ds, s, R, hb, hs, hr, hok, hn, he => by
    obtain ⟨_, h1⟩ := declare_ext mx s d hs
    obtain ⟨w, e⟩ := declares_ext mx ds (declare mx s d) h1
    have he1 := nil_of_prefix e he
    have st := Decls.step mx d hb hs (hok d List.mem_cons_self) he1
    obtain ⟨L1, k1, r1⟩ := decl_lst mx d hb hs hr (fun x e hd => hn x e (by rw [hd]; exact List.mem_cons_self)) he1
    obtain ⟨L2, k2⟩ := decls_lst mx ds (declare mx s d) _ st.blk h1 r1 (fun d' hd => hok d' (List.mem_cons_of_mem _ hd)) (fun x e hd => hn x e (List.mem_cons_of_mem _ hd)) he
    rw [initsDs, declares]
    exact ⟨k2.append L1 L2 k1.next, k1.trans k2⟩

/-- The list of a block. -/
theorem block_lst {s : St} {mx : Int} {ds : List Decl} (hi : Init s) (hn : NoInner ds) (he : (block mx s ds).errs = []) :
    Lst s (block mx s ds) (fun b => b < s.next) (inits mx s ds) ∧ Kp s (block mx s ds) := by
  have hr : Rdy none (fun b => b < s.next) (start s) :=
    ⟨hi.names', fun y i h _ hm => ⟨hi.objs i (hi.names' y i h) hm, fun _ => hi.objs i (hi.names' y i h) hm⟩, fun i x ob h hm => ⟨hi.imps i x ob h hm, fun _ => hi.imps i x ob h hm⟩⟩
  obtain ⟨L, k⟩ := decls_lst mx ds (start s) _ (hi.blk (False, False)) hi.open hr (fun d _ => ok_none d) (fun x e h => hn x e h) (leftErr_clean he).1
  exact ⟨⟨L.mem, L.nodup, L.ord, L.lev⟩, ⟨k.next, k.comp, k.tab⟩⟩

end Verif.TDInit
