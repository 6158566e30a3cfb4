import Verif.Decls.Lemmas

/-!
# What a type expression makes
-/
namespace Verif.Decls
open Verif.Types

/-- `A`, if nothing is banned. -/
def Ab (ban : Option Nat) (A : Nat → Prop) (t : Nat) : Prop := ban = none ∧ A t

/-- New types are complete. -/
def New (pl : Prop × Prop) (A B : Nat → Prop) (n : Nat) (s : St) : Prop := ∀ u, n ≤ u → u < s.next → Good pl s B u ∧ Fin s A B u

/-- What a type expression makes. -/
structure Res (pl : Prop × Prop) (x0 : Nat) (o ban : Option Nat) (A B : Nat → Prop) (env : Qual → Option Nat) (sec : Nat → Option Nat) (s s' : St) (e : TE) (t : Nat) : Prop where
  new : New pl A B s.next s'
  fin : Fin s' (Ab ban A) B t
  fresh : (∀ q, e ≠ .name q) → s.next ≤ t
  nb : (o.isSome → ∀ q, e = .name q → q ≠ .id x0) → ¬ B t
  desc : Desc s' B env sec e t

/-- Where the type goes. -/
structure LocOk (o ban : Option Nat) (B : Nat → Prop) (loc : Loc) : Prop where
  base : ∀ u, loc = .base u → B u
  obj : ∀ i, loc = .obj i → o = some i ∧ ban = some i

theorem LocOk.locIn {o ban : Option Nat} {x0 : Nat} {B : Nat → Prop} {loc : Loc} {s : St} (h : LocOk o ban B loc) (hy : Hyp o x0 B s) : LocIn s loc :=
  ⟨fun u e => hy.bs u (h.base u e), fun i e => (hy.cur i (h.obj i e).1).1⟩

/-! ### No errors -/

theorem typeCheck_clean {r : St × Nat} (h : (typeCheck r).1.errs = []) : typeCheck r = r := by
  rcases typeCheck_cases r with e | e
  · exact e
  · rw [e] at h; simp [err] at h

theorem noDyn_clean {r : St × Nat} (h : (noDyn r).1.errs = []) : noDyn r = r ∧ (r.1.tab r.2).comp ≠ .dyn := by
  unfold noDyn at h ⊢
  split at h
  · simp [err] at h
  · rename_i c
    rw [if_neg c]
    exact ⟨rfl, c⟩

theorem endArr_clean {r : St × Nat} {t : Nat} (h : (endArr r t).errs = []) : endArr r t = r.1 ∧ (r.1.tab r.2).comp ≠ .dyn := by
  unfold endArr at h ⊢
  split at h
  · simp [err] at h
  · rename_i c
    rw [if_neg c]
    exact ⟨rfl, c⟩

theorem endPtr_clean {r : St × Nat} {t : Nat} (h : (endPtr r t).errs = []) : endPtr r t = r.1 ∧ (r.1.tab r.2).comp ≠ .basic := by
  unfold endPtr at h ⊢
  split at h
  · simp [err] at h
  · rename_i c
    rw [if_neg c]
    exact ⟨rfl, c⟩

theorem recBase_clean {s : St} {t : Nat} {ban : Option Nat} {b : Option Qual} (h : (recBase s t ban b).errs = []) :
    (b = none ∧ recBase s t ban b = s) ∨
    ∃ q ob, b = some q ∧ qualident s q = some ob ∧ ob.mode = .typ ∧ (s.tab ob.typ).comp = .record ∧ ob.typ ≠ bannedTyp s ban ∧
      recBase s t ban b = { s with tab := upd s.tab t { s.tab t with base := some ob.typ, extlev := (s.tab ob.typ).extlev + 1 } } := by
  cases b with
  | none => exact .inl ⟨rfl, rfl⟩
  | some q =>
    right
    simp only [recBase] at h ⊢
    cases hq : qualident s q with
    | none => rw [hq] at h; simp [err] at h
    | some ob =>
      rw [hq] at h
      simp only at h ⊢
      split at h
      · split at h
        · simp [err] at h
        · rename_i c1 c2
          rw [if_pos c1, if_neg c2]
          exact ⟨q, ob, rfl, hq, c1.1, c1.2, c2, rfl⟩
      · simp [err] at h

theorem resType_clean {s : St} {res : Option Qual} (h : (resType s res).1.errs = []) :
    (res = none ∧ resType s res = (s, notyp)) ∨
    ∃ q ob, res = some q ∧ qualident s q = some ob ∧ ob.mode = .typ ∧ (s.tab ob.typ).form ≠ .comp ∧ resType s res = (s, ob.typ) := by
  cases res with
  | none => exact .inl ⟨rfl, rfl⟩
  | some q =>
    right
    simp only [resType] at h ⊢
    cases hq : qualident s q with
    | none => rw [hq] at h; simp [err] at h
    | some ob =>
      rw [hq] at h
      simp only at h ⊢
      split at h
      · split at h
        · rename_i c1 c2
          rw [if_pos c1, if_pos c2]
          exact ⟨q, ob, rfl, hq, c1, c2, rfl⟩
        · simp [err] at h
      · simp [err] at h

/-! ### Names -/

/-- A type that is found by name. -/
theorem qual {o ban : Option Nat} {x0 : Nat} {B : Nat → Prop} {s : St} (hy : Hyp o x0 B s) {q : Qual} {ob : Obj} (hq : qualident s q = some ob) (hm : ob.mode = .typ)
    (hb : ban = none ∨ ban = o ∧ ob.typ ≠ bannedTyp s ban) :
    (Fin s (fun _ => False) B ob.typ ∧ ((s.tab ob.typ).comp = .record → Anc s B ob.typ) ∨ (ban = none ∧ q = .id x0 ∧ ∃ i, o = some i ∧ ob.typ = (s.objs i).typ)) ∧
    ∀ env, EnvOf s.scopes s.objs s.imports env → env q = some ob.typ := by
  cases q with
  | id x =>
    simp only [qualident, Option.map_eq_some_iff] at hq
    obtain ⟨i, hi, rfl⟩ := hq
    refine ⟨?_, fun env he => he.id x i hi hm⟩
    by_cases c : o = some i
    · right
      rcases hb with hb | ⟨hb, hb2⟩
      · exact ⟨hb, by rw [hy.only x i hi c], i, c, rfl⟩
      · rw [hb, c] at hb2
        exact absurd rfl hb2
    · exact .inl ⟨hy.ob i (hy.sc x i hi) hm c, hy.anc i (hy.sc x i hi) hm c⟩
  | sel m x =>
    simp only [qualident] at hq
    cases hf : findIn m s.scopes with
    | none => rw [hf] at hq; cases hq
    | some i =>
      rw [hf] at hq
      simp only at hq
      split at hq
      · rename_i c
        exact ⟨.inl ⟨hy.im i x ob hq hm, hy.ianc i x ob hq hm⟩, fun env he => he.sel m x i ob hf c hq hm⟩
      · cases hq

theorem EnvOf.congr {sc : List (List (Nat × Nat))} {objs objs' : Nat → Obj} {im : Nat → Nat → Option Obj} {env : Qual → Option Nat} (h : EnvOf sc objs im env)
    (he : ∀ x i, findIn x sc = some i → objs' i = objs i) : EnvOf sc objs' im env := by
  refine ⟨fun x i hi hm => ?_, h.none, fun m x i ob hi hm => ?_⟩
  · rw [he x i hi] at hm ⊢
    exact h.id x i hi hm
  · rw [he m i hi] at hm
    exact h.sel m x i ob hi hm

theorem setLoc_objs (s : St) (t : Nat) (loc : Loc) (i : Nat) : ((setLoc s t loc).objs i).mode = (s.objs i).mode ∧
    (loc = .obj i → ((setLoc s t loc).objs i).typ = t) ∧ (loc ≠ .obj i → (setLoc s t loc).objs i = s.objs i) := by
  cases loc with
  | tmp => simp [setLoc]
  | base p => simp [setLoc]
  | obj o =>
    by_cases c : i = o
    · subst c; simp [setLoc, upd]
    · simp [setLoc, upd, c]
      intro h
      exact absurd h.symm c

theorem hyp_setLoc {o ban : Option Nat} {x0 : Nat} {B : Nat → Prop} {s : St} {loc : Loc} {t : Nat} (hy : Hyp o x0 B s) (hl : LocOk o ban B loc) (ht : t < s.next) :
    Hyp o x0 B (setLoc s t loc) := by
  have li := hl.locIn hy
  have a := fr_setLoc (LocP loc) (LocQ loc) s t loc li (fun _ h => h) (fun _ h => h)
  refine hy.step a (fun u _ h => hl.base u h) (fun i _ h => (hl.obj i h).1) (fun _ _ x => x) (fun u x => ?_) (Finds.of_eq (setLoc_scopes _ _ _)) ?_
  · rw [setLoc_next]; exact hy.bs u x
  · intro i hi
    rw [setLoc_next]
    obtain ⟨_, k2, k3⟩ := setLoc_objs s t loc i
    by_cases c : loc = .obj i
    · rw [k2 c]; exact ht
    · rw [k3 c]; exact (hy.cur i hi).2

theorem hyp_new {o ban : Option Nat} {x0 : Nat} {B : Nat → Prop} {s : St} {loc : Loc} (hy : Hyp o x0 B s) (hl : LocOk o ban B loc) (y : Ty)
    (hy0 : y.form = .comp ↔ y.comp ≠ .basic) : Hyp o x0 (fun u => B u ∨ u = s.next) (new s loc y) := by
  have li := hl.locIn hy
  have a := fr_new (LocP loc) (LocQ loc) s loc y hy0 li (fun _ h => h) (fun _ h => h)
  refine hy.step a (fun u _ h => hl.base u h) (fun i _ h => (hl.obj i h).1) (fun u hu x => ?_) (fun u x => ?_) (Finds.of_eq (new_scopes _ _ _)) ?_
  · rcases x with x | x
    · exact x
    · omega
  · rw [new_next]
    rcases x with x | x
    · have := hy.bs u x; omega
    · omega
  · intro i hi
    rw [new_next]
    by_cases c : loc = .obj i
    · subst c; rw [new_obj]; omega
    · have c1 := (hy.cur i hi).1
      rw [a.objs i c1 (fun h => c h)]
      have := (hy.cur i hi).2
      omega

theorem sound_name {pl : Prop × Prop} {o ban : Option Nat} {x0 : Nat} {A B : Nat → Prop} {env : Qual → Option Nat} {sec : Nat → Option Nat} {s : St} {loc : Loc} {mx : Int} {q : Qual}
    (hy : Hyp o x0 B s) (hl : LocOk o ban B loc) (hban : ban = none ∨ ban = o)
    (he : (typeDecl mx s loc ban (.name q)).1.errs = []) (hA : ∀ i, o = some i → A ((typeDecl mx s loc ban (.name q)).1.objs i).typ)
    (hE : EnvOf s.scopes (typeDecl mx s loc ban (.name q)).1.objs s.imports env) :
    Res pl x0 o ban A B env sec s (typeDecl mx s loc ban (.name q)).1 (.name q) (typeDecl mx s loc ban (.name q)).2 := by
  rw [typeDecl.eq_1] at he hA hE ⊢
  have hy0 := hyp_setLoc hy hl (t := undftyp) (by have := hy.pos; unfold undftyp; omega)
  have hsc := setLoc_scopes s undftyp loc
  have him := setLoc_imports s undftyp loc
  have hnx := setLoc_next s undftyp loc
  generalize setLoc s undftyp loc = s0 at *
  try dsimp only at he hA hE ⊢
  cases hq : qualident s0 q with
  | none => rw [hq] at he; simp [err] at he
  | some ob =>
    rw [hq] at he hA hE
    try dsimp only at he hA hE ⊢
    by_cases c1 : ob.mode = .typ
    · by_cases c2 : ob.typ = bannedTyp s0 ban
      · rw [if_pos c1, if_pos c2] at he; simp [err] at he
      · rw [if_pos c1, if_neg c2] at hA hE ⊢
        dsimp only at hA hE ⊢
        obtain ⟨k1, k2⟩ := qual hy0 hq c1 (ban := ban) (hban.imp id fun h => ⟨h, c2⟩)
        have li := hl.locIn hy0
        have a := fr_setLoc (LocP loc) (LocQ loc) s0 ob.typ loc li (fun _ h => h) (fun _ h => h)
        have hP : ∀ t < s0.next, LocP loc t → B t := fun u _ h => hl.base u h
        have hcur : ∀ i, o = some i → ob.typ = (s0.objs i).typ → ((setLoc s0 ob.typ loc).objs i).typ = ob.typ := by
          intro i hi hc
          obtain ⟨_, e2, e3⟩ := setLoc_objs s0 ob.typ loc i
          by_cases c : loc = .obj i
          · exact e2 c
          · rw [e3 c]; exact hc.symm
        have hlt : ob.typ < s0.next := by
          rcases k1 with ⟨k1, kr⟩ | ⟨_, _, i, hi, hc⟩
          · exact k1.lt
          · rw [hc]; exact (hy0.cur i hi).2
        refine ⟨?_, ?_, ?_, ?_, ?_⟩
        · intro u h1 h2
          rw [setLoc_next] at h2
          omega
        · rcases k1 with ⟨k1, kr⟩ | ⟨kb, _, i, hi, hc⟩
          · exact k1.mono a hP (fun _ _ x => x) (fun _ x => x.elim)
          · refine .stop _ ⟨kb, ?_⟩ (by rw [setLoc_next]; exact hlt)
            have := hA i hi
            rwa [hcur i hi hc] at this
        · intro h; exact absurd rfl (h q)
        · intro h
          rcases k1 with ⟨k1, kr⟩ | ⟨kb, kq, i, hi, hc⟩
          · exact k1.notB
          · exact absurd kq (h (by rw [hi]; rfl) q rfl)
        · show env q = some ob.typ
          cases q with
          | id x =>
            simp only [qualident, Option.map_eq_some_iff] at hq
            obtain ⟨i, hi, rfl⟩ := hq
            obtain ⟨e1, e2, e3⟩ := setLoc_objs s0 (s0.objs i).typ loc i
            rw [hsc] at hi
            have := hE.id x i hi (by rw [e1]; exact c1)
            rw [this]
            by_cases c : loc = .obj i
            · rw [e2 c]
            · rw [e3 c]
          | sel m x =>
            simp only [qualident] at hq
            cases hf : findIn m s0.scopes with
            | none => rw [hf] at hq; cases hq
            | some i =>
              rw [hf] at hq
              simp only at hq
              split at hq
              · rename_i c
                rw [hsc] at hf
                rw [him] at hq
                exact hE.sel m x i ob hf (by rw [(setLoc_objs s0 ob.typ loc i).1]; exact c) hq c1
              · cases hq
    · rw [if_neg c1] at he; simp [err] at he

/-! ### Steps at the end -/

theorem new_ext {pl : Prop × Prop} {A B : Nat → Prop} {t : Nat} {s2 s' : St} {Q : Nat → Prop} (h : New pl A (fun u => B u ∨ u = t) (t + 1) s2)
    (a : Fr (fun u => u = t) Q s2 s') (hn : s'.next = s2.next) (hg : Good pl s' B t) (hf : Fin s' A B t) : New pl A B t s' := by
  intro u h1 h2
  by_cases c : u = t
  · subst c; exact ⟨hg, hf⟩
  · obtain ⟨k1, k2⟩ := h u (by omega) (by omega)
    exact ⟨k1.mono a (fun v _ x => .inr x) (fun v _ x => .inl x), k2.mono a (fun v _ x => .inr x) (fun v _ x => .inl x) (fun _ x => x)⟩

theorem ab_le {ban : Option Nat} {A : Nat → Prop} : ∀ t, Ab ban A t → A t := fun _ h => h.2

theorem notB_next {o : Option Nat} {x0 : Nat} {B : Nat → Prop} {s : St} (hy : Hyp o x0 B s) : ¬ B s.next := fun h => by have := hy.bs _ h; omega

/-- The restrictions on an expression. -/
def Ok (pl : Prop × Prop) (o : Option Nat) (x0 : Nat) (e : TE) : Prop := (pl.1 → o.isSome → DynOf x0 e = false) ∧ (pl.2 → o.isSome → ExtOf x0 e = false)

def OkL (pl : Prop × Prop) (o : Option Nat) (x0 : Nat) (fs : GL) : Prop := (pl.1 → o.isSome → DynOfL x0 fs = false) ∧ (pl.2 → o.isSome → ExtOfL x0 fs = false)

theorem dynOf_name {x0 : Nat} {o : Option Nat} {e : TE} {pl : Prop} (h : pl → o.isSome → DynOf x0 (.dyn e) = false) (p : pl) : o.isSome → ∀ q, e = .name q → q ≠ .id x0 := by
  intro h1 q hq hx
  have := h p h1
  subst hq
  subst hx
  simp [DynOf] at this

theorem dynOf_sub {x0 : Nat} {o : Option Nat} {e : TE} {pl : Prop} (h : pl → o.isSome → DynOf x0 (.dyn e) = false) : pl → o.isSome → DynOf x0 e = false := by
  intro p h1
  have := h p h1
  cases e <;> simp only [DynOf, Bool.or_eq_false_iff] at this ⊢ <;> first | exact this.2 | trivial

theorem Ok.dyn {pl : Prop × Prop} {o : Option Nat} {x0 : Nat} {e : TE} (h : Ok pl o x0 (.dyn e)) : Ok pl o x0 e :=
  ⟨dynOf_sub h.1, fun p q => by have := h.2 p q; simpa [ExtOf] using this⟩

theorem Ok.arr {pl : Prop × Prop} {o : Option Nat} {x0 : Nat} {n : Int} {e : TE} (h : Ok pl o x0 (.arr n e)) : Ok pl o x0 e :=
  ⟨by simpa [DynOf] using h.1, by simpa [ExtOf] using h.2⟩

theorem Ok.ptr {pl : Prop × Prop} {o : Option Nat} {x0 : Nat} {e : TE} (h : Ok pl o x0 (.ptr e)) : Ok pl o x0 e :=
  ⟨by simpa [DynOf] using h.1, by simpa [ExtOf] using h.2⟩

theorem Ok.proc {pl : Prop × Prop} {o : Option Nat} {x0 : Nat} {ps : GL} {res : Option Qual} (h : Ok pl o x0 (.proc ps res)) : OkL pl o x0 ps :=
  ⟨by simpa [DynOf] using h.1, by simpa [ExtOf] using h.2⟩

theorem Ok.recd {pl : Prop × Prop} {o : Option Nat} {x0 : Nat} {b : Option Qual} {fs : GL} (h : Ok pl o x0 (.recd b fs)) : OkL pl o x0 fs ∧ (pl.2 → o.isSome → b ≠ some (.id x0)) :=
  ⟨⟨by simpa [DynOf] using h.1, fun p q => by have := h.2 p q; simp only [ExtOf, Bool.or_eq_false_iff] at this; exact this.2⟩,
   fun p q => by have := h.2 p q; simp only [ExtOf, Bool.or_eq_false_iff] at this; simpa using this.1⟩

theorem OkL.cons {pl : Prop × Prop} {o : Option Nat} {x0 : Nat} {v : Bool} {xs : List Nat} {e : TE} {rest : GL} (h : OkL pl o x0 (.cons v xs e rest)) : Ok pl o x0 e ∧ OkL pl o x0 rest := by
  refine ⟨⟨fun p q => ?_, fun p q => ?_⟩, ⟨fun p q => ?_, fun p q => ?_⟩⟩
  · have := h.1 p q; simp only [DynOfL, Bool.or_eq_false_iff] at this; exact this.1
  · have := h.2 p q; simp only [ExtOfL, Bool.or_eq_false_iff] at this; exact this.1
  · have := h.1 p q; simp only [DynOfL, Bool.or_eq_false_iff] at this; exact this.2
  · have := h.2 p q; simp only [ExtOfL, Bool.or_eq_false_iff] at this; exact this.2

/-! ### Fields and parameters -/

structure ResF (pl : Prop × Prop) (ban : Option Nat) (A B : Nat → Prop) (env : Qual → Option Nat) (sec : Nat → Option Nat) (s s' : St) (t : Nat) (fs : GL) : Prop where
  new : New pl A B s.next s'
  tab : s'.tab t = s.tab t
  same : Same s' t
  flds : ∃ l, s'.fields t = s.fields t ++ l ∧ (∀ p ∈ l, Fin s' (Ab ban A) B p.2) ∧ DescF s' B env sec fs l ∧
    ∀ b, (s.tab t).base = some b → Anc s B b → ∀ p ∈ l, findField s' p.1 ((s'.tab b).extlev + 1) b = false

structure ResP (pl : Prop × Prop) (A B : Nat → Prop) (env : Qual → Option Nat) (sec : Nat → Option Nat) (s s' : St) (ps : GL) (l : List Par) : Prop where
  new : New pl A B s.next s'
  desc : DescP s' B env sec ps l

theorem insert_next (s : St) (x : Nat) (ob : Obj) : (insert s x ob).next = s.next ∧ (insert s x ob).tab = s.tab := by
  unfold insert
  split
  · exact ⟨rfl, rfl⟩
  · simp only
    split <;> exact ⟨rfl, rfl⟩

theorem addFields_next (t : Nat) (xs : List Nat) : ∀ s : St, (addFields s t xs).next = s.next ∧ (addFields s t xs).tab = s.tab := by
  induction xs with
  | nil => exact fun s => ⟨rfl, rfl⟩
  | cons x xs ih =>
    intro s
    rw [addFields_cons']
    obtain ⟨a, b⟩ := ih (addField s t x)
    obtain ⟨c, d⟩ := insert_next (dupField s t x) x {}
    have e : (dupField s t x).next = s.next ∧ (dupField s t x).tab = s.tab := by
      rcases dupField_cases s t x with h | h <;> rw [h] <;> exact ⟨rfl, rfl⟩
    exact ⟨a.trans (c.trans e.1), b.trans (d.trans e.2)⟩

theorem addObjs_next (xs : List Nat) : ∀ s : St, (addObjs s xs).next = s.next := by
  induction xs with
  | nil => exact fun s => rfl
  | cons x xs ih => exact fun s => (ih _).trans (insert_next s x {}).1

theorem finds_parList (mx : Int) : ∀ (ps : GL) (s : St), Finds s (parList mx s ps).1
  | .nil, s => Finds.of_eq rfl
  | .cons v xs e rest, s => by
    rw [parList.eq_2]
    dsimp only
    have h0 := fr_addObjs (fun _ => False) (fun _ => False) xs s
    have f0 := finds_addObjs xs s
    generalize addObjs s xs = s1 at *
    obtain ⟨c1, c2, c3⟩ := frD mx e s1 .tmp none ⟨fun u e => (by cases e), fun i e => (by cases e)⟩
    have hsc : (typeCheck (typeDecl mx s1 .tmp none e)).1.scopes = s1.scopes := (typeCheck_scopes _).trans c2
    have hno : s1.nobj ≤ (typeCheck (typeDecl mx s1 .tmp none e)).1.nobj := c1.nobj.trans (fr_typeCheck (fun _ => False) (fun _ => False) _).nobj
    generalize typeCheck (typeDecl mx s1 .tmp none e) = r at *
    exact (f0.trans (Finds.of_eq hsc) h0.nobj hno).trans (finds_parList mx rest r.1) (h0.nobj.trans hno) (frP mx rest r.1).1.nobj

/-! ### All type expressions -/

section
variable {pl : Prop × Prop} {o : Option Nat} {x0 : Nat} {A : Nat → Prop} {env : Qual → Option Nat} {sec : Nat → Option Nat}

/-- What is asked before and holds after a type expression. -/
def SoundD (mx : Int) (pl : Prop × Prop) (o : Option Nat) (x0 : Nat) (A : Nat → Prop) (env : Qual → Option Nat) (sec : Nat → Option Nat) (e : TE) : Prop :=
  ∀ (s : St) (loc : Loc) (ban : Option Nat) (B : Nat → Prop), Hyp o x0 B s → LocOk o ban B loc → (ban = none ∨ ban = o) →
    (typeDecl mx s loc ban e).1.errs = [] → (∀ i, o = some i → A ((typeDecl mx s loc ban e).1.objs i).typ) →
    EnvOf s.scopes (typeDecl mx s loc ban e).1.objs s.imports env → Ok pl o x0 e →
    Res pl x0 o ban A B env sec s (typeDecl mx s loc ban e).1 e (typeDecl mx s loc ban e).2

def SoundF (mx : Int) (pl : Prop × Prop) (o : Option Nat) (x0 : Nat) (A : Nat → Prop) (env : Qual → Option Nat) (sec : Nat → Option Nat) (fs : GL) : Prop :=
  ∀ (s : St) (t : Nat) (ban : Option Nat) (B : Nat → Prop), Hyp o x0 B s → B t → Same s t → (ban = none ∨ ban = o) →
    (fieldList mx s t ban fs).errs = [] → (∀ i, o = some i → A (s.objs i).typ) →
    EnvOf s.scopes s.objs s.imports env → OkL pl o x0 fs →
    ResF pl ban A B env sec s (fieldList mx s t ban fs) t fs

def SoundP (mx : Int) (pl : Prop × Prop) (o : Option Nat) (x0 : Nat) (A : Nat → Prop) (env : Qual → Option Nat) (sec : Nat → Option Nat) (ps : GL) : Prop :=
  ∀ (s : St) (B : Nat → Prop), Hyp o x0 B s →
    (parList mx s ps).1.errs = [] → (∀ i, o = some i → A (s.objs i).typ) →
    EnvOf s.scopes s.objs s.imports env → OkL pl o x0 ps →
    ResP pl A B env sec s (parList mx s ps).1 ps (parList mx s ps).2

/-- The element type of an array or the type pointed to. -/
theorem child {mx : Int} {s s1 : St} {t : Nat} {ban : Option Nat} {B : Nat → Prop} {e : TE} (ih : SoundD mx pl o x0 A env sec e)
    (hy : Hyp o x0 (fun u => B u ∨ u = t) s1) (hban : ban = none ∨ ban = o) (hsc : s1.scopes = s.scopes) (him : s1.imports = s.imports)
    (he : (typeDecl mx s1 (.base t) ban e).1.errs = []) (hA : ∀ i, o = some i → A ((typeDecl mx s1 (.base t) ban e).1.objs i).typ)
    (hE : EnvOf s.scopes (typeDecl mx s1 (.base t) ban e).1.objs s.imports env) (hd : Ok pl o x0 e) :
    Res pl x0 o ban A (fun u => B u ∨ u = t) env sec s1 (typeDecl mx s1 (.base t) ban e).1 e (typeDecl mx s1 (.base t) ban e).2 ∧
    (typeDecl mx s1 (.base t) ban e).1.tab t = { s1.tab t with base := some (typeDecl mx s1 (.base t) ban e).2 } ∧
    s1.next ≤ (typeDecl mx s1 (.base t) ban e).1.next := by
  have ht : t < s1.next := hy.bs t (.inr rfl)
  obtain ⟨c1, c2, c3, _⟩ := frD mx e s1 (.base t) ban ⟨fun u e => (by cases e; exact ht), fun i e => (by cases e)⟩
  refine ⟨ih s1 (.base t) ban _ hy ⟨fun u e => (by cases e; exact .inr rfl), fun i e => (by cases e)⟩ hban he hA (by rw [hsc, him]; exact hE) hd, c3 t rfl, c1.next⟩

theorem sound_dyn {mx : Int} {e : TE} (ih : SoundD mx pl o x0 A env sec e) : SoundD mx pl o x0 A env sec (.dyn e) := by
  intro s loc ban B hy hl hban he hA hE hd
  rw [typeDecl.eq_2] at he hA hE ⊢
  dsimp only at he hA hE ⊢
  have li := hl.locIn hy
  have hy1 := hyp_new hy hl { form := .comp, comp := .dyn } (by simp)
  have hn := new_next s loc { form := .comp, comp := .dyn }
  have hs := new_scopes s loc { form := .comp, comp := .dyn }
  have ht := new_tab s loc { form := .comp, comp := .dyn } li
  have him := (fr_new (LocP loc) (LocQ loc) s loc { form := .comp, comp := .dyn } (by simp) li (fun _ h => h) (fun _ h => h)).imports
  generalize new s loc { form := .comp, comp := .dyn } = s1 at *
  have he1 : (typeCheck (typeDecl mx s1 (.base s.next) ban e)).1.errs = [] := he
  rw [typeCheck_clean he1] at he hA hE ⊢
  obtain ⟨R, hb, hnx⟩ := child ih hy1 hban hs him he hA hE hd.dyn
  generalize typeDecl mx s1 (.base s.next) ban e = r at *
  have a := fr_endDyn (fun u => u = s.next) (fun _ => False) r s.next (by omega) rfl
  have hB := notB_next hy
  have et : (endDyn r s.next).tab s.next = { form := .comp, comp := .dyn, base := some r.2, n := if (r.1.tab r.2).comp = .dyn then (r.1.tab r.2).n + 1 else 0 } := by
    simp only [endDyn, upd_self, hb, ht]
  have hnx2 : (endDyn r s.next).next = r.1.next := rfl
  have hlt := R.fin.lt
  have hF : Fin (endDyn r s.next) (Ab ban A) B s.next := by
    refine .mk _ (by omega) hB fun v hv => ?_
    unfold Contains at hv
    rw [et] at hv
    simp at hv
    rw [← hv]
    exact R.fin.mono a (fun v _ x => .inr x) (fun v _ x => .inl x) (fun _ x => x)
  have hG : Good pl (endDyn r s.next) B s.next := by
    constructor
    · omega
    · exact hB
    · rw [et]; simp
    · rw [et]; simp
    · rw [et]; intro b h; simp at h; omega
    · rw [et]; intro b h; simp at h
    · rw [et]; simp
    · rw [et]
      intro _
      refine ⟨r.2, rfl, fun p h => ?_⟩
      have n := R.nb (dynOf_name hd.1 p)
      have ne : r.2 ≠ s.next := fun h => n (.inr h)
      have e2 : (endDyn r s.next).tab r.2 = r.1.tab r.2 := by simp only [endDyn, upd_ne _ _ ne]
      rw [e2] at h ⊢
      rw [if_pos h]
      exact ⟨fun h => n (.inl h), rfl⟩
    · rw [et]; simp
    · rw [et]; simp
    · exact fun _ b h _ => by rw [et] at h; simp at h
  refine ⟨new_ext (by rw [← hn]; exact R.new) a hnx2 hG (hF.weaken (fun _ x => x) ab_le), hF, fun _ => Nat.le_refl _, fun _ => hB, ?_⟩
  unfold Desc
  refine ⟨by omega, hB, by rw [et], by rw [et], r.2, by rw [et], ?_⟩
  exact Desc.mono a (fun v _ x => .inr x) (fun v _ x => .inl x) _ _ R.desc

theorem sound_arr {mx : Int} {n : Int} {e : TE} (ih : SoundD mx pl o x0 A env sec e) : SoundD mx pl o x0 A env sec (.arr n e) := by
  intro s loc ban B hy hl hban he hA hE hd
  rw [typeDecl.eq_3] at he hA hE ⊢
  dsimp only at he hA hE ⊢
  by_cases c : n ≤ 0 ∨ n > mx
  · exfalso
    rw [if_pos c] at he
    have li := hl.locIn hy
    have hn := new_next s loc { form := .comp, comp := .array, n := if n ≤ 0 ∨ n > mx then 1 else n.toNat }
    have h1 := (frD mx e (err (new s loc { form := .comp, comp := .array, n := if n ≤ 0 ∨ n > mx then 1 else n.toNat }) 63) (.base s.next) ban
      ⟨fun u e => (by cases e; simp only [err]; omega), fun i e => (by cases e)⟩).1
    obtain ⟨w, ew⟩ := h1.errs
    have h2 := fr_typeCheck (fun u => u = s.next) (fun _ => False) (typeDecl mx (err (new s loc { form := .comp, comp := .array, n := if n ≤ 0 ∨ n > mx then 1 else n.toNat }) 63) (.base s.next) ban e)
    have h3 := fr_endArr (fun u => u = s.next) (fun _ => False) (typeCheck (typeDecl mx (err (new s loc { form := .comp, comp := .array, n := if n ≤ 0 ∨ n > mx then 1 else n.toNat }) 63) (.base s.next) ban e)) s.next
      (by have := h1.next; have := h2.next; simp only [err] at this; simp only [err] at *; omega) rfl
    have := h2.clean (h3.clean he)
    rw [ew] at this
    simp [err] at this
  simp only [if_neg c] at he hA hE ⊢
  have hn0 : 0 < n := by omega
  have li := hl.locIn hy
  have hy1 := hyp_new hy hl { form := .comp, comp := .array, n := n.toNat } (by simp)
  have hn := new_next s loc { form := .comp, comp := .array, n := n.toNat }
  have hs := new_scopes s loc { form := .comp, comp := .array, n := n.toNat }
  have ht := new_tab s loc { form := .comp, comp := .array, n := n.toNat } li
  have him := (fr_new (LocP loc) (LocQ loc) s loc { form := .comp, comp := .array, n := n.toNat } (by simp) li (fun _ h => h) (fun _ h => h)).imports
  generalize new s loc { form := .comp, comp := .array, n := n.toNat } = s1 at *
  obtain ⟨he0, hcd⟩ := endArr_clean he
  rw [he0] at he hA hE ⊢
  have htc := typeCheck_clean he
  rw [htc] at he hA hE hcd ⊢
  obtain ⟨R, hb, hnx⟩ := child ih hy1 hban hs him he hA hE hd.arr
  generalize typeDecl mx s1 (.base s.next) ban e = r at *
  have a : Fr (fun u => u = s.next) (fun _ => False) r.1 r.1 := Fr.refl _ _ _
  have hB := notB_next hy
  have et : r.1.tab s.next = { form := .comp, comp := .array, n := n.toNat, base := some r.2 } := by
    rw [hb, ht]
  have hlt := R.fin.lt
  have hF : Fin r.1 (Ab ban A) B s.next := by
    refine .mk _ (by omega) hB fun v hv => ?_
    unfold Contains at hv
    rw [et] at hv
    simp at hv
    rw [← hv]
    exact R.fin.mono a (fun v _ x => .inr x) (fun v _ x => .inl x) (fun _ x => x)
  have hG : Good pl r.1 B s.next := by
    constructor
    · omega
    · exact hB
    · rw [et]; simp
    · rw [et]; simp
    · rw [et]; intro b h; simp at h; omega
    · rw [et]; intro b h; simp at h
    · rw [et]; exact fun _ => ⟨r.2, rfl, hcd⟩
    · rw [et]; simp
    · rw [et]; simp
    · rw [et]; simp
    · exact fun _ b h _ => by rw [et] at h; simp at h
  refine ⟨new_ext (by rw [← hn]; exact R.new) a rfl hG (hF.weaken (fun _ x => x) ab_le), hF, fun _ => Nat.le_refl _, fun _ => hB, ?_⟩
  unfold Desc
  refine ⟨by omega, hB, by rw [et], by rw [et], hn0, ?_, r.2, by rw [et], hlt, hcd, ?_⟩
  · rw [et]; simp only; omega
  · exact Desc.mono a (fun v _ x => .inr x) (fun v _ x => .inl x) _ _ R.desc

theorem good_ptr {B : Nat → Prop} {s : St} {t b : Nat} {y : Ty} (hlt : t < s.next) (hB : ¬ B t) (hb : b < s.next) (et : s.tab t = { y with form := .ptr, comp := .basic, base := some b }) :
    Good pl s B t := by
  constructor
  · exact hlt
  · exact hB
  · rw [et]; simp
  · rw [et]; simp
  · rw [et]; intro b' h; simp at h; omega
  · rw [et]; intro b h; simp at h
  · rw [et]; simp
  · rw [et]; simp
  · rw [et]; simp
  · rw [et]; simp
  · exact fun _ b h _ => by rw [et] at h; simp at h

theorem fin_basic {A B : Nat → Prop} {s : St} {t : Nat} (hlt : t < s.next) (hB : ¬ B t) (hc : (s.tab t).comp = .basic) : Fin s A B t := by
  refine .mk t hlt hB fun v hv => ?_
  unfold Contains at hv
  simp [hc] at hv

theorem sound_ptr {mx : Int} {e : TE} (ih : SoundD mx pl o x0 A env sec e) : SoundD mx pl o x0 A env sec (.ptr e) := by
  intro s loc ban B hy hl hban he hA hE hd
  rw [typeDecl.eq_6] at he hA hE ⊢
  dsimp only at he hA hE ⊢
  have li := hl.locIn hy
  have hy1 := hyp_new hy hl { form := .ptr } (by simp)
  have hn := new_next s loc { form := .ptr }
  have hs := new_scopes s loc { form := .ptr }
  have ht := new_tab s loc { form := .ptr } li
  have hw := new_fwd s loc { form := .ptr }
  have him := (fr_new (LocP loc) (LocQ loc) s loc { form := .ptr } (by simp) li (fun _ h => h) (fun _ h => h)).imports
  generalize new s loc { form := .ptr } = s1 at *
  obtain ⟨he0, hcd⟩ := endPtr_clean he
  rw [he0] at he hA hE ⊢
  have htc := typeCheck_clean he
  rw [htc] at he hA hE hcd ⊢
  obtain ⟨R, hb, hnx⟩ := child ih hy1 (ban := none) (.inl rfl) hs him he hA hE hd.ptr
  have hfr := (frD mx e s1 (.base s.next) none ⟨fun u e => (by cases e; omega), fun i e => (by cases e)⟩).1
  generalize typeDecl mx s1 (.base s.next) none e = r at *
  have a : Fr (fun u => u = s.next) (fun _ => False) r.1 r.1 := Fr.refl _ _ _
  have hB := notB_next hy
  have et : r.1.tab s.next = { form := .ptr, base := some r.2 } := by
    rw [hb, ht]
  have hlt := R.fin.lt
  have hF : ∀ A, Fin r.1 A B s.next := fun A => fin_basic (by omega) hB (by rw [et])
  have hG : Good pl r.1 B s.next := good_ptr (b := r.2) (y := { form := .ptr }) (by omega) hB hlt et
  refine ⟨new_ext (by rw [← hn]; exact R.new) a rfl hG (hF _), hF _, fun _ => Nat.le_refl _, fun _ => hB, ?_⟩
  unfold Desc
  refine ⟨by omega, hB, by rw [et], by rw [et], ?_, r.2, by rw [et], hlt, hcd, ?_⟩
  · intro y hm
    rw [fwd_old hfr (by omega), hw] at hm
    have := hy.fwd _ hm
    simp only at this
    omega
  · exact Desc.mono a (fun v _ x => .inr x) (fun v _ x => .inl x) _ _ R.desc

theorem sound_ptrTo {mx : Int} {q : Qual} : SoundD mx pl o x0 A env sec (.ptrTo q) := by
  intro s loc ban B hy hl hban he hA hE hd
  rw [typeDecl.eq_5] at he hA hE ⊢
  try dsimp only at he hA hE ⊢
  have li := hl.locIn hy
  have hy1 := hyp_new hy hl { form := .ptr } (by simp)
  have hn := new_next s loc { form := .ptr }
  have hs := new_scopes s loc { form := .ptr }
  have ht := new_tab s loc { form := .ptr } li
  have hw := new_fwd s loc { form := .ptr }
  have him := (fr_new (LocP loc) (LocQ loc) s loc { form := .ptr } (by simp) li (fun _ h => h) (fun _ h => h)).imports
  generalize new s loc { form := .ptr } = s1 at *
  rw [ptrName_objs] at hE
  rw [← hs, ← him] at hE
  have hB := notB_next hy
  have hfw : ∀ y, (s.next, some y) ∉ s1.fwd := by
    intro y hm
    rw [hw] at hm
    have := hy.fwd _ hm
    simp only at this
    omega
  rcases ptrName_cases s1 s.next q with ⟨x, rfl, hf, hw64, e⟩ | ⟨ob, hq, hm, hc, e⟩ | ⟨w, n, ns, _, e⟩
  · rw [e]
    have hlt : s.next < s1.next := by omega
    have hG : Good pl { s1 with fwd := s1.fwd ++ [(s.next, some x)] } B s.next := good_ptr (b := 0) (y := { form := .ptr }) hlt hB (by have := hy1.pos; simp only; omega) ht
    have hF : ∀ A, Fin { s1 with fwd := s1.fwd ++ [(s.next, some x)] } A B s.next := fun A => fin_basic hlt hB (by simp only [ht])
    refine ⟨?_, hF _, fun _ => Nat.le_refl _, fun _ => hB, ?_⟩
    · intro u h1 h2
      have : u = s.next := by simp only at h2; omega
      rw [this]
      exact ⟨hG, hF _⟩
    · unfold Desc
      refine ⟨hlt, hB, by simp only [ht], by simp only [ht], .inr (.inl ⟨x, rfl, hE.none x hf, by simp, ?_⟩)⟩
      intro y hy2
      simp only [List.mem_append, List.mem_singleton, Prod.mk.injEq, Option.some.injEq, true_and] at hy2
      exact hy2.resolve_left (hfw y)
  · rw [e]
    obtain ⟨k1, k2⟩ := qual hy1 hq hm (ban := none) (.inl rfl)
    have hlt : s.next < s1.next := by omega
    have hbl : ob.typ < s1.next := by
      rcases k1 with ⟨k1, kr⟩ | ⟨_, _, i, hi, hc⟩
      · exact k1.lt
      · rw [hc]; exact (hy1.cur i hi).2
    have et : (setLoc s1 ob.typ (.base s.next)).tab s.next = { form := .ptr, base := some ob.typ } := by
      simp only [setLoc, upd_self, ht]
    have hG : Good pl (setLoc s1 ob.typ (.base s.next)) B s.next := good_ptr (b := ob.typ) (y := { form := .ptr }) hlt hB hbl et
    have hF : ∀ A, Fin (setLoc s1 ob.typ (.base s.next)) A B s.next := fun A => fin_basic hlt hB (by rw [et])
    refine ⟨?_, hF _, fun _ => Nat.le_refl _, fun _ => hB, ?_⟩
    · intro u h1 h2
      have : u = s.next := by simp only [setLoc] at h2; omega
      rw [this]
      exact ⟨hG, hF _⟩
    · unfold Desc
      refine ⟨hlt, hB, by rw [et], by rw [et], .inl ⟨ob.typ, k2 env hE, by rw [et], hbl, ?_, hfw⟩⟩
      by_cases c : ob.typ = s.next
      · rw [c, ht] at hc; simp at hc
      · simp only [setLoc, upd_ne _ _ c]; exact hc
  · rw [e] at he
    simp at he

theorem Fin.mono' {s s' : St} {A A' B B' : Nat → Prop} {u : Nat} (h : Fin s A B u) (hn : s.next ≤ s'.next)
    (ht : ∀ t < s.next, ¬ B t → s'.tab t = s.tab t ∧ s'.fields t = s.fields t) (hB : ∀ t < s.next, B' t → B t) (hA : ∀ t, A t → A' t) : Fin s' A' B' u := by
  induction h with
  | stop u h hl => exact .stop u (hA u h) (by omega)
  | mk u hl hb h ih =>
    refine .mk u (by omega) (fun x => hb (hB u hl x)) fun v hv => ih v ?_
    exact contains_congr (ht u hl hb).1 (ht u hl hb).2 hv

theorem sound_recd {mx : Int} {b : Option Qual} {fs : GL} (ih : SoundF mx pl o x0 A env sec fs) : SoundD mx pl o x0 A env sec (.recd b fs) := by
  intro s loc ban B hy hl hban he hA hE hd
  rw [typeDecl.eq_4] at he hA hE ⊢
  dsimp only at he hA hE ⊢
  have li := hl.locIn hy
  have hy1 := hyp_new hy hl { form := .comp, comp := .record, base := none } (by simp)
  have hn := new_next s loc { form := .comp, comp := .record, base := none }
  have hs := new_scopes s loc { form := .comp, comp := .record, base := none }
  have ht := new_tab s loc { form := .comp, comp := .record, base := none } li
  have hfl := new_fields s loc { form := .comp, comp := .record, base := none }
  have hno := new_nobj s loc { form := .comp, comp := .record, base := none }
  have h0 := fr_new (LocP loc) (LocQ loc) s loc { form := .comp, comp := .record, base := none } (by simp) li (fun _ h => h) (fun _ h => h)
  generalize new s loc { form := .comp, comp := .record, base := none } = s0 at *
  have h1 := fr_recBase _ _ s s0 h0 s.next (Nat.le_refl _) (by omega) ban b
  have rs := recBase_scopes s0 s.next ban b
  have ro := recBase_objs s0 s.next ban b
  obtain ⟨rn, rno, rf⟩ := recBase_next s0 s.next ban b
  have hcb : (recBase s0 s.next ban b).errs = [] → _ := recBase_clean
  generalize recBase s0 s.next ban b = s1 at *
  have hB := notB_next hy
  have hB1 : ∀ t < s.next, (B t ∨ t = s.next) → B t := by
    intro t ht h
    rcases h with h | h
    · exact h
    · omega
  have ht1 : s.next < (openScope s1).next := by simp only [openScope]; omega
  obtain ⟨f1, f2, f3⟩ := frF mx fs (openScope s1) s.next ban ht1
  have heF : (fieldList mx (openScope s1) s.next ban fs).errs = [] := he
  have he1 : s1.errs = [] := f1.clean heF
  have hc := hcb he1
  have hy2 : Hyp o x0 (fun u => B u ∨ u = s.next) (openScope s1) := by
    refine hy.step (h1.trans (fr_open (LocP loc) (LocQ loc) s1) (fun _ _ h => h) (fun _ _ h => h)) (fun u _ h => hl.base u h) (fun i _ h => (hl.obj i h).1) hB1 ?_ ?_ ?_
    · intro t h
      have := hy1.bs t h
      simp only [openScope]; omega
    · exact (Finds.of_eq (rs.trans hs)).trans (finds_open s1) (by omega) (Nat.le_refl _)
    · intro i hi
      simp only [openScope, ro, rn]
      exact (hy1.cur i hi).2
  have hobj : ∀ i < s1.nobj, (closeScope (fieldList mx (openScope s1) s.next ban fs)).objs i = s1.objs i := fun i hi => f1.objs i hi (fun x => x)
  have hsame : Same (openScope s1) s.next := by
    refine ⟨[], s1.scopes, rfl, ?_, by simp⟩
    have : (openScope s1).fields s.next = [] := by
      simp only [openScope, rf, hfl]
      exact (hy.beyond s.next (Nat.le_refl _)).2
    simp [this]
  have hE1 : EnvOf (openScope s1).scopes (openScope s1).objs (openScope s1).imports env := by
    have i1 : (openScope s1).imports = s.imports := h1.imports
    have hE0 : EnvOf s.scopes s1.objs s.imports env := hE.congr fun x i hi => (hobj i (by have := hy.sc x i hi; omega)).symm
    rw [i1]
    have hfo := finds_open s1
    rw [← hs, ← rs] at hE0
    refine ⟨fun x i hi hm => ?_, fun x hx => hE0.none x ((hfo x).2 hx), fun m x i ob hi hm => ?_⟩
    · rcases (hfo x).1 i hi with c | c
      · simp only [openScope] at c; omega
      · exact hE0.id x i c hm
    · rcases (hfo m).1 i hi with c | c
      · simp only [openScope] at c; omega
      · exact hE0.sel m x i ob c hm
  have R := ih (openScope s1) s.next ban _ hy2 (.inr rfl) hsame hban heF
    (fun i hi => by have := hA i hi; rw [hobj i (by have := (hy.cur i hi).1; omega)] at this; exact this) hE1 hd.recd.1
  generalize fieldList mx (openScope s1) s.next ban fs = s2 at *
  have hfld0 : (openScope s1).fields s.next = [] := by
    simp only [openScope, rf, hfl]
    exact (hy.beyond s.next (Nat.le_refl _)).2
  obtain ⟨l, hfl2, hFl, hDl, hOl⟩ := R.flds
  rw [hfld0, List.nil_append] at hfl2
  have a : Fr (fun u => u = s.next) (fun _ => False) s2 (closeScope s2) := fr_close _ _ _
  have hnx : (closeScope s2).next = s2.next := rfl
  have ht2 : (closeScope s2).tab s.next = s1.tab s.next := R.tab
  have hf2 : (closeScope s2).fields s.next = l := hfl2
  have hle : s1.next ≤ s2.next := f1.next
  have hkeep : ∀ u < s1.next, (s2.tab u).comp = (s1.tab u).comp ∧ (s2.tab u).extlev = (s1.tab u).extlev := fun u hu => (f1.keep u hu).2
  have hfr : ∀ u, u ≠ s.next → u < s1.next → s2.tab u = s1.tab u ∧ s2.fields u = s1.fields u := fun u h1 h2 => ⟨f1.tab u h2 h1, f1.fields u h2 h1⟩
  -- the base type
  have hbase : (b = none ∧ s1.tab s.next = { form := .comp, comp := .record, base := none }) ∨
      ∃ q t, b = some q ∧ env q = some t ∧ t ≠ s.next ∧ t < s1.next ∧ (s1.tab t).comp = .record ∧
        s1.tab s.next = { form := .comp, comp := .record, base := some t, extlev := (s1.tab t).extlev + 1 } ∧
        Fin s2 (Ab ban A) (fun u => B u ∨ u = s.next) t ∧ (pl.2 → Anc s1 (fun u => B u ∨ u = s.next) t) := by
    rcases hc with ⟨rfl, e⟩ | ⟨q, ob, rfl, hq, hm, hcr, hne, e⟩
    · left
      exact ⟨rfl, by rw [e, ht]⟩
    · right
      obtain ⟨k1, k2⟩ := qual hy1 hq hm (ban := ban) (hban.imp id fun h => ⟨h, hne⟩)
      have hne2 : ob.typ ≠ s.next := by
        rcases k1 with ⟨k1, kr⟩ | ⟨kb, _, i, hi, hc⟩
        · exact fun h => k1.notB (.inr h)
        · have c1 := hy.cur i hi
          have : loc ≠ .obj i := fun h => by
            have := (hl.obj i h).2
            rw [kb] at this
            cases this
          rw [h0.objs i c1.1 this] at hc
          omega
      have hblt : ob.typ < s1.next := by
        rcases k1 with ⟨k1, kr⟩ | ⟨_, _, i, hi, hc⟩
        · have := k1.lt; omega
        · have := (hy1.cur i hi).2; omega
      have et : s1.tab ob.typ = s0.tab ob.typ := by rw [e]; exact upd_ne _ _ hne2
      refine ⟨q, ob.typ, rfl, k2 env ?_, hne2, hblt, by rw [et]; exact hcr, ?_, ?_, ?_⟩
      · have : EnvOf s.scopes s1.objs s.imports env := hE.congr fun x i hi => (hobj i (by have := hy.sc x i hi; omega)).symm
        rw [hs, ← ro, h0.imports]
        exact this
      · rw [et, e]
        simp only [upd_self, ht]
      · rcases k1 with ⟨k1, kr⟩ | ⟨kb, _, i, hi, hc⟩
        · refine k1.mono' (by omega) (fun t h1 h2 => ?_) (fun _ _ x => x) (fun _ x => x.elim)
          have hne3 : t ≠ s.next := fun h => h2 (.inr h)
          obtain ⟨g1, g2⟩ := hfr t hne3 (by omega)
          rw [g1, g2]
          exact ⟨by rw [e]; exact upd_ne _ _ hne3, by rw [rf]⟩
        · refine .stop _ ⟨kb, ?_⟩ (by omega)
          have := hA i hi
          rw [hobj i (by have := (hy.cur i hi).1; omega), ro, ← hc] at this
          exact this
      · intro p
        rcases k1 with ⟨k1, kr⟩ | ⟨kb, kq, i, hi, hc⟩
        · refine (kr hcr).mono' (by omega) (fun t _ h2 _ => ?_) (fun _ _ x => x)
          rw [e]
          exact upd_ne _ _ (fun h => h2 (.inr h))
        · exact absurd (by rw [kq]) (hd.recd.2 p (by rw [hi]; rfl))
  have hF : Fin (closeScope s2) (Ab ban A) B s.next := by
    refine .mk _ (by omega) hB fun v hv => ?_
    unfold Contains at hv
    rw [ht2, hf2] at hv
    have key : Fin s2 (Ab ban A) (fun u => B u ∨ u = s.next) v := by
      rcases hv with ⟨_, hv⟩ | ⟨_, x, hv⟩
      · rcases hbase with ⟨_, e⟩ | ⟨q, t, _, _, _, _, _, e, hf, han⟩
        · rw [e] at hv; cases hv
        · rw [e] at hv; simp at hv; rw [← hv]; exact hf
      · exact hFl (x, v) hv
    exact key.mono a (fun v _ x => .inr x) (fun v _ x => .inl x) (fun _ x => x)
  have hform : (s1.tab s.next).form = .comp ∧ (s1.tab s.next).comp = .record := by
    rcases hbase with ⟨_, e⟩ | ⟨q, t, _, _, _, _, _, e, hf, han⟩ <;> rw [e] <;> exact ⟨rfl, rfl⟩
  have hG : Good pl (closeScope s2) B s.next := by
    constructor
    · omega
    · exact hB
    · rw [ht2]; exact .inl hform.1
    · rw [ht2, hform.1, hform.2]; simp
    · rw [ht2]
      intro t h
      rcases hbase with ⟨_, e⟩ | ⟨q, t', _, _, _, _, _, e, hf, han⟩
      · rw [e] at h; cases h
      · rw [e] at h; simp at h; rw [← h]; exact hf.lt
    · rw [ht2]
      intro t _ h
      rcases hbase with ⟨_, e⟩ | ⟨q, t', _, _, hne, hlt, hc, e, hf, han⟩
      · rw [e] at h; cases h
      · rw [e] at h
        simp at h
        subst h
        obtain ⟨g1, g2⟩ := hkeep t' hlt
        show (s2.tab t').comp = _ ∧ _ = (s2.tab t').extlev + 1
        rw [g1, g2, e]
        exact ⟨hc, rfl⟩
    · rw [ht2, hform.2]; simp
    · rw [ht2, hform.2]; simp
    · rw [ht2, hform.1]; simp
    · intro _
      obtain ⟨f, fs', g1, g2, g3⟩ := R.same
      show ((s2.fields s.next).map Prod.fst).Nodup
      rw [← g2]
      exact g3
    · intro p u _ hu
      rw [ht2] at hu
      rcases hbase with ⟨_, e⟩ | ⟨q, t', _, _, hne, hlt, hc, e, hf, han⟩
      · rw [e] at hu; cases hu
      · have hu' : s1.tab s.next = _ := e
        rw [e] at hu
        simp at hu
        subst hu
        have hA2 := (han p).mono' (s' := closeScope s2) (B' := B) hle (fun v hv hn _ => (hfr v (fun h => hn (.inr h)) hv).1) (fun _ _ x => .inl x)
        refine ⟨hA2, fun x hx => ?_⟩
        rw [hf2] at hx
        rw [findField_congr (s := s2) (s' := closeScope s2) (B := B) (hA2.mono' (Nat.le_refl _) (fun _ _ _ _ => rfl) (fun _ _ x => x)) (fun _ _ _ _ => ⟨rfl, rfl⟩)]
        exact hOl t' (by show (s1.tab s.next).base = _; rw [e]) ((han p).mono' (Nat.le_refl _) (fun _ _ _ _ => rfl) (fun _ _ x => x)) x hx
  refine ⟨new_ext (t := s.next) ?_ a hnx hG (hF.weaken (fun _ x => x) ab_le), hF, fun _ => Nat.le_refl _, fun _ => hB, ?_⟩
  · have : (openScope s1).next = s.next + 1 := by simp only [openScope]; omega
    rw [← this]
    exact R.new
  unfold Desc
  refine ⟨by omega, hB, by rw [ht2]; exact hform.1, by rw [ht2]; exact hform.2, ?_, ?_⟩
  · rw [ht2]
    rcases hbase with ⟨rfl, e⟩ | ⟨q, t', rfl, hq, hne, hlt, hc, e, hf, han⟩
    · rw [e]; exact ⟨rfl, rfl⟩
    · obtain ⟨g1, g2⟩ := hkeep t' hlt
      refine ⟨t', hq, hf.lt, ?_, by rw [e], ?_⟩
      · show (s2.tab t').comp = _
        rw [g1]; exact hc
      · show _ = (s2.tab t').extlev + 1
        rw [g2, e]
  · rw [hf2]
    exact DescF.mono a (fun v _ x => .inr x) (fun v _ x => .inl x) _ _ hDl

theorem sound_proc {mx : Int} {ps : GL} {res : Option Qual} (ih : SoundP mx pl o x0 A env sec ps) : SoundD mx pl o x0 A env sec (.proc ps res) := by
  intro s loc ban B hy hl hban he hA hE hd
  rw [typeDecl.eq_7] at he hA hE ⊢
  dsimp only at he hA hE ⊢
  have li := hl.locIn hy
  have hy1 := hyp_new hy hl { form := .proc } (by simp)
  have hn := new_next s loc { form := .proc }
  have hs := new_scopes s loc { form := .proc }
  have ht := new_tab s loc { form := .proc } li
  have hno := new_nobj s loc { form := .proc }
  have h0 := fr_new (LocP loc) (LocQ loc) s loc { form := .proc } (by simp) li (fun _ h => h) (fun _ h => h)
  generalize new s loc { form := .proc } = s1 at *
  have hB := notB_next hy
  have hy2 : Hyp o x0 (fun u => B u ∨ u = s.next) (openScope s1) :=
    hy1.step' (fr_open (fun _ => False) (fun _ => False) s1) (fun _ _ x => x.elim) (finds_open s1)
  obtain ⟨f1, f2, f3⟩ := frP mx ps (openScope s1)
  have fP := finds_parList mx ps (openScope s1)
  have heR : (resType (parList mx (openScope s1) ps).1 res).1.errs = [] := he
  have heP : (parList mx (openScope s1) ps).1.errs = [] := (fr_resType (fun _ => False) (fun _ => False) _ res).clean heR
  have hobj0 : ∀ r : St × List Par, (endProc r.1 s.next r.2 res).objs = r.1.objs := by
    intro r
    rcases resType_cases r.1 res with ⟨t, h⟩ | ⟨n, h⟩ | h <;> simp only [endProc, h] <;> rfl
  have hobj : ∀ i < s1.nobj, (endProc (parList mx (openScope s1) ps).1 s.next (parList mx (openScope s1) ps).2 res).objs i = s1.objs i := by
    intro i hi
    rw [hobj0]
    exact f1.objs i hi (fun x => x)
  have hE0 : EnvOf s1.scopes s1.objs s1.imports env := by
    rw [hs, h0.imports]
    exact hE.congr fun x i hi => (hobj i (by have := hy.sc x i hi; omega)).symm
  have hE1 : EnvOf (openScope s1).scopes (openScope s1).objs (openScope s1).imports env :=
    hE0.step (fr_open (fun _ => False) (fun _ => False) s1) (fun _ _ _ x => x) hy1.sc (finds_open s1)
  have R := ih (openScope s1) _ hy2 heP
    (fun i hi => by have := hA i hi; rw [hobj i (by have := (hy.cur i hi).1; omega)] at this; exact this) hE1 hd.proc
  have hE2 : EnvOf (parList mx (openScope s1) ps).1.scopes (parList mx (openScope s1) ps).1.objs (parList mx (openScope s1) ps).1.imports env :=
    hE1.step f1 (fun _ _ _ x => x) hy2.sc fP
  have hy3 := hy2.step' f1 (fun _ _ x => x.elim) fP
  have htP : (parList mx (openScope s1) ps).1.tab s.next = { form := .proc } := by
    rw [f1.tab s.next (by simp only [openScope]; omega) (fun x => x)]
    exact ht
  have hnP : s.next < (parList mx (openScope s1) ps).1.next := by have := f1.next; have e : (openScope s1).next = s1.next := rfl; omega
  generalize parList mx (openScope s1) ps = r at *
  have hc := resType_clean heR
  have a : Fr (fun u => u = s.next) (fun _ => False) r.1 (endProc r.1 s.next r.2 res) := fr_endProc _ _ _ _ _ _ hnP rfl
  have hres : ∃ b, (endProc r.1 s.next r.2 res).tab s.next = { form := .proc, base := some b, params := r.2 } ∧ b < r.1.next ∧ (endProc r.1 s.next r.2 res).next = r.1.next ∧
      ((res = none ∧ b = notyp) ∨ ∃ q, res = some q ∧ env q = some b ∧ (r.1.tab b).comp = .basic) := by
    rcases hc with ⟨rfl, e⟩ | ⟨q, ob, rfl, hq, hm, hf, e⟩
    · refine ⟨notyp, ?_, by have := hy3.pos; unfold notyp; omega, ?_, .inl ⟨rfl, rfl⟩⟩
      · simp only [endProc, e, closeScope, upd_self, htP]
      · simp only [endProc, e, closeScope]
    · obtain ⟨k1, k2⟩ := qual hy3 hq hm (ban := none) (.inl rfl)
      have hlt : ob.typ < r.1.next := by
        rcases k1 with ⟨k1, kr⟩ | ⟨_, _, i, hi, hc⟩
        · exact k1.lt
        · rw [hc]; exact (hy3.cur i hi).2
      refine ⟨ob.typ, ?_, hlt, ?_, .inr ⟨q, rfl, k2 env hE2, ?_⟩⟩
      · simp only [endProc, e, closeScope, upd_self, htP]
      · simp only [endProc, e, closeScope]
      · have := (hy3.cb ob.typ hlt).mpr
        by_contra hcc
        exact hf (this hcc)
  obtain ⟨b, et, hb, hnx, hr⟩ := hres
  have hF : ∀ A, Fin (endProc r.1 s.next r.2 res) A B s.next := fun A => fin_basic (by omega) hB (by rw [et])
  have hG : Good pl (endProc r.1 s.next r.2 res) B s.next := by
    constructor
    · omega
    · exact hB
    · rw [et]; simp
    · rw [et]; simp
    · rw [et]; intro b' h; simp at h; omega
    · rw [et]; intro b h; simp at h
    · rw [et]; simp
    · rw [et]; simp
    · rw [et]; simp
    · rw [et]; simp
    · exact fun _ b h _ => by rw [et] at h; simp at h
  refine ⟨new_ext (t := s.next) ?_ a hnx hG (hF _), hF _, fun _ => Nat.le_refl _, fun _ => hB, ?_⟩
  · have : (openScope s1).next = s.next + 1 := by simp only [openScope]; omega
    rw [← this]
    exact R.new
  unfold Desc
  refine ⟨by omega, hB, by rw [et], by rw [et], ?_, ?_⟩
  · rw [et]
    exact DescP.mono a (fun v _ x => .inr x) (fun v _ x => .inl x) _ _ R.desc
  · rcases hr with ⟨rfl, e⟩ | ⟨q, rfl, e, hc⟩
    · rw [et, e]
    · refine ⟨b, e, by omega, ?_, by rw [et]⟩
      rw [(a.keep b hb).2.1]
      exact hc

theorem sound_fnil {mx : Int} : SoundF mx pl o x0 A env sec .nil := by
  intro s t ban B hy hB hs hban he hA hE hd
  rw [fieldList.eq_1]
  refine ⟨fun u h1 h2 => by omega, rfl, hs, [], by simp, by simp, ?_, by simp⟩
  unfold DescF
  rfl

theorem sound_fcons {mx : Int} {v : Bool} {xs : List Nat} {e : TE} {rest : GL} (ihe : SoundD mx pl o x0 A env sec e) (ihr : SoundF mx pl o x0 A env sec rest) :
    SoundF mx pl o x0 A env sec (.cons v xs e rest) := by
  intro s t ban B hy hB hs hban he hA hE hd
  obtain ⟨hd1, hd2⟩ := hd.cons
  rw [fieldList.eq_2] at he ⊢
  try dsimp only at he ⊢
  have ht := hy.bs t hB
  have h0 := fr_addFields (fun u => u = t) (fun _ => False) t rfl xs s ht
  have hP : ∀ u < s.next, u = t → B u := fun u _ h => h ▸ hB
  have fs0 := finds_addFields t xs s ht
  obtain ⟨nx0, tb0⟩ := addFields_next t xs s
  have fl0 := addFields_fields t xs s
  have sm0 := same_addFields t xs s ht hs
  have ow0 : ∀ b, (s.tab t).base = some b → Anc s B b → (addFields s t xs).errs = [] → _ := fun b h1 h2 => own_addFields xs s ht hB h1 h2
  generalize addFields s t xs = s1 at *
  obtain ⟨c1, c2, _⟩ := frD mx e s1 .tmp ban ⟨fun u e => (by cases e), fun i e => (by cases e)⟩
  have c1' : Fr (fun _ => False) (fun _ => False) s1 (typeDecl mx s1 .tmp ban e).1 :=
    (Fr.refl _ _ _).trans c1 (fun u _ h => by cases h) (fun i _ h => by cases h)
  have c3 : t < (noDyn (typeCheck (typeDecl mx s1 .tmp ban e))).1.next := by
    have := c1.next
    have := (fr_typeCheck (fun _ => False) (fun _ => False) (typeDecl mx s1 .tmp ban e)).next
    have := (fr_noDyn (fun _ => False) (fun _ => False) (typeCheck (typeDecl mx s1 .tmp ban e))).next
    omega
  have he2 := (frF mx rest (setFields (noDyn (typeCheck (typeDecl mx s1 .tmp ban e))).1 t xs (noDyn (typeCheck (typeDecl mx s1 .tmp ban e))).2) t ban c3).1.clean he
  have he3 : (noDyn (typeCheck (typeDecl mx s1 .tmp ban e))).1.errs = [] := he2
  obtain ⟨n1, hnd⟩ := noDyn_clean he3
  rw [n1] at he3
  have n2 := typeCheck_clean he3
  rw [n1, n2] at he ⊢
  rw [n2] at he3 hnd
  have hy1 := hy.step' h0 hP fs0
  have hE1 := hE.step h0 (fun _ _ _ x => x) hy.sc fs0
  have hE2 := hE1.step c1' (fun _ _ _ x => x) hy1.sc (Finds.of_eq c2)
  rw [c2, c1'.imports] at hE2
  have hobj : ∀ i, o = some i → ((typeDecl mx s1 .tmp ban e).1.objs i).typ = (s.objs i).typ := by
    intro i hi
    have := (hy.cur i hi).1
    rw [c1'.objs i (by have := h0.nobj; omega) (fun x => x), h0.objs i this (fun x => x)]
  have R := ihe s1 .tmp ban B hy1 ⟨fun u e => (by cases e), fun i e => (by cases e)⟩ hban he3
    (fun i hi => by rw [hobj i hi]; exact hA i hi) hE2 hd1
  generalize typeDecl mx s1 .tmp ban e = r at *
  have c3' : t < r.1.next := by rw [n1, n2] at c3; exact c3
  have a2 : Fr (fun u => u = t) (fun _ => False) r.1 (setFields r.1 t xs r.2) := fr_fields _ _ _ _ _ c3' rfl
  have frS : Fr (fun u => u = t) (fun _ => False) s (setFields r.1 t xs r.2) :=
    (h0.trans c1' (fun _ _ h => h.elim) (fun _ _ h => h)).trans a2 (fun _ _ h => h) (fun _ _ h => h)
  have fsS : Finds s (setFields r.1 t xs r.2) := (fs0.trans (Finds.of_eq c2) h0.nobj c1'.nobj).trans (Finds.of_eq rfl) (h0.nobj.trans c1'.nobj) (Nat.le_refl _)
  have hy2 := hy.step' frS hP fsS
  have hE3 := hE.step frS (fun _ _ _ x => x) hy.sc fsS
  have hfl : (setFields r.1 t xs r.2).fields t = s.fields t ++ xs.map (·, r.2) := by
    simp only [setFields, upd_self]
    rw [c1'.fields t (by omega) (fun x => x), fl0]
    simp
  have hsm : Same (setFields r.1 t xs r.2) t := by
    obtain ⟨f, fs', g1, g2, g3⟩ := sm0 (c1'.clean he3)
    refine ⟨f, fs', ?_, ?_, g3⟩
    · rw [setFields_scopes, c2, g1]
    · rw [g2, fl0, hfl]
      simp
  have R2 := ihr (setFields r.1 t xs r.2) t ban B hy2 hB hsm hban he
    (fun i hi => by
      have := (hy.cur i hi).1
      rw [frS.objs i this (fun x => x)]
      exact hA i hi) hE3 hd2
  obtain ⟨d1, _, _⟩ := frF mx rest (setFields r.1 t xs r.2) t ban c3'
  generalize fieldList mx (setFields r.1 t xs r.2) t ban rest = s3 at *
  have a3 : Fr (fun u => u = t) (fun _ => False) r.1 s3 := a2.trans d1 (fun _ _ h => h) (fun _ _ h => h)
  have hP3 : ∀ u < r.1.next, u = t → B u := fun u _ h => h ▸ hB
  obtain ⟨l, g1, g2, g3, g4⟩ := R2.flds
  refine ⟨?_, ?_, R2.same, xs.map (·, r.2) ++ l, ?_, ?_, ?_, ?_⟩
  · intro u h1 h2
    by_cases c : u < r.1.next
    · obtain ⟨k1, k2⟩ := R.new u (by omega) c
      exact ⟨k1.mono a3 hP3 (fun _ _ x => x), k2.mono a3 hP3 (fun _ _ x => x) (fun _ x => x)⟩
    · exact R2.new u (by simp only [setFields]; omega) h2
  · rw [R2.tab]
    show r.1.tab t = _
    rw [c1'.tab t (by omega) (fun x => x), tb0]
  · rw [g1, hfl, List.append_assoc]
  · intro p hp
    rcases List.mem_append.mp hp with h | h
    · obtain ⟨x, _, rfl⟩ := List.mem_map.mp h
      exact R.fin.mono a3 hP3 (fun _ _ x => x) (fun _ x => x)
    · exact g2 p h
  · unfold DescF
    have := R.fin.lt
    exact ⟨r.2, l, rfl, by have := a3.next; omega, by rw [(a3.keep r.2 this).2.1]; exact hnd, Desc.mono a3 hP3 (fun _ _ x => x) _ _ R.desc, g3⟩
  · intro b hb ha p hp
    have hcS : ∀ u < s.next, ¬ B u → (setFields r.1 t xs r.2).tab u = s.tab u ∧ (setFields r.1 t xs r.2).fields u = s.fields u := fun u hu hn => by
      have hne : u ≠ t := fun e => hn (e ▸ hB)
      exact ⟨frS.tab u hu hne, frS.fields u hu hne⟩
    have aS := frS.trans d1 (fun _ _ h => h) (fun _ _ h => h)
    have hc3 : ∀ u < s.next, ¬ B u → s3.tab u = s.tab u ∧ s3.fields u = s.fields u := fun u hu hn => by
      have hne : u ≠ t := fun e => hn (e ▸ hB)
      exact ⟨aS.tab u hu hne, aS.fields u hu hne⟩
    rcases List.mem_append.mp hp with h | h
    · obtain ⟨x, hx, rfl⟩ := List.mem_map.mp h
      rw [findField_congr ha (fun u hu hn _ => hc3 u hu hn)]
      have := ow0 b hb ha (c1'.clean he3) x hx
      rw [(aS.keep b ha.lt).2.2]
      exact this
    · refine g4 b ?_ (ha.mono' frS.next (fun u hu hn _ => (hcS u hu hn).1) (fun _ _ x => x)) p h
      show (r.1.tab t).base = _
      rw [c1'.tab t (by omega) (fun x => x), tb0]
      exact hb

theorem sound_pnil {mx : Int} : SoundP mx pl o x0 A env sec .nil := by
  intro s B hy he hA hE hd
  rw [parList.eq_1]
  refine ⟨fun u h1 h2 => by simp only at h2; omega, ?_⟩
  unfold DescP
  rfl

theorem sound_pcons {mx : Int} {v : Bool} {xs : List Nat} {e : TE} {rest : GL} (ihe : SoundD mx pl o x0 A env sec e) (ihr : SoundP mx pl o x0 A env sec rest) :
    SoundP mx pl o x0 A env sec (.cons v xs e rest) := by
  intro s B hy he hA hE hd
  obtain ⟨hd1, hd2⟩ := hd.cons
  rw [parList.eq_2] at he ⊢
  dsimp only at he ⊢
  have h0 := fr_addObjs (fun _ => False) (fun _ => False) xs s
  have fs0 := finds_addObjs xs s
  have nx0 := addObjs_next xs s
  generalize addObjs s xs = s1 at *
  obtain ⟨c1, c2, _⟩ := frD mx e s1 .tmp none ⟨fun u e => (by cases e), fun i e => (by cases e)⟩
  have c1' : Fr (fun _ => False) (fun _ => False) s1 (typeDecl mx s1 .tmp none e).1 :=
    (Fr.refl _ _ _).trans c1 (fun u _ h => by cases h) (fun i _ h => by cases h)
  have he3 := (frP mx rest (typeCheck (typeDecl mx s1 .tmp none e)).1).1.clean he
  have n2 := typeCheck_clean he3
  rw [n2] at he he3 ⊢
  have hP : ∀ u < s.next, False → B u := fun _ _ h => h.elim
  have hy1 := hy.step' h0 hP fs0
  have hE1 := hE.step h0 (fun _ _ _ x => x) hy.sc fs0
  have hE2 := hE1.step c1' (fun _ _ _ x => x) hy1.sc (Finds.of_eq c2)
  rw [c2, c1'.imports] at hE2
  have hobj : ∀ i, o = some i → ((typeDecl mx s1 .tmp none e).1.objs i).typ = (s.objs i).typ := by
    intro i hi
    have := (hy.cur i hi).1
    rw [c1'.objs i (by have := h0.nobj; omega) (fun x => x), h0.objs i this (fun x => x)]
  have R := ihe s1 .tmp none B hy1 ⟨fun u e => (by cases e), fun i e => (by cases e)⟩ (.inl rfl) he3
    (fun i hi => by rw [hobj i hi]; exact hA i hi) hE2 hd1
  generalize typeDecl mx s1 .tmp none e = r at *
  have frS : Fr (fun _ => False) (fun _ => False) s r.1 := h0.trans c1' (fun _ _ h => h) (fun _ _ h => h)
  have fsS : Finds s r.1 := fs0.trans (Finds.of_eq c2) h0.nobj c1'.nobj
  have hy2 := hy.step' frS hP fsS
  have hE3 := hE.step frS (fun _ _ _ x => x) hy.sc fsS
  have R2 := ihr r.1 B hy2 he
    (fun i hi => by
      have := (hy.cur i hi).1
      rw [frS.objs i this (fun x => x)]
      exact hA i hi) hE3 hd2
  obtain ⟨d1, _, _⟩ := frP mx rest r.1
  generalize parList mx r.1 rest = p at *
  have hP3 : ∀ u < r.1.next, False → B u := fun u _ h => h.elim
  refine ⟨?_, ?_⟩
  · intro u h1 h2
    by_cases c : u < r.1.next
    · obtain ⟨k1, k2⟩ := R.new u (by omega) c
      exact ⟨k1.mono d1 hP3 (fun _ _ x => x), k2.mono d1 hP3 (fun _ _ x => x) (fun _ x => x)⟩
    · exact R2.new u (by omega) h2
  · unfold DescP
    exact ⟨r.2, p.2, rfl, Desc.mono d1 hP3 (fun _ _ x => x) _ _ R.desc, R2.desc⟩

variable (pl o x0 A env sec)
mutual
theorem soundD (mx : Int) : ∀ e : TE, SoundD mx pl o x0 A env sec e
  | .name q => fun s loc ban B hy hl hban he hA hE _ => sound_name hy hl hban he hA hE
  | .dyn e => sound_dyn (soundD mx e)
  | .arr n e => sound_arr (soundD mx e)
  | .recd b fs => sound_recd (soundF mx fs)
  | .ptrTo q => sound_ptrTo
  | .ptr e => sound_ptr (soundD mx e)
  | .proc ps res => sound_proc (soundP mx ps)
theorem soundF (mx : Int) : ∀ fs : GL, SoundF mx pl o x0 A env sec fs
  | .nil => sound_fnil
  | .cons _ _ e rest => sound_fcons (soundD mx e) (soundF mx rest)
theorem soundP (mx : Int) : ∀ ps : GL, SoundP mx pl o x0 A env sec ps
  | .nil => sound_pnil
  | .cons _ _ e rest => sound_pcons (soundD mx e) (soundP mx rest)
end

end

end Verif.Decls
