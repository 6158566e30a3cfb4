import Verif.CDecl.Model
import Verif.Common

/-! # Declarations in C: declarators as trees, and how they are read -/
namespace Verif.CDecl

/-- Declarators as trees (only for the proofs). -/
inductive Dcl where
  | name (x : Option Nm)
  | ptr (d : Dcl)
  | paren (d : Dcl)
  | arr (d : Dcl) (n : Nat)
  | fn (d : Dcl) (ts : List Tok) (ps : CL)

namespace Dcl

def toks : Dcl → List Tok
  | .name .none => []
  | .name (some x) => [.id x]
  | .ptr d => .star :: d.toks
  | .paren d => .lpar :: (d.toks ++ [.rpar])
  | .arr d n => d.toks ++ [.lbrack, .num n, .rbrack]
  | .fn d ts _ => d.toks ++ .lpar :: ts

def nm : Dcl → Option Nm
  | .name x => x
  | .ptr d => d.nm
  | .paren d => d.nm
  | .arr d _ => d.nm
  | .fn d _ _ => d.nm

def ty : Dcl → CT → CT
  | .name _, t => t
  | .ptr d, t => d.ty (.ptr t)
  | .paren d, t => d.ty t
  | .arr d n, t => d.ty (.array n t)
  | .fn d _ ps, t => d.ty (.func ps t)

def isPtr : Dcl → Bool
  | .ptr _ => true
  | _ => false

def isParen : Dcl → Bool
  | .paren _ => true
  | _ => false

/-- Stars under lengths and parameters are in parentheses. -/
def Proper : Dcl → Prop
  | .name _ => True
  | .ptr d => d.Proper
  | .paren d => d.Proper ∧ d.isPtr = true
  | .arr d _ => d.Proper ∧ d.isPtr = false
  | .fn d ts ps => d.Proper ∧ d.isParen = true ∧ ∀ rest, Reads (fun n => readParams n (ts ++ rest)) (ps, rest)

end Dcl

/-! ### `Reads` -/

theorem Reads.pure {α : Type} (a : α) : Reads (fun _ => some a) a := ⟨0, fun _ _ => rfl⟩

theorem Reads.step {α : Type} {f g : Nat → Option α} {a : α} (h : ∀ n, f (n + 1) = g n) (hg : Reads g a) : Reads f a := by
  obtain ⟨n0, hn⟩ := hg
  refine ⟨n0 + 1, fun n hle => ?_⟩
  obtain ⟨m, rfl⟩ : ∃ m, n = m + 1 := ⟨n - 1, by omega⟩
  rw [h, hn m (by omega)]

theorem Reads.bind {α β : Type} {f : Nat → Option α} {g : α → Nat → Option β} {a : α} {b : β} (hf : Reads f a) (hg : Reads (g a) b) :
    Reads (fun n => f n >>= fun x => g x n) b := by
  obtain ⟨n0, hn⟩ := hf
  obtain ⟨n1, hm⟩ := hg
  refine ⟨max n0 n1, fun n hle => ?_⟩
  have h1 := hn n (by omega)
  have h2 := hm n (by omega)
  show (f n).bind (fun x => g x n) = _
  rw [h1]; exact h2

theorem Reads.map {α β : Type} {f : Nat → Option α} {g : α → β} {a : α} (hf : Reads f a) : Reads (fun n => (f n).map g) (g a) := by
  obtain ⟨n0, hn⟩ := hf
  exact ⟨n0, fun n hle => (by simp only [hn n hle, Option.map])⟩

theorem Reads.unique {α : Type} {f : Nat → Option α} {a b : α} (h : Reads f a) (h' : Reads f b) : a = b := by
  obtain ⟨n0, hn⟩ := h
  obtain ⟨n1, hm⟩ := h'
  have h1 := hn (max n0 n1) (by omega)
  have h2 := hm (max n0 n1) (by omega)
  rw [h1] at h2
  exact Option.some.inj h2

/-! ### Reading declarators -/

/-- What may come after a declarator. -/
def Ends (ts : List Tok) : Prop := ∃ r, ts = .rpar :: r ∨ ts = .comma :: r ∨ ts = .semi :: r

/-- What may come after nothing, where a name is missing. -/
def Okh (ts : List Tok) : Prop := Ends ts ∨ ∃ r, ts = .lbrack :: r

theorem suffix_ends {ts : List Tok} (h : Ends ts) : Reads (fun n => readSuffix n ts) (fun t => t, ts) := by
  refine Reads.step (g := fun _ => some (fun t => t, ts)) (fun n => ?_) (Reads.pure _)
  obtain ⟨r, rfl | rfl | rfl⟩ := h <;> rfl

theorem readDeclarator_direct (n : Nat) {ts : List Tok} (h : ts.head? ≠ some .star) : readDeclarator (n + 1) ts = readDirect n ts := by
  cases ts with
  | nil => rfl
  | cons a r => cases a <;> first | rfl | exact absurd rfl h

theorem head_ne_star (d : Dcl) (hp : d.Proper) (hn : d.isPtr = false) : ∀ more, (d = .name .none → Okh more) → (d.toks ++ more).head? ≠ some .star := by
  induction d with
  | name x =>
    intro more hm
    cases x with
    | none =>
      rcases hm rfl with ⟨r, rfl | rfl | rfl⟩ | ⟨r, rfl⟩ <;> simp [Dcl.toks]
    | some x => simp [Dcl.toks]
  | ptr d _ => simp [Dcl.isPtr] at hn
  | paren d _ => intro more _; simp [Dcl.toks]
  | arr d n ih =>
    intro more _
    have := ih hp.1 hp.2 ([.lbrack, .num n, .rbrack] ++ more) (fun _ => Or.inr ⟨_, rfl⟩)
    simpa [Dcl.toks] using this
  | fn d ts ps ih =>
    intro more _
    cases d with
    | paren d => simp [Dcl.toks]
    | _ => simp [Dcl.Proper, Dcl.isParen] at hp

theorem read_both (d : Dcl) (hp : d.Proper) :
    (∀ rest, Ends rest → Reads (fun n => readDeclarator n (d.toks ++ rest)) (d.nm, d.ty, rest)) ∧
    (d.isPtr = false → ∀ more s rest, Reads (fun n => readSuffix n more) (s, rest) → (d = .name .none → Okh more) →
      Reads (fun n => readDirect n (d.toks ++ more)) (d.nm, fun t => d.ty (s t), rest)) := by
  have conv : ∀ d : Dcl, d.Proper → d.isPtr = false → (∀ more s rest, Reads (fun n => readSuffix n more) (s, rest) → (d = .name .none → Okh more) →
      Reads (fun n => readDirect n (d.toks ++ more)) (d.nm, fun t => d.ty (s t), rest)) →
      ∀ rest, Ends rest → Reads (fun n => readDeclarator n (d.toks ++ rest)) (d.nm, d.ty, rest) := by
    intro d hp hn h rest he
    exact Reads.step (fun n => readDeclarator_direct n (head_ne_star d hp hn rest (fun _ => Or.inl he))) (h rest _ rest (suffix_ends he) (fun _ => Or.inl he))
  induction d with
  | name x =>
    have hB : ∀ more s rest, Reads (fun n => readSuffix n more) (s, rest) → (Dcl.name x = .name .none → Okh more) →
        Reads (fun n => readDirect n ((Dcl.name x).toks ++ more)) ((Dcl.name x).nm, fun t => (Dcl.name x).ty (s t), rest) := by
      intro more s rest hs hm
      cases x with
      | none =>
        refine Reads.step (fun n => ?_) (Reads.map (g := fun s => (none, s)) hs)
        rcases hm rfl with ⟨r, rfl | rfl | rfl⟩ | ⟨r, rfl⟩ <;> rfl
      | some x => exact Reads.step (fun n => rfl) (Reads.map (g := fun s => (some x, s)) hs)
    exact ⟨conv _ hp rfl hB, fun _ => hB⟩
  | ptr d ih =>
    refine ⟨fun rest he => ?_, fun h => (by simp [Dcl.isPtr] at h)⟩
    exact Reads.step (fun n => rfl) (Reads.map (g := fun (d : Option Nm × (CT → CT) × List Tok) => (d.1, fun t => d.2.1 (.ptr t), d.2.2)) ((ih hp).1 rest he))
  | paren d ih =>
    have hB : ∀ more s rest, Reads (fun n => readSuffix n more) (s, rest) → (Dcl.paren d = .name .none → Okh more) →
        Reads (fun n => readDirect n ((Dcl.paren d).toks ++ more)) ((Dcl.paren d).nm, fun t => (Dcl.paren d).ty (s t), rest) := by
      intro more s rest hs _
      have h1 := (ih hp.1).1 (.rpar :: more) ⟨_, Or.inl rfl⟩
      cases d with
      | ptr d =>
        have h2 : Reads (fun n => readParen n (.star :: (d.toks ++ .rpar :: more))) (d.nm, fun t => (Dcl.ptr d).ty (s t), rest) := by
          refine Reads.step (fun n => rfl) ?_
          refine Reads.bind h1 ?_
          exact Reads.map (g := fun (s : (CT → CT) × List Tok) => (d.nm, fun t => (Dcl.ptr d).ty (s.1 t), s.2)) hs
        refine Reads.step (fun n => ?_) h2
        simp only [Dcl.toks, List.cons_append, List.append_assoc, List.nil_append]
        rfl
      | _ => simp [Dcl.isPtr, Dcl.Proper] at hp
    exact ⟨conv _ hp rfl hB, fun _ => hB⟩
  | arr d k ih =>
    have hB : ∀ more s rest, Reads (fun n => readSuffix n more) (s, rest) → (Dcl.arr d k = .name .none → Okh more) →
        Reads (fun n => readDirect n ((Dcl.arr d k).toks ++ more)) ((Dcl.arr d k).nm, fun t => (Dcl.arr d k).ty (s t), rest) := by
      intro more s rest hs _
      have h2 : Reads (fun n => readSuffix n ([.lbrack, .num k, .rbrack] ++ more)) (fun t => .array k (s t), rest) :=
        Reads.step (fun n => rfl) (Reads.map (g := fun (s : (CT → CT) × List Tok) => (fun t => CT.array k (s.1 t), s.2)) hs)
      have h3 := (ih hp.1).2 hp.2 _ _ _ h2 (fun _ => Or.inr ⟨_, rfl⟩)
      simpa only [Dcl.toks, Dcl.nm, Dcl.ty, List.append_assoc] using h3
    exact ⟨conv _ hp rfl hB, fun _ => hB⟩
  | fn d ts ps ih =>
    have hB : ∀ more s rest, Reads (fun n => readSuffix n more) (s, rest) → (Dcl.fn d ts ps = .name .none → Okh more) →
        Reads (fun n => readDirect n ((Dcl.fn d ts ps).toks ++ more)) ((Dcl.fn d ts ps).nm, fun t => (Dcl.fn d ts ps).ty (s t), rest) := by
      intro more s rest hs _
      have h2 : Reads (fun n => readSuffix n (.lpar :: (ts ++ more))) (fun t => .func ps (s t), rest) := by
        refine Reads.step (fun n => rfl) ?_
        refine Reads.bind (hp.2.2 more) ?_
        exact Reads.map (g := fun (s : (CT → CT) × List Tok) => (fun t => CT.func ps (s.1 t), s.2)) hs
      have h3 := (ih hp.1).2 (by cases d <;> simp_all [Dcl.isParen, Dcl.isPtr, Dcl.Proper]) _ _ _ h2
        (fun h => (by rw [h] at hp; simp [Dcl.Proper, Dcl.isParen] at hp))
      simpa only [Dcl.toks, Dcl.nm, Dcl.ty, List.append_assoc, List.cons_append] using h3
    exact ⟨conv _ hp rfl hB, fun _ => hB⟩

theorem read_dcl {d : Dcl} (hp : d.Proper) {rest : List Tok} (he : Ends rest) : Reads (fun n => readDeclarator n (d.toks ++ rest)) (d.nm, d.ty, rest) :=
  (read_both d hp).1 rest he

/-! ### What is written as a tree -/

def build : OT → Dcl → Dcl
  | .array n e, d => build e (.arr (if d.isPtr then .paren d else d) n)
  | .pointer b, d => if b.isOpen then .ptr d else build b (.ptr d)
  | .openArr e, d => build e d
  | .proc ps _, d => .fn (.paren (.ptr d)) (params false true ps) (cparams false ps)
  | _, d => d

/-- The type of the specifier. -/
def bct : OT → CT
  | .named n _ => .name n
  | .namedOpen _ e => bct e
  | .record tag => .struct tag
  | .none => .void
  | .pointer b => if b.isOpen then .anon (lenMember b.dims (.cons (some .data) (.array 1 (ctype b)) .nil)) else bct b
  | .array _ e => bct e
  | .openArr e => bct e
  | .proc _ r => bct r

def isProc : OT → Bool
  | .proc _ _ => true
  | _ => false

theorem nm_build (t : OT) : ∀ d, (build t d).nm = d.nm := by
  cases t <;> intro d
  all_goals try rfl
  case pointer b => rw [build]; split; rfl; exact nm_build b _
  case array n e => rw [build, nm_build e]; cases h : d.isPtr <;> rfl
  case openArr e => rw [build, nm_build e]
termination_by t

theorem plain_ctype (e : OT) (h : OpenOk.Plain e) : bct e = ctype e := by
  cases e
  case named => rfl
  case record => rfl
  case namedOpen n e => simp only [bct, ctype]; exact plain_ctype e h
  case openArr e => simp only [bct, ctype]; exact plain_ctype e h
  all_goals exact absurd h (by simp [OpenOk.Plain])
termination_by e

theorem ty_build (t : OT) (hl : Legal t) (ho : t.isOpen = true → OpenOk t) : ∀ d, (build t d).ty (bct t) = d.ty (ctype t) := by
  cases t <;> intro d
  case named => rfl
  case record => rfl
  case none => exact absurd hl (by simp [Legal])
  case namedOpen n e => simp only [build, bct, ctype]; rw [plain_ctype e (ho rfl)]
  case pointer b =>
    rw [build, bct, ctype]
    cases hb : b.isOpen
    · simp only [Bool.false_eq_true, if_false]
      rw [ty_build b hl.2 (fun h => absurd h (by simp [hb]))]; rfl
    · rfl
  case array n e =>
    rw [build, bct, ctype, ty_build e hl.2 (fun h => absurd h (by simp [hl.1]))]
    cases h : d.isPtr <;> rfl
  case openArr e =>
    rw [build, bct, ctype]
    exact ty_build e hl (fun _ => ho rfl) d
  case proc ps r =>
    rw [build, bct, ctype]
    obtain ⟨_, rfl | ⟨n, k, rfl⟩⟩ := hl <;> rfl
termination_by t

theorem emit_tree (t : OT) (hl : Legal t) : ∀ (f : Bool) (d : Dcl), (t.isOpen = true → OpenOk t ∧ f = false) → (f = true → d.isPtr = true) →
    (f = false → (stars t).2 = true → d.isPtr = false) → (f = true → isProc t = false) →
    (stars t).1 ++ (if f && (stars t).2 then [.lpar] else []) ++ d.toks ++ tail f t = (build t d).toks := by
  cases t <;> intro f d ho h1 h2 h3
  case named => cases f <;> simp [stars, tail, build]
  case record => cases f <;> simp [stars, tail, build]
  case none => exact absurd hl (by simp [Legal])
  case namedOpen n e => cases f <;> simp [stars, tail, build]
  case pointer b =>
    rw [build]
    cases hb : b.isOpen
    · have hp : isProc b = false := by
        rcases hl.1 with h | h | h <;> cases b <;> simp_all [OT.isRecord, OT.isArray, OT.isOpen, isProc]
      have := emit_tree b hl.2 true (.ptr d) (fun h => absurd h (by simp [hb])) (fun _ => rfl) (fun h => absurd h (by simp)) (fun _ => hp)
      simp only [Bool.false_eq_true, if_false]
      rw [← this]
      simp [stars, tail, hb, Dcl.toks]
    · simp [stars, tail, hb, Dcl.toks]
  case array n e =>
    rw [build]
    have hne : (stars e).2 = true → (Dcl.arr (if d.isPtr then .paren d else d) n).isPtr = false := fun _ => rfl
    have := emit_tree e hl.2 false (.arr (if d.isPtr then .paren d else d) n) (fun h => absurd h (by simp [hl.1])) (fun h => absurd h (by simp))
      (fun _ => hne) (fun h => absurd h (by simp))
    rw [← this]
    cases f
    · have hd := h2 rfl rfl
      simp [stars, tail, hd, Dcl.toks]
    · have hd := h1 rfl
      simp [stars, tail, hd, Dcl.toks]
  case openArr e =>
    rw [build]
    obtain ⟨hok, rfl⟩ := ho rfl
    have hs : (stars e).2 = false := by
      cases e <;> simp_all [stars, OpenOk]
    have := emit_tree e hl false d (fun _ => ⟨hok, rfl⟩) (fun h => absurd h (by simp)) (fun _ h => absurd h (by simp [hs])) (fun h => absurd h (by simp))
    rw [← this]
    simp [stars, tail]
  case proc ps r =>
    rw [build]
    cases f
    · simp [stars, tail, Dcl.toks]
    · exact absurd (h3 rfl) (by simp [isProc])
termination_by t

/-- `DeclareObj` writes a tree. -/
theorem declareObj_tree (var scopeDef : Bool) (t : OT) (hl : Legal t) (ho : t.isOpen = true → OpenOk t) (x : Option Nm) :
    declareObj var scopeDef t (Dcl.toks (.name x)) =
      (build t (if (var && !t.isArray) || t.isOpen || scopeDef then (if (stars t).2 then .paren (.ptr (.name x)) else .ptr (.name x)) else .name x)).toks := by
  unfold declareObj declHead
  generalize hv : ((var && !t.isArray) || t.isOpen || scopeDef) = vp
  cases hs : (stars t).2 <;> cases vp
  · simp only [Bool.false_eq_true, if_false]
    rw [← emit_tree t hl false (.name x) (fun h => ⟨ho h, rfl⟩) (fun h => absurd h (by simp)) (fun _ _ => rfl) (fun h => absurd h (by simp))]
    simp
  · simp only [if_true, Bool.false_eq_true, if_false]
    rw [← emit_tree t hl false (.ptr (.name x)) (fun h => ⟨ho h, rfl⟩) (fun h => absurd h (by simp)) (fun _ h => absurd h (by simp [hs])) (fun h => absurd h (by simp))]
    simp [Dcl.toks]
  · simp only [Bool.false_eq_true, if_false]
    rw [← emit_tree t hl false (.name x) (fun h => ⟨ho h, rfl⟩) (fun h => absurd h (by simp)) (fun _ _ => rfl) (fun h => absurd h (by simp))]
    simp
  · simp only [if_true]
    rw [← emit_tree t hl false (.paren (.ptr (.name x))) (fun h => ⟨ho h, rfl⟩) (fun h => absurd h (by simp)) (fun _ _ => rfl) (fun h => absurd h (by simp))]
    simp [Dcl.toks]

/-! ### Reading parameters -/

/-- After a parameter: the closing parenthesis, or a comma and further parameters. -/
def More (ts : List Tok) (cl : CL) (rest : List Tok) : Prop :=
  (ts = .rpar :: rest ∧ cl = .nil) ∨ ∃ r, ts = .comma :: r ∧ Reads (fun n => readParams n r) (cl, rest)

theorem More.ends {ts : List Tok} {cl : CL} {rest : List Tok} (h : More ts cl rest) : Ends ts := by
  rcases h with ⟨rfl, _⟩ | ⟨r, rfl, _⟩
  · exact ⟨_, Or.inl rfl⟩
  · exact ⟨_, Or.inr (Or.inl rfl)⟩

theorem readParams_step (n : Nat) {ts : List Tok} (h : ∀ r, ts ≠ .void :: .rpar :: r) : readParams (n + 1) ts = (do
      let s ← readSpec n ts
      let d ← readDeclarator n s.2
      match d.2.2 with
      | .rpar :: r => some (.cons d.1 (d.2.1 s.1) .nil, r)
      | .comma :: r => do
        let p ← readParams n r
        some (.cons d.1 (d.2.1 s.1) p.1, p.2)
      | _ => none) := by
  cases ts with
  | nil => rfl
  | cons a r =>
    cases a <;> try rfl
    cases r with
    | nil => rfl
    | cons b r => cases b <;> first | rfl | exact absurd rfl (h r)

theorem read_param {ts : List Tok} (hv : ∀ r, ts ≠ .void :: .rpar :: r) {s : CT} {r1 : List Tok} (hs : Reads (fun n => readSpec n ts) (s, r1)) {x : Option Nm} {g : CT → CT}
    {r2 : List Tok} (hd : Reads (fun n => readDeclarator n r1) (x, g, r2)) {cl : CL} {rest : List Tok} (hm : More r2 cl rest) :
    Reads (fun n => readParams n ts) (.cons x (g s) cl, rest) := by
  refine Reads.step (fun n => readParams_step n hv) ?_
  refine Reads.bind hs ?_
  refine Reads.bind hd ?_
  rcases hm with ⟨rfl, rfl⟩ | ⟨r, rfl, hr⟩
  · exact Reads.pure _
  · refine Reads.bind hr ?_
    exact Reads.pure _

theorem nameTok_toks (named : Bool) (x : Nm) : nameTok named x = Dcl.toks (.name (if named then some x else none)) := by
  cases named <;> rfl

theorem spec_address (r : List Tok) : Reads (fun n => readSpec n (.address :: r)) (.address, r) := Reads.step (fun _ => rfl) (Reads.pure _)

theorem more_len (named : Bool) (x : Nat) : ∀ (k i : Nat) {ts : List Tok} {cl : CL} {rest : List Tok}, More ts cl rest →
    More (lenList named x k i ++ ts) (lenParams named x k i cl) rest
  | 0, _, _, _, _, h => h
  | k + 1, i, ts, cl, rest, h => by
    have ih := more_len named x k (i + 1) h
    refine Or.inr ⟨.address :: (nameTok named (.lenOf x i) ++ (lenList named x k (i + 1) ++ ts)), by simp [lenList], ?_⟩
    refine read_param (by simp) (spec_address _) (g := fun t => t) ?_ ih
    rw [nameTok_toks]
    exact read_dcl (d := .name _) trivial ih.ends

theorem more_tag (named : Bool) (x : Nat) {ts : List Tok} {cl : CL} {rest : List Tok} (h : More ts cl rest) :
    More ([.comma, .address, .star] ++ nameTok named (.tagOf x) ++ ts) (.cons (if named then some (.tagOf x) else none) (.ptr .address) cl) rest := by
  refine Or.inr ⟨.address :: .star :: (nameTok named (.tagOf x) ++ ts), by simp, ?_⟩
  refine read_param (by simp) (spec_address _) (g := fun t => .ptr t) ?_ h
  rw [nameTok_toks]
  exact read_dcl (d := .ptr (.name _)) trivial h.ends

theorem readMembers_step (n : Nat) {ts : List Tok} (h : ts.head? ≠ some .rbrace) : readMembers (n + 1) ts = (do
      let s ← readSpec n ts
      let d ← readDeclarator n s.2
      match d.2.2 with
      | .semi :: r => do
        let m ← readMembers n r
        some (.cons d.1 (d.2.1 s.1) m.1, m.2)
      | _ => none) := by
  cases ts with
  | nil => rfl
  | cons a r => cases a <;> first | rfl | exact absurd rfl h

theorem read_member {ts : List Tok} (hv : ts.head? ≠ some .rbrace) {s : CT} {r1 : List Tok} (hs : Reads (fun n => readSpec n ts) (s, r1)) {x : Option Nm}
    {g : CT → CT} {r2 : List Tok} (hd : Reads (fun n => readDeclarator n r1) (x, g, .semi :: r2)) {cl : CL} {rest : List Tok}
    (hm : Reads (fun n => readMembers n r2) (cl, rest)) : Reads (fun n => readMembers n ts) (.cons x (g s) cl, rest) := by
  refine Reads.step (fun n => readMembers_step n hv) ?_
  refine Reads.bind hs ?_
  refine Reads.bind hd ?_
  refine Reads.bind hm ?_
  exact Reads.pure _

/-! ### The heads of what is written -/

theorem bracket_void (t : OT) (hl : Legal t) (ho : t.isOpen = true → OpenOk t) (h : bct t = .void) : ∀ d, ∃ r, (build t d).toks = .lpar :: r := by
  cases t <;> intro d
  case named => exact absurd h (by simp [bct])
  case record => exact absurd h (by simp [bct])
  case none => exact absurd hl (by simp [Legal])
  case namedOpen n e =>
    have hp : OpenOk.Plain e := ho rfl
    have hv : ∀ e : OT, OpenOk.Plain e → bct e ≠ .void := by
      intro e
      induction e using OT.rec (motive_2 := fun _ => True) <;> simp_all [OpenOk.Plain, bct]
    exact absurd h (hv e hp)
  case pointer b =>
    rw [build]
    cases hb : b.isOpen
    · simp only [bct, hb, Bool.false_eq_true, if_false] at h ⊢
      exact bracket_void b hl.2 (fun h => absurd h (by simp [hb])) h _
    · simp [bct, hb] at h
  case array n e => rw [build]; exact bracket_void e hl.2 (fun h => absurd h (by simp [hl.1])) h _
  case openArr e => rw [build]; exact bracket_void e hl (fun _ => ho rfl) h d
  case proc ps r => rw [build]; exact ⟨_, rfl⟩
termination_by t

theorem base_head (t : OT) : (base t).head? ≠ none ∧ (base t).head? ≠ some .rbrace ∧ ((base t).head? = some .void → bct t = .void ∧ base t = [.void]) := by
  cases t <;> simp only [base, bct]
  case named => simp
  case record => simp
  case none => simp
  case namedOpen n e => exact base_head e
  case array n e => exact base_head e
  case openArr e => exact base_head e
  case proc ps r => exact base_head r
  case pointer b =>
    cases hb : b.isOpen
    · simp only [Bool.false_eq_true, if_false]; exact base_head b
    · simp
termination_by t

end Verif.CDecl
