import Verif.CDecl.Read

/-!
# C65: the declarations in the generated C text declare what the program declares

What the compiler writes for variables, parameters and procedures is read by the rules of C as declaring the same names, in the same order, each with the type of C
that stands for its type (`ctype`, `cparams` in Spec.lean).  There are two kinds of parameters, open arrays of arrays without a name and open arrays with a name whose
elements have none, for which that is not so.
-/
namespace Verif.CDecl

theorem read_idents (sd : Bool) : ∀ (rest : List (Nat × Nat × OT)) (x k : Nat) (t : OT),
    (∀ v ∈ (x, k, t) :: rest, Legal v.2.2 ∧ Calm v.2.2 ∧ v.2.2.isOpen = false) → (∀ v ∈ rest, ∀ w ∈ (x, k, t) :: rest, v.2.1 = w.2.1 → v.2.2 = w.2.2) →
    ∃ l1 r l2, Reads (fun n => readMore n (bct t) ((objTree false sd t (some (.obj x))).toks ++ identList sd (some k) rest)) (l1, r) ∧
      Reads (fun n => readDecls n r) l2 ∧
      l1 ++ l2 = ((x, k, t) :: rest).map fun v => (some (Nm.obj v.1), if sd then .ptr (ctype v.2.2) else ctype v.2.2)
  | [], x, k, t, h, _ => by
    obtain ⟨h1, h2, h3⟩ := h _ (List.mem_cons_self ..)
    dsimp only at h1 h2 h3
    have hp := objTree_proper false sd t (some (.obj x)) h1 h2
    refine ⟨_, [], [], Reads.step (fun n => rfl) (Reads.bind (read_dcl hp ⟨[], Or.inr (Or.inr rfl)⟩) (Reads.pure _)), Reads.step (fun _ => rfl) (Reads.pure _), ?_⟩
    dsimp only
    rw [objTree_nm, objTree_ty _ _ _ _ h1 (fun h => absurd h (by simp [h3])), h3]
    simp
  | (y, j, s) :: rest, x, k, t, h, hk => by
    obtain ⟨h1, h2, h3⟩ := h _ (List.mem_cons_self ..)
    dsimp only at h1 h2 h3
    obtain ⟨g1, g2, g3⟩ := h (y, j, s) (by simp)
    dsimp only at g1 g2 g3
    have hp := objTree_proper false sd t (some (.obj x)) h1 h2
    obtain ⟨l1, r, l2, i1, i2, i3⟩ := read_idents sd rest y j s (fun v hv => h v (List.mem_cons_of_mem _ hv))
      (fun v hv w hw => hk v (List.mem_cons_of_mem _ hv) w (List.mem_cons_of_mem _ hw))
    have hobj : declareObj false sd s [.id (.obj y)] = (objTree false sd s (some (.obj y))).toks :=
      declareObj_toks false sd s g1 (fun h => absurd h (by simp [g3])) (some (.obj y))
    have hres : ∀ z u, Legal u → u.isOpen = false → (objTree false sd u (some (.obj z))).ty (bct u) = if sd then .ptr (ctype u) else ctype u := by
      intro z u hu hv
      rw [objTree_ty _ _ _ _ hu (fun h => absurd h (by simp [hv])), hv]
      simp
    by_cases he : k = j
    · have hs : s = t := hk (y, j, s) (by simp) (x, k, t) (by simp) he.symm
      subst hs; subst he
      have htoks : identList sd (some k) ((y, k, s) :: rest) = .comma :: ((objTree false sd s (some (.obj y))).toks ++ identList sd (some k) rest) := by
        rw [identList, if_pos rfl, hobj]; simp
      rw [htoks]
      refine ⟨_, r, l2, Reads.step (fun n => rfl) (Reads.bind (read_dcl hp ⟨_, Or.inr (Or.inl rfl)⟩) (Reads.bind i1 (Reads.pure _))), i2, ?_⟩
      dsimp only
      rw [objTree_nm, hres _ _ h1 h3]
      simp only [List.cons_append, i3]
      rfl
    · have htoks : identList sd (some k) ((y, j, s) :: rest) = .semi :: (base s ++ ((objTree false sd s (some (.obj y))).toks ++ identList sd (some j) rest)) := by
        rw [identList, if_neg (by simpa using he), hobj]; simp
      rw [htoks]
      refine ⟨_, _, l1 ++ l2, Reads.step (fun n => rfl) (Reads.bind (read_dcl hp ⟨_, Or.inr (Or.inr rfl)⟩) (Reads.pure _)), ?_, ?_⟩
      · have hne : ∀ m, base s ++ m ≠ [] := by
          intro m hm
          have := (base_head s).1
          simp only [List.append_eq_nil_iff] at hm
          rw [hm.1] at this
          exact this rfl
        have hst : ∀ n ts, ts ≠ [] → readDecls (n + 1) ts = (do
            let d ← readDecl n ts
            let r ← readDecls n d.2
            some (d.1 ++ r)) := by
          intro n ts hts
          cases ts with
          | nil => exact absurd rfl hts
          | cons a b => rfl
        refine Reads.step (fun n => hst n _ (hne _)) ?_
        have hd : Reads (fun n => readDecl n (base s ++ ((objTree false sd s (some (.obj y))).toks ++ identList sd (some j) rest))) (l1, r) :=
          Reads.bind (g := fun (s : CT × List Tok) n => readMore n s.1 s.2) (read_base s (Or.inl g1) g2 _) i1
        exact Reads.bind hd (Reads.bind i2 (Reads.pure _))
      · dsimp only
        rw [objTree_nm, hres _ _ h1 h3, i3]
        rfl

/-- C65, variables: let there be variables, each with a name, the number of its type and the type (same numbers are the same type), of any legal types that are not open
arrays; `sd` tells whether the list is that of a structure with pointers to variables of an outer procedure.  The text written for them is read as declarations of just these
names, in this order, each with the type of C for its type (or the pointer to it).  Partial: procedure types with the two kinds of parameters named above are
excluded (`Calm`). -/
theorem C65_variables_partial (sd : Bool) (vars : List (Nat × Nat × OT)) (h : ∀ v ∈ vars, Legal v.2.2 ∧ Calm v.2.2 ∧ v.2.2.isOpen = false)
    (hk : ∀ v ∈ vars, ∀ w ∈ vars, v.2.1 = w.2.1 → v.2.2 = w.2.2) :
    Reads (fun n => readDecls n (identList sd none vars)) (vars.map fun v => (some (Nm.obj v.1), if sd then .ptr (ctype v.2.2) else ctype v.2.2)) := by
  cases vars with
  | nil => exact Reads.step (fun _ => rfl) (Reads.pure _)
  | cons v rest =>
    obtain ⟨x, k, t⟩ := v
    obtain ⟨h1, h2, h3⟩ := h (x, k, t) (by simp)
    obtain ⟨l1, r, l2, i1, i2, i3⟩ := read_idents sd rest x k t h (fun v hv w hw => hk v (List.mem_cons_of_mem _ hv) w hw)
    have hobj : declareObj false sd t [.id (.obj x)] = (objTree false sd t (some (.obj x))).toks :=
      declareObj_toks false sd t h1 (fun h => absurd h (by simp [h3])) (some (.obj x))
    have htoks : identList sd none ((x, k, t) :: rest) = base t ++ ((objTree false sd t (some (.obj x))).toks ++ identList sd (some k) rest) := by
      rw [identList, if_neg (by simp), hobj]; simp
    rw [htoks, ← i3]
    have hd : Reads (fun n => readDecl n (base t ++ ((objTree false sd t (some (.obj x))).toks ++ identList sd (some k) rest))) (l1, r) :=
      Reads.bind (g := fun (s : CT × List Tok) n => readMore n s.1 s.2) (read_base t (Or.inl h1) h2 _) i1
    have hst : ∀ n ts, ts ≠ [] → readDecls (n + 1) ts = (do
        let d ← readDecl n ts
        let r ← readDecls n d.2
        some (d.1 ++ r)) := by
      intro n ts hts
      cases ts with
      | nil => exact absurd rfl hts
      | cons a b => rfl
    refine Reads.step (fun n => hst n _ ?_) (Reads.bind hd (Reads.bind i2 (Reads.pure _)))
    intro hm
    have := (base_head t).1
    simp only [List.append_eq_nil_iff] at hm
    rw [hm.1] at this
    exact this rfl

/-- C65, procedures: the header written for a procedure is read as the declaration of a function of its name, whose result is that of the procedure and whose parameters
are as in `cparams`, with their names: values and arrays as they are, other variable parameters and open arrays by pointers, lengths and tags after them.  Partial: without
the two kinds of parameters named above. -/
theorem C65_header_partial (x : Nat) (ps : OL) (r : OT) (hl : LegalL ps) (hr : r = .none ∨ ∃ n k, r = .named n k) (hc : CalmL ps) :
    Reads (fun n => readDecls n (procHeader x ps r)) [(some (.obj x), .func (cparams true ps) (ctype r))] := by
  have h1 := read_params true ps hl hc [.semi]
  have hsuf : Reads (fun n => readSuffix n (.lpar :: (params true true ps ++ [.semi]))) (fun t => .func (cparams true ps) t, [.semi]) := by
    refine Reads.step (fun n => rfl) ?_
    refine Reads.bind h1 ?_
    exact Reads.map (g := fun (s : (CT → CT) × List Tok) => (fun t => CT.func (cparams true ps) (s.1 t), s.2)) (suffix_ends ⟨[], Or.inr (Or.inr rfl)⟩)
  have hdir : Reads (fun n => readDirect n (.id (.obj x) :: .lpar :: (params true true ps ++ [.semi]))) (some (.obj x), fun t => .func (cparams true ps) t, [.semi]) :=
    Reads.step (fun n => rfl) (Reads.map (g := fun s => (some (Nm.obj x), s)) hsuf)
  have hdec : Reads (fun n => readDeclarator n (.id (.obj x) :: .lpar :: (params true true ps ++ [.semi]))) (some (.obj x), fun t => .func (cparams true ps) t, [.semi]) :=
    Reads.step (fun n => rfl) hdir
  have hmore : ∀ s, Reads (fun n => readMore n s (.id (.obj x) :: .lpar :: (params true true ps ++ [.semi]))) ([(some (.obj x), .func (cparams true ps) s)], []) :=
    fun s => Reads.step (fun n => rfl) (Reads.bind hdec (Reads.pure _))
  have hspec : ∀ rest, Reads (fun n => readSpec n (base r ++ rest)) (ctype r, rest) := by
    intro rest
    rcases hr with rfl | ⟨n, k, rfl⟩ <;> exact Reads.step (fun _ => rfl) (Reads.pure _)
  have hd : Reads (fun n => readDecl n (procHeader x ps r)) ([(some (.obj x), .func (cparams true ps) (ctype r))], []) := by
    have : procHeader x ps r = base r ++ (.id (.obj x) :: .lpar :: (params true true ps ++ [.semi])) := by simp [procHeader]
    rw [this]
    exact Reads.bind (g := fun (s : CT × List Tok) n => readMore n s.1 s.2) (hspec _) (hmore _)
  have hend : Reads (fun n => readDecls n []) [] := Reads.step (fun _ => rfl) (Reads.pure _)
  have hall : Reads (fun n => do
      let d ← readDecl n (procHeader x ps r)
      let q ← readDecls n d.2
      some (d.1 ++ q)) [(some (.obj x), .func (cparams true ps) (ctype r))] := Reads.bind hd (Reads.bind hend (Reads.pure _))
  refine Reads.step (fun n => ?_) hall
  rcases hr with rfl | ⟨n, k, rfl⟩ <;> rfl

/-- C65, one meaning: a text is read in one way only, so the readings above are the only ones. -/
theorem C65_one_reading {ts : List Tok} {a b : List (Option Nm × CT)} (ha : Reads (fun n => readDecls n ts) a) (hb : Reads (fun n => readDecls n ts) b) : a = b :=
  ha.unique hb

/-! ### A case with everything in it -/

/-- `ARRAY 3 OF POINTER TO ARRAY 5 OF PROCEDURE (VAR r: R; VAR p: POINTER TO ARRAY 4 OF CHAR; a: ARRAY OF ARRAY OF CHAR; f: PROCEDURE): INTEGER`. -/
def exT : OT := .array 3 (.pointer (.array 5 (.proc (.cons true 1 (.named 7 .record) (.cons true 2 (.pointer (.array 4 (.named 0 .other)))
  (.cons false 3 (.openArr (.openArr (.named 0 .other))) (.cons false 4 (.proc .nil .none) .nil)))) (.named 1 .other))))

/-- It is legal and has none of the parameters excluded. -/
example : Legal exT ∧ Calm exT ∧ exT.isOpen = false := by
  refine ⟨?_, ?_, rfl⟩
  · simp [exT, Legal, LegalL, OT.isOpen, OT.isArray, OT.isRecord]
  · simp [exT, Calm, CalmL, OT.isOpen, OpenOk]

/-- `INTEGER (*(*x9[3])[5])(R*, ADDRESS *, CHAR (**)[4], CHAR*, ADDRESS, ADDRESS, void (*)(void)), (*x8 …` is written for two variables of it. -/
example : identList false none [(9, 0, exT), (8, 0, exT)] =
    [.ty 1, .lpar, .star, .lpar, .star, .id (.obj 9), .lbrack, .num 3, .rbrack, .rpar, .lbrack, .num 5, .rbrack, .rpar, .lpar, .ty 7, .star, .comma, .address, .star,
      .comma, .ty 0, .lpar, .star, .star, .rpar, .lbrack, .num 4, .rbrack, .comma, .ty 0, .star, .comma, .address, .comma, .address, .comma, .void, .lpar, .star, .rpar,
      .lpar, .void, .rpar, .rpar, .comma,
     .lpar, .star, .lpar, .star, .id (.obj 8), .lbrack, .num 3, .rbrack, .rpar, .lbrack, .num 5, .rbrack, .rpar, .lpar, .ty 7, .star, .comma, .address, .star,
      .comma, .ty 0, .lpar, .star, .star, .rpar, .lbrack, .num 4, .rbrack, .comma, .ty 0, .star, .comma, .address, .comma, .address, .comma, .void, .lpar, .star, .rpar,
      .lpar, .void, .rpar, .rpar, .semi] := by
  decide +kernel

/-- A pointer to an open array of arrays: `struct { ADDRESS len[1]; CHAR data[1][5]; } *x;`. -/
example : identList false none [(9, 0, .pointer (.openArr (.array 5 (.named 0 .other))))] =
    [.struct, .lbrace, .address, .id .len, .lbrack, .num 1, .rbrack, .semi, .ty 0, .id .data, .lbrack, .num 1, .rbrack, .lbrack, .num 5, .rbrack, .semi, .rbrace,
      .star, .id (.obj 9), .semi] := by
  decide +kernel

/-- A variable parameter of the type, and a pointer in the structure for inner procedures: pointers to arrays in parentheses. -/
example : identList true none [(9, 0, .array 4 (.named 0 .other))] = [.ty 0, .lpar, .star, .id (.obj 9), .rpar, .lbrack, .num 4, .rbrack, .semi] := by
  decide +kernel

/-! ### The two kinds of parameters -/

/-- Not so, open arrays of arrays: `PROCEDURE P (a: ARRAY OF ARRAY 5 OF CHAR)` is declared as `void P (CHAR *a[5], ADDRESS a__len)`, where `a` is an array of pointers, and not
the pointer to arrays it stands for. -/
theorem C65_open_array_of_arrays :
    Reads (fun n => readDecls n (procHeader 0 (.cons false 1 (.openArr (.array 5 (.named 0 .other))) .nil) .none))
      [(some (.obj 0), .func (.cons (some (.obj 1)) (.array 5 (.ptr (.name 0))) (.cons (some (.lenOf 1 0)) .address .nil)) .void)] ∧
    cparams true (.cons false 1 (.openArr (.array 5 (.named 0 .other))) .nil) =
      .cons (some (.obj 1)) (.ptr (.array 5 (.name 0))) (.cons (some (.lenOf 1 0)) .address .nil) := by
  refine ⟨⟨20, fun n hn => ?_⟩, by decide +kernel⟩
  obtain ⟨m, rfl⟩ : ∃ m, n = m + 20 := ⟨n - 20, by omega⟩
  rfl

/-- Not so, open arrays with a name: with `TYPE L = ARRAY OF POINTER TO R`, `PROCEDURE P (a: L)` is declared as `void P (R *a, ADDRESS a__len)`, where the elements are
records, and not pointers to them. -/
theorem C65_named_open_array :
    Reads (fun n => readDecls n (procHeader 0 (.cons false 1 (.namedOpen 3 (.pointer (.named 7 .record))) .nil) .none))
      [(some (.obj 0), .func (.cons (some (.obj 1)) (.ptr (.name 7)) (.cons (some (.lenOf 1 0)) .address .nil)) .void)] ∧
    cparams true (.cons false 1 (.namedOpen 3 (.pointer (.named 7 .record))) .nil) =
      .cons (some (.obj 1)) (.ptr (.ptr (.name 7))) (.cons (some (.lenOf 1 0)) .address .nil) := by
  refine ⟨⟨20, fun n hn => ?_⟩, by decide +kernel⟩
  obtain ⟨m, rfl⟩ : ∃ m, n = m + 20 := ⟨n - 20, by omega⟩
  rfl

end Verif.CDecl
