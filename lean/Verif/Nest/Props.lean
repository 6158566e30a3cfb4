import Verif.Nest.Sim

/-!
# C52: nested procedures use the variables of the right activation

`eval`, `exec` (Nest/Spec.lean) give programs their meaning with environments: a procedure is called in the environment of its
declaration.  `comp` (Nest/Model.lean) is the translation to C functions, which have no environments: they use the records `_s` and
the global pointers `P_s`.
-/
namespace Verif.Nest

/-- The C program before its module body: no pointer is set. -/
def start (mem : Addr → Int) : CSt where
  v := mem
  p := fun _ _ => none
  sc := fun _ _ => none
  lnk := fun _ => none
  top := fun _ => none
  next := 0

/-- **C52.**  For every program whose variables and procedures are declared where they are used, and every initial contents of the
variables: the generated C program and the program end in the same way, with the same contents of all variables, or both do not end
(within any number of steps), however procedures are nested, however they call each other and themselves, and whichever variables
of enclosing procedures they use or hand on as VAR parameters.  If the module body comes to its end, all pointers `P_s` are as they
were at the start. -/
theorem C52_same (pr : Prog) (hp : okProg pr) (body : S) (hb : okS pr none false body) (mem : Addr → Int) (f : Nat) :
    match exec pr f [] body ⟨mem, 0⟩, cexec (comp pr) f 0 (compS pr none body) (start mem) with
    | none, none => True
    | some (o, s), some (o', t) => o = o' ∧ t.v = s.mem ∧ (o = .norm → t.top = fun _ => none)
    | _, _ => False := by
  have h := (all hp f).exec [] none false 0 body ⟨mem, 0⟩ (start mem)
    ⟨.nil, fun p b o h => (by cases h), fun e h => (by cases h)⟩ ⟨rfl, rfl⟩ hb (fun v _ p q h => by cases h)
  rcases h.cases with ⟨h1, h2⟩ | ⟨⟨o, s⟩, ⟨o', t⟩, h1, h2, h3, h4, h5, -⟩
  · rw [h1, h2]; trivial
  · rw [h1, h2]
    exact ⟨h3, h4.mem, fun h => (h5 h).top⟩

/-- **C52**, the step behind it: in an activation with its environment, a variable denotes the same place in the C function. -/
theorem C52_place (pr : Prog) (hp : okProg pr) {env : Env} {cur : Option Nat} {k : Nat} {t : CSt} (h : Ok pr env cur k t) (v : Var)
    (hv : okV pr cur v) (hu : Used pr cur v) : (compV pr cur v).addr t k = place env v := by
  obtain ⟨a, h1, h2⟩ := place_ok hp h hv hu
  rw [h1, h2]

/-- **C52**: a call leaves the records and pointers of the activations before it, and the global pointers, as they were. -/
theorem C52_restores (pr : Prog) (hp : okProg pr) {f : Nat} {env : Env} {cur : Option Nat} {k : Nat} {s : St} {t t' : CSt} {p : Nat}
    {as : List Arg} {v : Option Int} (h : Ok pr env cur k t) (hr : Rel s t) (hok : okE pr cur (.call p as))
    (hu : ∀ v ∈ varsAs as, Used pr cur v)
    (hc : ceval (comp pr) f k (compE pr cur (.call p as)) t = some (some v, t')) :
    t'.top = t.top ∧ ∀ j, j < t.next → t'.p j = t.p j ∧ t'.sc j = t.sc j ∧ t'.lnk j = t.lnk j := by
  have hs := (all hp f).eval env cur k (.call p as) s t h hr hok hu
  rw [hc] at hs
  rcases hs.cases with ⟨_, h2⟩ | ⟨⟨o, s⟩, ⟨o', t2⟩, h1, h2, h3, h4, h5⟩
  · cases h2
  · simp only [Option.some.injEq, Prod.mk.injEq] at h2
    obtain ⟨rfl, rfl⟩ := h2
    have hk := h5 (by simp [show o = some v from h3])
    exact ⟨hk.top, fun j hj => ⟨hk.p j hj, hk.sc j hj, hk.lnk j hj⟩⟩

/-- **C52**, an exception: a type guard on a VAR record parameter of an enclosing procedure (with type checks on) does not name the
pointer that was declared, whatever the procedure is called.  The C compiler rejects the program. -/
theorem C52_guard_name (scope : List Char) : guardPointerName scope ≠ pointerName scope := by
  intro h
  have := congrArg List.length h
  simp [guardPointerName, pointerName] at this

/-! ### A program -/

/-- `PROCEDURE P(VAR r: INTEGER; n: INTEGER); VAR x: INTEGER;`
`PROCEDURE Q; BEGIN r := r * 10 + x END Q;`
`BEGIN x := n; IF n # 0 THEN P(r, n - 1) END; Q END P;` -/
def prP : Prog :=
  [ { parent := none, params := [true, false], vars := 1, fn := false
      body := .seq (.assign ⟨some 0, 2⟩ (.var ⟨some 0, 1⟩))
        (.seq (.ifs (.var ⟨some 0, 1⟩) (.call (.call 0 [.ref ⟨some 0, 0⟩, .val (.bin (· - ·) (.var ⟨some 0, 1⟩) (.int 1))])) .skip)
          (.call (.call 1 []))) },
    { parent := some 0, params := [], vars := 0, fn := false
      body := .assign ⟨some 0, 0⟩ (.bin (fun a b => a * 10 + b) (.var ⟨some 0, 0⟩) (.var ⟨some 0, 2⟩)) } ]

/-- `P(g, 3)` -/
def prBody : S := .call (.call 0 [.ref ⟨none, 0⟩, .val (.int 3)])

/-- It satisfies the hypotheses. -/
example : okProg prP ∧ okS prP none false prBody := by
  constructor
  · intro p q h
    match p with
    | 0 =>
      cases h
      refine ⟨fun r h => (by cases h), ?_⟩
      have hv : ∀ x, x < 3 → okV prP (some 0) ⟨some 0, x⟩ := fun x hx p hp => by
        cases hp
        exact ⟨.self, _, rfl, hx⟩
      refine ⟨⟨hv 2 (by omega), hv 1 (by omega)⟩, ⟨hv 1 (by omega), ⟨⟨_, rfl, fun r h => (by cases h), rfl⟩, hv 0 (by omega), ⟨hv 1 (by omega), trivial⟩,
        trivial⟩, trivial⟩, ⟨_, rfl, fun r h => ?_, rfl⟩, trivial⟩
      cases h
      exact .self
    | 1 =>
      cases h
      refine ⟨fun r h => (by cases h; omega), ?_⟩
      have hv : ∀ x, x < 3 → okV prP (some 1) ⟨some 0, x⟩ := fun x hx p hp => by
        cases hp
        exact ⟨.up (q := prP[1]) rfl .self, _, rfl, hx⟩
      exact ⟨hv 0 (by omega), hv 0 (by omega), hv 2 (by omega)⟩
    | _ + 2 => cases h
  · exact ⟨⟨_, rfl, fun r h => (by cases h), rfl⟩, fun p h => (by cases h), trivial, trivial⟩

/-- Every activation of `Q` uses the `x` of the activation of `P` that called it. -/
example : ((exec prP 40 [] prBody ⟨fun _ => 0, 0⟩).map fun r => r.2.mem (.glob 0)) = some 123 := by decide +kernel

/-- So does the C program. -/
example : ((cexec (comp prP) 40 0 (compS prP none prBody) (start fun _ => 0)).map fun r => (r.2.v (.glob 0), r.2.top 0)) =
    some (123, none) := by decide +kernel

/-- The C functions: `_s.r = r; _s.x = &x; _s.lnk = P_s; P_s = &_s;` is at the start of `P`, and `n`, not used in `Q`, is left out. -/
example : enter prP 0 prP[0] = [.bindP 0, .bindV 2, .save 0, .top 0] ∧ exits prP 0 = [.unlink 0] ∧ enter prP 1 prP[1] = [] := by
  decide +kernel

end Verif.Nest
