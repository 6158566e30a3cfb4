import Verif.Common
import Verif.Eval.Main
import Verif.Expr.Props

/-!
# C49 Values of generated expressions
-/
namespace Verif.Eval
open Verif.Expr

/-- The C value for a value of a type: for a set, a number whose bits below the size of the set are those of the set. -/
def Stands (t : Ty) (v c : Int) : Prop :=
  match t with
  | .set s => bits (sbits s) c = v.toNat
  | _ => c = v

/-- What the C compiler makes of the tokens: they are an expression, of one structure only, whose macros can be expanded, and
whose evaluation stops the program with a code, or has a value, after certain calls, if `r` says so. -/
def Compiles (D : Decl) (V : Env) (ts : List Tok) (t : Ty) (r : Out Int) : Prop :=
  (∃ c, Reads ts c) ∧ ∀ c, Reads ts c → ∃ x, expand c = some x ∧
    (∀ code tr, r = .trap code tr → cval D V x = .trap code tr) ∧
    ∀ v tr, r = .ok v tr → InTy t v ∧ ∃ cv, cval D V x = .ok cv tr ∧ Stands t v cv

/-- **C49, with the deviations excluded by `Calm`.**  The text generated for an expression, read as C, has the value of the
expression, after the same calls with the same arguments in the same order, or stops the program with the same code; whatever
the expression's size, the declarations, the values of variables, the compiler's options, and the surrounding operator are. -/
theorem C49_value_partial (D : Decl) (o : Opt) (V : Env) (hV : EnvOk D V) (e : E) (hw : wt D e = true) (hc : Calm D o V e)
    (p : Int) (h1 : -1 ≤ p) (h2 : p ≤ 10) : Compiles D V (emit false (nd D o e) p) (ty D e) (val D o V e) := by
  have hr := C41_structure (nd D o e) (wf_nd D o e hw) false p h1 h2
  obtain ⟨x, g⟩ := good D o V hV e hw hc
  refine ⟨⟨_, hr⟩, fun c hc => ?_⟩
  obtain rfl := C41_one_reading hr hc
  have ho := g.out
  refine ⟨x, g.ex, ?_, ?_⟩
  · intro code tr h; rw [h] at ho; exact ho
  · intro v tr h
    rw [h] at ho
    obtain ⟨cv, hcv, hin, -, hs⟩ := ho
    refine ⟨hin, cv, hcv, ?_⟩
    unfold Stands
    cases hty : ty D e <;> rw [hty] at hs <;> first | exact hs | exact hs.1

mutual
/-- Expressions with none of: elements of arrays, type guards, ABS, conversions that can fail, DIV, MOD, shifts, IN, and
differences of sets. -/
def plain : E → Bool
  | .int .. | .chr _ | .bool _ | .set .. | .var _ | .varpar _ | .lenv .. => true
  | .field d _ | .deref d | .lenh _ d => plain d
  | .neg e | .compl e | .not e | .odd e | .cap e | .toset _ e | .widen e | .msk e _ => plain e
  | .upto _ l r | .arith _ l r | .rel _ l r | .and l r | .or l r => plain l && plain r
  | .setop q l r => q != .diff && plain l && plain r
  | .call _ as => plains as
  | _ => false
@[inherit_doc plain]
def plains : Es → Bool
  | .nil => true
  | .cons e as => plain e && plains as
end

section
variable (D : Decl) (o : Opt) (V : Env)

mutual
theorem plain_calm : ∀ e, plain e = true → Calm D o V e
  | .int .., _ | .chr _, _ | .bool _, _ | .set .., _ | .var _, _ | .varpar _, _ | .lenv .., _ => by simp only [Calm]
  | .field d _, h | .deref d, h | .lenh _ d, h => by
    simp only [plain] at h; simp only [Calm]; exact plain_calm d h
  | .neg e, h | .compl e, h | .not e, h | .odd e, h | .cap e, h | .toset _ e, h | .widen e, h | .msk e _, h => by
    simp only [plain] at h; simp only [Calm]; exact plain_calm e h
  | .upto _ l r, h | .arith _ l r, h | .rel _ l r, h | .and l r, h | .or l r, h => by
    simp only [plain, Bool.and_eq_true] at h; simp only [Calm]; exact ⟨plain_calm l h.1, plain_calm r h.2⟩
  | .setop q l r, h => by
    simp only [plain, Bool.and_eq_true, bne_iff_ne] at h
    simp only [Calm]; exact ⟨plain_calm l h.1.2, plain_calm r h.2, fun hq => absurd hq h.1.1⟩
  | .call _ as, h => by simp only [plain] at h; simp only [Calm]; exact plain_calms as h
  | .index .., h | .hidx .., h | .guard .., h | .abs _, h | .conv .., h | .tochr _, h | .div .., h | .mod .., h | .ash .., h
  | .lsh .., h | .rot .., h | .isin .., h => by simp [plain] at h
theorem plain_calms : ∀ as, plains as = true → Calms D o V as
  | .nil, _ => by simp only [Calms]
  | .cons e as, h => by
    simp only [plains, Bool.and_eq_true] at h
    simp only [Calms]; exact ⟨plain_calm e h.1, plain_calms as h.2⟩
end
end

/-- **C49, without exceptions.**  For expressions of numbers, characters, truth values, sets, pointers, fields, lengths and
calls, joined by arithmetic, relations, AND, OR and most operators on sets, nothing is excluded. -/
theorem C49_plain (D : Decl) (o : Opt) (V : Env) (hV : EnvOk D V) (e : E) (hw : wt D e = true) (hp : plain e = true)
    (p : Int) (h1 : -1 ≤ p) (h2 : p ≤ 10) : Compiles D V (emit false (nd D o e) p) (ty D e) (val D o V e) :=
  C49_value_partial D o V hV e hw (plain_calm D o V e hp) p h1 h2

/-! ### Deviations -/

/-- Declarations of the examples. -/
def dD : Decl where
  ty := fun s =>
    if s = .var "x" then .int .w32
    else if s = .var "n" then .int .w32
    else if s = .var "L" then .int .w64
    else if s = .var "s" then .set false
    else if s = .var "S" then .set true
    else if s = .elem (.var "a") then .ptr
    else if s = .elem (.fld (.at (.elem (.var "a"))) "len") then .int .w64
    else if s = .elem (.fld (.at (.elem (.var "a"))) "data") then .int .w32
    else if s = .elem (.var "b") then .set false
    else .other
  res := fun f => if f = "f" then .int .w32 else if f = "h" then .int .w64 else .set false
  par := fun _ => []

/-- Values of the examples. -/
def dV : Env where
  load := fun p =>
    if p = .var "x" then 40
    else if p = .var "n" then -1
    else if p = .var "S" then 2 ^ 40
    else if p = .elem (.var "a") 1 then 1000
    else if p = .elem (.fld (.at (.elem (.var "a")) 1000) "len") 0 then 10
    else 0
  res := fun f _ => if f = "f" then 1 else if f = "h" then 2 ^ 63 - 1 else 0
  isT := fun _ _ => true

/-- The usual options, and range checks. -/
def dO : Opt := ⟨true, true, true⟩

theorem dEnv : EnvOk dD dV := by
  constructor
  · intro p
    by_cases h1 : p = .var "x"
    · subst h1; decide
    by_cases h0 : p = .var "n"
    · subst h0; decide
    by_cases h2 : p = .var "S"
    · subst h2; decide
    by_cases h3 : p = .elem (.var "a") 1
    · subst h3; decide
    by_cases h4 : p = .elem (.fld (.at (.elem (.var "a")) 1000) "len") 0
    · subst h4; decide
    have : dV.load p = 0 := by simp [dV, h0, h1, h2, h3, h4]
    rw [this]
    cases dD.ty p.sp with
    | int w => cases w <;> decide
    | set s => cases s <;> decide
    | _ => decide
  · intro f vs
    simp only [dD, dV]
    split
    · decide
    · split <;> decide

/-- The outcome of what is generated. -/
def ran (e : E) : Option (Out Int) := (expand (ct (nd dD dO e))).map (cval dD dV)

/-- **C49, a deviation.**  For `f() IN s` the function is called twice: the macro `__IN` evaluates the element twice. -/
theorem C49_in_twice : wt dD (.isin (.call "f" .nil) (.var "s")) = true ∧
    val dD dO dV (.isin (.call "f" .nil) (.var "s")) = .ok 0 [("f", [])] ∧
    ran (.isin (.call "f" .nil) (.var "s")) = some (.ok 0 [("f", []), ("f", [])]) := by decide +kernel

/-- **C49, a deviation.**  For `x IN g()` the function is not called if `x` is no possible element. -/
theorem C49_in_skipped : wt dD (.isin (.var "x") (.call "g" .nil)) = true ∧
    val dD dO dV (.isin (.var "x") (.call "g" .nil)) = .ok 0 [("g", [])] ∧
    ran (.isin (.var "x") (.call "g" .nil)) = some (.ok 0 []) := by decide +kernel

/-- **C49, a deviation.**  For the same reason `x IN b[x]` does not stop the program though the index is out of range. -/
theorem C49_in_untrapped : wt dD (.isin (.var "x") (.index (.var "b") (.var "x") (.fixed 8))) = true ∧
    val dD dO dV (.isin (.var "x") (.index (.var "b") (.var "x") (.fixed 8))) = .trap (-2) [] ∧
    ran (.isin (.var "x") (.index (.var "b") (.var "x") (.fixed 8))) = some (.ok 0 []) := by decide +kernel

/-- **C49, a deviation.**  For `SYSTEM.LSH(x, f())` the function is called twice. -/
theorem C49_lsh_twice : wt dD (.lsh (.var "x") (.call "f" .nil)) = true ∧
    val dD dO dV (.lsh (.var "x") (.call "f" .nil)) = .ok 80 [("f", [])] ∧
    ran (.lsh (.var "x") (.call "f" .nil)) = some (.ok 80 [("f", []), ("f", [])]) := by decide +kernel

/-- **C49, a deviation.**  For `SYSTEM.ROT(f(), 1)` the function is called twice. -/
theorem C49_rot_twice : wt dD (.rot (.call "f" .nil) (.int .w8 1)) = true ∧
    val dD dO dV (.rot (.call "f" .nil) (.int .w8 1)) = .ok 2 [("f", [])] ∧
    ran (.rot (.call "f" .nil) (.int .w8 1)) = some (.ok 2 [("f", []), ("f", [])]) := by decide +kernel

/-- **C49, a deviation.**  In `a[f()]^[x]`, with an array without declared length, the function is called again for the length
of the array. -/
theorem C49_open_twice : wt dD (.hidx (.index (.var "a") (.call "f" .nil) (.fixed 4)) (.int .w8 5)) = true ∧
    val dD dO dV (.hidx (.index (.var "a") (.call "f" .nil) (.fixed 4)) (.int .w8 5)) = .ok 0 [("f", [])] ∧
    ran (.hidx (.index (.var "a") (.call "f" .nil) (.fixed 4)) (.int .w8 5)) = some (.ok 0 [("f", []), ("f", [])]) := by
  decide +kernel

/-- **C49, a deviation.**  For the type guard `a[f()](T)` the function is called twice. -/
theorem C49_guard_twice : wt dD (.guard (.index (.var "a") (.call "f" .nil) (.fixed 4)) "T" 1 false) = true ∧
    val dD dO dV (.guard (.index (.var "a") (.call "f" .nil) (.fixed 4)) "T" 1 false) = .ok 1000 [("f", [])] ∧
    ran (.guard (.index (.var "a") (.call "f" .nil) (.fixed 4)) "T" 1 false) = some (.ok 1000 [("f", []), ("f", [])]) := by
  decide +kernel

/-- **C49, a deviation.**  For a set of 64 elements, `S - {31}` removes all elements above 31: the constant is an `unsigned int`
in C, and so is its complement. -/
theorem C49_difference : wt dD (.setop .diff (.var "S") (.set true (2 ^ 31))) = true ∧
    val dD dO dV (.setop .diff (.var "S") (.set true (2 ^ 31))) = .ok (2 ^ 40) [] ∧
    ran (.setop .diff (.var "S") (.set true (2 ^ 31))) = some (.ok 0 []) := by decide +kernel

/-- **C49, a deviation.**  ABS of a call with a 64-bit result keeps 32 bits: `SYSTEM_ABS64` is declared with an `INT32` result. -/
theorem C49_abs : wt dD (.abs (.call "h" .nil)) = true ∧
    val dD dO dV (.abs (.call "h" .nil)) = .ok (2 ^ 63 - 1) [("h", [])] ∧
    ran (.abs (.call "h" .nil)) = some (.ok (-1) [("h", [])]) := by decide +kernel

/-- **C49, a deviation.**  The range check of SHORT on a call overflows in C for values at the upper end, where it should stop the
program. -/
theorem C49_short : wt dD (.conv .w32 (.call "h" .nil)) = true ∧
    val dD dO dV (.conv .w32 (.call "h" .nil)) = .trap (-8) [("h", [])] ∧
    ran (.conv .w32 (.call "h" .nil)) = some .undef := by decide +kernel

/-- **C49, a deviation.**  A negative index, not a call, is not detected, see C38; what lies before the array is taken. -/
theorem C49_negative : wt dD (.index (.var "b") (.var "n") (.fixed 8)) = true ∧
    val dD dO dV (.index (.var "b") (.var "n") (.fixed 8)) = .trap (-2) [] ∧
    ran (.index (.var "b") (.var "n") (.fixed 8)) = some (.ok 0 []) := by decide +kernel

/-- **C49, a deviation.**  CHR of a negative number, not a call, passes the range check. -/
theorem C49_chr : wt dD (.tochr (.var "n")) = true ∧
    val dD dO dV (.tochr (.var "n")) = .trap (-8) [] ∧
    ran (.tochr (.var "n")) = some (.ok 255 []) := by decide +kernel

/-! ### Instances -/

/-- The value of an expression of the examples. -/
theorem dvals {e : E} {v : Int} {t : List Ev} (h : val dD dO dV e = .ok v t) {P : Int → Prop} (hp : P v) : Vals dD dO dV e P := by
  intro v' t' h'
  rw [h] at h'
  cases h'
  exact hp

/-- `(f() + x DIV 3 < LEN(a[1]^)) & ~ODD(h()) OR (S - {1, 2} # {40})`. -/
def sampleE : E :=
  .or (.and (.rel .lss (.conv .w64 (.arith .add (.call "f" .nil) (.div (.var "x") (.int .w32 3))))
      (.lenh .w64 (.index (.var "a") (.int .w8 1) (.fixed 4))))
    (.not (.odd (.call "h" .nil))))
    (.rel .neq (.setop .diff (.var "S") (.set true 6)) (.set true (2 ^ 40)))

example : wt dD sampleE = true ∧ val dD dO dV sampleE = .ok 0 [("f", [])] ∧
    ran sampleE = some (.ok 0 [("f", [])]) := by decide +kernel

example : Calm dD dO dV sampleE := by
  simp only [sampleE, Calm, Calms, true_and, and_true]
  refine ⟨⟨⟨dvals (v := 40) (t := []) (by decide) (dvals (v := 3) (t := []) (by decide) (by unfold divOk; omega)), ?_⟩, ?_, ?_⟩, ?_⟩
  · intro _ h; exact absurd h (by decide)
  · decide
  · intro _ _; exact dvals (v := 1) (t := []) (by decide) (by decide)
  · intro _ _ v h; cases h; decide

/-- `a[f()]^[x]` out of range, and `a[x]`. -/
example : val dD dO dV (.hidx (.index (.var "a") (.int .w8 1) (.fixed 4)) (.var "x")) = .trap (-2) [] ∧
    ran (.hidx (.index (.var "a") (.int .w8 1) (.fixed 4)) (.var "x")) = some (.trap (-2) []) := by decide +kernel

end Verif.Eval
