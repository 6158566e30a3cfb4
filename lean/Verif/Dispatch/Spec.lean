import Verif.Dispatch.Model

/-!
Specification of type extension and of method calls, written with the declarations of the program only: which type
extends which, which declaration a method call means, and which procedure must run.
-/
namespace Verif.Dispatch

/-- `i` is `j` or an extension of it. -/
inductive Extends (p : Prog) : Nat → Nat → Prop where
  | refl (i : Nat) : Extends p i i
  | step {i b j : Nat} : (p i).base = some b → Extends p b j → Extends p i j

/-- The methods of a type have different names, and a type's base comes before it. -/
structure WF (p : Prog) : Prop where
  base_lt : ∀ i b, (p i).base = some b → b < i
  names : ∀ i, ((p i).meths.map (·.name)).Nodup

/-- Type `i` has a method number `k`. -/
def Decl (p : Prog) (i k : Nat) : Prop := k < (p i).meths.length

/-- Method `k` of type `i` can be named in module `m`. -/
def Visible (p : Prog) (m i k : Nat) : Prop := ∃ x, (p i).meths[k]? = some x ∧ ((p i).mod = m ∨ x.exported)

/-- The name of method `k` of type `i`. -/
def Named (p : Prog) (i k name : Nat) : Prop := ∃ x, (p i).meths[k]? = some x ∧ x.name = name

/-- `(b, l)` is what `name` means for an object of type `i` in module `m`: the declaration with that name, visible
in `m`, in the first type going from `i` to its bases that has one. -/
inductive Means (p : Prog) (m name : Nat) : Nat → Nat → Nat → Prop where
  | here {i k : Nat} : Visible p m i k → Named p i k name → Means p m name i i k
  | up {i b j k : Nat} : (∀ l, Visible p m i l → ¬ Named p i l name) → (p i).base = some b →
      Means p m name b j k → Means p m name i j k

/-- Method `k` of `i` redefines method `l` of `b`: it is what the name means, in the module of `i`, for the base type. -/
def Redefines (p : Prog) (i k b l : Nat) : Prop :=
  ∃ x c, (p i).meths[k]? = some x ∧ (p i).base = some c ∧ Means p (p i).mod x.name c b l

/-- Method `k` of `i` goes back to `(j, l)`, the declaration that introduced it. -/
inductive Origin (p : Prog) : Nat → Nat → Nat → Nat → Prop where
  | new {i k : Nat} : Decl p i k → (∀ b l, ¬ Redefines p i k b l) → Origin p i k i k
  | redef {i k b l j o : Nat} : Redefines p i k b l → Origin p b l j o → Origin p i k j o

/-- `(c, l)` is the most specific redefinition, for objects of type `i`, of the method introduced by `(j, o)`: the
declaration going back to it in the first type, from `i` to its bases, that has one. -/
inductive Impl (p : Prog) (j o : Nat) : Nat → Nat → Nat → Prop where
  | here {i k : Nat} : Origin p i k j o → Impl p j o i i k
  | up {i b c l : Nat} : (∀ k, ¬ Origin p i k j o) → (p i).base = some b → Impl p j o b c l → Impl p j o i c l

/-- The address of the procedure of a declaration. -/
def Proc (p : Prog) (i k : Nat) (a : Int) : Prop := ∃ x, (p i).meths[k]? = some x ∧ x.proc = a

/-- What the C program gives the run time: type descriptors of `n` types in disjoint pieces of memory, none at address
0, with the static initial values of `__TDFLDS` (first word of `tproc` is `__EOM`, the other words and `basep` are 0,
`blksz` is the size), sizes agreeing with the C compiler's, and no procedure at address `__EOM`. -/
structure Static (ws : Int) (p : Prog) (s : CState) (pl : Place) (m : Mem) (n : Nat) : Prop where
  disjoint : ∀ i < n, ∀ j < n, i ≠ j →
    pl.typ i < pl.typ j - (tproc0Off ws + s.n j) ∨ pl.typ j < pl.typ i - (tproc0Off ws + s.n i)
  nonzero : ∀ i < n, pl.typ i ≠ 0
  last : ∀ i < n, m (pl.typ i - (tproc0Off ws + s.n i)) = eom
  procs : ∀ i < n, ∀ k < s.n i, m (pl.typ i - (tproc0Off ws + k)) = 0
  bases : ∀ i < n, ∀ k : Nat, k < maxExt → m (pl.typ i - baseOff + k) = 0
  size : ∀ i < n, m (pl.typ i) = (p i).size
  csize : ∀ i < n, (p i).size = (p i).csize
  proc : ∀ i < n, ∀ x ∈ (p i).meths, x.proc ≠ eom

end Verif.Dispatch
