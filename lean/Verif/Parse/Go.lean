import Verif.Parse.Run

/-! # Runs with enough steps -/
namespace Verif.Parse
open Verif.Scanner (Tok)

/-- With enough steps, `p` reads `i` down to `k`, returns `a` and reports nothing. -/
def Go {α : Type} (p : Nat → P α) (i : List T) (a : α) (k : List T) : Prop :=
  ∃ F, ∀ f, F ≤ f → p f i = some (a, k, [])

variable {α β γ : Type}

theorem Go.bind {p : Nat → P α} {g : Nat → α → P β} {i j k : List T} {a : α} {b : β} (h : Go p i a j)
    (h' : Go (fun f => g f a) j b k) : Go (fun f => p f >>= g f) i b k := by
  obtain ⟨F, hF⟩ := h
  obtain ⟨G, hG⟩ := h'
  exact ⟨max F G, fun f hf => bind_ok.mpr ⟨a, j, hF f (by omega), hG f (by omega)⟩⟩

theorem Go.succ {p : Nat → P α} {i k : List T} {a : α} (h : Go (fun f => p (f + 1)) i a k) : Go p i a k := by
  obtain ⟨F, hF⟩ := h
  refine ⟨F + 1, fun f hf => ?_⟩
  obtain ⟨g, rfl⟩ : ∃ g, f = g + 1 := ⟨f - 1, by omega⟩
  exact hF g (by omega)

theorem Go.const {p : P α} {i k : List T} {a : α} (h : p i = some (a, k, [])) : Go (fun _ => p) i a k := ⟨0, fun _ _ => h⟩

/-- What the symbol table says at the current symbol. -/
def bit (i : List T) : Bool := (i.head?.map (·.2)).getD false

theorem go_sy {g : Nat → Nat → P β} {i k : List T} {b : β} : Go (fun f => sy >>= g f) i b k ↔ Go (fun f => g f (cur i)) i b k := by
  simp only [Go, sy_b]

theorem go_get {g : Nat → Unit → P β} {i k : List T} {b : β} :
    Go (fun f => get >>= g f) i b k ↔ Go (fun f => g f ()) i.tail b k := by
  simp only [Go, get_b]

theorem go_name {g : Nat → Name → P β} {i k : List T} {b : β} :
    Go (fun f => name >>= g f) i b k ↔ Go (fun f => g f (curName i)) i b k := by
  simp only [Go, name_b]

theorem go_tok {g : Nat → Tok → P β} {i k : List T} {b : β} :
    Go (fun f => tok >>= g f) i b k ↔ Go (fun f => g f ((i.head?.map (·.1)).getD .eof)) i b k := by
  simp only [Go, tok_b]

theorem go_ask {g : Nat → Bool → P β} {i k : List T} {b : β} :
    Go (fun f => ask >>= g f) i b k ↔ Go (fun f => g f (bit i)) i b k := by
  simp only [Go, ask_b, bit]

theorem go_checkSym {n : Nat} {g : Nat → Unit → P β} {i k : List T} {b : β} (h : cur i = n) :
    Go (fun f => checkSym n >>= g f) i b k ↔ Go (fun f => g f ()) i.tail b k := by
  simp only [Go, checkSym_b, h, true_and]

theorem go_sync {n e : Nat} {g : Nat → Unit → P β} {i k : List T} {b : β} (h : n ≤ cur i) :
    Go (fun f => sync n e >>= g f) i b k ↔ Go (fun f => g f ()) i b k := by
  simp only [Go, sync_b, h, true_and]

theorem go_sameName {x : Name} {g : Nat → Unit → P β} {i k : List T} {b : β} :
    Go (fun f => sameName x x >>= g f) i b k ↔ Go (fun f => g f ()) i b k := by
  simp only [Go, sameName_b, true_and]

theorem go_pureb {a : α} {g : Nat → α → P β} {i k : List T} {b : β} :
    Go (fun f => pure a >>= g f) i b k ↔ Go (fun f => g f a) i b k := by
  simp only [Go, pure_b]

theorem go_bindb {p : Nat → P γ} {q : Nat → γ → P α} {g : Nat → α → P β} {i k : List T} {b : β} :
    Go (fun f => (p f >>= q f) >>= g f) i b k ↔ Go (fun f => p f >>= fun x => q f x >>= g f) i b k := by
  simp only [Go, bind_b]

theorem go_pure {a b : α} {i k : List T} : Go (fun _ => pure a) i b k ↔ b = a ∧ k = i := by
  simp only [Go, pure_ok]
  exact ⟨fun ⟨F, h⟩ => h F (Nat.le_refl _), fun h => ⟨0, fun _ _ => h⟩⟩

/-- One symbol after another. -/
macro "gst" "[" ls:Lean.Parser.Tactic.simpLemma,* "]" : tactic => `(tactic|
  simp only [go_sy, go_get, go_name, go_tok, go_ask, go_checkSym, go_sync, go_sameName, go_pureb, go_bindb, go_pure, ite_b, reduceIte,
    Nat.reduceEqDiff, Nat.reduceLeDiff, Nat.reduceLT, false_or, or_false, true_or, or_true, true_and, and_true, false_and, and_false,
    and_self, or_self, $ls,*])

/-! Symbols read, the other way. -/

theorem Rd_nil {i k : List T} : Rd [] i k ↔ i = k :=
  ⟨by rintro ⟨p, rfl, h⟩; cases h; rfl, by rintro rfl; exact Rd.nil⟩

theorem Rd_cons {y : Y} {b : List Y} {i k : List T} :
    Rd (y :: b) i k ↔ ∃ t v j, i = (t, v) :: j ∧ y.1 = t ∧ (∀ w, y.2 = some w → v = w) ∧ Rd b j k := by
  constructor
  · rintro ⟨p, rfl, h⟩
    cases h with
    | cons h h' => exact ⟨_, _, _, rfl, h.1, h.2, _, rfl, h'⟩
  · rintro ⟨t, v, j, rfl, h1, h2, p, rfl, h⟩
    exact ⟨(t, v) :: p, rfl, .cons ⟨h1, h2⟩ h⟩

theorem Rd_app {a b : List Y} {i k : List T} : Rd (a ++ b) i k ↔ ∃ j, Rd a i j ∧ Rd b j k := by
  refine ⟨?_, fun ⟨j, h, h'⟩ => h.app h'⟩
  intro h
  induction a generalizing i with
  | nil => exact ⟨i, Rd.nil, h⟩
  | cons y a ih =>
    obtain ⟨t, v, j, rfl, h1, h2, h⟩ := Rd_cons.mp h
    obtain ⟨j', h3, h4⟩ := ih h
    exact ⟨j', Rd_cons.mpr ⟨t, v, j, rfl, h1, h2, h3⟩, h4⟩

theorem code_sym {n : Nat} (hn : plainSym n) : code (.sym n) = n := by
  simp only [code, plainSym] at *
  rw [if_neg (by omega)]

theorem Rd_sm {n : Nat} (hn : plainSym n) {b : List Y} {i k : List T} : Rd (sm n :: b) i k ↔ cur i = n ∧ Rd b i.tail k := by
  constructor
  · intro h
    obtain ⟨t, v, j, rfl, rfl, -, h⟩ := Rd_cons.mp h
    exact ⟨by simp [cur, sm, code_sym hn], h⟩
  · intro ⟨h, h'⟩
    exact Rd.cons (Rd.sym hn h) h'

theorem Rd_smv {n : Nat} (hn : plainSym n) {v : Bool} {b : List Y} {i k : List T} :
    Rd ((.sym n, some v) :: b) i k ↔ cur i = n ∧ bit i = v ∧ Rd b i.tail k := by
  constructor
  · intro h
    obtain ⟨t, w, j, rfl, rfl, hv, h⟩ := Rd_cons.mp h
    exact ⟨by simp [cur, code_sym hn], by simpa [bit] using hv, h⟩
  · intro ⟨h, hb, h'⟩
    obtain ⟨w, j, rfl⟩ := cur_sym hn h
    exact Rd.cons (Rd.one (fun u hu => by cases hu; simpa [bit] using hb)) h'

theorem Rd_idn {x : Name} {b : List Y} {i k : List T} : Rd (idn x :: b) i k ↔ cur i = 38 ∧ curName i = x ∧ Rd b i.tail k := by
  constructor
  · intro h
    obtain ⟨t, v, j, rfl, rfl, -, h⟩ := Rd_cons.mp h
    exact ⟨by simp [cur, idn, code], rfl, h⟩
  · rintro ⟨h, rfl, h'⟩
    exact Rd.cons (Rd.idn h) h'

theorem Rd_qual {q : Qual} {i k : List T} (h : Rd (yQual q) i k) : cur i = 38 ∧ qualident i = some (q, k, []) := by
  obtain ⟨m, x⟩ := q
  cases m with
  | none =>
    obtain ⟨t, v, j, rfl, rfl, hv, h⟩ := Rd_cons.mp h
    obtain rfl := Rd_nil.mp h
    have hv := hv _ rfl
    subst hv
    refine ⟨by simp [cur, code], ?_⟩
    simp only [qualident, name_b, ask_b, get_b]
    simp [pure_ok, curName]
  | some m =>
    obtain ⟨t, v, j, rfl, rfl, hv, h⟩ := Rd_cons.mp h
    obtain ⟨h18, h⟩ := (Rd_sm (by decide)).mp h
    obtain ⟨h38, hx, h2⟩ := Rd_idn.mp h
    obtain rfl := Rd_nil.mp h2
    have hv := hv _ rfl
    subst hv hx
    refine ⟨by simp [cur, code], ?_⟩
    simp only [qualident, name_b, ask_b, get_b, sy_b, List.head?_cons, Option.map_some, Option.getD_some, if_true, List.tail_cons,
      h18, h38, pure_ok, curName]
    trivial

theorem Rd_lit {t : Tok} (ht : isLit t = true) {b : List Y} {i k : List T} (h : Rd ((t, none) :: b) i k) :
    (cur i = 35 ∨ cur i = 37) ∧ (i.head?.map (·.1)).getD .eof = t ∧ Rd b i.tail k := by
  obtain ⟨t', v, j, rfl, rfl, -, h⟩ := Rd_cons.mp h
  refine ⟨?_, rfl, h⟩
  simp only [cur, List.head?_cons, Option.map_some, Option.getD_some]
  cases t <;> simp [isLit] at ht <;> simp [code]

end Verif.Parse
