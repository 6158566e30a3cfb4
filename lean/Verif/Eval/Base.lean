import Verif.Eval.CArith
import Verif.Emit.PropsStr

/-!
The relation between an expression and the C expression generated for it, constants, and calls.
-/
namespace Verif.Eval
open Verif.Expr

/-- The C type of what is generated for an expression. -/
def Fits (D : Decl) (e : E) (T : CTy) : Prop :=
  match ty D e with
  | .int w => IntT T ∧ (isConst' e = false → FitW w T)
  | .chr => prom T = .i32
  | .bool => IntT T
  | .set s => T = cty (.set s) ∨ (s = true ∧ T = .i64) ∨ ∃ v, e = .set s v ∧ T = hexTy v
  | .ptr => T = .u64
  | .other => True

/-- The value in C. -/
def ValR (D : Decl) (e : E) (T : CTy) (v c : Int) : Prop :=
  InTy (ty D e) v ∧ T.has c ∧ (match ty D e with
    | .set s => bits (sbits s) c = v.toNat ∧ (isSet e = true → c = v)
    | _ => c = v)

/-- The variable in C. -/
def PlcR (D : Decl) (e : E) (p q : Place) : Prop := p.sp = sp e ∧ q = p

/-- What is generated for an expression, after the expansion of macros, has the expression's outcome. -/
structure Good (D : Decl) (o : Opt) (V : Env) (e : E) (x : X) : Prop where
  ex : expand (ct (nd D o e)) = some x
  fits : Fits D e (xty D x)
  out : OutRel (ValR D e (xty D x)) (val D o V e) (cval D V x)
  spx : isDesE e = true → xsp x = sp e
  place : isVarE e = true → OutRel (PlcR D e) (plc D o V e) (cplc D V x)

/-! ### Constants -/

theorem str_round {t : List Nat} (h : ∀ c ∈ t, c < 0xD800) : (str t).toList.map Char.toNat = t := by
  unfold str
  rw [String.toList_ofList, List.map_map]
  conv_rhs => rw [← List.map_id t]
  apply List.map_congr_left
  intro c hc
  have h1 := h c hc
  have hv : c.isValidChar := .inl h1
  show (Char.ofNat c).toNat = c
  rw [Char.ofNat, dif_pos hv]
  rfl

theorem trigraphs_id : ∀ {t : List Nat}, (∀ c ∈ t, c ≠ 63) → Emit.CSpec.trigraphs t = t := by
  intro t
  induction t with
  | nil => intro _; rfl
  | cons a r ih =>
    intro h
    have ha : a ≠ 63 := h a (by simp)
    rw [Emit.CSpec.trigraphs]
    · rw [ih fun c hc => h c (by simp [hc])]
    · intro c r1 h1; exact absurd h1 ha

theorem litVal_chr {c : Nat} (hc : c < 256) : litVal (str (Emit.characterLiteral c)) = some c := by
  unfold litVal
  rw [str_round, Emit.C12_character hc]
  intro d hd
  unfold Emit.characterLiteral at hd
  split at hd
  · simp only [Emit.writeHex] at hd
    have : ∀ k, k < 16 → Emit.hexDigit k < 0xD800 := by intro k hk; unfold Emit.hexDigit; split <;> omega
    simp at hd
    rcases hd with rfl | rfl | rfl | rfl
    · decide
    · decide
    · exact this _ (by omega)
    · exact this _ (by omega)
  · split at hd <;> simp at hd <;> omega

theorem setLoop_chars (s : Nat) : ∀ (l : List Nat) (b : Bool), ∀ c ∈ Emit.setLoop s l b, c ≠ 63 ∧ c < 0xD800 := by
  have hh : ∀ k, k < 16 → Emit.hexDigit k ≠ 63 ∧ Emit.hexDigit k < 0xD800 := by
    intro k hk; unfold Emit.hexDigit; split <;> omega
  intro l
  induction l with
  | nil => intro b c hc; simp [Emit.setLoop] at hc; omega
  | cons i r ih =>
    intro b c hc
    have h16 : Emit.setByte s i / 16 < 16 := by
      have hb : ∀ j, (if s.testBit (8 * i + j) = true then 1 else 0) ≤ 1 := by intro j; split <;> omega
      unfold Emit.setByte; simp only [List.foldl]
      have := hb 0; have := hb 1; have := hb 2; have := hb 3; have := hb 4; have := hb 5; have := hb 6; have := hb 7
      omega
    rw [Emit.setLoop] at hc
    split at hc
    · simp only [Emit.writeHex, List.mem_append, List.mem_cons, List.not_mem_nil, or_false] at hc
      rcases hc with (rfl | rfl) | hc
      · exact hh _ h16
      · exact hh _ (by omega)
      · exact ih _ c hc
    · exact ih _ c hc

theorem litVal_set {v : Nat} (hv : v < 2 ^ 64) : litVal (str (Emit.setLiteral v)) = some v := by
  have h1 : ∀ c ∈ Emit.setLiteral v, c ≠ 63 ∧ c < 0xD800 := by
    intro c hc
    unfold Emit.setLiteral at hc
    rw [List.mem_append] at hc
    rcases hc with hc | hc
    · simp at hc; omega
    · exact setLoop_chars v _ _ c hc
  unfold litVal
  rw [str_round fun c hc => (h1 c hc).2, trigraphs_id fun c hc => (h1 c hc).1]
  have h2 := Emit.C12_set hv
  rw [Emit.setLiteral] at h2 ⊢
  exact h2

theorem decTy_int (n : Nat) : IntT (decTy n) := by
  unfold decTy; split
  · exact .inl rfl
  · exact .inr rfl

/-- The text of a number, read as C. -/
theorem int_lit (D : Decl) (V : Env) {v : Int} (h : InTy (.int .w64) v) : ∃ x, expand (cint v) = some x ∧
    cval D V x = .ok v [] ∧ IntT (xty D x) ∧ (xty D x).has v := by
  simp only [InTy, W.bits] at h
  unfold cint
  split
  · next h1 =>
    have key : ∀ t : CTy, t = .i32 ∨ t = .i64 → ∀ m : Int, t.has (-m) → t.has (-m - 1) →
        cval D V (.bin .sub (.neg (.num t m)) (.num .i32 1)) = .ok (-m - 1) [] ∧
        IntT (xty D (.bin .sub (.neg (.num t m)) (.num .i32 1))) ∧
        (xty D (.bin .sub (.neg (.num t m)) (.num .i32 1))).has (-m - 1) := by
      intro t ht m hm h2
      have e1 : prom t = t := by rcases ht with rfl | rfl <;> rfl
      have e2 : usual t .i32 = t := by rcases ht with rfl | rfl <;> decide
      have e3 : t.sg = true := by rcases ht with rfl | rfl <;> rfl
      have e4 : IntT t := by rcases ht with rfl | rfl <;> simp [IntT, prom, CTy.bits]
      have e5 : t.has 1 := by rcases ht with rfl | rfl <;> decide
      simp only [cval, xty, XOp.isRel, XOp.isSh, bind_ok, after_nil, e1, e2, cfit_ok e3 hm, if_false, Bool.false_eq_true,
        binX, cnv_has hm, cnv_has e5, binV, cfit_ok e3 h2]
      exact ⟨trivial, e4, h2⟩
    rcases h1 with rfl | rfl | rfl
    · have hk := key .i32 (.inl rfl) 32767 (by decide) (by decide)
      exact ⟨_, by simp [expand, xun, xbin, xop, decTy, Int.natAbs_neg, Int.natAbs_pow], hk⟩
    · have hk := key .i32 (.inl rfl) 2147483647 (by decide) (by decide)
      exact ⟨_, by simp [expand, xun, xbin, xop, decTy, Int.natAbs_neg, Int.natAbs_pow], hk⟩
    · have hk := key .i64 (.inr rfl) 9223372036854775807 (by decide) (by decide)
      exact ⟨_, by simp [expand, xun, xbin, xop, decTy, Int.natAbs_neg, Int.natAbs_pow], hk⟩
  · next h1 =>
    have hh : ∀ n : Nat, (n : Int) < 2 ^ 63 → (decTy n).has n := by
      intro n hn
      unfold decTy; split <;> simp [CTy.has, CTy.sg, CTy.bits] <;> omega
    split
    · next h2 =>
      have e : (-((v.natAbs : Nat) : Int)) = v := by omega
      refine ⟨.neg (.num (decTy v.natAbs) v.natAbs), rfl, ?_, ?_, ?_⟩
      · simp only [cval, bind_ok, xty, after_nil]
        rw [e, cfit_ok ((decTy_int _).prom.sg (prom_prom _))]
        unfold decTy; split <;> simp [prom, CTy.has, CTy.sg, CTy.bits] <;> omega
      · exact (decTy_int _).prom
      · simp only [xty]
        unfold decTy; split <;> simp [prom, CTy.has, CTy.sg, CTy.bits] <;> omega
    · next h2 =>
      have e : ((v.natAbs : Nat) : Int) = v := by omega
      refine ⟨.num (decTy v.natAbs) v.natAbs, rfl, ?_, decTy_int _, ?_⟩
      · simp only [cval]; rw [e]
      · have := hh v.natAbs (by omega)
        rw [e] at this
        exact this

theorem num_lit (n : Nat) : expand (.num n) = some (.num (decTy n) n) := rfl

/-! ### Expressions without calls -/

/-- No calls were made. -/
def Quiet {α : Type} : Out α → Prop
  | .undef => True
  | .trap _ t => t = []
  | .ok _ t => t = []

theorem Quiet.bind {α β : Type} {x : Out α} {f : α → Out β} (h : Quiet x) (hf : ∀ v, Quiet (f v)) : Quiet (x.bind f) := by
  cases x with
  | undef => trivial
  | trap c t => exact h
  | ok v t =>
    simp only [Quiet] at h; subst h
    rw [bind_ok, after_nil]; exact hf v

theorem Quiet.ok {α : Type} (v : α) : Quiet (.ok v []) := rfl

theorem quiet_fit (t : Ty) (v : Int) : Quiet (fit t v) := by unfold fit; split <;> trivial
theorem quiet_at (s : SP) (v : Int) : Quiet (atP s v) := by unfold atP; split <;> trivial
theorem quiet_elem (c : Bool) (p : Place) (i n : Int) : Quiet (elemP c p i n) := by
  unfold elemP; split
  · trivial
  · split <;> trivial
theorem quiet_conv (r : Bool) (t : Ty) (v : Int) : Quiet (convV r t v) := by
  unfold convV; split
  · trivial
  · split <;> trivial
theorem quiet_ld (V : Env) {p : Out Place} (h : Quiet p) : Quiet (ld V p) := h.bind fun _ => rfl
theorem Quiet.ite {α : Type} {c : Prop} [Decidable c] {a b : Out α} (ha : Quiet a) (hb : Quiet b) : Quiet (if c then a else b) := by
  split <;> assumption

section
variable (D : Decl) (o : Opt) (V : Env)

mutual
theorem quiet_plc : ∀ e, calls D o e = false → Quiet (plc D o V e)
  | .var x, _ => rfl
  | .varpar x, _ => quiet_at _ _
  | .field d f, h => (quiet_plc d (by simpa [calls, nd, sideEff] using h)).bind fun _ => rfl
  | .deref d, h => (quiet_val d (by simpa [calls, nd, sideEff] using h)).bind fun _ => quiet_at _ _
  | .index d i n, h => by
    have h1 : calls D o d = false ∧ calls D o i = false := by
      cases n <;> simpa [calls, nd, sideEff, sideEffs] using h
    exact (quiet_plc d h1.1).bind fun _ => (quiet_val i h1.2).bind fun _ => quiet_elem _ _ _ _
  | .hidx p i, h => by
    have h1 : calls D o p = false ∧ calls D o i = false := by simpa [calls, nd, sideEff, sideEffs] using h
    exact (quiet_val p h1.1).bind fun _ => (quiet_at _ _).bind fun _ => (quiet_val i h1.2).bind fun _ => quiet_elem _ _ _ _
  | .guard .., _ | .int .., _ | .chr .., _ | .bool .., _ | .set .., _ | .lenv .., _ | .lenh .., _ | .neg .., _ | .compl .., _
  | .not .., _ | .abs .., _ | .odd .., _ | .cap .., _ | .conv .., _ | .toset .., _ | .widen .., _ | .tochr .., _
  | .upto .., _ | .arith .., _ | .div .., _ | .mod .., _ | .msk .., _ | .ash .., _ | .lsh .., _ | .rot .., _ | .isin .., _
  | .setop .., _ | .rel .., _ | .and .., _ | .or .., _ | .call .., _ => trivial
theorem quiet_val : ∀ e, calls D o e = false → Quiet (val D o V e)
  | .int .., _ | .chr .., _ | .bool .., _ | .set .., _ | .var _, _ => rfl
  | .varpar x, _ => quiet_ld _ (quiet_at _ _)
  | .field d f, h => quiet_ld _ ((quiet_plc d (by simpa [calls, nd, sideEff] using h)).bind fun _ => rfl)
  | .deref d, h => quiet_ld _ ((quiet_val d (by simpa [calls, nd, sideEff] using h)).bind fun _ => quiet_at _ _)
  | .index d i n, h => by
    have h1 : calls D o d = false ∧ calls D o i = false := by
      cases n <;> simpa [calls, nd, sideEff, sideEffs] using h
    exact quiet_ld _ ((quiet_plc d h1.1).bind fun _ => (quiet_val i h1.2).bind fun _ => quiet_elem _ _ _ _)
  | .hidx p i, h => by
    have h1 : calls D o p = false ∧ calls D o i = false := by simpa [calls, nd, sideEff, sideEffs] using h
    exact quiet_ld _ ((quiet_val p h1.1).bind fun _ => (quiet_at _ _).bind fun _ => (quiet_val i h1.2).bind fun _ =>
      quiet_elem _ _ _ _)
  | .guard d T _ _, h => (quiet_val d (by simpa [calls, nd, sideEff] using h)).bind fun _ =>
      .ite trivial (.ite rfl (.ite rfl trivial))
  | .lenv w x, _ => quiet_fit _ _
  | .lenh w p, h => (quiet_val p (by simpa [calls, nd, sideEff] using h)).bind fun _ => (quiet_at _ _).bind fun _ =>
      quiet_fit _ _
  | .neg e, h | .abs e, h => (quiet_val e (by simpa [calls, nd, sideEff] using h)).bind fun _ => quiet_fit _ _
  | .compl e, h | .not e, h | .odd e, h | .cap e, h => (quiet_val e (by simpa [calls, nd, sideEff] using h)).bind fun _ => rfl
  | .conv w e, h | .tochr e, h => (quiet_val e (by simpa [calls, nd, sideEff] using h)).bind fun _ => quiet_conv _ _ _
  | .toset s e, h => (quiet_val e (by simpa [calls, nd, sideEff] using h)).bind fun _ => .ite rfl trivial
  | .widen e, h => quiet_val e (by simpa [calls, nd, sideEff] using h)
  | .upto s l r, h => by
    have h1 : calls D o l = false ∧ calls D o r = false := by simpa [calls, nd, sideEff] using h
    exact (quiet_val l h1.1).bind fun _ => .ite ((quiet_val r h1.2).bind fun _ => .ite rfl trivial) trivial
  | .arith q l r, h => by
    have h1 : calls D o l = false ∧ calls D o r = false := by simpa [calls, nd, sideEff] using h
    exact (quiet_val l h1.1).bind fun _ => (quiet_val r h1.2).bind fun _ => quiet_fit _ _
  | .ash l r, h => by
    have h1 : calls D o l = false ∧ calls D o r = false := by simpa [calls, nd, sideEff] using h
    exact (quiet_val l h1.1).bind fun _ => (quiet_val r h1.2).bind fun _ => quiet_fit _ _
  | .div l r, h | .mod l r, h => by
    have h1 : calls D o l = false ∧ calls D o r = false := by simpa [calls, nd, sideEff] using h
    exact (quiet_val l h1.1).bind fun _ => (quiet_val r h1.2).bind fun _ => .ite trivial (quiet_fit _ _)
  | .msk l k, h => (quiet_val l (by simpa [calls, nd, sideEff] using h)).bind fun _ => quiet_fit _ _
  | .lsh l r, h | .rot l r, h | .isin l r, h | .setop _ l r, h | .rel _ l r, h => by
    have h1 : calls D o l = false ∧ calls D o r = false := by simpa [calls, nd, sideEff] using h
    exact (quiet_val l h1.1).bind fun _ => (quiet_val r h1.2).bind fun _ => rfl
  | .and l r, h => by
    have h1 : calls D o l = false ∧ calls D o r = false := by simpa [calls, nd, sideEff] using h
    exact (quiet_val l h1.1).bind fun _ => .ite rfl (quiet_val r h1.2)
  | .or l r, h => by
    have h1 : calls D o l = false ∧ calls D o r = false := by simpa [calls, nd, sideEff] using h
    exact (quiet_val l h1.1).bind fun _ => .ite (quiet_val r h1.2) rfl
  | .call f as, h => by simp [calls, nd, sideEff] at h
end
end

end Verif.Eval
