import Verif.Eval.Sets

/-!
Ranges, membership, operators on sets, and relations.
-/
namespace Verif.Eval
open Verif.Expr

section
variable {D : Decl} {o : Opt} {V : Env} {e l r : E} {x y : X} {s : Bool} {w : W}

theorem cs_usual (s : Bool) : usual (cty (.set s)) (cty (.set s)) = cty (.set s) := by cases s <;> decide

theorem ones_val (s : Bool) : cval D V (.compl (.cast (cty (.set s)) (k 0))) = .ok ((2 ^ sbits s - 1 : Nat) : Int) [] ∧
    xty D (.compl (.cast (cty (.set s)) (k 0))) = cty (.set s) := by
  refine ⟨?_, by simp only [xty, cs_prom]⟩
  simp only [cval, k_val, bind_ok, after_nil, xty, cs_prom]
  cases s <;> rfl

theorem last_val (s : Bool) : cval D V (.bin .sub (k (sbits s : Nat)) (k 1)) = .ok (sbits s - 1 : Int) [] := by
  have h1 : CTy.i32.has (sbits s : Nat) := by cases s <;> decide
  have h2 : CTy.i32.has ((sbits s : Nat) - 1 : Int) := by cases s <;> decide
  simp only [cval, k_val, bind_ok, after_nil, k_ty]
  rw [binX_int rfl i32_int i32_int h1 (by decide)]
  exact cfit_ok rfl h2

/-- The distance to the end. -/
theorem rest_val {T : CTy} {b : Int} (hi : IntT T) (hb : T.has b) (h : 0 ≤ b ∧ b < sbits s) :
    binX .sub .i32 T (sbits s - 1) b = .ok (sbits s - 1 - b) [] := by
  have hw : sbits s ≤ 64 := by cases s <;> decide
  have hk : CTy.i32.has (sbits s - 1 : Int) := by cases s <;> decide
  rw [binX_int rfl i32_int hi hk hb]
  simp only [binV]
  rw [cfit_ok ((i32_int.usual hi).sg (usual_prom _ _))]
  rcases usual_int i32_int hi with ⟨e, -, -⟩ | ⟨e, -⟩ <;> rw [e] <;> simp only [CTy.has, CTy.sg, CTy.bits, if_true] <;> omega

theorem and_cs (a b : Nat) (ha : a < 2 ^ sbits s) (hb : b < 2 ^ sbits s) :
    binX .and (cty (.set s)) (cty (.set s)) a b = .ok ((a &&& b : Nat) : Int) [] := by
  have h1 := (set_nat ha).2
  have h2 := (set_nat hb).2
  have h3 := (set_nat (lt_of_le_of_lt (Nat.and_le_left (n := a) (m := b)) ha)).2
  unfold binX
  simp only [XOp.isSh, Bool.false_eq_true, if_false, cs_usual, binV, cbits, cs_bits]
  rw [cnv_has h1.2.1, cnv_has h2.2.1]
  have e : ∀ v : Int, (v % 2 ^ sbits s).toNat = bits (sbits s) v := fun _ => rfl
  rw [e, e, h1.2.2, h2.2.2, Int.toNat_natCast, Int.toNat_natCast, cnv_has h3.2.1]

theorem good_upto (gl : Good D o V l x) (gr : Good D o V r y) (h : wt D (.upto s l r) = true) :
    ∃ z, Good D o V (.upto s l r) z := by
  simp only [wt, Bool.and_eq_true] at h
  obtain ⟨⟨⟨-, -⟩, h1⟩, h2⟩ := h
  obtain ⟨w, tl⟩ := isInt_ty h1
  obtain ⟨w', tr⟩ := isInt_ty h2
  obtain ⟨i1, -, o1⟩ := gl.int tl
  obtain ⟨i2, -, o2⟩ := gr.int tr
  obtain ⟨hov, hot⟩ := ones_val (D := D) (V := V) s
  let O : X := .compl (.cast (cty (.set s)) (k 0))
  let A : X := .bin .shl O x
  let B : X := .bin .shr O (.bin .sub (.bin .sub (k (sbits s : Nat)) (k 1)) y)
  have tA : xty D A = cty (.set s) := by
    simp only [A, O, xty, XOp.isRel, XOp.isSh, if_true, Bool.false_eq_true, if_false, cs_prom]
  have tB : xty D B = cty (.set s) := by
    simp only [B, O, xty, XOp.isRel, XOp.isSh, if_true, Bool.false_eq_true, if_false, cs_prom]
  have hx : xty D (.bin .and A B) = cty (.set s) := by
    rw [xty, tA, tB, cs_usual]; rfl
  refine ⟨.bin .and A B, mkSet ?_ rfl rfl rfl (by rw [hx]; exact .inl rfl) ?_⟩
  · simp only [nd, ct]
    rw [expand_c3 gl.ex gr.ex (num_lit _)]
    simp only [A, B, O, ← uty_s]; rfl
  · rw [hx]
    have hO : cval D V O = .ok ((2 ^ sbits s - 1 : Nat) : Int) [] := hov
    have tO : xty D O = cty (.set s) := hot
    have t32 : xty D (.bin .sub (k (sbits s : Nat)) (k 1)) = .i32 := rfl
    have hc : cval D V (.bin .and A B) = (cval D V x).bind fun a =>
        (binX .shl (cty (.set s)) (xty D x) ((2 ^ sbits s - 1 : Nat) : Int) a).bind fun u => (cval D V y).bind fun b =>
        (binX .sub .i32 (xty D y) (sbits s - 1) b).bind fun d =>
        (binX .shr (cty (.set s)) (usual .i32 (xty D y)) ((2 ^ sbits s - 1 : Nat) : Int) d).bind fun v =>
        binX .and (cty (.set s)) (cty (.set s)) u v := by
      have hA : cval D V A = (cval D V x).bind fun a =>
          binX .shl (cty (.set s)) (xty D x) ((2 ^ sbits s - 1 : Nat) : Int) a := by
        simp only [A]; rw [cval, hO, bind_ok, after_nil, tO]
      have hB : cval D V B = (cval D V y).bind fun b => (binX .sub .i32 (xty D y) (sbits s - 1) b).bind fun d =>
          binX .shr (cty (.set s)) (usual .i32 (xty D y)) ((2 ^ sbits s - 1 : Nat) : Int) d := by
        simp only [B]; rw [cval, hO, bind_ok, after_nil, tO, cval, last_val, bind_ok, after_nil, bind_assoc]; rfl
      rw [cval, hA, hB, tA, tB, bind_assoc]
      simp only [bind_assoc]
    rw [hc]
    simp only [val]
    refine o1.bind ?_
    rintro _ a ⟨ha, ha2, rfl⟩
    have e1 : ((2 ^ sbits s : Nat) : Int) = 2 ^ sbits s := by push_cast; rfl
    by_cases hI : 0 ≤ a ∧ a < sbits s
    · rw [if_pos hI, binX_sh rfl, cs_prom]
      simp only [binV, cs_bits]
      rw [if_pos hI, bind_ok, after_nil]
      refine o2.bind ?_
      rintro _ b ⟨hb, hb2, rfl⟩
      by_cases hJ : 0 ≤ b ∧ b < sbits s
      · rw [if_pos hJ, rest_val i2 hb2 hJ, bind_ok, after_nil, binX_sh rfl, cs_prom]
        simp only [binV, cs_bits]
        rw [if_pos (by omega), bind_ok, after_nil]
        have h1 : cnv (cty (.set s)) (((2 ^ sbits s - 1 : Nat) : Int) * 2 ^ a.toNat) =
            (((2 ^ sbits s - 1) * 2 ^ a.toNat % 2 ^ sbits s : Nat) : Int) := by
          rw [cnv_cs, ← bits_natCast]; push_cast; rfl
        have h2 : ((2 ^ sbits s - 1 : Nat) : Int) / 2 ^ (sbits s - 1 - b : Int).toNat =
            (((2 ^ sbits s - 1) / 2 ^ (sbits s - 1 - b.toNat) : Nat) : Int) := by
          rw [show (sbits s - 1 - b : Int).toNat = sbits s - 1 - b.toNat by omega]; push_cast; rfl
        have h3 := rng_nat (n := sbits s) (a := a.toNat) (b := b.toNat) (by omega) (by omega)
        rw [Int.toNat_of_nonneg hI.1, Int.toNat_of_nonneg hJ.1] at h3
        rw [h1, h2, and_cs _ _ (Nat.mod_lt _ (by positivity))
          (lt_of_le_of_lt (Nat.div_le_self _ _) (Nat.sub_lt (by positivity) (by omega))), h3.1]
        exact .ok (set_nat h3.2).2
      · rw [if_neg hJ]; trivial
    · rw [if_neg hI]; trivial

/-! ### Membership -/

theorem cfop_isin (sm : Bool) (n : Nat) (q : Option Int) (se seR : Bool) (a b : CE) : cfop .isin sm n q se seR a b =
    c3 "__IN" a b (.num n) := by cases q <;> rfl

theorem one_cs (u : Nat) (hu : u < 2 ^ sbits s) :
    binX .and (cty (.set s)) .i32 u 1 = .ok ((u % 2 : Nat) : Int) [] := by
  have h1 : usual (cty (.set s)) .i32 = usual (cty (.set s)) (cty (.set s)) := by cases s <;> decide
  have h := and_cs u 1 hu (by cases s <;> decide)
  rw [Nat.and_one_is_mod] at h
  rw [← h]
  unfold binX
  simp only [XOp.isSh, Bool.false_eq_true, if_false, h1]; rfl

theorem in_cmp {a : Int} (h : -(2 ^ 31) ≤ a ∧ a < 2 ^ 31) (hx : cval D V x = .ok a []) :
    cval D V (.bin .lt (.cast .u32 x) (k (sbits s : Nat))) = .ok (tv (decide (0 ≤ a ∧ a < sbits s))) [] := by
  simp only [cval, hx, bind_ok, after_nil, k_val, xty, k_ty]
  have hu : usual .u32 .i32 = .u32 := by decide
  unfold binX
  simp only [XOp.isSh, Bool.false_eq_true, if_false, hu, binV]
  have h1 : cnv .u32 ((sbits s : Nat) : Int) = sbits s := by cases s <;> decide
  have hs : sbits s ≤ 64 := by cases s <;> decide
  rw [h1, cnv_has (has_cnv .u32 a)]
  have h2 : (cnv .u32 a < (sbits s : Nat)) ↔ (0 ≤ a ∧ a < sbits s) := by
    simp only [cnv, CTy.sg, CTy.bits, Bool.false_eq_true, if_false]
    constructor
    · intro h3; omega
    · intro h3; omega
  simp only [h2]

theorem testBit_div (u a : Nat) : (((u / 2 ^ a % 2 : Nat) : Int) ≠ 0) ↔ u.testBit a = true := by
  rw [Nat.testBit_eq_decide_div_mod_eq, decide_eq_true_eq]
  omega

theorem good_isin (gl : Good D o V l x) (gr : Good D o V r y) (h : wt D (.isin l r) = true) (hc : Calm D o V (.isin l r)) :
    ∃ z, Good D o V (.isin l r) z := by
  simp only [wt, Bool.and_eq_true, Bool.or_eq_true, beq_iff_eq] at h
  obtain ⟨⟨⟨-, h0⟩, h1⟩, h2⟩ := h
  obtain ⟨w, tl⟩ := isInt_ty h1
  obtain ⟨s, tr⟩ := set_ty h2
  obtain ⟨i1, -, o1⟩ := gl.int tl
  obtain ⟨hl, hs, -, o2⟩ := gr.set h0 tr
  simp only [Calm, tr, Ty.bits] at hc
  obtain ⟨-, -, hc1, hc2, hrg, htr⟩ := hc
  refine ⟨.land (.bin .lt (.cast .u32 x) (k (sbits s : Nat))) (.bin .and (.bin .shr (.cast (uty (sbits s : Nat)) y) x) (k 1)),
    mkBool ?_ rfl rfl i32_int ?_⟩
  · simp only [nd, ct, cfop_isin, tr, Ty.bits]
    rw [expand_c3 gl.ex gr.ex (num_lit _)]; rfl
  · rw [cval_land]
    simp only [val, xty]
    rcases Quiet.cases o1 (quiet_val D o V l hc1) with h | ⟨c, h, h'⟩ | ⟨_, a, h, h', ha, ha2, rfl⟩
    · rw [h]; trivial
    · rw [h]; simp only [cval, h', bind_trap]; rfl
    · rw [h, bind_ok, after_nil, in_cmp (hrg a [] h) h', bind_ok, after_nil]
      simp only [tv_ne]
      rcases Quiet.cases o2 (quiet_val D o V r hc2) with h2 | ⟨c, h2, h2'⟩ | ⟨v, c, h2, h2', ⟨hv, hv2, hv3⟩, -⟩
      · rw [h2]; trivial
      · rw [h2, if_neg (by simpa using htr ⟨c, [], h2⟩ a [] h)]
        simp only [cval, h2', bind_trap]; rfl
      · rw [h2, bind_ok, after_nil]
        have hvn : v.toNat < 2 ^ sbits s := by
          rw [← hv3]; exact bits_lt _ _
        by_cases hI : 0 ≤ a ∧ a < sbits s
        · rw [if_neg (by simpa using hI)]
          simp only [cval, h2', h', bind_ok, after_nil, k_val, k_ty, xty, XOp.isRel, XOp.isSh, if_true, Bool.false_eq_true,
            if_false, uty_s, cs_prom]
          rw [binX_sh rfl, cs_prom, cnv_cs, hv3]
          simp only [binV, cs_bits]
          rw [if_pos hI, bind_ok, after_nil, show ((v.toNat : Nat) : Int) / 2 ^ a.toNat = ((v.toNat / 2 ^ a.toNat : Nat) : Int) by
            push_cast; rfl, one_cs _ (lt_of_le_of_lt (Nat.div_le_self _ _) hvn), bind_ok, after_nil]
          simp only [testBit_div]
          have e : (decide (0 ≤ a) && v.toNat.testBit a.toNat) = v.toNat.testBit a.toNat := by simp [hI.1]
          rw [e]
          refine .ok ⟨?_, ?_, ?_⟩
          · cases v.toNat.testBit a.toNat <;> simp [InTy, tv]
          · cases v.toNat.testBit a.toNat <;> decide
          · simp
        · rw [if_pos (by simpa using hI)]
          have e : (decide (0 ≤ a) && v.toNat.testBit a.toNat) = false := by
            by_cases h0 : 0 ≤ a
            · have h4 : v.toNat < 2 ^ a.toNat := lt_of_lt_of_le hvn (Nat.pow_le_pow_right (by omega) (by omega))
              rw [Nat.testBit_lt_two_pow h4]; simp
            · simp [h0]
          rw [e]
          exact .ok ⟨.inl rfl, by decide, rfl⟩

/-! ### Operators -/

theorem sop_out {q : XOp} (hq : q.isSh = false) {f : Nat → Nat → Nat} {Ta Tb : CTy} (hT : SetT s (usual Ta Tb))
    (hf : ∀ T a b, binV q T a b = .ok (cbits T f a b) []) (hlt : ∀ a b, a < 2 ^ sbits s → b < 2 ^ sbits s → f a b < 2 ^ sbits s)
    {a b : Int} : OutRel (SR s (usual Ta Tb)) (.ok (f (bits (sbits s) a) (bits (sbits s) b) : Nat) []) (binX q Ta Tb a b) := by
  unfold binX
  rw [hq, if_neg (by simp), hf]
  have e : ∀ v : Int, (v % 2 ^ (usual Ta Tb).bits).toNat = bits (sbits s) v := fun v => by rw [hT.bits]; rfl
  unfold cbits
  rw [e, e, bits_cnv hT.bits.ge, bits_cnv hT.bits.ge]
  have h1 := set_nat (hlt _ _ (bits_lt (sbits s) a) (bits_lt (sbits s) b))
  refine .ok ⟨h1.1, has_cnv _ _, ?_⟩
  rw [bits_cnv hT.bits.ge]
  exact h1.2.2.2

theorem usual_lit {a b : CTy} (ha : LitT s a) (hb : LitT s b) (h : SetT s a ∨ SetT s b) : SetT s (usual a b) := by
  rcases h with h | h
  · exact h.usual hb
  · rw [usual_comm]; exact h.usual ha

theorem setop_ct {a b : CE} (ha : expand a = some x) (hb : expand b = some y) :
    expand (cbop .times true none a b) = some (.bin .and x y) ∧ expand (cbop .slash true none a b) = some (.bin .xor x y) ∧
    expand (cbop .plus true none a b) = some (.bin .or x y) ∧
    expand (cbop .minus true none a b) = some (.bin .and x (.compl y)) := by
  simp [cbop, expand, ha, hb, xbin, xop, xun]

theorem isSet_ex (h : isSet e = true) (ht : ty D e = .set s) : ∃ v, e = .set s v := by
  cases e <;> simp_all [isSet, ty]

theorem good_setop {q : SOp} (gl : Good D o V l x) (gr : Good D o V r y) (h : wt D (.setop q l r) = true)
    (hc : Calm D o V (.setop q l r)) : ∃ z, Good D o V (.setop q l r) z := by
  simp only [wt, Bool.and_eq_true, Bool.or_eq_true, beq_iff_eq, Bool.not_eq_true', Bool.and_eq_false_iff] at h
  obtain ⟨⟨⟨⟨h1, h2⟩, h3⟩, h4⟩, h5⟩ := h
  obtain ⟨s, tl⟩ := set_ty h3
  have tr : ty D r = .set s := by rw [← h4, tl]
  obtain ⟨l1, s1, -, o1⟩ := gl.set h1 tl
  obtain ⟨l2, s2, x2, o2⟩ := gr.set h2 tr
  simp only [Calm] at hc
  obtain ⟨-, -, hcd⟩ := hc
  obtain ⟨c1, c2, c3, c4⟩ := setop_ct gl.ex gr.ex
  have hU : SetT s (usual (xty D x) (xty D y)) := by
    refine usual_lit l1 l2 ?_
    rcases h5 with h | h
    · exact .inl (s1 h)
    · exact .inr (s2 h)
  have key : ∀ (p : XOp) (f : Nat → Nat → Nat), p.isSh = false → p.isRel = false →
      (∀ T a b, binV p T a b = .ok (cbits T f a b) []) →
      (∀ a b, a < 2 ^ sbits s → b < 2 ^ sbits s → f a b < 2 ^ sbits s) → (∀ a b, setV (sbits s) q a b = f a b) →
      expand (ct (nd D o (.setop q l r))) = some (.bin p x y) → ∃ z, Good D o V (.setop q l r) z := by
    intro p f hp hr hf hlt hv hex
    have ht : xty D (.bin p x y) = usual (xty D x) (xty D y) := by rw [xty, hr, hp]; rfl
    refine ⟨.bin p x y, mkSet hex tl rfl rfl (by rw [ht]; exact hU) ?_⟩
    rw [ht]
    simp only [val, cval, tl, Ty.bits]
    refine o1.bind ?_
    rintro va ca ⟨⟨-, -, ha⟩, -⟩
    refine o2.bind ?_
    rintro vb cb ⟨⟨-, -, hb⟩, -⟩
    rw [hv, ← ha, ← hb]
    exact sop_out hp hU hf hlt
  cases q with
  | union =>
    exact key .or (· ||| ·) rfl rfl (fun _ _ _ => rfl) (fun a b => Nat.or_lt_two_pow) (fun _ _ => rfl) (by simpa only [nd, ct] using c3)
  | inter =>
    exact key .and (· &&& ·) rfl rfl (fun _ _ _ => rfl) (fun a b ha _ => lt_of_le_of_lt Nat.and_le_left ha) (fun _ _ => rfl)
      (by simpa only [nd, ct] using c1)
  | sym =>
    exact key .xor (· ^^^ ·) rfl rfl (fun _ _ _ => rfl) (fun a b => Nat.xor_lt_two_pow) (fun _ _ => rfl)
      (by simpa only [nd, ct] using c2)
  | diff =>
    have ht : xty D (.bin .and x (.compl y)) = usual (xty D x) (xty D y) := by
      simp only [xty, XOp.isRel, XOp.isSh, Bool.false_eq_true, if_false, l2.prom]
    have hn : ¬ (s = true ∧ xty D y = .u32) := by
      rintro ⟨rfl, hy⟩
      cases hr : isSet r with
      | false =>
        have := s2 hr
        rw [hy] at this
        rcases this with h | ⟨-, h⟩ <;> cases h
      | true =>
        obtain ⟨v, rfl⟩ := isSet_ex hr tr
        have h6 := x2 v rfl
        rw [hy] at h6
        refine hcd rfl tl v rfl ?_
        unfold hexTy at h6
        split at h6
        · cases h6
        · split at h6
          · omega
          · split at h6 <;> cases h6
    refine ⟨.bin .and x (.compl y), mkSet (by simpa only [nd, ct] using c4) tl rfl rfl (by rw [ht]; exact hU) ?_⟩
    rw [ht]
    simp only [val, cval, tl, Ty.bits, bind_assoc]
    refine o1.bind ?_
    rintro va ca ⟨⟨-, -, ha⟩, -⟩
    refine o2.bind ?_
    rintro vb cb ⟨⟨-, hb2, hb⟩, -⟩
    rw [bind_ok, after_nil]
    simp only [setV, xty, l2.prom]
    have := compl_bits l2 hb2 hn
    rw [← hb, ← ha, ← this]
    exact sop_out (q := .and) (f := (· &&& ·)) rfl hU (fun _ _ _ => rfl) (fun a b ha _ => lt_of_le_of_lt Nat.and_le_left ha)

/-! ### Relations -/

/-- The operator of C. -/
def xrel : Rel → XOp
  | .eql => .eq
  | .neq => .ne
  | .lss => .lt
  | .leq => .le
  | .gtr => .gt
  | .geq => .ge

theorem rel_bin (q : Rel) (T : CTy) (a b : Int) : binV (xrel q) T a b = .ok (tv (relV q a b)) [] := by
  cases q <;> rfl

theorem good_rel {q : Rel} (gl : Good D o V l x) (gr : Good D o V r y) (h : wt D (.rel q l r) = true) :
    ∃ z, Good D o V (.rel q l r) z := by
  simp only [wt, Bool.and_eq_true, beq_iff_eq, Bool.not_eq_true', Bool.and_eq_false_iff] at h
  obtain ⟨⟨⟨⟨h1, h2⟩, h3⟩, h4⟩, h5⟩ := h
  have hsh : (xrel q).isSh = false := by cases q <;> rfl
  have hr : (xrel q).isRel = true := by cases q <;> rfl
  have htv : ∀ b, IR .bool .i32 (tv b) (tv b) := by intro b; cases b <;> exact ⟨by simp [InTy, tv], by decide, rfl⟩
  have ht : xty D (.bin (xrel q) x y) = .i32 := by rw [xty, hr]; rfl
  have mk : OutRel (IR .bool .i32) (val D o V (.rel q l r)) (cval D V (.bin (xrel q) x y)) → ∃ z, Good D o V (.rel q l r) z := by
    intro hh
    refine ⟨.bin (xrel q) x y, mkBool ?_ rfl rfl (by rw [ht]; exact i32_int) (by rw [ht]; exact hh)⟩
    simp only [nd, ct, Bool.false_eq_true, if_false]
    cases q <;> simp [crel, expand, gl.ex, gr.ex, xbin, xop, xrel]
  have ints : ∀ {t : Ty}, IntT (xty D x) → IntT (xty D y) → OutRel (IR t (xty D x)) (val D o V l) (cval D V x) →
      OutRel (IR t (xty D y)) (val D o V r) (cval D V y) → ∃ z, Good D o V (.rel q l r) z := by
    intro t i1 i2 o1 o2
    refine mk ?_
    simp only [val, cval]
    refine o1.bind ?_
    rintro _ a ⟨ha, ha2, rfl⟩
    refine o2.bind ?_
    rintro _ b ⟨hb, hb2, rfl⟩
    rw [binX_int hsh i1 i2 ha2 hb2, rel_bin]
    exact .ok (htv _)
  cases tl : ty D l with
  | int w =>
    obtain ⟨i1, -, o1⟩ := gl.int tl
    obtain ⟨i2, -, o2⟩ := gr.int (h3 ▸ tl)
    exact ints i1 i2 o1 o2
  | chr =>
    obtain ⟨i1, o1⟩ := gl.small tl (.inl rfl)
    obtain ⟨i2, o2⟩ := gr.small (h3 ▸ tl) (.inl rfl)
    exact ints i1 i2 o1 o2
  | bool =>
    obtain ⟨i1, o1⟩ := gl.small tl (.inr rfl)
    obtain ⟨i2, o2⟩ := gr.small (h3 ▸ tl) (.inr rfl)
    exact ints i1 i2 o1 o2
  | ptr =>
    obtain ⟨t1, o1⟩ := gl.ptr tl
    obtain ⟨t2, o2⟩ := gr.ptr (h3 ▸ tl)
    refine mk ?_
    simp only [val, cval]
    refine o1.bind ?_
    rintro _ a ⟨ha, ha2, rfl⟩
    refine o2.bind ?_
    rintro _ b ⟨hb, hb2, rfl⟩
    have hu : usual .u64 .u64 = .u64 := by decide
    unfold binX
    rw [hsh, if_neg (by simp), t1, t2, hu, cnv_has ha2, cnv_has hb2, rel_bin]
    exact .ok (htv _)
  | set s =>
    have tr : ty D r = .set s := h3 ▸ tl
    obtain ⟨l1, s1, -, o1⟩ := gl.set h1 tl
    obtain ⟨l2, s2, -, o2⟩ := gr.set h2 tr
    have hU : SetT s (usual (xty D x) (xty D y)) := by
      refine usual_lit l1 l2 ?_
      rcases h4 with h | h
      · exact .inl (s1 (isSet_const h))
      · exact .inr (s2 (isSet_const h))
    rw [tl] at h5
    simp only [Bool.or_eq_true, beq_iff_eq] at h5
    refine mk ?_
    simp only [val, cval]
    refine o1.bind ?_
    rintro va ca ⟨⟨ha, -, ha3⟩, -⟩
    refine o2.bind ?_
    rintro vb cb ⟨⟨hb, -, hb3⟩, -⟩
    unfold binX
    rw [hsh, if_neg (by simp), rel_bin]
    have e : cnv (usual (xty D x) (xty D y)) ca = cnv (usual (xty D x) (xty D y)) cb ↔ va = vb := by
      rw [cnv_eq_iff, hU.bits, ha3, hb3]
      have := ha.1
      have := hb.1
      omega
    have e2 : relV q (cnv (usual (xty D x) (xty D y)) ca) (cnv (usual (xty D x) (xty D y)) cb) = relV q va vb := by
      rcases h5 with rfl | rfl <;> simp only [relV, e, ne_eq]
    rw [e2]
    exact .ok (htv _)
  | other => rw [tl] at h5; cases h5

/-! ### AND and OR -/

theorem bool_ne {v : Int} (h : InTy .bool v) : tv (decide (v ≠ 0)) = v := by
  rcases h with rfl | rfl <;> rfl

theorem bool_ok {T : CTy} {v : Int} (h : InTy .bool v) (hT : IntT T) : IR .bool .i32 v v :=
  ⟨h, by rcases h with rfl | rfl <;> decide, rfl⟩

theorem good_and (gl : Good D o V l x) (gr : Good D o V r y) (h : wt D (.and l r) = true) : ∃ z, Good D o V (.and l r) z := by
  simp only [wt, Bool.and_eq_true, beq_iff_eq] at h
  obtain ⟨⟨-, tl⟩, tr⟩ := h
  obtain ⟨i1, o1⟩ := gl.small tl (.inr rfl)
  obtain ⟨i2, o2⟩ := gr.small tr (.inr rfl)
  refine ⟨.land x y, mkBool (by simp [nd, ct, cbop, expand, gl.ex, gr.ex, xbin]) rfl rfl i32_int ?_⟩
  rw [cval_land]
  simp only [val, xty]
  refine o1.bind ?_
  rintro _ a ⟨ha, ha2, rfl⟩
  by_cases h0 : a = 0
  · rw [if_pos h0, if_pos h0]; exact .ok ⟨.inl rfl, by decide, rfl⟩
  · rw [if_neg h0, if_neg h0]
    have : val D o V r = (val D o V r).bind fun v => .ok v [] := by cases val D o V r <;> simp [Out.bind, Out.after]
    rw [this]
    refine o2.bind ?_
    rintro _ b ⟨hb, hb2, rfl⟩
    rw [bool_ne hb]
    exact .ok (bool_ok hb i2)

theorem good_or (gl : Good D o V l x) (gr : Good D o V r y) (h : wt D (.or l r) = true) : ∃ z, Good D o V (.or l r) z := by
  simp only [wt, Bool.and_eq_true, beq_iff_eq] at h
  obtain ⟨⟨-, tl⟩, tr⟩ := h
  obtain ⟨i1, o1⟩ := gl.small tl (.inr rfl)
  obtain ⟨i2, o2⟩ := gr.small tr (.inr rfl)
  refine ⟨.lor x y, mkBool (by simp [nd, ct, cbop, expand, gl.ex, gr.ex, xbin]) rfl rfl i32_int ?_⟩
  simp only [val, xty, cval]
  refine o1.bind ?_
  rintro _ a ⟨ha, ha2, rfl⟩
  by_cases h0 : a = 0
  · rw [if_pos h0, if_pos h0]
    have : val D o V r = (val D o V r).bind fun v => .ok v [] := by cases val D o V r <;> simp [Out.bind, Out.after]
    rw [this]
    refine o2.bind ?_
    rintro _ b ⟨hb, hb2, rfl⟩
    rw [bool_ne hb]
    exact .ok (bool_ok hb i2)
  · rw [if_neg h0, if_neg h0]; exact .ok ⟨.inr rfl, by decide, rfl⟩

end
end Verif.Eval
