import Verif.Eval.Ints4

/-!
LSH and ROT.
-/
namespace Verif.Eval
open Verif.Expr

section
variable {D : Decl} {o : Opt} {V : Env} {e l r : E} {x y : X} {w : W}

/-- The unsigned type of a size, and the type it is promoted to. -/
def wu : W → CTy
  | .w8 => .u8
  | .w16 => .u16
  | .w32 => .u32
  | .w64 => .u64

theorem sty_w (w : W) : sty (w.bits : Nat) = cty (.int w) := by cases w <;> decide
theorem uty_w (w : W) : uty (w.bits : Nat) = wu w := by cases w <;> decide
theorem wu_bits (w : W) : (wu w).bits = w.bits := by cases w <;> rfl
theorem cty_bits (w : W) : (cty (.int w)).bits = w.bits := by cases w <;> rfl
theorem pw_bits (w : W) : w.bits ≤ (prom (wu w)).bits := by cases w <;> decide
theorem pw_usual (w : W) : usual (prom (wu w)) (prom (wu w)) = prom (wu w) := by cases w <;> decide
theorem cnv_wu (a : Int) : cnv (wu w) a = bits w.bits a := by
  rw [bits_cast]; unfold cnv
  rw [wu_bits, if_neg (by cases w <;> decide)]
theorem cnv_cty (u : Nat) : cnv (cty (.int w)) u = unbits w.bits u := by
  unfold cnv unbits
  rw [cty_bits, if_pos (by cases w <;> rfl)]
theorem unbits_in (u : Nat) : InTy (.int w) (unbits w.bits u) := by
  rw [← cnv_cty]; exact has_w.1 (has_cnv _ _)

theorem cnv_cnv {P : CTy} (h : w.bits ≤ P.bits) (v : Int) : cnv (cty (.int w)) (cnv P v) = cnv (cty (.int w)) v :=
  cnv_congr (by rw [cty_bits]; exact emod_pow h (cnv_emod P v))

theorem lshl_val {a b : Int} (hb : 0 ≤ b ∧ b < w.bits) {U : CTy} :
    ((binX .shl (wu w) U (cnv (wu w) a) b).bind fun v => .ok (cnv (cty (.int w)) v) []) = .ok (lshV w.bits a b) [] := by
  have hp := pw_bits w
  rw [binX_sh rfl, cnv_wu]
  simp only [binV]
  rw [if_pos (by omega), bind_ok, after_nil, cnv_cnv hp]
  unfold lshV
  rw [if_pos hb.1]
  have : ((bits w.bits a : Nat) : Int) * 2 ^ b.toNat = ((bits w.bits a * 2 ^ b.toNat : Nat) : Int) := by push_cast; rfl
  rw [this, cnv_cty]

theorem lshr_val {a b : Int} (hb : 0 < b ∧ b < w.bits) {U : CTy} :
    ((binX .shr (wu w) U (cnv (wu w) a) b).bind fun v => .ok (cnv (cty (.int w)) v) []) = .ok (lshV w.bits a (-b)) [] := by
  have hp := pw_bits w
  rw [binX_sh rfl, cnv_wu]
  simp only [binV]
  rw [if_pos (by omega), bind_ok, after_nil]
  unfold lshV
  rw [if_neg (by omega), neg_neg]
  have : ((bits w.bits a : Nat) : Int) / 2 ^ b.toNat = ((bits w.bits a / 2 ^ b.toNat : Nat) : Int) := by push_cast; rfl
  rw [this, cnv_cty]

theorem lsh_bind {b : Int} (hy : cval D V y = .ok b []) :
    cval D V (lshl x y (w.bits : Nat)) = (cval D V x).bind (fun a => (binX .shl (wu w) (xty D y) (cnv (wu w) a) b).bind fun v =>
      .ok (cnv (cty (.int w)) v) []) ∧
    cval D V (lshr x y (w.bits : Nat)) = (cval D V x).bind (fun a => (binX .shr (wu w) (xty D y) (cnv (wu w) a) b).bind fun v =>
      .ok (cnv (cty (.int w)) v) []) := by
  unfold lshl lshr
  simp only [cval, hy, bind_ok, after_nil, xty, bind_assoc, sty_w, uty_w, and_self]

theorem cfop_lsh_const (sm : Bool) (n : Nat) (v : Int) (se seR : Bool) (a b : CE) : cfop .lsh sm n (some v) se seR a b =
    c3 (if 0 ≤ v then "__LSHL" else "__LSHR") a (if v < 0 then cint (-v) else b) (.num n) := rfl

theorem cfop_lsh_var (sm : Bool) (n : Nat) (se seR : Bool) (a b : CE) : cfop .lsh sm n none se seR a b =
    c3 "__LSH" a b (.num n) := rfl

theorem cfop_rot_const (sm : Bool) (n : Nat) (v : Int) (se seR : Bool) (a b : CE) : cfop .rot sm n (some v) se seR a b =
    c3 (if 0 ≤ v then "__ROTL" else "__ROTR") a (if v < 0 then cint (-v) else b) (.num n) := rfl

theorem cfop_rot_var (sm : Bool) (n : Nat) (se seR : Bool) (a b : CE) : cfop .rot sm n none se seR a b =
    c3 "__ROT" a b (.num n) := rfl

theorem good_lsh (gl : Good D o V l x) (gr : Good D o V r y) (h : wt D (.lsh l r) = true) (hc : Calm D o V (.lsh l r)) :
    ∃ z, Good D o V (.lsh l r) z := by
  simp only [wt, Bool.and_eq_true] at h
  obtain ⟨⟨⟨-, -⟩, h1⟩, h2⟩ := h
  obtain ⟨w, tl⟩ := isInt_ty h1
  obtain ⟨w', tr⟩ := isInt_ty h2
  obtain ⟨i1, -, o1⟩ := gl.int tl
  obtain ⟨i2, -, o2⟩ := gr.int tr
  have hcn := constOf_nd (o := o) h2
  simp only [Calm, tl, Ty.bits] at hc
  obtain ⟨-, -, hcall, htr, hcv⟩ := hc
  have hw : w.bits ≤ 64 := by cases w <;> decide
  have hok : ∀ a b, OutRel (IR (.int w) (cty (.int w))) (.ok (lshV w.bits a b) []) (.ok (lshV w.bits a b) []) := by
    intro a b
    have : InTy (.int w) (lshV w.bits a b) := by unfold lshV; split <;> exact unbits_in _
    exact .ok ⟨this, has_w.2 this, rfl⟩
  cases hk : const? r with
  | some v =>
    rw [hk] at hcn
    obtain ⟨w2, rfl⟩ := const_val hk
    have hb := hcv v [] (by simp [val])
    obtain ⟨y1, hy1, hyv1, -, -⟩ := int_lit D V (v := v) (by simp only [InTy, W.bits]; omega)
    by_cases h0 : 0 ≤ v
    · refine ⟨lshl x y1 (w.bits : Nat), mkInt ?_ tl rfl ?_ ?_⟩
      · simp only [nd, ct, constOf, sideEff, Bool.or_false, cfop_lsh_const, if_pos h0, if_neg (show ¬ v < 0 by omega), tl, Ty.bits]
        rw [expand_c3 gl.ex hy1 (num_lit _)]; rfl
      · rw [show xty D (lshl x y1 (w.bits : Nat)) = cty (.int w) from sty_w w]; exact fit_w
      · rw [show xty D (lshl x y1 (w.bits : Nat)) = cty (.int w) from sty_w w, (lsh_bind hyv1).1]
        simp only [val, bind_ok, after_nil, tl, Ty.bits]
        refine o1.bind ?_
        rintro _ a ⟨ha, ha2, rfl⟩
        rw [lshl_val ⟨h0, hb.2⟩]; exact hok _ _
    · obtain ⟨y2, hy2, hyv2, -, -⟩ := int_lit D V (v := -v) (by simp only [InTy, W.bits]; omega)
      refine ⟨lshr x y2 (w.bits : Nat), mkInt ?_ tl rfl ?_ ?_⟩
      · simp only [nd, ct, constOf, sideEff, Bool.or_false, cfop_lsh_const, if_neg h0, if_pos (show v < 0 by omega), tl, Ty.bits]
        rw [expand_c3 gl.ex hy2 (num_lit _)]; rfl
      · rw [show xty D (lshr x y2 (w.bits : Nat)) = cty (.int w) from sty_w w]; exact fit_w
      · rw [show xty D (lshr x y2 (w.bits : Nat)) = cty (.int w) from sty_w w, (lsh_bind hyv2).2]
        simp only [val, bind_ok, after_nil, tl, Ty.bits]
        refine o1.bind ?_
        rintro _ a ⟨ha, ha2, rfl⟩
        rw [lshr_val (by omega), neg_neg]; exact hok _ _
  | none =>
    rw [hk] at hcn
    have htr := htr hk
    have hse := hcall hk
    have hU : usual (cty (.int w)) (cty (.int w)) = prom (cty (.int w)) := by cases w <;> decide
    have hty : usual (xty D (lshl x y (w.bits : Nat))) (xty D (lshr x (.neg y) (w.bits : Nat))) = prom (cty (.int w)) := by
      show usual (sty (w.bits : Nat)) (sty (w.bits : Nat)) = _
      rw [sty_w, hU]
    refine ⟨.cond (.bin .ge y (k 0)) (lshl x y (w.bits : Nat)) (lshr x (.neg y) (w.bits : Nat)), mkInt ?_ tl rfl ?_ ?_⟩
    · simp only [nd, ct, hcn, cfop_lsh_var, tl, Ty.bits]
      rw [expand_c3 gl.ex gr.ex (num_lit _)]; rfl
    · simp only [xty, hty]; exact fit_w.prom
    · simp only [xty, hty]
      rcases Quiet.cases o2 (quiet_val D o V r hse) with h | ⟨c, h, h'⟩ | ⟨_, b, h, h', hb, hb2, rfl⟩
      · rcases htr with ⟨v, t, hh⟩ | ⟨p1, p2⟩
        · rw [h] at hh; cases hh
        simp only [val, h]
        rcases Quiet.cases o1 (quiet_val D o V l p1) with h1 | ⟨c1, h1, h1'⟩ | ⟨_, a, h1, h1', ha, ha2, rfl⟩
        · rw [h1]; trivial
        · exact absurd ⟨c1, [], h1⟩ p2
        · rw [h1]; trivial
      · rcases htr with ⟨v, t, hh⟩ | ⟨p1, p2⟩
        · rw [h] at hh; cases hh
        rw [cval_cond]
        simp only [cval, h', bind_trap, val, h]
        rcases Quiet.cases o1 (quiet_val D o V l p1) with h1 | ⟨c1, h1, h1'⟩ | ⟨_, a, h1, h1', ha, ha2, rfl⟩
        · rw [h1]; trivial
        · exact absurd ⟨c1, [], h1⟩ p2
        · rw [h1]; rfl
      · have hcmp := cmp_k (V := V) (q := .ge) rfl i2 hb2 (n := 0) (by decide) (p := fun a b => a ≥ b) (fun _ _ _ => rfl) h'
        have hb3 := hcv b [] h
        have hok2 : ∀ a, OutRel (IR (.int w) (prom (cty (.int w)))) (.ok (lshV w.bits a b) [])
            ((Out.ok (lshV w.bits a b) []).bind fun v => .ok (cnv (prom (cty (.int w))) v) []) := by
          intro a
          have : InTy (.int w) (lshV w.bits a b) := by unfold lshV; split <;> exact unbits_in _
          have h2 := (fit_w (w := w)).prom.has (prom_prom _) this
          exact .ok ⟨this, h2, cnv_has h2⟩
        rw [cval_cond, hcmp, bind_ok, after_nil, hty]
        simp only [tv_ne]
        by_cases h0 : b ≥ 0
        · rw [if_neg (by omega), (lsh_bind h').1, bind_assoc]
          simp only [val, h, bind_ok, after_nil, tl, Ty.bits]
          refine o1.bind ?_
          rintro _ a ⟨ha, ha2, rfl⟩
          rw [lshl_val ⟨h0, hb3.2⟩]; exact hok2 a
        · rw [if_pos h0, (lsh_bind (neg_val i2 hb2 h' (by omega) (by omega))).2, bind_assoc]
          simp only [val, h, bind_ok, after_nil, tl, Ty.bits]
          refine o1.bind ?_
          rintro _ a ⟨ha, ha2, rfl⟩
          rw [lshr_val (by omega), neg_neg]; exact hok2 a

/-! ### ROT -/

theorem or_rot {u n m : Nat} (hm : m ≤ n) (hu : u < 2 ^ n) :
    (u * 2 ^ m) % 2 ^ n ||| u / 2 ^ (n - m) = (u * 2 ^ m) % 2 ^ n + u / 2 ^ (n - m) := by
  have h1 : (u * 2 ^ m) % 2 ^ n = (u % 2 ^ (n - m)) * 2 ^ m := by
    have e : (2 : Nat) ^ n = 2 ^ (n - m) * 2 ^ m := by rw [← pow_add]; congr 1; omega
    rw [e, Nat.mul_mod_mul_right]
  have h2 : u / 2 ^ (n - m) < 2 ^ m := by
    rw [Nat.div_lt_iff_lt_mul (by positivity), ← pow_add, show m + (n - m) = n by omega]; exact hu
  rw [h1, ← Nat.shiftLeft_eq, ← Nat.shiftLeft_add_eq_or_of_lt h2]

/-- The two halves, joined. -/
theorem rot_val {a : Int} {m : Nat} (hm : 0 < m ∧ m < w.bits) :
    ((binX .or (prom (wu w)) (prom (wu w)) (cnv (prom (wu w)) ((bits w.bits a * 2 ^ m : Nat) : Int))
      ((bits w.bits a / 2 ^ (w.bits - m) : Nat) : Int)).bind fun v => .ok (cnv (cty (.int w)) v) []) =
      .ok (unbits w.bits (bits w.bits a * 2 ^ m + bits w.bits a / 2 ^ (w.bits - m))) [] := by
  have hp := pw_bits w
  have hu := bits_lt w.bits a
  unfold binX
  simp only [XOp.isSh, Bool.false_eq_true, if_false, pw_usual, binV, bind_ok, after_nil, cbits]
  congr 1
  rw [cnv_cnv hp, cnv_cty, ← cnv_cty (w := w), ← cnv_cty (w := w)]
  apply cnv_congr
  rw [cty_bits]
  have e : ∀ v : Int, (v % 2 ^ (prom (wu w)).bits).toNat = bits (prom (wu w)).bits v := fun _ => rfl
  rw [e, e, bits_cnv le_rfl, bits_cnv le_rfl, bits_cnv le_rfl, bits_natCast, bits_natCast]
  suffices h : (bits w.bits a * 2 ^ m % 2 ^ (prom (wu w)).bits ||| bits w.bits a / 2 ^ (w.bits - m) % 2 ^ (prom (wu w)).bits) % 2 ^ w.bits =
      (bits w.bits a * 2 ^ m + bits w.bits a / 2 ^ (w.bits - m)) % 2 ^ w.bits by exact_mod_cast h
  rw [Nat.or_mod_two_pow, Nat.mod_mod_of_dvd _ (pow_dvd_pow 2 hp), Nat.mod_mod_of_dvd _ (pow_dvd_pow 2 hp)]
  have hB : bits w.bits a / 2 ^ (w.bits - m) < 2 ^ w.bits := lt_of_le_of_lt (Nat.div_le_self _ _) hu
  have hS := Nat.or_lt_two_pow (Nat.mod_lt (bits w.bits a * 2 ^ m) (show 0 < 2 ^ w.bits by positivity)) hB
  rw [or_rot (by omega) hu] at hS
  rw [Nat.mod_eq_of_lt hB, or_rot (by omega) hu, ← Nat.mod_add_mod, Nat.mod_eq_of_lt hS]

theorem or_comm_val (T : CTy) (a b : Int) : binX .or T T a b = binX .or T T b a := by
  simp only [binX, XOp.isSh, Bool.false_eq_true, if_false, binV, cbits, Nat.or_comm]

/-- A number minus a number of shifts. -/
theorem sub_val {b : Int} (hi : IntT (xty D y)) (hb : (xty D y).has b) (hy : cval D V y = .ok b []) (h : 0 < b ∧ b < w.bits) :
    cval D V (.bin .sub (k (w.bits : Nat)) y) = .ok (w.bits - b) [] := by
  have hw : w.bits ≤ 64 := by cases w <;> decide
  have hk : CTy.i32.has (w.bits : Nat) := by cases w <;> decide
  simp only [cval, hy, bind_ok, after_nil, k_val, k_ty]
  rw [binX_int rfl i32_int hi hk hb]
  simp only [binV]
  rw [cfit_ok ((i32_int.usual hi).sg (usual_prom _ _))]
  rcases usual_int i32_int hi with ⟨e, -, -⟩ | ⟨e, -⟩ <;> rw [e] <;> simp only [CTy.has, CTy.sg, CTy.bits, if_true] <;> omega

theorem shl_part {a b : Int} (hx : cval D V x = .ok a []) (hy : cval D V y = .ok b []) (h : 0 < b ∧ b < w.bits) :
    cval D V (.bin .shl (.cast (wu w) x) y) = .ok (cnv (prom (wu w)) ((bits w.bits a * 2 ^ b.toNat : Nat) : Int)) [] := by
  have hp := pw_bits w
  simp only [cval, hx, hy, bind_ok, after_nil, xty]
  rw [binX_sh rfl, cnv_wu]
  simp only [binV]
  rw [if_pos (by omega)]; push_cast; rfl

theorem shr_part {a b : Int} (hx : cval D V x = .ok a []) (hy : cval D V y = .ok b []) (h : 0 < b ∧ b < w.bits) :
    cval D V (.bin .shr (.cast (wu w) x) y) = .ok ((bits w.bits a / 2 ^ b.toNat : Nat) : Int) [] := by
  have hp := pw_bits w
  simp only [cval, hx, hy, bind_ok, after_nil, xty]
  rw [binX_sh rfl, cnv_wu]
  simp only [binV]
  rw [if_pos (by omega)]; push_cast; rfl

theorem sh_ty (q : XOp) (hq : q.isSh = true) (hr : q.isRel = false) : xty D (.bin q (.cast (wu w) x) y) = prom (wu w) := by
  simp only [xty, hq, hr, if_true, Bool.false_eq_true, if_false]

theorem rotl_val {a b : Int} (hx : cval D V x = .ok a []) (hi : IntT (xty D y)) (hb : (xty D y).has b)
    (hy : cval D V y = .ok b []) (h : 0 < b ∧ b < w.bits) :
    cval D V (rotl x y (w.bits : Nat)) = .ok (rotV w.bits a b) [] := by
  unfold rotl rotV
  rw [sty_w, uty_w, cval, cval, shl_part hx hy h, bind_ok, after_nil,
    shr_part hx (sub_val hi hb hy h) (by omega), bind_ok, after_nil, sh_ty _ rfl rfl, sh_ty _ rfl rfl,
    show ((w.bits : Int) - b).toNat = w.bits - b.toNat by omega, rot_val (m := b.toNat) (by omega),
    show (b % (w.bits : Nat)).toNat = b.toNat by rw [Int.emod_eq_of_lt (by omega) (by omega)]]

theorem rotr_val {a b : Int} (hx : cval D V x = .ok a []) (hi : IntT (xty D y)) (hb : (xty D y).has b)
    (hy : cval D V y = .ok b []) (h : 0 < b ∧ b < w.bits) :
    cval D V (rotr x y (w.bits : Nat)) = .ok (rotV w.bits a (-b)) [] := by
  unfold rotr rotV
  have e : (-b % (w.bits : Nat)) = w.bits - b := by
    rw [← Int.add_emod_right, Int.emod_eq_of_lt (by omega) (by omega)]; omega
  rw [sty_w, uty_w, cval, cval, shr_part hx hy h, bind_ok, after_nil,
    shl_part hx (sub_val hi hb hy h) (by omega), bind_ok, after_nil, sh_ty _ rfl rfl, sh_ty _ rfl rfl, or_comm_val, e,
    show b.toNat = w.bits - ((w.bits : Int) - b).toNat by omega, rot_val (by omega)]

theorem good_rot (gl : Good D o V l x) (gr : Good D o V r y) (h : wt D (.rot l r) = true) (hc : Calm D o V (.rot l r)) :
    ∃ z, Good D o V (.rot l r) z := by
  simp only [wt, Bool.and_eq_true] at h
  obtain ⟨⟨⟨-, -⟩, h1⟩, h2⟩ := h
  obtain ⟨w, tl⟩ := isInt_ty h1
  obtain ⟨w', tr⟩ := isInt_ty h2
  obtain ⟨i1, -, o1⟩ := gl.int tl
  obtain ⟨i2, -, o2⟩ := gr.int tr
  have hcn := constOf_nd (o := o) h2
  simp only [Calm, tl, Ty.bits] at hc
  obtain ⟨-, -, hcl, hcall, htr, hcv⟩ := hc
  have hw : w.bits ≤ 64 := by cases w <;> decide
  have hq1 := quiet_val D o V l hcl
  have hin : ∀ a b, InTy (.int w) (rotV w.bits a b) := fun a b => unbits_in _
  cases hk : const? r with
  | some v =>
    rw [hk] at hcn
    obtain ⟨w2, rfl⟩ := const_val hk
    have hb := hcv v [] (by simp [val])
    obtain ⟨y1, hy1, hyv1, hyi1, hyh1⟩ := int_lit D V (v := v) (by simp only [InTy, W.bits]; omega)
    obtain ⟨y2, hy2, hyv2, hyi2, hyh2⟩ := int_lit D V (v := -v) (by simp only [InTy, W.bits]; omega)
    by_cases h0 : 0 ≤ v
    · refine ⟨rotl x y1 (w.bits : Nat), mkInt ?_ tl rfl ?_ ?_⟩
      · simp only [nd, ct, constOf, sideEff, Bool.or_false, cfop_rot_const, if_pos h0, if_neg (show ¬ v < 0 by omega), tl, Ty.bits]
        rw [expand_c3 gl.ex hy1 (num_lit _)]; rfl
      · rw [show xty D (rotl x y1 (w.bits : Nat)) = cty (.int w) from sty_w w]; exact fit_w
      · rw [show xty D (rotl x y1 (w.bits : Nat)) = cty (.int w) from sty_w w]
        simp only [val, bind_ok, after_nil, tl, Ty.bits]
        rcases Quiet.cases o1 hq1 with h | ⟨c, h, h'⟩ | ⟨_, a, h, h', ha, ha2, rfl⟩
        · rw [h]; trivial
        · rw [h]; unfold rotl; simp only [cval, h', bind_trap]; rfl
        · rw [h, rotl_val h' hyi1 hyh1 hyv1 (by omega)]
          exact .ok ⟨hin _ _, has_w.2 (hin _ _), rfl⟩
    · refine ⟨rotr x y2 (w.bits : Nat), mkInt ?_ tl rfl ?_ ?_⟩
      · simp only [nd, ct, constOf, sideEff, Bool.or_false, cfop_rot_const, if_neg h0, if_pos (show v < 0 by omega), tl, Ty.bits]
        rw [expand_c3 gl.ex hy2 (num_lit _)]; rfl
      · rw [show xty D (rotr x y2 (w.bits : Nat)) = cty (.int w) from sty_w w]; exact fit_w
      · rw [show xty D (rotr x y2 (w.bits : Nat)) = cty (.int w) from sty_w w]
        simp only [val, bind_ok, after_nil, tl, Ty.bits]
        rcases Quiet.cases o1 hq1 with h | ⟨c, h, h'⟩ | ⟨_, a, h, h', ha, ha2, rfl⟩
        · rw [h]; trivial
        · rw [h]; unfold rotr; simp only [cval, h', bind_trap]; rfl
        · rw [h, rotr_val h' hyi2 hyh2 hyv2 (by omega), neg_neg]
          exact .ok ⟨hin _ _, has_w.2 (hin _ _), rfl⟩
  | none =>
    rw [hk] at hcn
    have htr := htr hk
    have hse := hcall hk
    have hty : usual (xty D (rotl x y (w.bits : Nat))) (xty D (rotr x (.neg y) (w.bits : Nat))) = prom (cty (.int w)) := by
      show usual (sty (w.bits : Nat)) (sty (w.bits : Nat)) = _
      rw [sty_w]; cases w <;> decide
    refine ⟨.cond (.bin .ge y (k 0)) (rotl x y (w.bits : Nat)) (rotr x (.neg y) (w.bits : Nat)), mkInt ?_ tl rfl ?_ ?_⟩
    · simp only [nd, ct, hcn, cfop_rot_var, tl, Ty.bits]
      rw [expand_c3 gl.ex gr.ex (num_lit _)]; rfl
    · simp only [xty, hty]; exact fit_w.prom
    · simp only [xty, hty]
      rcases Quiet.cases o2 (quiet_val D o V r hse) with h | ⟨c, h, h'⟩ | ⟨_, b, h, h', hb, hb2, rfl⟩
      · rcases htr with ⟨v, t, hh⟩ | p2
        · rw [h] at hh; cases hh
        simp only [val, h]
        rcases Quiet.cases o1 hq1 with h1 | ⟨c1, h1, h1'⟩ | ⟨_, a, h1, h1', ha, ha2, rfl⟩
        · rw [h1]; trivial
        · exact absurd ⟨c1, [], h1⟩ p2
        · rw [h1]; trivial
      · rcases htr with ⟨v, t, hh⟩ | p2
        · rw [h] at hh; cases hh
        rw [cval_cond]
        simp only [cval, h', bind_trap, val, h]
        rcases Quiet.cases o1 hq1 with h1 | ⟨c1, h1, h1'⟩ | ⟨_, a, h1, h1', ha, ha2, rfl⟩
        · rw [h1]; trivial
        · exact absurd ⟨c1, [], h1⟩ p2
        · rw [h1]; rfl
      · have hcmp := cmp_k (V := V) (q := .ge) rfl i2 hb2 (n := 0) (by decide) (p := fun a b => a ≥ b) (fun _ _ _ => rfl) h'
        have hb3 := hcv b [] h
        have hok2 : ∀ a, OutRel (IR (.int w) (prom (cty (.int w)))) (.ok (rotV w.bits a b) [])
            ((Out.ok (rotV w.bits a b) []).bind fun v => .ok (cnv (prom (cty (.int w))) v) []) := by
          intro a
          have h2 := (fit_w (w := w)).prom.has (prom_prom _) (hin a b)
          exact .ok ⟨hin a b, h2, cnv_has h2⟩
        rw [cval_cond, hcmp, bind_ok, after_nil, hty]
        simp only [tv_ne, val, h, bind_ok, after_nil, tl, Ty.bits]
        rcases Quiet.cases o1 hq1 with h1 | ⟨c1, h1, h1'⟩ | ⟨_, a, h1, h1', ha, ha2, rfl⟩
        · rw [h1]; trivial
        · rw [h1, bind_trap]
          by_cases h0 : b ≥ 0
          · rw [if_neg (by omega)]; unfold rotl; simp only [cval, h1', bind_trap]; rfl
          · rw [if_pos h0]; unfold rotr; simp only [cval, h1', bind_trap]; rfl
        · rw [h1, bind_ok, after_nil]
          by_cases h0 : b ≥ 0
          · rw [if_neg (by omega), rotl_val h1' i2 hb2 h' (by omega)]; exact hok2 a
          · have hn := neg_val i2 hb2 h' (by omega) (by omega)
            have hpi := prom_has i2 hb2
            have hp : (xty D (.neg y)).has (-b) := by
              simp only [xty]
              rcases prom_of_int i2 with hh | hh <;> rw [hh] at hpi ⊢ <;> simp only [CTy.has, CTy.sg, CTy.bits, if_true] at hpi ⊢ <;> omega
            rw [if_pos h0, rotr_val (w := w) (y := .neg y) h1' (by simp only [xty]; exact i2.prom) hp hn (by omega), neg_neg]; exact hok2 a

end
end Verif.Eval
