import Verif.Eval.Shifts

/-!
Constants and designators.
-/
namespace Verif.Eval
open Verif.Expr

section
variable {D : Decl} {o : Opt} {V : Env} {e d i : E} {x y : X} {w : W}

theorem good_int {v : Int} (h : wt D (.int w v) = true) : ∃ z, Good D o V (.int w v) z := by
  have h1 : InTy (.int w) v := by simpa [wt] using h
  obtain ⟨y, hy, hv, hi, hh⟩ := int_lit D V (v := v) (by cases w <;> simp only [InTy, W.bits] at h1 ⊢ <;> omega)
  refine ⟨y, hy, ⟨hi, fun h => by simp [isConst'] at h⟩, ?_, fun h => by simp [isDesE] at h, fun h => by simp [isVarE] at h⟩
  simp only [val, hv]
  exact .ok ⟨h1, hh, rfl⟩

theorem hexTy_has {v : Nat} (h : v < 2 ^ 64) : (hexTy v).has v := by
  unfold hexTy
  split
  · simp only [CTy.has, CTy.sg, CTy.bits, if_true]; omega
  · split
    · simp only [CTy.has, CTy.sg, CTy.bits, Bool.false_eq_true, if_false]; omega
    · split
      · simp only [CTy.has, CTy.sg, CTy.bits, if_true]; omega
      · simp only [CTy.has, CTy.sg, CTy.bits, Bool.false_eq_true, if_false]; omega

theorem good_chr {c : Nat} (h : wt D (.chr c) = true) : ∃ z, Good D o V (.chr c) z := by
  have h1 : c < 256 := by simpa [wt] using h
  have ht : hexTy c = .i32 := by unfold hexTy; rw [if_pos (by omega)]
  refine ⟨.num (hexTy c) c, mkChr (by simp [nd, ct, expand, litVal_chr h1]) rfl rfl (by rw [xty, ht]; rfl) ?_⟩
  simp only [val, cval]
  exact .ok ⟨by simp only [InTy]; omega, hexTy_has (by omega), rfl⟩

theorem good_bool {b : Bool} : ∃ z, Good D o V (.bool b) z := by
  refine ⟨k (tv b), mkBool (by cases b <;> rfl) rfl rfl i32_int ?_⟩
  simp only [val, k_val]
  exact .ok ⟨by cases b <;> simp [InTy, tv], by rw [k_ty]; cases b <;> decide, rfl⟩

theorem good_set {s : Bool} {v : Nat} (h : wt D (.set s v) = true) : ∃ z, Good D o V (.set s v) z := by
  have h1 : v < 2 ^ sbits s := by simpa [wt] using h
  have h2 : v < 2 ^ 64 := lt_of_lt_of_le h1 (Nat.pow_le_pow_right (by omega) (by cases s <;> decide))
  have h3 : (v : Int) < 2 ^ sbits s := by exact_mod_cast h1
  refine ⟨.num (hexTy v) v, by simp [nd, ct, expand, litVal_set h2], .inr (.inr ⟨v, rfl, rfl⟩), ?_,
    fun h => by simp [isDesE] at h, fun h => by simp [isVarE] at h⟩
  simp only [val, cval]
  refine .ok ⟨?_, hexTy_has h2, ?_, fun _ => rfl⟩
  · simp only [ty, InTy]; exact ⟨by omega, h3⟩
  · rw [bits_of (by omega) h3]

/-! ### Variables -/

theorem cty_has {t : Ty} {v : Int} (h : InTy t v) : (cty t).has v := by
  cases t with
  | int w => exact has_w.2 h
  | chr => simp only [InTy, cty, CTy.has, CTy.sg, CTy.bits, Bool.false_eq_true, if_false] at h ⊢; omega
  | bool => simp only [InTy, cty, CTy.has, CTy.sg, CTy.bits, if_true] at h ⊢; omega
  | set s =>
    cases s <;> simp only [InTy, sbits, cty, CTy.has, CTy.sg, CTy.bits, Bool.false_eq_true, if_false, if_true] at h ⊢ <;> omega
  | ptr => simpa only [InTy, cty, CTy.has, CTy.sg, CTy.bits, Bool.false_eq_true, if_false] using h
  | other => simpa only [InTy, cty, CTy.has, CTy.sg, CTy.bits, Bool.false_eq_true, if_false] using h

theorem ty_var (h : isVarE e = true) : ty D e = D.ty (sp e) := by
  cases e <;> first | rfl | simp [isVarE] at h

theorem val_var (h : isVarE e = true) : val D o V e = ld V (plc D o V e) := by
  cases e <;> first | rfl | simp [isVarE] at h

theorem isVar_const (h : isVarE e = true) : isConst' e = false := by
  cases e <;> first | rfl | simp [isVarE] at h

theorem isVar_set (h : isVarE e = true) : isSet e = false := by
  cases e <;> first | rfl | simp [isVarE] at h

theorem mkVar (hV : EnvOk D V) (he : isVarE e = true) (hex : expand (ct (nd D o e)) = some x)
    (ht : xty D x = cty (D.ty (xsp x))) (hs : xsp x = sp e) (hv : cval D V x = ld V (cplc D V x))
    (hp : OutRel (PlcR D e) (plc D o V e) (cplc D V x)) : Good D o V e x := by
  have hty := ty_var (D := D) he
  refine ⟨hex, ?_, ?_, fun _ => hs, fun _ => hp⟩
  · unfold Fits
    rw [ht, hs, hty]
    cases D.ty (sp e) with
    | int w => exact ⟨fit_w.int, fun _ => fit_w⟩
    | chr => rfl
    | bool => exact .inl rfl
    | set s => exact .inl rfl
    | ptr => rfl
    | other => trivial
  · rw [val_var he, hv, ht, hs]
    refine hp.bind ?_
    rintro _ p ⟨hsp, rfl⟩
    have h1 := hV.1 p
    rw [hsp] at h1
    refine .ok ⟨by rw [hty]; exact h1, cty_has h1, ?_⟩
    rw [hty]
    cases hh : D.ty (sp e) with
    | set s =>
      rw [hh] at h1
      exact ⟨bits_of h1.1 h1.2, fun h => absurd h (by simp [isVar_set he])⟩
    | _ => rfl

theorem good_var (hV : EnvOk D V) {n : String} : ∃ z, Good D o V (.var n) z :=
  ⟨.id n, mkVar hV rfl rfl rfl rfl rfl (.ok ⟨rfl, rfl⟩)⟩

theorem at_rel {s : SP} {v : Int} (hs : sp e = .at s) : OutRel (PlcR D e) (atP s v) (atP s v) := by
  unfold atP; split
  · trivial
  · exact .ok ⟨hs.symm, rfl⟩

theorem good_varpar (hV : EnvOk D V) {n : String} : ∃ z, Good D o V (.varpar n) z := by
  refine ⟨.star (.id n), mkVar hV rfl rfl rfl rfl rfl ?_⟩
  simp only [plc, cplc, cval, bind_ok, after_nil, xsp]
  exact at_rel rfl

theorem Good.ptr (g : Good D o V e x) (ht : ty D e = .ptr) :
    xty D x = .u64 ∧ OutRel (IR .ptr .u64) (val D o V e) (cval D V x) := by
  have h1 := g.fits
  have h2 := g.out
  unfold Fits at h1
  rw [ht] at h1
  refine ⟨h1, h2.mono ?_⟩
  rintro v c ⟨a, b, hc⟩
  rw [ht] at a hc
  subst hc
  rw [h1] at b
  exact ⟨a, b, rfl⟩

theorem good_deref (hV : EnvOk D V) (g : Good D o V d x) (h : wt D (.deref d) = true) : ∃ z, Good D o V (.deref d) z := by
  simp only [wt, Bool.and_eq_true, beq_iff_eq] at h
  obtain ⟨⟨-, h1⟩, h2⟩ := h
  have hs := g.spx h1
  refine ⟨.star x, mkVar hV rfl ?_ rfl (by simp only [xsp, sp, hs]) rfl ?_⟩
  · simp [nd, ct, expand, g.ex, xun]
  · simp only [plc, cplc, hs]
    refine (g.ptr h2).2.bind ?_
    rintro _ v ⟨-, -, rfl⟩
    exact at_rel rfl

theorem ct_field {n : Nd} {f : String} (h : ∀ b q, n ≠ .deref b q) : ct (.field n f) = .dot (ct n) f := by
  cases n <;> first | rfl | (exact absurd rfl (h _ _))

theorem good_field (hV : EnvOk D V) {f : String} (g : Good D o V d x) (h : wt D (.field d f) = true) :
    ∃ z, Good D o V (.field d f) z := by
  simp only [wt, Bool.and_eq_true] at h
  obtain ⟨-, h1⟩ := h
  have hs := g.spx (isVarE_des h1)
  have hp := g.place h1
  have key : OutRel (PlcR D (.field d f)) (plc D o V (.field d f)) ((cplc D V x).bind fun p => .ok (.fld p f) []) := by
    simp only [plc]
    refine hp.bind ?_
    rintro _ p ⟨hsp, rfl⟩
    exact .ok ⟨by simp only [Place.sp, sp, hsp], rfl⟩
  by_cases hd : ∃ d', d = .deref d'
  · obtain ⟨d', rfl⟩ := hd
    have hex := g.ex
    simp only [nd, ct, Bool.false_eq_true, if_false, expand] at hex
    obtain ⟨q, hq, hx⟩ := Option.bind_eq_some_iff.mp hex
    simp only [xun, Option.some.injEq] at hx
    subst hx
    refine ⟨.arrow q f, mkVar hV rfl ?_ rfl ?_ rfl ?_⟩
    · simp [nd, ct, expand, hq]
    · simp only [xsp, sp] at hs ⊢; rw [hs]
    · simp only [cplc, bind_assoc] at key ⊢; exact key
  · refine ⟨.dot x f, mkVar hV rfl ?_ rfl ?_ rfl ?_⟩
    · simp only [nd]
      rw [ct_field]
      · simp [expand, g.ex]
      · intro b q hh
        apply hd
        cases d with
        | deref d' => exact ⟨_, rfl⟩
        | index a j n => cases n <;> simp [nd] at hh
        | _ => first | (simp [nd] at hh; done) | simp [isVarE] at h1
    · simp only [xsp, sp, hs]
    · simp only [cplc]; exact key

/-! ### Elements -/

/-- The check of an index. -/
def xmac (se : Bool) (x y : X) : X := if se then .fn2 .xf x y else .cond (.bin .lt x y) x (.halt (-2) (k 0))

theorem expand_x {n : Nd} {l : CE} (hx : expand (ct n) = some x) (hl : expand l = some y) :
    expand (c2 (xName n) (ct n) l) = some (xmac (sideEff n) x y) := by
  unfold xName xmac
  rw [expand_c2 hx hl]
  cases sideEff n <;> rfl

theorem x_rel (gi : Good D o V i x) (ti : ty D i = .int w) {n : Int} (hl : cval D V y = .ok n []) (il : IntT (xty D y))
    (hh : (xty D y).has n) (hn : 0 < n) (hc : calls D o i = false → Vals D o V i fun v => 0 ≤ v) {P : Place}
    (hs : SP.elem P.sp = sp e) :
    OutRel (PlcR D e) ((val D o V i).bind fun v => elemP true P v n)
      ((cval D V (xmac (calls D o i) x y)).bind fun v => .ok (.elem P v) []) := by
  obtain ⟨i1, -, o1⟩ := gi.int ti
  unfold xmac
  cases hse : calls D o i with
  | true =>
    simp only [if_true, cval, bind_assoc]
    refine o1.bind ?_
    rintro _ v ⟨hv, hv2, rfl⟩
    have h1 := i64_has i1 hv2
    have h2 := i64_has il hh
    simp only [CTy.has, CTy.sg, CTy.bits, if_true] at h1 h2
    rw [hl, bind_ok, after_nil]
    simp only [fn2V]
    rw [Arith.C02_xf_exact ⟨h1.1, h1.2⟩ ⟨hn.le, h2.2⟩]
    unfold elemP
    by_cases hI : 0 ≤ v ∧ v < n
    · rw [if_pos hI, if_pos hI]; exact .ok ⟨hs, rfl⟩
    · rw [if_neg hI, if_neg hI, if_pos rfl]; rfl
  | false =>
    simp only [Bool.false_eq_true, if_false]
    rw [cval_cond]
    rcases Quiet.cases o1 (quiet_val D o V i hse) with h | ⟨c, h, h'⟩ | ⟨_, v, h, h', hv, hv2, rfl⟩
    · rw [h]; trivial
    · rw [h]; simp only [cval, h', bind_trap]; rfl
    · have h0 : 0 ≤ v := hc hse v [] h
      have hcmp : cval D V (.bin .lt x y) = .ok (tv (decide (v < n))) [] := by
        simp only [cval, h', hl, bind_ok, after_nil]
        rw [binX_int rfl i1 il hv2 hh]; rfl
      rw [h, hcmp, bind_ok, bind_ok, after_nil, after_nil, bind_assoc]
      unfold elemP
      simp only [tv_ne]
      by_cases hI : v < n
      · rw [if_pos ⟨h0, hI⟩, if_neg (by omega), h', bind_ok, after_nil, bind_ok, after_nil]
        refine .ok ⟨hs, ?_⟩
        exact congrArg _ (cnv_has (usual_has i1 i32_int hv2))
      · rw [if_neg (by omega), if_pos trivial, if_pos hI]; rfl

/-- Without a check. -/
theorem nx_rel (gi : Good D o V i x) (ti : ty D i = .int w) {n : Int} {inx : Bool} {P : Place}
    (hs : SP.elem P.sp = sp e) (hin : inx = true → Vals D o V i fun v => 0 ≤ v ∧ v < n) :
    OutRel (PlcR D e) ((val D o V i).bind fun v => elemP inx P v n) ((cval D V x).bind fun v => .ok (.elem P v) []) := by
  obtain ⟨i1, -, o1⟩ := gi.int ti
  refine o1.bind' ?_
  rintro _ t v h1 ⟨hv, hv2, rfl⟩
  unfold elemP
  by_cases hI : 0 ≤ v ∧ v < n
  · rw [if_pos hI]; exact .ok ⟨hs, rfl⟩
  · rw [if_neg hI]
    cases hx : inx with
    | true => exact absurd (hin hx v t h1) hI
    | false => trivial

theorem checked_inx {i : E} {b : Bool} (h : checked o i b = true) : o.inx = true := by
  unfold checked at h
  simp only [Bool.and_eq_true] at h
  exact h.1

theorem unchecked {i : E} {b : Bool} (h : checked o i b = false) (hi : o.inx = true) : ∃ w v, i = .int w v ∧ (v = 0 ∨ b = true) := by
  unfold checked at h
  rw [hi] at h
  cases hk : const? i with
  | none => simp [hk] at h
  | some v =>
    obtain ⟨w, rfl⟩ := const_val hk
    simp [hk] at h
    exact ⟨w, v, rfl, by tauto⟩

theorem good_index (hV : EnvOk D V) {n : Len} (gd : Good D o V d x) (gi : Good D o V i y) (h : wt D (.index d i n) = true)
    (hc : Calm D o V (.index d i n)) : ∃ z, Good D o V (.index d i n) z := by
  simp only [wt, Bool.and_eq_true] at h
  obtain ⟨⟨⟨⟨-, h1⟩, -⟩, h2⟩, h3⟩ := h
  obtain ⟨w, ti⟩ := isInt_ty h2
  have hs := gd.spx (isVarE_des h1)
  have hp := gd.place h1
  simp only [Calm] at hc
  obtain ⟨-, -, hpos, hcx⟩ := hc
  have mk : ∀ z, expand (ct (nd D o (.index d i n))) = some (.idx x z) → (∀ P : Place, P.sp = sp d →
      OutRel (PlcR D (.index d i n)) ((val D o V i).bind fun v => elemP o.inx P v (lenV V n))
        ((cval D V z).bind fun v => .ok (.elem P v) [])) → ∃ z, Good D o V (.index d i n) z := by
    intro z hz hr
    refine ⟨.idx x z, mkVar hV rfl hz rfl (by simp only [xsp, sp, hs]) rfl ?_⟩
    simp only [plc, cplc]
    refine hp.bind ?_
    rintro _ p ⟨hsp, rfl⟩
    exact hr p hsp
  cases n with
  | fixed n =>
    simp only [Bool.and_eq_true, decide_eq_true_eq] at h3
    obtain ⟨h3, h4⟩ := h3
    cases hk : checked o i true with
    | true =>
      refine mk (xmac (calls D o i) y (.num (decTy n) n)) ?_ ?_
      · simp only [nd, ct, hk, if_true, expand, gd.ex, expand_x gi.ex (num_lit n), clen, Option.bind_some, Option.map_some]; rfl
      · intro P hP
        rw [checked_inx hk]
        have h5 : decTy n = .i32 := by unfold decTy; rw [if_pos h3.2]
        refine x_rel gi ti rfl (by rw [xty, h5]; exact i32_int) ?_ hpos (hcx hk) (by simp only [sp, hP])
        simp only [xty, h5, CTy.has, CTy.sg, CTy.bits, if_true]
        have : (n : Int) < 2 ^ 31 := by exact_mod_cast h3.2
        simp only [lenV]; omega
    | false =>
      refine mk y ?_ ?_
      · simp only [nd, ct, hk, Bool.false_eq_true, if_false, expand, gd.ex, gi.ex, Option.bind_some, Option.map_some]
      · intro P hP
        refine nx_rel gi ti (by simp only [sp, hP]) fun hi => ?_
        obtain ⟨w', v, rfl, -⟩ := unchecked hk hi
        intro v' t hv
        simp only [val, Out.ok.injEq] at hv
        obtain ⟨rfl, -⟩ := hv
        simpa [const?, lenV] using h4
  | open_ a =>
    have h3 : D.ty (.var a) = .int .w64 := by simpa using h3
    have hx64 : xty D (.id a) = .i64 := by simp only [xty, h3, cty]
    cases hk : checked o i false with
    | true =>
      refine mk (xmac (calls D o i) y (.id a)) ?_ ?_
      · simp only [nd, ct, ctIxs, hk, if_true, Bool.false_eq_true, if_false, expand, gd.ex, clen,
          expand_x gi.ex (show expand (.id a) = some (.id a) from rfl), Option.bind_some, Option.map_some]; rfl
      · intro P hP
        rw [checked_inx hk]
        refine x_rel gi ti rfl (by rw [hx64]; exact i64_int) ?_ hpos (hcx hk) (by simp only [sp, hP])
        have := cty_has (hV.1 (.var a))
        simp only [Place.sp] at this
        rw [h3] at this
        rw [hx64]; exact this
    | false =>
      refine mk y ?_ ?_
      · simp only [nd, ct, ctIxs, hk, Bool.false_eq_true, if_false, expand, gd.ex, gi.ex, Option.bind_some, Option.map_some]
      · intro P hP
        refine nx_rel gi ti (by simp only [sp, hP]) fun hi => ?_
        obtain ⟨w', v, rfl, hv0⟩ := unchecked hk hi
        intro v' t hv
        simp only [val, Out.ok.injEq] at hv
        obtain ⟨rfl, -⟩ := hv
        simp only [Bool.false_eq_true, or_false] at hv0
        subst hv0
        exact ⟨le_rfl, hpos⟩

theorem good_hidx (hV : EnvOk D V) (gd : Good D o V d x) (gi : Good D o V i y) (h : wt D (.hidx d i) = true)
    (hc : Calm D o V (.hidx d i)) : ∃ z, Good D o V (.hidx d i) z := by
  simp only [wt, Bool.and_eq_true, beq_iff_eq] at h
  obtain ⟨⟨⟨⟨⟨-, h1⟩, h0⟩, -⟩, h2⟩, h3⟩ := h
  obtain ⟨w, ti⟩ := isInt_ty h2
  have hs := gd.spx h1
  have hp := (gd.ptr h0).2
  simp only [Calm] at hc
  obtain ⟨-, -, hpos, hcx⟩ := hc
  have mk : ∀ z, expand (ct (nd D o (.hidx d i))) = some (.idx (.arrow x "data") z) → (∀ v t, val D o V d = .ok v t →
      cval D V x = .ok v t → v ≠ 0 → OutRel (PlcR D (.hidx d i))
        ((val D o V i).bind fun u => elemP o.inx (.fld (.at (sp d) v) "data") u (lenH V (.at (sp d) v)))
        ((cval D V z).bind fun u => .ok (.elem (.fld (.at (sp d) v) "data") u) [])) → ∃ z, Good D o V (.hidx d i) z := by
    intro z hz hr
    refine ⟨.idx (.arrow x "data") z, mkVar hV rfl hz rfl (by simp only [xsp, sp, hs]) rfl ?_⟩
    simp only [plc, cplc, bind_assoc, hs]
    cases hd : val D o V d with
    | undef => trivial
    | trap c t => rw [hd] at hp; simp only [OutRel] at hp; rw [hp]; rfl
    | ok v t =>
      rw [hd] at hp
      obtain ⟨c, hcv, -, -, hc⟩ := hp
      rw [hc] at hcv
      rw [hcv, bind_ok, bind_ok]
      refine OutRel.after ?_ t
      unfold atP
      by_cases hv : v = 0
      · rw [if_pos hv]; trivial
      · rw [if_neg hv]
        simp only [bind_ok, after_nil]
        exact hr v t hd hcv hv
  cases hk : checked o i false with
  | true =>
    refine mk (xmac (calls D o i) y (.idx (.arrow x "len") (k 0))) ?_ ?_
    · have hl : expand (clen (ctPtr (.deref true (nd D o d))) (.heap 0)) = some (.idx (.arrow x "len") (k 0)) := by
        simp [clen, ctPtr, expand, gd.ex, k, decTy]
      simp only [nd, ct, ctIxs, hk, if_true, Bool.false_eq_true, if_false, expand, gd.ex,
        expand_x gi.ex hl, Option.bind_some, Option.map_some]; rfl
    · intro v t hd hcv hv
      obtain ⟨hq, hcx⟩ := hcx hk
      have ht : t = [] := by
        have := quiet_val D o V d hq
        rw [hd] at this; exact this
      subst ht
      rw [checked_inx hk]
      have hx64 : xty D (.idx (.arrow x "len") (k 0)) = .i64 := by simp only [xty, xsp, hs, h3, cty]
      refine x_rel gi ti ?_ (by rw [hx64]; exact i64_int) ?_ (hpos v [] hd) hcx (by simp only [sp, Place.sp])
      · simp only [cval, cplc, k_val, hcv, hs, bind_ok, after_nil, atP, if_neg hv, ld, lenH]
      · have := cty_has (hV.1 (.elem (.fld (.at (sp d) v) "len") 0))
        simp only [Place.sp] at this
        rw [h3] at this
        rw [hx64]; exact this
  | false =>
    refine mk y ?_ ?_
    · simp only [nd, ct, ctIxs, hk, Bool.false_eq_true, if_false, if_true, expand, gd.ex, gi.ex, Option.bind_some, Option.map_some]
    · intro v t hd hcv hv
      refine nx_rel gi ti (by simp only [sp, Place.sp]) fun hi => ?_
      obtain ⟨w', v2, rfl, hv0⟩ := unchecked hk hi
      intro v' t' hv
      simp only [val, Out.ok.injEq] at hv
      obtain ⟨rfl, -⟩ := hv
      simp only [Bool.false_eq_true, or_false] at hv0
      subst hv0
      exact ⟨le_rfl, hpos v t hd⟩

/-! ### Type guards and lengths -/

theorem good_guard {T : String} {lev : Nat} {anon : Bool} (g : Good D o V d x) (h : wt D (.guard d T lev anon) = true)
    (hc : Calm D o V (.guard d T lev anon)) : ∃ z, Good D o V (.guard d T lev anon) z := by
  simp only [wt, Bool.and_eq_true, beq_iff_eq, Option.isNone_iff_eq_none] at h
  obtain ⟨⟨⟨-, h1⟩, h2⟩, h3⟩ := h
  obtain ⟨hx, ho⟩ := g.ptr h2
  simp only [Calm] at hc
  obtain ⟨-, hc⟩ := hc
  have mk : ∀ z, expand (ct (nd D o (.guard d T lev anon))) = some (.pcast T z) →
      OutRel (IR .ptr .u64) (val D o V (.guard d T lev anon)) (cval D V z) → ∃ z, Good D o V (.guard d T lev anon) z := by
    intro z hz hr
    refine ⟨.pcast T z, hz, rfl, ?_, fun _ => rfl, fun h => by simp [isVarE] at h⟩
    simp only [cval]
    exact hr.mono fun v c hvc => ⟨hvc.1, by rw [hvc.2.2]; exact hvc.2.1, hvc.2.2⟩
  cases ht : o.typ with
  | true =>
    refine mk (.cond (.isp x T) x (.halt (-5) x)) ?_ ?_
    · simp only [nd, ct, ht, if_true]
      rw [expand_c3 g.ex (show expand (.id T) = some (.id T) from rfl) (num_lit lev)]
      cases anon <;> rfl
    · rw [cval_cond]
      simp only [val]
      rcases Quiet.cases ho (quiet_val D o V d (hc ht)) with h | ⟨c, h, h'⟩ | ⟨_, v, h, h', hv, hv2, rfl⟩
      · rw [h]; trivial
      · rw [h]; simp only [cval, h', bind_trap]; rfl
      · simp only [h, cval, h', bind_ok, after_nil, ht]
        by_cases h0 : v = 0
        · rw [if_pos h0]; trivial
        · rw [if_neg h0, if_neg h0, bind_ok, after_nil]
          cases hT : V.isT v T with
          | true =>
            simp only [tv, if_true, one_ne_zero, if_false]
            rw [bind_ok, after_nil]
            refine .ok ⟨hv, hv2, ?_⟩
            rw [show usual (xty D x) (xty D (.halt (-5) x)) = .u64 by simp only [xty, hx]; decide]
            exact cnv_has hv2
          | false => simp only [tv, Bool.false_eq_true, if_false, if_true]; rfl
  | false =>
    refine mk x ?_ ?_
    · simp only [nd, ct, ht, Bool.false_eq_true, if_false, expand, g.ex, Option.bind_some, xcast, if_true, h3]
    · simp only [val, ht]
      cases hd : val D o V d with
      | undef => trivial
      | trap c t => rw [hd] at ho; exact ho
      | ok v t =>
        rw [hd] at ho
        obtain ⟨c, hcv, a, b, hc⟩ := ho
        rw [hc] at hcv
        rw [hcv, bind_ok]
        by_cases h0 : v = 0
        · rw [if_pos h0]; trivial
        · rw [if_neg h0]
          cases hT : V.isT v T with
          | true => simp only [if_true, Out.after, List.append_nil]; exact ⟨v, rfl, a, b, rfl⟩
          | false => trivial

theorem good_lenv (hV : EnvOk D V) {a : String} (h : wt D (.lenv w a) = true) : ∃ z, Good D o V (.lenv w a) z := by
  have h3 : D.ty (.var a) = .int .w64 := by simpa [wt] using h
  have hx64 : xty D (.id a) = .i64 := by simp only [xty, h3, cty]
  refine ⟨.id a, mkInt rfl rfl rfl (by rw [hx64]; exact .inr rfl) ?_⟩
  have := cty_has (hV.1 (.var a))
  simp only [Place.sp] at this
  rw [h3] at this
  rw [hx64]
  simp only [val, cval, fit]
  by_cases hI : InTy (.int w) (V.load (.var a))
  · rw [if_pos hI]; exact .ok ⟨hI, this, rfl⟩
  · rw [if_neg hI]; trivial

theorem good_lenh (hV : EnvOk D V) (g : Good D o V d x) (h : wt D (.lenh w d) = true) : ∃ z, Good D o V (.lenh w d) z := by
  simp only [wt, Bool.and_eq_true, beq_iff_eq] at h
  obtain ⟨⟨⟨-, h1⟩, h2⟩, h3⟩ := h
  have hs := g.spx h1
  have hx64 : xty D (.idx (.arrow x "len") (k 0)) = .i64 := by simp only [xty, xsp, hs, h3, cty]
  refine ⟨.idx (.arrow x "len") (k 0), mkInt ?_ rfl rfl (by rw [hx64]; exact .inr rfl) ?_⟩
  · simp [nd, ct, clen, ctPtr, expand, g.ex, k, decTy]
  · rw [hx64]
    simp only [val, cval, cplc, ld, bind_assoc, hs]
    refine (g.ptr h2).2.bind ?_
    rintro _ v ⟨-, -, rfl⟩
    unfold atP
    by_cases h0 : v = 0
    · rw [if_pos h0]; trivial
    · rw [if_neg h0]
      simp only [bind_ok, after_nil, k_val]
      have := cty_has (hV.1 (.elem (.fld (.at (sp d) v) "len") 0))
      simp only [Place.sp] at this
      rw [h3] at this
      unfold fit lenH
      by_cases hI : InTy (.int w) (V.load (.elem (.fld (.at (sp d) v) "len") 0))
      · rw [if_pos hI]; exact .ok ⟨hI, this, rfl⟩
      · rw [if_neg hI]; trivial

end
end Verif.Eval
