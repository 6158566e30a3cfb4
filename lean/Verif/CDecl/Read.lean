import Verif.CDecl.Lemmas

/-! # Declarations in C: what is written is read again -/
namespace Verif.CDecl

/-- A parameter is not taken for `void`. -/
theorem param_not_void (t : OT) (hl : Legal t) (ho : t.isOpen = true → OpenOk t) (d : Dcl) (m : List Tok) :
    ∀ r, base t ++ ((build t d).toks ++ m) ≠ .void :: .rpar :: r := by
  intro r h
  obtain ⟨h1, _, h3⟩ := base_head t
  have hv : (base t).head? = some .void := by
    cases hb : base t with
    | nil => rw [hb] at h1; exact absurd rfl h1
    | cons a l => rw [hb] at h; injection h with h _; rw [h]; rfl
  obtain ⟨h4, h5⟩ := h3 hv
  obtain ⟨q, hq⟩ := bracket_void t hl ho h4 d
  rw [h5, hq] at h
  simp at h

theorem member_not_brace (t : OT) (m : List Tok) : (base t ++ m).head? ≠ some .rbrace := by
  obtain ⟨h1, h2, _⟩ := base_head t
  cases hb : base t with
  | nil => rw [hb] at h1; exact absurd rfl h1
  | cons a l => rw [hb] at h2; simpa using h2

/-- The tree for `DeclareObj`. -/
def objTree (var scopeDef : Bool) (t : OT) (x : Option Nm) : Dcl :=
  build t (if (var && !t.isArray) || t.isOpen || scopeDef then (if (stars t).2 then .paren (.ptr (.name x)) else .ptr (.name x)) else .name x)

theorem objTree_nm (var scopeDef : Bool) (t : OT) (x : Option Nm) : (objTree var scopeDef t x).nm = x := by
  unfold objTree
  rw [nm_build]
  split
  · split <;> rfl
  · rfl

theorem objTree_ty (var scopeDef : Bool) (t : OT) (x : Option Nm) (hl : Legal t) (ho : t.isOpen = true → OpenOk t) :
    (objTree var scopeDef t x).ty (bct t) = if (var && !t.isArray) || t.isOpen || scopeDef then .ptr (ctype t) else ctype t := by
  unfold objTree
  rw [ty_build t hl ho]
  split
  · split <;> rfl
  · rfl

theorem declareObj_toks (var scopeDef : Bool) (t : OT) (hl : Legal t) (ho : t.isOpen = true → OpenOk t) (x : Option Nm) :
    declareObj var scopeDef t (Dcl.toks (.name x)) = (objTree var scopeDef t x).toks := declareObj_tree var scopeDef t hl ho x

mutual
theorem read_base (t : OT) (hl : Legal t ∨ t = .none) (hc : Calm t) : ∀ rest, Reads (fun n => readSpec n (base t ++ rest)) (bct t, rest) := by
  intro rest
  cases t
  case named n k => exact Reads.step (fun _ => rfl) (Reads.pure _)
  case record tag => exact Reads.step (fun _ => rfl) (Reads.pure _)
  case none => exact Reads.step (fun _ => rfl) (Reads.pure _)
  case namedOpen n e =>
    have hl' : Legal e := by rcases hl with h | h; exact h; exact absurd h (by simp)
    simp only [base, bct]; exact read_base e (Or.inl hl') hc rest
  case array n e =>
    have hl' : Legal e := by rcases hl with h | h; exact h.2; exact absurd h (by simp)
    simp only [base, bct]; exact read_base e (Or.inl hl') hc rest
  case openArr e =>
    have hl' : Legal e := by rcases hl with h | h; exact h; exact absurd h (by simp)
    simp only [base, bct]; exact read_base e (Or.inl hl') hc rest
  case proc ps r =>
    have hr : r = .none ∨ ∃ n k, r = .named n k := by rcases hl with h | h; exact h.2; exact absurd h (by simp)
    rcases hr with rfl | ⟨n, k, rfl⟩ <;> exact Reads.step (fun _ => rfl) (Reads.pure _)
  case pointer b =>
    have hl' : Legal b := by rcases hl with h | h; exact h.2; exact absurd h (by simp)
    simp only [base, bct]
    cases hb : b.isOpen
    · simp only [Bool.false_eq_true, if_false]; exact read_base b (Or.inl hl') hc rest
    · simp only [if_true]
      have h1 := read_data b hl' hc hb rest
      have h2 : Reads (fun n => readMembers n (.address :: (Dcl.toks (.arr (.name (some .len)) b.dims) ++ .semi :: (dataDecl b ++ .semi :: .rbrace :: rest))))
          (lenMember b.dims (.cons (some .data) (.array 1 (ctype b)) .nil), rest) :=
        read_member (by simp) (spec_address _) (read_dcl (d := .arr (.name (some .len)) b.dims) ⟨trivial, rfl⟩ ⟨_, Or.inr (Or.inr rfl)⟩) h1
      refine Reads.step (fun n => ?_) (Reads.map (g := fun (m : CL × List Tok) => (CT.anon m.1, m.2)) h2)
      simp only [Dcl.toks, List.cons_append, List.nil_append, List.append_assoc]
      rfl
termination_by (sizeOf t, 0)
theorem read_data (b : OT) (hl : Legal b) (hc : Calm b) (ho : b.isOpen = true) : ∀ rest, Reads (fun n => readMembers n (dataDecl b ++ .semi :: .rbrace :: rest))
    (.cons (some .data) (.array 1 (ctype b)) .nil, rest) := by
  intro rest
  have fin : ∀ e : OT, Legal e → e.isOpen = false → (∀ rest, Reads (fun n => readSpec n (base e ++ rest)) (bct e, rest)) →
      (∀ d, d.Proper → (build e d).Proper) →
      Reads (fun n => readMembers n ((base e ++ (stars e).1 ++ [.id .data, .lbrack, .num 1, .rbrack] ++ tail false e) ++ .semi :: .rbrace :: rest))
        (.cons (some .data) (.array 1 (ctype e)) .nil, rest) := by
    intro e hle hoe hbase hbuild
    have hnot : e.isOpen = true → OpenOk e := fun h => absurd h (by simp [hoe])
    have ht := emit_tree e hle false (.arr (.name (some .data)) 1) (fun h => absurd h (by simp [hoe])) (fun h => absurd h (by simp)) (fun _ _ => rfl)
      (fun h => absurd h (by simp))
    simp only [Bool.false_and, Bool.false_eq_true, if_false, List.append_nil, Dcl.toks] at ht
    have heq : (base e ++ (stars e).1 ++ [.id .data, .lbrack, .num 1, .rbrack] ++ tail false e) ++ .semi :: .rbrace :: rest =
        base e ++ ((build e (.arr (.name (some .data)) 1)).toks ++ .semi :: .rbrace :: rest) := by
      rw [← ht]; simp
    rw [heq]
    have hp : (build e (.arr (.name (some .data)) 1)).Proper := hbuild _ ⟨trivial, rfl⟩
    have hr := read_dcl hp (rest := .semi :: .rbrace :: rest) ⟨_, Or.inr (Or.inr rfl)⟩
    have hend : Reads (fun n => readMembers n (.rbrace :: rest)) (.nil, rest) := Reads.step (fun _ => rfl) (Reads.pure _)
    have := read_member (member_not_brace e _) (hbase _) hr hend
    rw [nm_build, ty_build e hle hnot] at this
    exact this
  cases b
  case namedOpen n e =>
    simp only [dataDecl, ctype]
    cases he : e.isOpen
    · simp only [Bool.false_eq_true, if_false]
      exact fin e hl he (read_base e (Or.inl hl) hc) (proper_build e hl hc)
    · simp only [if_true]; exact read_data e hl hc he rest
  case openArr e =>
    simp only [dataDecl, ctype]
    cases he : e.isOpen
    · simp only [Bool.false_eq_true, if_false]
      exact fin e hl he (read_base e (Or.inl hl) hc) (proper_build e hl hc)
    · simp only [if_true]; exact read_data e hl hc he rest
  all_goals exact absurd ho (by simp [OT.isOpen])
termination_by (sizeOf b, 0)
theorem proper_build (t : OT) (hl : Legal t) (hc : Calm t) : ∀ d : Dcl, d.Proper → (build t d).Proper := by
  intro d hd
  cases t
  case named n k => exact hd
  case record tag => exact hd
  case none => exact hd
  case namedOpen n e => exact hd
  case array n e =>
    rw [build]
    refine proper_build e hl.2 hc _ ?_
    cases h : d.isPtr
    · exact ⟨hd, h⟩
    · exact ⟨⟨hd, h⟩, rfl⟩
  case openArr e => rw [build]; exact proper_build e hl hc d hd
  case pointer b =>
    rw [build]
    cases hb : b.isOpen
    · simp only [Bool.false_eq_true, if_false]; exact proper_build b hl.2 hc _ hd
    · exact hd
  case proc ps r =>
    rw [build]
    exact ⟨⟨hd, rfl⟩, rfl, read_params false ps hl.1 hc⟩
termination_by (sizeOf t, 0)
theorem read_params (named : Bool) (ps : OL) (hl : LegalL ps) (hc : CalmL ps) : ∀ rest, Reads (fun n => readParams n (params named true ps ++ rest)) (cparams named ps, rest) := by
  intro rest
  cases ps
  case nil => exact Reads.step (fun _ => rfl) (Reads.pure _)
  case cons var x t ps =>
    have h0 := more_params named ps hl.2 hc.2.2 rest
    have h1 : More ((if t.isOpen then lenList named x t.dims 0 else if var && t.isRecord then [.comma, .address, .star] ++ nameTok named (.tagOf x) else []) ++
        (params named false ps ++ rest)) (if t.isOpen then lenParams named x t.dims 0 (cparams named ps)
          else if var && t.isRecord then .cons (if named then some (.tagOf x) else .none) (.ptr .address) (cparams named ps) else cparams named ps) rest := by
      by_cases ho : t.isOpen = true
      · rw [if_pos ho, if_pos ho]; exact more_len named x _ 0 h0
      · rw [if_neg ho, if_neg ho]
        by_cases hv : (var && t.isRecord) = true
        · rw [if_pos hv, if_pos hv]; exact more_tag named x h0
        · rw [if_neg hv, if_neg hv]; exact h0
    have ho : t.isOpen = true → OpenOk t := hc.1
    have ht := declareObj_toks var false t hl.1 ho (if named then some (.obj x) else none)
    have hp : (objTree var false t (if named then some (.obj x) else none)).Proper := by
      refine proper_build t hl.1 hc.2.1 _ ?_
      split
      · split
        · exact ⟨trivial, rfl⟩
        · exact trivial
      · exact trivial
    rw [← nameTok_toks] at ht
    have hn : ∀ m r, base t ++ ((objTree var false t (if named then some (.obj x) else none)).toks ++ m) ≠ .void :: .rpar :: r :=
      fun m => param_not_void t hl.1 ho _ m
    have hr := read_param (hn _) (read_base t (Or.inl hl.1) hc.2.1 _) (read_dcl hp h1.ends) h1
    rw [objTree_nm, objTree_ty _ _ _ _ hl.1 ho, Bool.or_false, ← ht] at hr
    rw [cparams]
    simp only [params, if_true, List.nil_append, List.append_assoc]
    simp only [declareObj, List.append_assoc] at hr
    exact hr
termination_by (sizeOf ps, 0)
theorem more_params (named : Bool) (ps : OL) (hl : LegalL ps) (hc : CalmL ps) : ∀ rest, More (params named false ps ++ rest) (cparams named ps) rest := by
  intro rest
  cases hps : ps
  case nil => exact Or.inl ⟨rfl, rfl⟩
  case cons var x t qs =>
    have h := read_params named ps hl hc rest
    rw [hps] at h
    refine Or.inr ⟨params named true (.cons var x t qs) ++ rest, ?_, h⟩
    simp [params]
termination_by (sizeOf ps, 1)
end

theorem objTree_proper (var scopeDef : Bool) (t : OT) (x : Option Nm) (hl : Legal t) (hc : Calm t) : (objTree var scopeDef t x).Proper := by
  refine proper_build t hl hc _ ?_
  split
  · split
    · exact ⟨trivial, rfl⟩
    · exact trivial
  · exact trivial

end Verif.CDecl
