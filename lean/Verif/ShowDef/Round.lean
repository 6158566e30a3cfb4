import Verif.ShowDef.Lemmas

namespace Verif.ShowDef

/-- Reading a type gives its visible part. -/
def ReadsTy (t : Ty) : Prop :=
  ∃ N, ∀ n ≥ N, ∀ rest, Follow rest → readTy n (wtype t ++ rest) = some (t.visible, rest)

def ReadsRes (r : Res) : Prop := match r with | .none => True | .some t => ReadsTy t

def ReadsPars (ps : Pars) : Prop :=
  ps.isNil = true ∨ ∃ N, ∀ n ≥ N, ∀ rest, rest.head? = some ')' → readPars n (wpars ps ++ rest) = some (ps.visible, rest)

def ReadsFlds (fs : Flds) : Prop :=
  ∃ N, ∀ n ≥ N, ∀ rest, ((word (blanks rest)).1 = "END".toList ∨ (word (blanks rest)).1 = "PROCEDURE".toList) →
    readFlds n (wfields fs ++ rest) = some (fs.visible, rest)

def ReadsMths (ms : Mths) : Prop :=
  ∃ N, ∀ n ≥ N, ∀ rest, Follow rest →
    readMths n (wmthd ms ++ (indent 2 ++ ("END".toList ++ rest))) = some (ms.visible, rest)

def ReadsSign (ps : Pars) (r : Res) : Prop :=
  ∃ N, ∀ n ≥ N, ∀ rest, Follow rest →
    readSign n (sign (r.isSome || !ps.isNil) (wpars ps) (wres r) ++ rest) = some (ps.visible, r.visible, rest)

theorem skip1 (a : Char) (s : List Char) : skip [a] (a :: s) = some s := skip_append [a] s
theorem skip2 (a b : Char) (s : List Char) : skip [a, b] (a :: b :: s) = some s := skip_append [a, b] s
theorem skip3 (a b c : Char) (s : List Char) : skip [a, b, c] (a :: b :: c :: s) = some s := skip_append [a, b, c] s

theorem wpars_head {ps : Pars} (h : ps.Ok) (hn : ps.isNil = false) (rest : List Char) :
    (wpars ps ++ rest).head? ≠ some ')' := by
  match ps with
  | .nil => cases hn
  | .cons var n t ps =>
    rw [Pars.Ok] at h
    rw [wpars]
    cases var
    · simp only [Bool.false_eq_true, if_false, List.nil_append, List.append_assoc]
      exact ident_head_ne h.1 (by decide)
    · simp

theorem follow_ne {s : List Char} (h : Follow s) {c : Char} (h1 : c ≠ ';') (h2 : c ≠ ')') (h3 : c ≠ ' ') :
    s.head? ≠ some c := by
  intro e
  rcases h with h | h | h <;> rw [e] at h <;> cases h
  · exact h1 rfl
  · exact h2 rfl
  · exact h3 rfl

theorem isNil_eq {ps : Pars} (h : ps.isNil = true) : ps = .nil := by cases ps <;> first | rfl | cases h

theorem sign_reads {ps : Pars} {r : Res} (hok : ps.Ok) (hp : ReadsPars ps) (hr : ReadsRes r) : ReadsSign ps r := by
  obtain ⟨N1, h1⟩ : ∃ N, ∀ n ≥ N, ∀ rest, rest.head? = some ')' → readPars0 n (wpars ps ++ rest) = some (ps.visible, rest) := by
    by_cases hnil : ps.isNil = true
    · have hps := isNil_eq hnil
      subst hps
      refine ⟨1, fun n hn rest hr => ?_⟩
      obtain ⟨k, rfl⟩ := Nat.exists_eq_add_of_le' hn
      rw [wpars, List.nil_append, readPars0, if_pos hr, Pars.visible]
    · obtain ⟨N, hN⟩ := hp.resolve_left hnil
      refine ⟨N + 1, fun n hn rest hr => ?_⟩
      obtain ⟨k, rfl⟩ : ∃ j, n = j + 1 := ⟨n - 1, by omega⟩
      rw [readPars0, if_neg (wpars_head hok (by simpa using hnil) rest)]
      exact hN k (by omega) rest hr
  cases r with
  | none =>
    by_cases hnil : ps.isNil = true
    · have hps := isNil_eq hnil
      subst hps
      · refine ⟨1, fun n hn rest hf => ?_⟩
        obtain ⟨k, rfl⟩ := Nat.exists_eq_add_of_le' hn
        have e : sign (Res.none.isSome || !Pars.nil.isNil) (wpars .nil) (wres .none) ++ rest = rest := by
          simp [sign, Res.isSome, Pars.isNil, wres]
        rw [e, readSign, if_neg (follow_ne hf (by decide) (by decide) (by decide)), Pars.visible, Res.visible]
    · have hnil' : ps.isNil = false := by simpa using hnil
      refine ⟨N1 + 1, fun n hn rest hf => ?_⟩
      obtain ⟨k, rfl⟩ : ∃ k, n = k + 1 := ⟨n - 1, by omega⟩
      have e : sign (Res.none.isSome || !ps.isNil) (wpars ps) (wres .none) ++ rest = '(' :: (wpars ps ++ (')' :: rest)) := by
        simp [sign, Res.isSome, hnil', wres]
      rw [e, readSign, if_pos (List.head?_cons ..)]
      rw [List.tail_cons, h1 k (by omega) _ (List.head?_cons ..)]
      simp only [Option.bind_eq_bind, Option.bind_some, skip1]
      rw [if_neg (follow_ne hf (by decide) (by decide) (by decide)), Res.visible]
      rfl
  | some t =>
    obtain ⟨N2, h2⟩ := hr
    refine ⟨N1 + N2 + 1, fun n hn rest hf => ?_⟩
    obtain ⟨k, rfl⟩ : ∃ k, n = k + 1 := ⟨n - 1, by omega⟩
    have e : sign ((Res.some t).isSome || !ps.isNil) (wpars ps) (wres (.some t)) ++ rest =
        '(' :: (wpars ps ++ (')' :: ':' :: ' ' :: (wtype t ++ rest))) := by
      simp [sign, Res.isSome, wres]
    rw [e, readSign, if_pos (List.head?_cons ..)]
    rw [List.tail_cons, h1 k (by omega) _ (List.head?_cons ..)]
    simp only [Option.bind_eq_bind, Option.bind_some, skip1, skip2, List.head?_cons, if_true]
    rw [h2 k (by omega) rest hf, Option.bind_some, Res.visible]
    rfl

theorem word_pointer (s : List Char) : word ('P'::'O'::'I'::'N'::'T'::'E'::'R'::' '::s) = ("POINTER".toList, ' '::s) :=
  word_append (n := "POINTER".toList) (by decide) (stop_cons (by decide))
theorem word_procedure (s : List Char) :
    word ('P'::'R'::'O'::'C'::'E'::'D'::'U'::'R'::'E'::' '::s) = ("PROCEDURE".toList, ' '::s) :=
  word_append (n := "PROCEDURE".toList) (by decide) (stop_cons (by decide))
theorem word_array (s : List Char) : word ('A'::'R'::'R'::'A'::'Y'::' '::s) = ("ARRAY".toList, ' '::s) :=
  word_append (n := "ARRAY".toList) (by decide) (stop_cons (by decide))
theorem word_record (s : List Char) : word ('R'::'E'::'C'::'O'::'R'::'D'::' '::s) = ("RECORD".toList, ' '::s) :=
  word_append (n := "RECORD".toList) (by decide) (stop_cons (by decide))

theorem cons_pointer (s : List Char) : "POINTER ".toList ++ s = 'P'::'O'::'I'::'N'::'T'::'E'::'R'::' '::s := rfl
theorem cons_procedure (s : List Char) : "PROCEDURE ".toList ++ s = 'P'::'R'::'O'::'C'::'E'::'D'::'U'::'R'::'E'::' '::s := rfl
theorem cons_array (s : List Char) : "ARRAY ".toList ++ s = 'A'::'R'::'R'::'A'::'Y'::' '::s := rfl
theorem cons_record (s : List Char) : "RECORD ".toList ++ s = 'R'::'E'::'C'::'O'::'R'::'D'::' '::s := rfl

theorem sign_head {ps : Pars} {r : Res} {rest : List Char} (h : Follow rest) :
    (sign (r.isSome || !ps.isNil) (wpars ps) (wres r) ++ rest).head? ≠ some '[' := by
  unfold sign
  by_cases hp : (r.isSome || !ps.isNil) = true
  · rw [if_pos hp]; simp
  · rw [if_neg hp]
    cases r with
    | none => rw [wres, List.nil_append, List.nil_append]; exact follow_ne h (by decide) (by decide) (by decide)
    | some t => exact absurd rfl hp

theorem digit_head {s t : List Char} (h : ∀ c ∈ s, isDigit c = true) (hn : s ≠ []) {d : Char} (hd : isDigit d = false) :
    (s ++ t).head? ≠ some d := by
  cases s with
  | nil => exact absurd rfl hn
  | cons c s =>
    intro e
    cases e
    rw [h d (by simp)] at hd
    cases hd

theorem wtype_named (n : Name) : wtype (.named none n) = n := rfl
theorem wtype_import (m n : Name) : wtype (.named (some m) n) = m ++ '.' :: n := rfl
theorem wtype_hidden (n : Name) : wtype (.hidden n) = '#' :: n := rfl
theorem wtype_pointer (flag : Nat) (b : Ty) :
    wtype (.pointer flag b) = "POINTER ".toList ++ (sysFlag flag ++ ("TO ".toList ++ wtype b)) := rfl
theorem wtype_proc (flag : Nat) (ps : Pars) (r : Res) : wtype (.proc flag ps r) =
    "PROCEDURE ".toList ++ (sysFlag flag ++ sign (r.isSome || !ps.isNil) (wpars ps) (wres r)) := rfl
theorem wtype_arr (flag n : Nat) (b : Ty) : wtype (.arr flag n b) =
    "ARRAY ".toList ++ (sysFlag flag ++ (wn (n + 1) n ++ (" OF ".toList ++ wtype b))) := rfl
theorem wtype_dyn (flag : Nat) (b : Ty) : wtype (.dyn flag b) =
    "ARRAY ".toList ++ (sysFlag flag ++ ("OF ".toList ++ wtype b)) := rfl
theorem wtype_record (flag : Nat) (base : Res) (fs : Flds) (ms : Mths) : wtype (.record flag base fs ms) =
    "RECORD ".toList ++ (sysFlag flag ++ (wbase base ++ ('\n' :: (wfields fs ++ (wmthd ms ++
      (indent 2 ++ "END".toList)))))) := rfl

mutual
theorem ty_reads : (t : Ty) → t.Ok → ReadsTy t
  | .named none n, h => by
    rw [Ty.Ok] at h
    refine ⟨1, fun k hk rest hf => ?_⟩
    obtain ⟨k, rfl⟩ := Nat.exists_eq_add_of_le' hk
    obtain ⟨r1, r2, r3, r4, _, _⟩ := not_reserved h
    rw [wtype_named, readTy, if_neg (ident_head_ne h (by decide)), word_append h.2.1 (stop_follow hf)]
    dsimp only
    rw [if_neg r1, if_neg r2, if_neg r3, if_neg r4, if_neg (follow_ne hf (by decide) (by decide) (by decide)), Ty.visible]
  | .named (some m) n, h => by
    rw [Ty.Ok] at h
    refine ⟨1, fun k hk rest hf => ?_⟩
    obtain ⟨k, rfl⟩ := Nat.exists_eq_add_of_le' hk
    obtain ⟨r1, r2, r3, r4, _, _⟩ := not_reserved h.1
    rw [wtype_import, List.append_assoc, List.cons_append, readTy, if_neg (ident_head_ne h.1 (by decide)),
      word_append h.1.2.1 (stop_cons (by decide))]
    dsimp only
    rw [if_neg r1, if_neg r2, if_neg r3, if_neg r4, if_pos (List.head?_cons ..), List.tail_cons, word_append h.2.2.1 (stop_follow hf),
      Ty.visible]
  | .hidden n, h => by
    rw [Ty.Ok] at h
    refine ⟨1, fun k hk rest hf => ?_⟩
    obtain ⟨k, rfl⟩ := Nat.exists_eq_add_of_le' hk
    rw [wtype_hidden, List.cons_append, readTy, if_pos (List.head?_cons ..), List.tail_cons, word_append h.2.1 (stop_follow hf), Ty.visible]
  | .pointer flag b, h => by
    rw [Ty.Ok] at h
    obtain ⟨N, hN⟩ := ty_reads b h
    refine ⟨N + 1, fun k hk rest hf => ?_⟩
    obtain ⟨k, rfl⟩ : ∃ j, k = j + 1 := ⟨k - 1, by omega⟩
    rw [wtype_pointer, List.append_assoc, cons_pointer, List.append_assoc, List.append_assoc, readTy, if_neg (by simp), word_pointer]
    dsimp only
    rw [if_pos rfl, skip1]
    simp only [Option.bind_eq_bind, Option.bind_some]
    rw [readFlag_ok flag (by simp), Option.bind_some]
    dsimp only
    rw [skip_append, Option.bind_some, hN k (by omega) rest hf, Option.bind_some, Ty.visible]
    rfl
  | .proc flag ps r, h => by
    rw [Ty.Ok] at h
    obtain ⟨N, hN⟩ := sign_reads h.1 (pars_reads ps h.1) (res_reads r h.2)
    refine ⟨N + 1, fun k hk rest hf => ?_⟩
    obtain ⟨k, rfl⟩ : ∃ j, k = j + 1 := ⟨k - 1, by omega⟩
    rw [wtype_proc, List.append_assoc, cons_procedure, List.append_assoc, readTy, if_neg (by simp), word_procedure]
    dsimp only
    rw [if_neg (by decide), if_pos rfl, skip1]
    simp only [Option.bind_eq_bind, Option.bind_some]
    rw [readFlag_ok flag (sign_head hf), Option.bind_some]
    dsimp only
    rw [hN k (by omega) rest hf, Option.bind_some, Ty.visible]
    rfl
  | .arr flag n b, h => by
    rw [Ty.Ok] at h
    obtain ⟨N, hN⟩ := ty_reads b h
    obtain ⟨w1, w2, w3⟩ := wn_ok (n + 1) n (by omega)
    refine ⟨N + 1, fun k hk rest hf => ?_⟩
    obtain ⟨k, rfl⟩ : ∃ j, k = j + 1 := ⟨k - 1, by omega⟩
    rw [wtype_arr, List.append_assoc, cons_array, List.append_assoc, List.append_assoc, List.append_assoc, readTy,
      if_neg (by simp), word_array]
    dsimp only
    rw [if_neg (by decide), if_neg (by decide), if_pos rfl, skip1]
    simp only [Option.bind_eq_bind, Option.bind_some]
    rw [readFlag_ok flag (digit_head w2 w3 (by decide)), Option.bind_some]
    dsimp only
    rw [if_neg (digit_head w2 w3 (by decide))]
    have htd := takeDrop (p := isDigit) (n := wn (n + 1) n) (s := " OF ".toList ++ (wtype b ++ rest)) w2
      (fun c hc => by cases hc; decide)
    rw [htd.1, htd.2, skip_append, Option.bind_some, hN k (by omega) rest hf, Option.bind_some, w1, Ty.visible]
    rfl
  | .dyn flag b, h => by
    rw [Ty.Ok] at h
    obtain ⟨N, hN⟩ := ty_reads b h
    refine ⟨N + 1, fun k hk rest hf => ?_⟩
    obtain ⟨k, rfl⟩ : ∃ j, k = j + 1 := ⟨k - 1, by omega⟩
    rw [wtype_dyn, List.append_assoc, cons_array, List.append_assoc, List.append_assoc, readTy,
      if_neg (by simp), word_array]
    dsimp only
    rw [if_neg (by decide), if_neg (by decide), if_pos rfl, skip1]
    simp only [Option.bind_eq_bind, Option.bind_some]
    rw [readFlag_ok flag (by simp), Option.bind_some]
    dsimp only
    rw [if_pos (by simp), skip_append, Option.bind_some, hN k (by omega) rest hf, Option.bind_some, Ty.visible]
    rfl
  | .record flag base fs ms, h => by
    rw [Ty.Ok] at h
    have hb := res_reads base h.1
    obtain ⟨N2, h2⟩ := flds_reads fs h.2.1
    obtain ⟨N3, h3⟩ := mths_reads ms h.2.2
    obtain ⟨N1, h1⟩ : ∃ N, ∀ n ≥ N, ∀ rest, readBase n (wbase base ++ '\n' :: rest) = some (base.visible, '\n' :: rest) := by
      cases base with
      | none =>
        refine ⟨1, fun n hn rest => ?_⟩
        obtain ⟨k, rfl⟩ := Nat.exists_eq_add_of_le' hn
        rw [wbase, List.nil_append, readBase, if_neg (by simp), Res.visible]
      | some t =>
        obtain ⟨N, hN⟩ := hb
        refine ⟨N + 1, fun n hn rest => ?_⟩
        obtain ⟨k, rfl⟩ : ∃ j, n = j + 1 := ⟨n - 1, by omega⟩
        rw [wbase, List.cons_append, List.append_assoc, readBase, if_pos (List.head?_cons ..), List.tail_cons,
          hN k (by omega) _ (Or.inr (Or.inl rfl))]
        simp only [Option.bind_eq_bind, Option.bind_some, List.singleton_append, skip1]
        rw [Res.visible]
        rfl
    refine ⟨N1 + N2 + N3 + 1, fun k hk rest hf => ?_⟩
    obtain ⟨k, rfl⟩ : ∃ j, k = j + 1 := ⟨k - 1, by omega⟩
    rw [wtype_record, List.append_assoc, cons_record, List.append_assoc, List.append_assoc, List.cons_append, List.append_assoc,
      List.append_assoc, List.append_assoc, readTy, if_neg (by simp), word_record]
    dsimp only
    rw [if_neg (by decide), if_neg (by decide), if_neg (by decide), if_pos rfl, skip1]
    simp only [Option.bind_eq_bind, Option.bind_some]
    have hh : (wbase base ++ '\n' :: (wfields fs ++ (wmthd ms ++ (indent 2 ++ ("END".toList ++ rest))))).head? ≠ some '[' := by
      cases base with
      | none => rw [wbase]; simp
      | some t => rw [wbase]; simp
    rw [readFlag_ok flag hh, Option.bind_some]
    dsimp only
    rw [h1 k (by omega), Option.bind_some]
    dsimp only
    rw [skip1, Option.bind_some, h2 k (by omega) _ (mths_head ms hf), Option.bind_some]
    dsimp only
    rw [h3 k (by omega) rest hf, Option.bind_some, Ty.visible]
    rfl
theorem res_reads : (r : Res) → r.Ok → ReadsRes r
  | .none, _ => trivial
  | .some t, h => by rw [Res.Ok] at h; exact ty_reads t h
theorem pars_reads : (ps : Pars) → ps.Ok → ReadsPars ps
  | .nil, _ => Or.inl rfl
  | .cons var n t ps, h => by
    rw [Pars.Ok] at h
    obtain ⟨N1, h1⟩ := ty_reads t h.2.1
    have hp := pars_reads ps h.2.2
    right
    by_cases hnil : ps.isNil = true
    · have hps := isNil_eq hnil
      subst hps
      · refine ⟨N1 + 1, fun k hk rest hf => ?_⟩
        obtain ⟨k, rfl⟩ : ∃ j, k = j + 1 := ⟨k - 1, by omega⟩
        rw [wpars, if_pos (show Pars.nil.isNil = true from rfl), List.append_nil, List.append_assoc, List.append_assoc, List.cons_append, List.cons_append,
          readPars, readVar_ok var h.1 (stop_cons (by decide))]
        simp only [Option.bind_eq_bind, Option.bind_some, skip2]
        rw [h1 k (by omega) rest (Or.inr (Or.inl hf)), Option.bind_some]
        dsimp only
        rw [if_neg (by rw [hf]; decide), Pars.visible, Pars.visible]
        rfl
    · rcases hp with hp | ⟨N2, h2⟩
      · exact absurd hp hnil
      · refine ⟨N1 + N2 + 1, fun k hk rest hf => ?_⟩
        obtain ⟨k, rfl⟩ : ∃ j, k = j + 1 := ⟨k - 1, by omega⟩
        rw [wpars, if_neg hnil, List.append_assoc, List.append_assoc, List.cons_append, List.cons_append,
          List.append_assoc, List.cons_append, List.cons_append, readPars, readVar_ok var h.1 (stop_cons (by decide))]
        simp only [Option.bind_eq_bind, Option.bind_some, skip2]
        rw [h1 k (by omega) _ (Or.inl rfl), Option.bind_some]
        dsimp only
        rw [if_pos (List.head?_cons ..), skip2, Option.bind_some, h2 k (by omega) rest hf, Option.bind_some, Pars.visible]
        rfl
theorem flds_reads : (fs : Flds) → fs.Ok → ReadsFlds fs
  | .nil, _ => by
    refine ⟨1, fun k hk rest hf => ?_⟩
    obtain ⟨k, rfl⟩ := Nat.exists_eq_add_of_le' hk
    rw [wfields, List.nil_append, readFlds]
    dsimp only
    rw [if_pos hf, Flds.visible]
  | .cons n ro t fs, h => by
    rw [Flds.Ok] at h
    obtain ⟨N2, h2⟩ := flds_reads fs h.2
    by_cases hn : n.head? = some '@'
    · refine ⟨N2, fun k hk rest hf => ?_⟩
      rw [wfields, if_neg (by simpa using hn), List.nil_append, h2 k hk rest hf, Flds.visible, if_pos hn]
    · obtain ⟨hi, ht⟩ := h.1.resolve_right hn
      obtain ⟨N1, h1⟩ := ty_reads t ht
      refine ⟨N1 + N2 + 1, fun k hk rest hf => ?_⟩
      obtain ⟨k, rfl⟩ : ∃ j, k = j + 1 := ⟨k - 1, by omega⟩
      obtain ⟨_, r2, _, _, r5, _⟩ := not_reserved hi
      have e : (indent 3 ++ (n ++ ((if ro then ['-'] else []) ++ (':' :: ' ' :: (wtype t ++ [';', '\n']))))) ++ wfields fs ++
          rest = indent 3 ++ (n ++ ((if ro then ['-'] else []) ++ (':' :: ' ' :: (wtype t ++ (';' :: '\n' :: (wfields fs ++ rest)))))) := by
        simp
      have hs : Stop ((if ro then ['-'] else []) ++ (':' :: ' ' :: (wtype t ++ (';' :: '\n' :: (wfields fs ++ rest))))) := by
        cases ro
        · exact stop_cons (by decide)
        · exact stop_cons (by decide)
      rw [wfields, if_pos hn, e, readFlds, blanks_indent 3 (ident_head_ne hi (by decide)), word_append hi.2.1 hs]
      dsimp only
      rw [if_neg (by simp only [not_or]; exact ⟨r5, r2⟩), readMark_ok ro (by simp)]
      dsimp only
      simp only [Option.bind_eq_bind, Option.bind_some, skip2]
      rw [h1 k (by omega) _ (Or.inl rfl), Option.bind_some]
      dsimp only
      rw [skip2, Option.bind_some, h2 k (by omega) rest hf, Option.bind_some, Flds.visible, if_neg hn]
      rfl
theorem mths_reads : (ms : Mths) → ms.Ok → ReadsMths ms
  | .nil, _ => by
    refine ⟨1, fun k hk rest hf => ?_⟩
    obtain ⟨k, rfl⟩ := Nat.exists_eq_add_of_le' hk
    rw [wmthd, List.nil_append, readMths, blanks_indent 2 (by simp), word_append (by decide) (stop_follow hf)]
    dsimp only
    rw [if_pos rfl, Mths.visible]
  | .cons rvar rn rt n ps r ms, h => by
    rw [Mths.Ok] at h
    obtain ⟨N3, h3⟩ := mths_reads ms h.2
    by_cases hn : n = "@tproc".toList
    · refine ⟨N3, fun k hk rest hf => ?_⟩
      rw [wmthd, if_neg (by rw [hn]; decide), List.nil_append, h3 k hk rest hf, Mths.visible, if_pos hn]
    · obtain ⟨hrn, hrt, hni, hps, hr⟩ := h.1.resolve_right hn
      obtain ⟨N1, h1⟩ := ty_reads rt hrt
      obtain ⟨N2, h2⟩ := sign_reads hps (pars_reads ps hps) (res_reads r hr)
      refine ⟨N1 + N2 + N3 + 1, fun k hk rest hf => ?_⟩
      obtain ⟨k, rfl⟩ : ∃ j, k = j + 1 := ⟨k - 1, by omega⟩
      generalize hX : wmthd ms ++ (indent 2 ++ ("END".toList ++ rest)) = X at h3
      generalize hS : sign (r.isSome || !ps.isNil) (wpars ps) (wres r) = S at h2
      have hne : n ≠ hdTProcName := hn
      have e : wmthd (.cons rvar rn rt n ps r ms) ++ (indent 2 ++ ("END".toList ++ rest)) =
          indent 3 ++ ("PROCEDURE".toList ++ (' ' :: '(' :: ((if rvar then "VAR ".toList else []) ++ (rn ++ (':' :: ' ' ::
            (wtype rt ++ (')' :: ' ' :: (n ++ (S ++ (';' :: '\n' :: X)))))))))) := by
        rw [wmthd, if_pos hne, ← hX, hS]
        have : "PROCEDURE (".toList = "PROCEDURE".toList ++ [' ', '('] := by decide
        rw [this]
        simp only [List.append_assoc, List.cons_append, List.nil_append]
      have hs : Stop (S ++ (';' :: '\n' :: X)) := by
        rw [← hS]
        unfold sign
        by_cases hp : (r.isSome || !ps.isNil) = true
        · rw [if_pos hp]; exact stop_cons (by decide)
        · rw [if_neg hp]
          cases r with
          | none => rw [wres]; exact stop_cons (by decide)
          | some t => exact absurd rfl hp
      have h3' := h3 k (by omega) rest hf
      rw [hX] at h3'
      rw [e, readMths, blanks_indent 3 (by simp), word_append (by decide) (stop_cons (by decide))]
      dsimp only
      rw [if_neg (by decide), skip2]
      simp only [Option.bind_eq_bind, Option.bind_some]
      rw [readVar_ok rvar hrn (stop_cons (by decide)), Option.bind_some]
      dsimp only
      rw [skip2, Option.bind_some, h1 k (by omega) _ (Or.inr (Or.inl rfl)), Option.bind_some]
      dsimp only
      rw [skip2, Option.bind_some, word_append hni.2.1 hs]
      dsimp only
      rw [h2 k (by omega) _ (Or.inl rfl), Option.bind_some]
      dsimp only
      rw [skip2, Option.bind_some, h3', Option.bind_some, Mths.visible, if_neg hn]
      rfl
end

end Verif.ShowDef
