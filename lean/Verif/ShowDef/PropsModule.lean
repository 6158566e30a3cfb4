import Verif.ShowDef.Module
import Verif.ShowDef.Props

/-!
# C91: whole definitions
-/
namespace Verif.ShowDef

theorem skip_some {p s r : List Char} (h : skip p s = some r) : s = p ++ r := by
  induction p generalizing s with
  | nil => simp only [skip, Option.some.injEq] at h; simpa using h
  | cons c p ih =>
    cases s with
    | nil => cases h
    | cons d s =>
      rw [skip] at h
      by_cases e : c = d
      · rw [if_pos e] at h; rw [e, ih h]; rfl
      · rw [if_neg e] at h; cases h

theorem skip_none {p s : List Char} {a b : Option Char} (hs : s[2]? = a) (hp : p[2]? = b) (hl : 2 < p.length) (h : a ≠ b) :
    skip p s = none := by
  cases e : skip p s with
  | none => rfl
  | some r =>
    rw [skip_some e, List.getElem?_append_left hl, hp] at hs
    exact absurd hs.symm h

theorem names_read : ∀ (ns : List Name), ns ≠ [] → (∀ n ∈ ns, Ident n) → ∀ f ≥ ns.length, ∀ rest,
    readNames f (wnames ns ++ (';' :: rest)) = some (ns, ';' :: rest)
  | [], h, _, _, _, _ => absurd rfl h
  | [n], _, h, f, hf, rest => by
    obtain ⟨k, rfl⟩ : ∃ k, f = k + 1 := ⟨f - 1, by simp at hf; omega⟩
    rw [wnames, readNames, word_append (h n (by simp)).2.1 (stop_cons (by decide))]
    dsimp only
    rw [if_neg (by simp)]
  | n :: m :: ns, _, h, f, hf, rest => by
    obtain ⟨k, rfl⟩ : ∃ k, f = k + 1 := ⟨f - 1, by simp at hf; omega⟩
    have ih := names_read (m :: ns) (by simp) (fun x hx => h x (by simp [hx])) k (by simp at hf ⊢; omega) rest
    rw [wnames, List.append_assoc, List.cons_append, List.cons_append, readNames,
      word_append (h n (by simp)).2.1 (stop_cons (by decide))]
    · dsimp only
      rw [if_pos (List.head?_cons ..), skip2]
      simp only [Option.bind_eq_bind, Option.bind_some]
      rw [ih]
      rfl
    · simp

theorem wdecl_head (d : Decl) (s : List Char) : (wdecl d ++ s).head? = some ' ' := by
  cases d <;> rfl

theorem decls_read (ds : List Decl) (h : ∀ d ∈ ds, d.Ok) : ∃ N, ∀ n ≥ N, ∀ rest,
    readDecls n (ds.flatMap wdecl ++ ('\n' :: rest)) = some (ds.map Decl.visible, rest) := by
  induction ds with
  | nil =>
    refine ⟨1, fun n hn rest => ?_⟩
    obtain ⟨k, rfl⟩ : ∃ k, n = k + 1 := ⟨n - 1, by omega⟩
    rw [List.flatMap_nil, List.nil_append, readDecls, if_pos (List.head?_cons ..), List.tail_cons]
    rfl
  | cons d ds ih =>
    obtain ⟨N, hN⟩ := ih (fun d hd => h d (by simp [hd]))
    obtain ⟨M, hM⟩ := C91_decl_partial d (h d (by simp))
    refine ⟨N + M + 1, fun n hn rest => ?_⟩
    obtain ⟨k, rfl⟩ : ∃ k, n = k + 1 := ⟨n - 1, by omega⟩
    rw [List.flatMap_cons, List.append_assoc, readDecls, if_neg (by rw [wdecl_head]; decide), hM k (by omega)]
    simp only [Option.bind_eq_bind, Option.bind_some]
    rw [hN k (by omega)]
    rfl

theorem consts_read (cs : List (Name × Value)) (h : ∀ c ∈ cs, Ident c.1 ∧ c.2.Ok) : ∀ n > cs.length + 65, ∀ rest,
    readConsts n ((cs.flatMap fun c => wconst c.1 c.2) ++ ('\n' :: rest)) = some (cs, rest) := by
  induction cs with
  | nil =>
    intro n hn rest
    obtain ⟨k, rfl⟩ : ∃ k, n = k + 1 := ⟨n - 1, by omega⟩
    rw [List.flatMap_nil, List.nil_append, readConsts, if_pos (List.head?_cons ..), List.tail_cons]
  | cons c cs ih =>
    intro n hn rest
    obtain ⟨k, rfl⟩ : ∃ k, n = k + 1 := ⟨n - 1, by omega⟩
    simp only [List.length_cons] at hn
    have hc := h c (by simp)
    have hh : ∀ s, (wconst c.1 c.2 ++ s).head? = some ' ' := fun s => rfl
    rw [List.flatMap_cons, List.append_assoc, readConsts, if_neg (by rw [hh]; decide),
      C91_const_partial c.1 c.2 hc.1 hc.2 k (by omega)]
    simp only [Option.bind_eq_bind, Option.bind_some]
    rw [ih (fun d hd => h d (by simp [hd])) k (by omega)]
    rfl

theorem sect_read {α : Type} {header hd body : List Char} {p : List Char → Option (List α × List Char)} {l : List α} {rest : List Char}
    (hh : indent 1 ++ (hd ++ ['\n']) = header) (hb : body = [] → l = []) (hp : p (body ++ ('\n' :: rest)) = some (l, rest))
    (hs : body = [] → skip header rest = none) : readSect header p (wsect hd body ++ rest) = some (l, rest) := by
  unfold wsect readSect
  by_cases h : body = []
  · rw [if_pos h, List.nil_append, hs h, hb h]
  · rw [if_neg h]
    have e : indent 1 ++ (hd ++ '\n' :: (body ++ ['\n'])) ++ rest = header ++ (body ++ '\n' :: rest) := by
      rw [← hh]; simp
    rw [e, skip_append]
    exact hp

theorem flat_nil {ds : List Decl} (h : ds.flatMap wdecl = []) : ds = [] := by
  cases ds with
  | nil => rfl
  | cons d ds =>
    rw [List.flatMap_cons] at h
    have := wdecl_head d (ds.flatMap wdecl)
    rw [h] at this
    cases this

theorem flatc_nil {cs : List (Name × Value)} (h : (cs.flatMap fun c => wconst c.1 c.2) = []) : cs = [] := by
  cases cs with
  | nil => rfl
  | cons c cs => rw [List.flatMap_cons] at h; cases h

/-- The character that tells what a text begins with. -/
theorem procs_third {ps : List Decl} (h : ∀ d ∈ ps, d.Ok ∧ ∃ k n qs r, d = .proc k n qs r) (rest : List Char) :
    (ps.flatMap wdecl ++ ('\n' :: 'E' :: 'N' :: rest))[2]? = some 'P' ∨ (ps.flatMap wdecl ++ ('\n' :: 'E' :: 'N' :: rest))[2]? = some 'N' := by
  cases ps with
  | nil => right; rfl
  | cons d ps =>
    left
    obtain ⟨_, k, n, qs, r, rfl⟩ := h d (by simp)
    rfl

theorem sect_third {hd body rest : List Char} {c : Char} (hc : hd.head? = some c) :
    (body = [] ∧ wsect hd body ++ rest = rest) ∨ (wsect hd body ++ rest)[2]? = some c := by
  unfold wsect
  by_cases h : body = []
  · left; rw [if_pos h]; exact ⟨h, rfl⟩
  · right
    rw [if_neg h]
    cases hd with
    | nil => cases hc
    | cons d hd => cases hc; rfl

theorem top_read (b e : Nat) (n : Name) (imports : List Name) (hn : Ident n) (hi : ∀ m ∈ imports, Ident m)
    (h : imports ≠ [] ∨ e ≠ (wtitle n).length) (rest : List Char) (f : Nat) (hf : imports.length ≤ f) :
    ∃ r, wtop b e n imports ++ rest = "DEFINITION ".toList ++ (n ++ (';' :: '\n' :: r)) ∧ readImports f r = some (imports, rest) := by
  unfold wtop wtitle
  by_cases hnil : imports ≠ []
  · rw [if_pos hnil]
    refine ⟨"  IMPORT\n    ".toList ++ (wnames imports ++ (';' :: '\n' :: '\n' :: rest)), ?_, ?_⟩
    · have : "  IMPORT\n    ".toList = indent 1 ++ ("IMPORT".toList ++ ('\n' :: indent 2)) := by decide
      rw [this]
      simp only [List.append_assoc, List.cons_append, List.nil_append]
    · unfold readImports
      rw [skip_append]
      dsimp only
      rw [names_read imports hnil hi f hf]
      simp only [Option.bind_eq_bind, Option.bind_some]
      rw [skip3]
      rfl
  · rw [if_neg hnil]
    have hnil' : imports = [] := by simpa using hnil
    have he := h.resolve_left hnil
    unfold wtitle at he
    rw [if_neg he]
    refine ⟨'\n' :: rest, by simp only [List.append_assoc, List.cons_append, List.nil_append], ?_⟩
    unfold readImports
    have : skip "  IMPORT\n    ".toList ('\n' :: rest) = none := rfl
    rw [this, hnil']
    dsimp only
    rw [skip1]
    rfl

/-- C91: the text of a whole definition, read again, gives the name of the module, its imports, and exactly what it exports: the
constants, types, variables and procedures, in this order, each with its exported parts.  For a module without imports this needs
that a variable without a value does not happen to have one certain value (see `C91_no_imports`). -/
theorem C91_module_partial (b e : Nat) (i : Interface) (h : i.Ok) (he : i.imports ≠ [] ∨ e ≠ (wtitle i.name).length) :
    ∃ N, ∀ n ≥ N, readModule n (wmodule b e i) = some i.visible := by
  obtain ⟨N1, h1⟩ := decls_read i.types h.types
  obtain ⟨N2, h2⟩ := decls_read i.vars h.vars
  obtain ⟨N3, h3⟩ := decls_read i.procs (fun d hd => (h.procs d hd).1)
  have h0 := consts_read i.consts h.consts
  refine ⟨N1 + N2 + N3 + i.imports.length + i.consts.length + 66, fun n hn => ?_⟩
  unfold wmodule
  have hEnd : ("END ".toList ++ (i.name ++ ['.', '\n'])) = 'E' :: 'N' :: ('D' :: ' ' :: (i.name ++ ['.', '\n'])) := rfl
  have p3 := procs_third h.procs ('D' :: ' ' :: (i.name ++ ['.', '\n']))
  rw [← hEnd] at p3
  generalize hP : i.procs.flatMap wdecl ++ ('\n' :: ("END ".toList ++ (i.name ++ ['.', '\n']))) = P at p3
  have v3 := sect_third (hd := "VAR".toList) (body := i.vars.flatMap wdecl) (rest := P) (c := 'V') rfl
  have hv : readSect "  VAR\n".toList (readDecls n) (wsect "VAR".toList (i.vars.flatMap wdecl) ++ P) = some (i.vars.map Decl.visible, P) := by
    refine sect_read (by decide) (fun e => by rw [flat_nil e]; rfl) (h2 n (by omega) P) (fun _ => ?_)
    rcases p3 with p3 | p3
    · exact skip_none p3 (show _ = some 'V' from rfl) (by decide) (by decide)
    · exact skip_none p3 (show _ = some 'V' from rfl) (by decide) (by decide)
  generalize hV : wsect "VAR".toList (i.vars.flatMap wdecl) ++ P = V at v3 hv
  have v4 : V[2]? = some 'V' ∨ V[2]? = some 'P' ∨ V[2]? = some 'N' := by
    rcases v3 with ⟨_, v3⟩ | v3
    · rw [v3]; exact Or.inr p3
    · exact Or.inl v3
  have t3 := sect_third (hd := "TYPE".toList) (body := i.types.flatMap wdecl) (rest := V) (c := 'T') rfl
  have ht : readSect "  TYPE\n".toList (readDecls n) (wsect "TYPE".toList (i.types.flatMap wdecl) ++ V) = some (i.types.map Decl.visible, V) := by
    refine sect_read (by decide) (fun e => by rw [flat_nil e]; rfl) (h1 n (by omega) V) (fun _ => ?_)
    rcases v4 with p | p | p <;> exact skip_none p (show _ = some 'T' from rfl) (by decide) (by decide)
  generalize hT : wsect "TYPE".toList (i.types.flatMap wdecl) ++ V = T at t3 ht
  have t4 : T[2]? = some 'T' ∨ T[2]? = some 'V' ∨ T[2]? = some 'P' ∨ T[2]? = some 'N' := by
    rcases t3 with ⟨_, t3⟩ | t3
    · rw [t3]; exact Or.inr v4
    · exact Or.inl t3
  have hc : readSect "  CONST\n".toList (readConsts n) (wsect "CONST".toList (i.consts.flatMap fun c => wconst c.1 c.2) ++ T) =
      some (i.consts, T) := by
    refine sect_read (by decide) (fun e => flatc_nil e) (h0 n (by omega) T) (fun _ => ?_)
    rcases t4 with p | p | p | p <;> exact skip_none p (show _ = some 'C' from rfl) (by decide) (by decide)
  obtain ⟨r, e1, e2⟩ := top_read b e i.name i.imports h.name h.imports he
    (wsect "CONST".toList (i.consts.flatMap fun c => wconst c.1 c.2) ++ T) n (by omega)
  have hp := h3 n (by omega) ("END ".toList ++ (i.name ++ ['.', '\n']))
  rw [hP] at hp
  rw [e1]
  unfold readModule
  rw [skip_append]
  simp only [Option.bind_eq_bind, Option.bind_some]
  rw [word_append h.name.2.1 (stop_cons (by decide))]
  dsimp only
  rw [skip2, Option.bind_some, e2, Option.bind_some]
  dsimp only
  rw [hc, Option.bind_some]
  dsimp only
  rw [ht, Option.bind_some]
  dsimp only
  rw [hv, Option.bind_some]
  dsimp only
  rw [hp, Option.bind_some]
  dsimp only
  have hl := skip_append ("END ".toList ++ (i.name ++ ['.', '\n'])) []
  rw [List.append_nil] at hl
  rw [hl]
  rfl

/-- Deviation: for a module without imports the variables `beg` and `end` are used before they have a value (BrowserCmd.Mod 222,
241).  If they happen to be 0 and the length of the first line, the first line is deleted, and the text is no definition. -/
theorem C91_no_imports (i : Interface) (h : i.imports = []) (n : Nat) :
    readModule n (wmodule 0 (wtitle i.name).length i) = none := by
  have ht : wtop 0 (wtitle i.name).length i.name i.imports = [] := by
    unfold wtop
    rw [if_neg (by simpa using h), if_pos rfl]
    simp
  unfold wmodule
  rw [ht, List.nil_append]
  have key : ∀ s : List Char, s.head? = some ' ' ∨ s.head? = some '\n' → skip "DEFINITION ".toList s = none := by
    intro s hs
    cases e : skip "DEFINITION ".toList s with
    | none => rfl
    | some r =>
      rw [skip_some e] at hs
      rcases hs with hs | hs <;> cases hs
  have sect : ∀ hd body rest : List Char, (rest.head? = some ' ' ∨ rest.head? = some '\n') →
      ((wsect hd body ++ rest).head? = some ' ' ∨ (wsect hd body ++ rest).head? = some '\n') := by
    intro hd body rest hr
    unfold wsect
    split
    · exact hr
    · left; rfl
  have hprocs : ∀ rest : List Char, ((i.procs.flatMap wdecl ++ ('\n' :: rest)).head? = some ' ' ∨
      (i.procs.flatMap wdecl ++ ('\n' :: rest)).head? = some '\n') := by
    intro rest
    cases i.procs with
    | nil => right; rfl
    | cons d ds => left; rw [List.flatMap_cons, List.append_assoc]; exact wdecl_head d _
  unfold readModule
  rw [key _ (sect _ _ _ (sect _ _ _ (sect _ _ _ (hprocs _))))]
  rfl

/-! ## Examples -/

/-- A module with an import, a constant, a type, and a procedure. -/
def sampleModule : Interface :=
  ⟨"M".toList, ["Texts".toList, "Files".toList], [("n".toList, .int 10), ("s".toList, .set [0, 2])], [.typ false "T".toList sample], [],
    [.proc .plain "Open".toList .nil .none]⟩

example : sampleModule.Ok where
  name := by decide
  imports := by decide
  consts := by
    intro c hc
    simp only [sampleModule, List.mem_cons, List.not_mem_nil, or_false] at hc
    rcases hc with rfl | rfl
    · exact ⟨by decide, by decide, by decide⟩
    · exact ⟨by decide, by decide, by decide⟩
  types := by
    intro d hd
    simp only [sampleModule, List.mem_cons, List.not_mem_nil, or_false] at hd
    subst hd
    simp only [Decl.Ok, sample, Ty.Ok, Res.Ok, Flds.Ok, Mths.Ok, Pars.Ok]
    decide +kernel
  vars := by intro d hd; cases hd
  procs := by
    intro d hd
    simp only [sampleModule, List.mem_cons, List.not_mem_nil, or_false] at hd
    subst hd
    refine ⟨?_, _, _, _, _, rfl⟩
    simp only [Decl.Ok, Kind.Ok, Res.Ok, Pars.Ok]
    decide

example : String.ofList (wmodule 0 0 ⟨"M".toList, ["Texts".toList, "Files".toList], [("n".toList, .int 10)], [], [],
      [.proc .plain "Open".toList .nil .none]⟩) =
    "DEFINITION M;\n  IMPORT\n    Texts, Files;\n\n  CONST\n    n = 10;\n\n  PROCEDURE Open;\n\nEND M.\n" := by decide +kernel

end Verif.ShowDef
