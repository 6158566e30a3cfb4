import Verif.CNames.Distinct

/-! # C71: the names in the C text -/
namespace Verif.CNames

theorem decls_module (b : Bool) (m : Module) (h : m.Ok) (hb : b = true → NoLocals linkName m.decls) :
    Res b m.name 0 0 0 (m.decls.flatMap (keys 0)) (declsEntries m.name 0 0 m.decls 0) :=
  decls_res b m.name h.name 0 0 0 (fun h => absurd rfl h) m.decls h.decls (keys_nodup0 h.scope h.bound) hb

/-- The names of imported objects. -/
def importEntries (is : List (Name × List Name)) : List Entry :=
  (is.map fun i => ⟨.file, initName i.1⟩ :: i.2.map fun x => ⟨.file, qual i.1 x⟩).flatten

theorem import_sym {m : Module} (h : m.Ok) {e : Entry} (he : e ∈ importEntries m.imports) :
    ∃ i ∈ m.imports, ∃ s, Text s e.name ∧ (s = .init i.1 ∨ ∃ x, s = .glob i.1 x) := by
  unfold importEntries at he
  rw [List.mem_flatten] at he
  obtain ⟨l, hl, he⟩ := he
  rw [List.mem_map] at hl
  obtain ⟨i, hi, rfl⟩ := hl
  refine ⟨i, hi, ?_⟩
  obtain ⟨h1, h2, h3, h4⟩ := h.imports i hi
  rw [List.mem_cons, List.mem_map] at he
  rcases he with rfl | ⟨x, hx, rfl⟩
  · exact ⟨.init i.1, ⟨h1, rfl⟩, Or.inl rfl⟩
  · exact ⟨.glob i.1 x, ⟨h1, h4 x hx, rfl⟩, Or.inr ⟨x, rfl⟩⟩

theorem imports_sep (b : Bool) (is : List (Name × List Name))
    (h1 : ∀ i ∈ is, IsIdent i.1 ∧ i.2.Nodup ∧ ∀ x ∈ i.2, IsIdent x) (h2 : (is.map Prod.fst).Nodup) :
    (importEntries is).Pairwise (Sep b) := by
  unfold importEntries
  rw [List.pairwise_flatten]
  constructor
  · intro l hl
    rw [List.mem_map] at hl
    obtain ⟨i, hi, rfl⟩ := hl
    obtain ⟨a1, a2, a3⟩ := h1 i hi
    rw [List.pairwise_cons]
    constructor
    · intro e he
      rw [List.mem_map] at he
      obtain ⟨x, hx, rfl⟩ := he
      exact sep_text (s := .init i.1) (s' := .glob i.1 x) ⟨a1, rfl⟩ ⟨a1, a3 x hx, rfl⟩ (by simp)
    · rw [List.pairwise_map]
      refine List.Pairwise.imp_of_mem ?_ a2
      intro x y hx hy hxy
      exact sep_text (s := .glob i.1 x) (s' := .glob i.1 y) ⟨a1, a3 x hx, rfl⟩ ⟨a1, a3 y hy, rfl⟩ (by simpa using hxy)
  · rw [List.pairwise_map]
    rw [List.Nodup, List.pairwise_map] at h2
    refine List.Pairwise.imp_of_mem ?_ h2
    intro i j hi hj hij e he e' he'
    obtain ⟨a1, a2, a3⟩ := h1 i hi
    obtain ⟨b1, b2, b3⟩ := h1 j hj
    rw [List.mem_cons, List.mem_map] at he he'
    rcases he with rfl | ⟨x, hx, rfl⟩ <;> rcases he' with rfl | ⟨y, hy, rfl⟩
    · exact sep_text (s := .init i.1) (s' := .init j.1) ⟨a1, rfl⟩ ⟨b1, rfl⟩ (by simpa using hij)
    · exact sep_text (s := .init i.1) (s' := .glob j.1 y) ⟨a1, rfl⟩ ⟨b1, b3 y hy, rfl⟩ (by simp)
    · exact sep_text (s := .glob i.1 x) (s' := .init j.1) ⟨a1, a3 x hx, rfl⟩ ⟨b1, rfl⟩ (by simp)
    · exact sep_text (s := .glob i.1 x) (s' := .glob j.1 y) ⟨a1, a3 x hx, rfl⟩ ⟨b1, b3 y hy, rfl⟩ (by simp [hij])

theorem module_sep (b : Bool) (m : Module) (h : m.Ok) (hb : b = true → NoLocals linkName m.decls) (hk : (moduleEntries m).2 ≤ 32767) :
    (moduleEntries m).1.Pairwise (Sep b) ∧ ∀ e ∈ (moduleEntries m).1, ∃ s, Text s e.name := by
  obtain ⟨_, hr⟩ := decls_module b m h hb
  obtain ⟨g, p⟩ := hr hk
  have e1 : (moduleEntries m).1 =
      ⟨.file, initName m.name⟩ :: (importEntries m.imports ++ (declsEntries m.name 0 0 m.decls 0).1) := rfl
  rw [e1]
  -- own names are not initialisations or names of other modules
  have own : ∀ e ∈ (declsEntries m.name 0 0 m.decls 0).1, ∃ s, Text s e.name ∧ (∀ n, s ≠ .init n) ∧ ∀ n x, s = .glob n x → n = m.name := by
    intro e he
    obtain ⟨s, t, q⟩ := g e he
    refine ⟨s, t, fun n hn => ?_, fun n x hn => ?_⟩
    · subst hn
      rcases q with ⟨q, o, ho, w⟩ | ⟨j, w, _⟩ | ⟨_, _, _, _, w⟩
      · simp [Sym.owner] at w
      · simp [Sym.stamp?] at w
      · exact w
    · subst hn
      rcases q with ⟨q, o, ho, w⟩ | ⟨j, w, _⟩ | ⟨_, _, _, _, w⟩
      · rw [if_pos rfl] at q; exact q.2
      · simp [Sym.stamp?] at w
      · exact w.elim
  have t0 : Text (.init m.name) (initName m.name) := ⟨h.name, rfl⟩
  constructor
  · rw [List.pairwise_cons, List.pairwise_append]
    refine ⟨?_, imports_sep b m.imports (fun i hi => ?_) h.modules, p, ?_⟩
    · intro e he
      rw [List.mem_append] at he
      rcases he with he | he
      · obtain ⟨i, hi, s, t, rfl | ⟨x, rfl⟩⟩ := import_sym h he
        · exact sep_text t0 t (by simpa using fun e => (h.imports i hi).2.1 e.symm)
        · exact sep_text t0 t (by simp)
      · obtain ⟨s, t, n1, n2⟩ := own e he
        exact sep_text t0 t (fun e => n1 _ e.symm)
    · obtain ⟨a, _, c, d⟩ := h.imports i hi
      exact ⟨a, c, d⟩
    · intro a ha c hc
      obtain ⟨s, t, n1, n2⟩ := own c hc
      obtain ⟨i, hi, s', t', rfl | ⟨x, rfl⟩⟩ := import_sym h ha
      · exact sep_text t' t (fun e => n1 _ e.symm)
      · exact sep_text t' t (fun e => (h.imports i hi).2.1 (n2 _ _ e.symm))
  · intro e he
    rw [List.mem_cons, List.mem_append] at he
    rcases he with rfl | he | he
    · exact ⟨_, t0⟩
    · obtain ⟨i, hi, s, t, _⟩ := import_sym h he
      exact ⟨s, t⟩
    · obtain ⟨s, t, _⟩ := own e he
      exact ⟨s, t⟩

/-- C71, main part.  In the C text of a legal module any two names that are visible together, outside of functions or in one, are
different: nothing hides or redeclares another thing.  Partial: the records without names are left out (`C71_anonymous`), and the numbers
must fit into an INTEGER. -/
theorem C71_distinct_partial (m : Module) (h : m.Ok) (hk : (moduleEntries m).2 ≤ 32767) :
    (moduleEntries m).1.Pairwise fun a b =>
      Together a.place b.place → (∀ f, a.place ≠ .member f) → a.name ≠ b.name :=
  List.Pairwise.imp (fun {_ _} hs ht hp => hs ⟨ht, Or.inr hp⟩) (module_sep false m h (fun e => by cases e) hk).1

/-- C71, records: the members of the record that a procedure shares with those inside it also have different names.  Partial: unless a
variable or parameter is called `lnk` (`C71_link`). -/
theorem C71_members_partial (m : Module) (h : m.Ok) (hk : (moduleEntries m).2 ≤ 32767) (hl : NoLocals "lnk".toList m.decls) :
    (moduleEntries m).1.Pairwise fun a b => Together a.place b.place → a.name ≠ b.name :=
  List.Pairwise.imp (fun {_ _} hs ht => hs ⟨ht, Or.inl rfl⟩) (module_sep true m h (fun _ => hl) hk).1

theorem free : ∀ w ∈ cKeywords ++ cTypes, w = "UINT8".toList ∨ w = "UINT32".toList ∨ ident w ≠ w := by decide +kernel
theorem plain_words : ∀ w ∈ cKeywords ++ cTypes, comps w = [w] ∧ w ≠ [] := by decide +kernel

theorem text_keyword {s : Sym} {w : Name} (hw : w ∈ cKeywords ++ cTypes) (h : Text s w) :
    s = .loc w ∧ (w = "UINT8".toList ∨ w = "UINT32".toList) := by
  have hd := decode_text s w h
  obtain ⟨hp, hn⟩ := plain_words w hw
  rw [hp] at hd
  have : decode [w].reverse = some (.loc w) := by
    cases w with
    | nil => exact absurd rfl hn
    | cons a b => rfl
  rw [this] at hd
  obtain rfl := Option.some.inj hd
  refine ⟨rfl, ?_⟩
  rcases free w hw with e | e | e
  · exact Or.inl e
  · exact Or.inr e
  · exact absurd h.2.symm e

/-- C71, keywords: no name in the C text of a legal module is a keyword of C or the name of a basic type.  Partial: except that a local
variable or parameter can be called `UINT8` or `UINT32` (`C71_lost`). -/
theorem C71_keywords_partial (m : Module) (h : m.Ok) (hk : (moduleEntries m).2 ≤ 32767) :
    ∀ e ∈ (moduleEntries m).1, e.name ∈ cKeywords ++ cTypes → e.name = "UINT8".toList ∨ e.name = "UINT32".toList := by
  intro e he hw
  obtain ⟨s, t⟩ := (module_sep false m h (fun e => by cases e) hk).2 e he
  exact (text_keyword hw t).2

/-- C71: what is done to the name of a variable: nothing, or an underscore is added; this only for words in the table; and different
variables keep different names. -/
theorem C71_escape (n : Name) (h : IsIdent n) :
    (ident n = n ∨ (ident n = n ++ "_".toList ∧ n ∈ entered)) ∧ ∀ n', IsIdent n' → ident n = ident n' → n = n' := by
  constructor
  · by_cases e : table (perfectHash n) = some n
    · exact Or.inr ⟨by rw [ident, if_pos e]; rfl, table_mem e⟩
    · exact Or.inl (by rw [ident, if_neg e])
  · intro n' h' e
    have t1 : Text (.loc n) (ident n) := ⟨h, rfl⟩
    have t2 : Text (.loc n') (ident n) := ⟨h', e⟩
    have := text_inj t1 t2
    injection this

/-- Deviation: the hash function is not perfect.  `do` takes the place of `UINT32` and `size_t` that of `UINT8`; variables of these names
are not changed, and hide the type in the function. -/
theorem C71_lost :
    perfectHash "UINT32".toList = perfectHash "do".toList ∧ perfectHash "UINT8".toList = perfectHash "size_t".toList ∧
    ident "UINT32".toList = "UINT32".toList ∧ ident "UINT8".toList = "UINT8".toList ∧
    "UINT32".toList ∈ entered ∧ "UINT8".toList ∈ entered := by decide +kernel

/-- Deviation: the keywords that C has since 1999 are not in the table; a variable called `inline` or `restrict` keeps its name. -/
theorem C71_c99 : ident "inline".toList = "inline".toList ∧ ident "restrict".toList = "restrict".toList := by decide +kernel

/-- A module with one procedure with a variable `lnk`. -/
def linkModule : Module := ⟨"M".toList, [], [.proc "P".toList [.var { name := "lnk".toList }]]⟩

/-- Deviation: with a variable called `lnk`, the record has two members of the same name. -/
theorem C71_link : ∃ a b r, (moduleEntries linkModule).1.filter (fun e => decide (e.place = .member 1)) = a :: b :: r ∧ a.name = b.name := by
  exact ⟨⟨.member 1, "lnk".toList⟩, ⟨.member 1, "lnk".toList⟩, [], by decide +kernel, rfl⟩

/-- A module `M` whose procedure declares a type `M`. -/
def anonModule : Module := ⟨"M".toList, [], [.proc "P".toList [.typ "M".toList true]]⟩

/-- Deviation: the second record without a name in the module has the same name in C as a type declared in a procedure, if that has the
name of the module. -/
theorem C71_anonymous : ∃ e ∈ (moduleEntries anonModule).1, e.place = .file ∧ e.name = andent "M".toList 2 := by decide +kernel

theorem cut_short {v : Var} (h : v.name.length ≤ 31) : cut v = v := by
  unfold cut
  rw [List.take_of_length_le h]

/-- C71, calls of procedures bound to types: the names in the body of the macro are its parameters.  Partial: if the names have at most 31
characters (`C71_long`) and the receiver does not have the name of a C keyword (`C71_receiver`). -/
theorem C71_macro_partial (r : Var) (ps : List Var) (hr : r.dims = 0) (hs : ∀ v ∈ r :: ps, v.name.length ≤ 31) (hi : r.name ∉ entered) :
    ∃ d, (macroNames r ps).2 = d :: (macroNames r ps).1 ∧ d ∈ (macroNames r ps).1 ∧
      d = if r.tagged then r.name ++ "__typ".toList else r.name := by
  have e : (r :: ps).map cut = r :: ps := by
    conv => rhs; rw [← List.map_id (r :: ps)]
    exact List.map_congr_left fun v hv => cut_short (hs v hv)
  have hid : ident r.name = r.name := by
    unfold ident
    rw [if_neg (fun h => hi (table_mem h))]
  unfold macroNames
  rw [e, hid]
  refine ⟨_, rfl, ?_, rfl⟩
  unfold macroParams
  rw [List.map_cons, List.flatten_cons]
  refine List.mem_append_left _ ?_
  cases ht : r.tagged
  · exact List.mem_cons_self
  · simp [hr, typExt]

/-- Deviation: if the receiver is called like a keyword, the name in the body of the macro is not its parameter. -/
theorem C71_receiver : ∃ r ps d, (macroNames r ps).2.head? = some d ∧ d ∉ (macroNames r ps).1 :=
  ⟨{ name := "int".toList }, [], "int_".toList, by decide +kernel, by decide +kernel⟩

/-- Deviation: a parameter with more than 31 characters has another name in the body of the macro. -/
theorem C71_long : ∃ r ps, ∃ d ∈ (macroNames r ps).2, d ∉ (macroNames r ps).1 :=
  ⟨{ name := ['t'] }, [{ name := List.replicate 32 'x' }], List.replicate 31 'x', by decide +kernel, by decide +kernel⟩

/-- Deviation: the parameters of the macro are not protected, so that keywords in its body, such as `void` for the result, are replaced by
the argument. -/
theorem C71_void : ∃ r ps, "void".toList ∈ (macroNames r ps).1 ∧ "void".toList ∈ cKeywords :=
  ⟨{ name := ['t'] }, [{ name := "void".toList }], by decide +kernel, by decide +kernel⟩

/-! ## Cases that meet the hypotheses -/

theorem ident_of (n : Name) (h : (decide ('_' ∉ n) && (match n with | c :: _ => !(decide (48 ≤ c.toNat) && decide (c.toNat ≤ 57)) | [] => false)) = true) :
    IsIdent n := by
  rw [Bool.and_eq_true] at h
  refine ⟨of_decide_eq_true h.1, ?_⟩
  cases n with
  | nil => simp at h
  | cons c r => exact ⟨c, r, rfl, by have := h.2; simp at this; omega⟩

/-- A module with variables named like keywords, nested procedures and types, types bound to procedures, loops and imports. -/
def sample : Module :=
  ⟨"M".toList, [("Out".toList, ["Int".toList, "Ln".toList])],
    [.typ "T".toList true, .var { name := "int".toList }, .loop,
     .bound "T".toList "P".toList [.var { name := "t".toList, tagged := true }, .var { name := "int".toList, dims := 2 }],
     .proc "P".toList [.var { name := "for".toList, copied := true }, .loop, .typ "T".toList true,
       .proc "P".toList [.var { name := "UINT8".toList }, .loop]]]⟩

example : sample.Ok where
  name := ident_of _ (by decide)
  imports := by
    intro i hi
    simp only [sample, List.mem_singleton] at hi
    subst hi
    refine ⟨ident_of _ (by decide), by decide, by decide, ?_⟩
    intro x hx
    simp only [List.mem_cons, List.not_mem_nil, or_false] at hx
    rcases hx with rfl | rfl <;> exact ident_of _ (by decide)
  modules := by decide
  decls := by
    refine ⟨ident_of _ (by decide), ⟨ident_of _ (by decide), by decide⟩, trivial,
      ⟨rfl, ident_of _ (by decide), ident_of _ (by decide), by decide, ⟨ident_of _ (by decide), by decide⟩, ⟨ident_of _ (by decide), by decide⟩, trivial⟩,
      ⟨ident_of _ (by decide), by decide, ⟨ident_of _ (by decide), by decide⟩, trivial, ident_of _ (by decide),
        ⟨ident_of _ (by decide), by decide, ⟨ident_of _ (by decide), by decide⟩, trivial, trivial⟩, trivial⟩, trivial⟩
  scope := by decide
  bound := by decide

example : (moduleEntries sample).2 = 8 := by decide +kernel

example : NoLocals "lnk".toList sample.decls := by
  simp [sample, NoLocals, Decl.NoLocal]

example : (moduleEntries sample).1.map (fun e => (e.place, String.ofList e.name)) =
    [(.file, "M__init"), (.file, "Out__init"), (.file, "Out_Int"), (.file, "Out_Ln"), (.file, "M_T"), (.file, "M_T__typ"),
     (.file, "M_int"), (.file, "M__for__1"),
     (.file, "M_T_P"), (.file, "P__2"), (.file, "P__2_s"), (.local 2, "_s"), (.local 2, "__retval"), (.member 2, "lnk"),
     (.local 2, "t"), (.local 2, "t__typ"), (.local 2, "t__"), (.member 2, "t"), (.member 2, "t__typ"),
     (.local 2, "int_"), (.local 2, "int___len"), (.local 2, "int___len1"), (.member 2, "int_"), (.member 2, "int___len"),
     (.member 2, "int___len1"),
     (.file, "M_P"), (.file, "P__3"), (.file, "P__3_s"), (.local 3, "_s"), (.local 3, "__retval"), (.member 3, "lnk"),
     (.local 3, "for_"), (.local 3, "for___copy"), (.member 3, "for_"), (.local 3, "_for__4"), (.member 3, "_for__4"),
     (.file, "T__5"), (.file, "T__5__typ"),
     (.file, "P__6"), (.file, "P__6__7"), (.file, "P__6__7_s"), (.local 7, "_s"), (.local 7, "__retval"), (.member 7, "lnk"),
     (.local 7, "UINT8"), (.member 7, "UINT8"), (.local 7, "_for__8"), (.member 7, "_for__8")] := by decide +kernel

example : macroNames { name := "t".toList, tagged := true } [{ name := "int".toList, dims := 1 }] =
    (["t", "t__typ", "int", "int___len"].map String.toList, ["t__typ", "t", "t__typ", "int", "int___len"].map String.toList) := by
  decide +kernel

end Verif.CNames
