import Verif.CDefs.Run

/-!
# C66: types are defined in the C text before they are used

For a module in which no type is needed for itself, the compiler writes definitions of all its types in which every name and every structure is defined before it is used and
only once, and reports no error.  There are modules, which the language allows, with types that are needed for themselves through pointers to arrays or through the headers of
bound procedures; for these the compiler reports an error or never ends.
-/
namespace Verif.CDefs

theorem start_inv (T : Tab) : Inv T [] start := by
  refine ⟨⟨fun i => (by simp [start]), fun i h => (by simp [start] at h), fun i h => (by simp [start] at h), fun i h => (by simp [start] at h)⟩, rfl, trivial,
    fun i h => ?_, fun t h => ?_⟩
  · obtain ⟨ms, h⟩ := h; simp [start] at h
  · obtain ⟨it, h, _⟩ := h; simp [start] at h

/-- No type is being processed. -/
def Quiet (s : State) : Prop := ∀ i, s.mark i ≠ .processing

theorem Ext.quiet {s s' : State} (h : Ext s s') (hq : Quiet s) : Quiet s' := fun i hi => hq i ((h.proc i).1 hi)

theorem anons_run {T : Tab} {r : Nat → Nat} (hr : ∀ i j, Needs T i j → r j < r i) :
    ∀ (post pre : List Nat) (s : State), (∀ a ∈ post, (T.node a).isRecord = true) →
      (∀ p a q, post = p ++ a :: q → T.named a = false → a ∉ pre ++ p ∧ ∀ j, Needs T a j → Anon T j → j ∈ pre ++ p) →
      Inv T pre s → Quiet s → (∀ j ∈ pre, Anon T j → Complete s.out j) →
      ∃ s', Evals (fun n => each (defAnon T n) post s) s' ∧ Inv T (pre ++ post) s' ∧ Quiet s' ∧ Ext s s' ∧ (∀ j ∈ pre ++ post, Anon T j → Complete s'.out j)
  | [], pre, s, _, _, hi, hq, hc => ⟨s, Evals.pure _, by simpa using hi, hq, Ext.refl s, by simpa using hc⟩
  | a :: post, pre, s, hre, ho, hi, hq, hc => by
    have hmore : ∀ {s : State}, Inv T pre s → Inv T (pre ++ [a]) s := fun h =>
      ⟨h.base, h.err, h.ord, h.defd, fun t ht => (h.compl t ht).imp id (fun h => ⟨h.1, List.mem_append_left _ h.2⟩)⟩
    have hone : ∃ s', Evals (fun n => defAnon T n a s) s' ∧ Inv T (pre ++ [a]) s' ∧ Quiet s' ∧ Ext s s' ∧ (∀ j ∈ pre ++ [a], Anon T j → Complete s'.out j) := by
      unfold defAnon
      by_cases hn : T.named a = true
      · simp only [hn, if_true]
        refine ⟨s, Evals.pure _, hmore hi, hq, Ext.refl s, fun j hj ha => ?_⟩
        rcases List.mem_append.1 hj with hj | hj
        · exact hc j hj ha
        · rw [List.mem_singleton.1 hj] at ha; rw [ha.1] at hn; cases hn
      · have hnf : T.named a = false := by simpa using hn
        simp only [hnf, Bool.false_eq_true, if_false]
        obtain ⟨h1, h2⟩ := ho [] a post rfl hnf
        rw [List.append_nil] at h1 h2
        obtain ⟨s1, e1, i1, x1, r1⟩ := define_run hr (r a + 1) a (by omega) pre s hi (fun j hj => absurd hj (hq j)) (fun j hj ha => hc j (h2 j hj ha) ha)
        obtain ⟨ms, e2, f2⟩ := body_run hr i1.base a (i1.base.needs r1) (fun j hj ha => x1.complete (hc j (h2 j hj ha) ha))
        have hnew : ¬ Complete s1.out a := by
          intro h
          rcases i1.compl a h with h | ⟨_, h⟩
          · have := (i1.base.named a h).1
            rw [hnf] at this; cases this
          · exact h1 h
        have hm : Item.mentions (.struct a (.body a :: ms)) = .body a :: ms := rfl
        refine ⟨{ s1 with out := s1.out ++ [.struct a (.body a :: ms)] }, Evals.bind e1 (Evals.bind e2 (Evals.pure _)), ?_, x1.quiet hq, x1.trans (ext_add _ _), fun j hj ha => ?_⟩
        · refine ⟨⟨i1.base.nopre, fun i hi => (i1.base.text i hi).mono, i1.base.named, i1.base.closed⟩, i1.err, ?_, fun i hi => ?_, fun t ht => ?_⟩
          · refine ordered_snoc _ _ _ i1.ord ?_ ?_ (fun t ms he => nomatch he)
            · rw [hm, List.nil_append]
              intro m hmm
              rcases List.mem_cons.1 hmm with rfl | hmm
              · exact hnew
              · exact f2.1 m hmm
            · rw [hm]; simp [bodies, f2.2]
          · obtain ⟨us, hu⟩ := hi
            rcases List.mem_append.1 hu with hu | hu
            · exact i1.defd i ⟨us, hu⟩
            · exact absurd (List.mem_singleton.1 hu) (fun h => nomatch h)
          · obtain ⟨it, hit, hb⟩ := ht
            rcases List.mem_append.1 hit with hit | hit
            · exact (i1.compl t ⟨it, hit, hb⟩).imp id (fun h => ⟨h.1, List.mem_append_left _ h.2⟩)
            · rw [List.mem_singleton.1 hit, hm] at hb
              have := mem_bodies hb
              simp only [bodies, f2.2, List.mem_singleton] at this
              rw [this]
              exact Or.inr ⟨hnf, by simp⟩
        · rcases List.mem_append.1 hj with hj | hj
          · exact (x1.complete (hc j hj ha)).mono
          · rw [List.mem_singleton.1 hj]
            exact ⟨.struct a (.body a :: ms), by simp, by simp [Item.mentions]⟩
    obtain ⟨s1, e1, i1, q1, x1, c1⟩ := hone
    obtain ⟨s2, e2, i2, q2, x2, c2⟩ := anons_run hr post (pre ++ [a]) s1 (fun b hb => hre b (List.mem_cons_of_mem _ hb)) (fun p b q hp hb => by
      have := ho (a :: p) b q (by rw [hp]; rfl) hb
      simpa using this) i1 q1 c1
    refine ⟨s2, Evals.bind e1 e2, by simpa using i2, q2, x1.trans x2, by simpa using c2⟩

/-- C66: for every module in which no type is needed for itself (`Module`: the records without names listed with those needed for others first, as the compiler lists them when
it has read them), the generation of the type definitions and the declarations of variables ends; no error is reported; in the text written, every name of a type is defined
before it is used, every structure is defined before its size is needed, and none is defined twice; and every type with a name is defined. -/
theorem C66_partial {T : Tab} {anons names vars : List Nat} (hm : Module T anons names vars) :
    ∃ s, (∃ n0, ∀ n, n0 ≤ n → genBody T n anons names vars = some s) ∧ s.err = false ∧ Ordered [] s.out ∧ (∀ i ∈ names, Defined s.out i) ∧
      (∀ a ∈ anons, Anon T a → Complete s.out a) := by
  obtain ⟨r, hr⟩ := hm.finite
  obtain ⟨s1, e1, i1, q1, x1, c1⟩ := anons_run hr anons [] start hm.anons_rec (by simpa using hm.order) (start_inv T) (fun i => by simp [start]) (by simp)
  rw [List.nil_append] at i1 c1
  obtain ⟨s2, e2, i2, x2, r2⟩ := each_run (fun n => defineType T n) (Inv T anons) (fun j s => Ready T s.mark j) (fun _ _ _ h hx => h.mono hx.done) s1 names
    (fun i hi s hq hx => define_run hr (r i + 1) i (by omega) anons s hq (fun j hj => absurd hj ((hx.quiet q1) j))
      (fun j hj ha => hx.complete (c1 j (hm.anons_all i (List.mem_append_left _ hi) j (Or.inr hj) ha) ha))) s1 i1 (Ext.refl s1)
  have hdone : ∀ i ∈ names, s2.mark i = .done := by
    intro i hi
    obtain ⟨h1, h2⟩ := hm.names_named i hi
    cases r2 i hi with
    | basic h => exact absurd h h2
    | done _ h => exact h
    | anon h _ => rw [h1] at h; cases h
  have hready : ∀ (k j : Nat), r j < k → (∀ l, (j = l ∨ Needs T j l) → T.named l = true → T.node l ≠ .basic → l ∈ names) → ∀ mk : Nat → Mark, (∀ i ∈ names, mk i = .done) →
      Ready T mk j := by
    intro k
    induction k with
    | zero => intro j h; omega
    | succ k ih =>
      intro j hj hl mk hmk
      by_cases hb : T.node j = .basic
      · exact .basic hb
      by_cases hn : T.named j = true
      · exact .done hn (hmk j (hl j (Or.inl rfl) hn hb))
      · refine .anon (by simpa using hn) (fun l hmem => ?_)
        have hlt := hr j l (.direct hmem)
        refine ih l (by omega) (fun l' hl' => hl l' ?_) mk hmk
        rcases hl' with rfl | hl'
        · exact Or.inr (.direct hmem)
        · exact Or.inr (.trans (.direct hmem) hl')
  obtain ⟨s3, e3, i3, x3, _⟩ := each_run (fun n => declVar T n) (fun s => Inv T anons s) (fun _ _ => True) (fun _ _ _ _ _ => trivial) s2 vars
    (fun t ht s hq hx => by
      have hrd : Ready T s.mark t := hready (r t + 1) t (by omega) (fun l => hm.names_all t ht l) s.mark (fun i hi => hx.done i (hdone i hi))
      obtain ⟨u, h1, h2⟩ := (uses_run hr hq.base (r t + 1) t (by omega)).2 hrd
        (fun j hj ha => hx.complete (x2.complete (c1 j (hm.anons_all t (List.mem_append_right _ ht) j hj ha) ha))) false
      exact ⟨_, Evals.bind h1 (Evals.pure _), hq.add (it := .var u) h2 (fun _ _ h => nomatch h), ext_add _ _, trivial⟩) s2 i2 (Ext.refl s2)
  refine ⟨s3, Evals.bind e1 (Evals.bind e2 e3), i3.err, i3.ord, fun i hi => i3.base.text i (x3.done i (hdone i hi)), fun a ha han => ?_⟩
  exact x3.complete (x2.complete (c1 a ha han))

/-! ### A module -/

/-- `TYPE Node = RECORD (Base) next: List; data: RECORD i: INTEGER; v: Vec END END; List = POINTER TO Node; Vec = ARRAY 3 OF INTEGER; Base = RECORD END;
Proc = PROCEDURE (l: List): Table; Table = POINTER TO ARRAY OF Vec; PROCEDURE (VAR n: Node) Do (p: Proc); VAR t: ARRAY 5 OF Node`, with INTEGER 0, Base 1, List 2, Node 3,
Proc 4, Table 5, Vec 6; 7 the record without a name, 8 the open array, 9 the type of the variable. -/
def exTab : Tab where
  node := fun i => match i with
    | 1 => .record none [] []
    | 2 => .pointer 3
    | 3 => .record (some 1) [2, 7] [(none, [3, 4])]
    | 4 => .proc (some 5) [2]
    | 5 => .pointer 8
    | 6 => .array 0
    | 7 => .record none [0, 6] []
    | 8 => .openArr 6
    | 9 => .array 3
    | _ => .basic
  named := fun i => i ≤ 6

/-- What is written: `typedef INTEGER Vec[3]` (6), the structure of 7, then Base (1), List (2: `struct Node *`), Node (3), …: the types needed for the header of the procedure
bound to Node come after Node and before the header. -/
example : (genBody exTab 20 [7] [1, 2, 3, 4, 5, 6] [9]).map (fun s => (s.err, s.out)) = some (false,
    [.typedef 6 [], .struct 7 [.body 7, .name 6], .typedef 1 [.body 1], .typedef 2 [.tag 3], .typedef 3 [.body 3, .name 2, .whole 7],
      .typedef 5 [.name 6], .typedef 4 [.name 5, .name 2], .proto [.name 3, .name 4], .var [.name 3]]) := by
  decide +kernel

/-- The ranks of the types. -/
def exRank (i : Nat) : Nat := match i with | 3 => 5 | 4 => 4 | 5 => 3 | 6 => 1 | 7 => 2 | 8 => 2 | 9 => 6 | _ => 0

theorem exTab_basic (i : Nat) (h : 10 ≤ i) : exTab.node i = .basic := by
  obtain ⟨k, rfl⟩ : ∃ k, i = k + 10 := ⟨i - 10, by omega⟩
  rfl

/-- It is a module as supposed. -/
theorem exModule : Module exTab [7] [1, 2, 3, 4, 5, 6] [9] := by
  have hd : ∀ i j, j ∈ needs exTab i → exRank j < exRank i := by
    intro i j h
    by_cases hi : 10 ≤ i
    · simp [needs, exTab_basic i hi] at h
    · have : ∀ i < 10, ∀ j ∈ needs exTab i, exRank j < exRank i := by decide +kernel
      exact this i (by omega) j h
  have hh : ∀ i j, j ∈ heads exTab i → j ≠ i → exRank j < exRank i := by
    intro i j h hn
    by_cases hi : 10 ≤ i
    · simp [heads, exTab_basic i hi] at h
    · have : ∀ i < 10, ∀ j ∈ heads exTab i, j ≠ i → exRank j < exRank i := by decide +kernel
      exact this i (by omega) j h hn
  have hr : ∀ i j, Needs exTab i j → exRank j < exRank i := by
    intro i j h
    induction h with
    | direct h => exact hd _ _ h
    | head h hn => exact hh _ _ h hn
    | trans _ _ h1 h2 => omega
  have ha : ∀ j, Anon exTab j → j = 7 := by
    intro j ⟨h1, h2⟩
    by_cases hj : 10 ≤ j
    · rw [exTab_basic j hj] at h2; simp [Node.isRecord] at h2
    · have : ∀ j < 10, exTab.named j = false → (exTab.node j).isRecord = true → j = 7 := by decide +kernel
      exact this j (by omega) h1 h2
  refine ⟨⟨exRank, hr⟩, by decide +kernel, ?_, fun i _ j _ h => by rw [ha j h]; simp, ?_, by decide +kernel⟩
  · intro pre a post he hn
    obtain ⟨rfl, rfl⟩ : pre = [] ∧ a = 7 := by
      cases pre with
      | nil => simp at he; exact ⟨rfl, he.1.symm⟩
      | cons x pre => simp at he
    refine ⟨by simp, fun j hj h => ?_⟩
    rw [ha j h] at hj
    exact absurd (hr 7 7 hj) (by omega)
  · intro i _ j _ hn hb
    by_cases hj : 10 ≤ j
    · exact absurd (exTab_basic j hj) hb
    · have : ∀ j < 10, exTab.named j = true → exTab.node j ≠ .basic → j ∈ [1, 2, 3, 4, 5, 6] := by decide +kernel
      exact this j (by omega) hn hb

example := C66_partial exModule

/-! ### Where it is not so -/

/-- `TYPE Tree = POINTER TO ARRAY OF RECORD sub: Tree END`: Tree 1, the open array 2, the record 3. -/
def treeTab : Tab where
  node := fun i => match i with
    | 1 => .pointer 2
    | 2 => .openArr 3
    | 3 => .record none [1] []
    | _ => .basic
  named := fun i => i ≤ 1

/-- Not so, endless recursion: for `TYPE Tree = POINTER TO ARRAY OF RECORD sub: Tree END` the compiler never ends, whatever the depth of the recursion allowed, with or without
other types. -/
theorem C66_endless (n : Nat) (names vars : List Nat) : genBody treeTab n [3] names vars = none := by
  have h : ∀ n s, (s.mark 1 = .undef ∨ s.mark 1 = .processing) → defineType treeTab n 1 s = none ∧ defineType treeTab n 2 s = none ∧ defineType treeTab n 3 s = none := by
    intro n
    induction n with
    | zero => intro s _; exact ⟨rfl, rfl, rfl⟩
    | succ n ih =>
      intro s hs
      refine ⟨?_, ?_, ?_⟩
      · have hd : ¬ (treeTab.named 1 && defined treeTab s.mark 1) = true := by
          rcases hs with h | h <;> simp [treeTab, defined, h]
        rw [defineType_succ, if_neg hd]
        have : ∀ s1 : State, (s1.mark 1 = .undef ∨ s1.mark 1 = .processing) → (defineNeeds treeTab n 1 s1 >>= defineRest treeTab n 1) = none := by
          intro s1 h1
          show (defineType treeTab n 2 s1 >>= _) = none
          rw [(ih s1 h1).2.1]; rfl
        refine this _ ?_
        rcases hs with h | h
        · rw [if_pos (by rfl), if_neg (by rw [h]; simp)]; exact Or.inr (by simp [setMark])
        · rw [if_pos (by rfl), if_pos h, if_pos (by rfl)]; exact Or.inr h
      · rw [defineType_succ, if_neg (by simp [treeTab])]
        show (defineType treeTab n 3 s >>= _) = none
        rw [(ih s hs).2.2]; rfl
      · rw [defineType_succ, if_neg (by simp [treeTab])]
        show ((defineType treeTab n 1 s >>= fun s' => each (defineType treeTab n) [] s') >>= _) = none
        rw [(ih s hs).1]; rfl
  show ((defAnon treeTab n 3 start >>= fun s => each (defAnon treeTab n) [] s) >>= _) = none
  have : defAnon treeTab n 3 start = none := by
    show (defineType treeTab n 3 start >>= _) = none
    rw [(h n start (Or.inl rfl)).2.2]; rfl
  rw [this]; rfl

/-- `TYPE R = RECORD END; Q = RECORD r: R END; PROCEDURE (VAR r: R) Do (VAR q: Q)`: R 1, Q 2. -/
def boundTab : Tab where
  node := fun i => match i with
    | 1 => .record none [] [(none, [1, 2])]
    | 2 => .record none [1] []
    | _ => .basic
  named := fun i => i ≤ 2

/-- Not so, names: whether `TYPE R = RECORD END; Q = RECORD r: R END; PROCEDURE (VAR r: R) Do (VAR q: Q)` is accepted depends on the order of the names.  With R before Q in
the alphabet it is; with Q before R an error is reported. -/
theorem C66_names_matter : (genBody boundTab 10 [] [1, 2] []).map (·.err) = some false ∧ (genBody boundTab 10 [] [2, 1] []).map (·.err) = some true := by
  decide +kernel

/-- `TYPE P = POINTER TO A; A = ARRAY 3 OF P`: A 1, P 2. -/
def pointerTab : Tab where
  node := fun i => match i with
    | 1 => .array 2
    | 2 => .pointer 1
    | _ => .basic
  named := fun i => i ≤ 2

/-- Not so, pointers to arrays of themselves: for `TYPE P = POINTER TO A; A = ARRAY 3 OF P`, which is finite, an error is reported in any order. -/
theorem C66_pointer_to_array : (genBody pointerTab 10 [] [1, 2] []).map (·.err) = some true ∧ (genBody pointerTab 10 [] [2, 1] []).map (·.err) = some true := by
  decide +kernel

end Verif.CDefs
