import Verif.Common
import Verif.Outputs.Model

/-!
# C78: what a compilation leaves behind

`C78_object`: after any history of compilations, interrupted anywhere, an object file belongs to the files beside it.  `C78_linked`: so does
what is linked.  `C78_parse`, `C78_failed`: what a text with errors changes.  `C78_done`: what a successful compilation writes.  `C78_pieces_partial`:
what is left of each file after a crash.  Deviations: `C78_short`, `C78_mixed`,
`C78_sym_lost`, `C78_elsewhere`.
-/
namespace Verif.Outputs

/-! ## Lemmas -/

/-- Calls that do not touch the header file and the C file. -/
def SymOnly (c : Sys) : Prop := c = .remove .sym

theorem symOnly_ok : ∀ (cs : List Sys), (∀ c ∈ cs, SymOnly c) → ∀ d : Disk, (cs.foldl sys d).obj = d.obj ∧
    (∀ f, f ≠ .sym → (cs.foldl sys d).file f = d.file f) ∧
    ((cs.foldl sys d).file .sym = d.file .sym ∨ (cs.foldl sys d).file .sym = none)
  | [], _, _ => ⟨rfl, fun _ _ => rfl, Or.inl rfl⟩
  | c :: cs, h, d => by
    have hc : c = .remove .sym := h c List.mem_cons_self
    obtain ⟨h1, h2, h3⟩ := symOnly_ok cs (fun x hx => h x (List.mem_cons_of_mem _ hx)) (sys d c)
    subst hc
    refine ⟨h1, fun f hf => ?_, ?_⟩
    · rw [List.foldl_cons, h2 f hf]; simp [sys, hf]
    · rw [List.foldl_cons]
      rcases h3 with h3 | h3
      · right; rw [h3]; simp [sys]
      · right; exact h3

theorem obj_none (cs : List Sys) : ∀ d : Disk, d.obj = none → (cs.foldl sys d).obj = none := by
  induction cs with
  | nil => intro d h; exact h
  | cons c cs ih =>
    intro d h
    rw [List.foldl_cons]
    apply ih
    cases c <;> first | exact h | rfl

/-- The calls before the object file is removed concern the symbol file only. -/
theorem compile_split (j : Job) (d : Disk) : ∃ A B, compile j d = A ++ B ∧ (∀ c ∈ A, SymOnly c) ∧ (B = [] ∨ ∃ B', B = .removeObj :: B') := by
  unfold compile
  split
  · exact ⟨[], [], rfl, fun _ h => absurd h List.not_mem_nil, Or.inl rfl⟩
  · have hF : ∀ c ∈ (if j.force then [Sys.remove .sym] else []), SymOnly c := by
      intro c hc
      split at hc
      · exact List.mem_singleton.mp hc
      · exact absurd hc List.not_mem_nil
    by_cases hz : j.error = some .sizes
    · refine ⟨(if j.force then [Sys.remove .sym] else []), [], ?_, hF, Or.inl rfl⟩
      rw [if_pos hz]
    rw [if_neg hz]
    by_cases he : j.error = some .export
    · refine ⟨(if j.force then [Sys.remove .sym] else []) ++ [.remove .sym], [], ?_, ?_, Or.inl rfl⟩
      · rw [if_pos he, List.append_nil]
      · intro c hc
        rcases List.mem_append.mp hc with hc | hc
        · exact hF c hc
        · exact List.mem_singleton.mp hc
    · rw [if_neg he]
      exact ⟨_, _, rfl, hF, Or.inr ⟨_, rfl⟩⟩

/-- After some of the calls: the object file is gone, or the header file and the C file are as before. -/
theorem prefix_ok (j : Job) (d : Disk) (n : Nat) :
    (((compile j d).take n).foldl sys d).obj = none ∨
    ((((compile j d).take n).foldl sys d).obj = d.obj ∧ (∀ f, f ≠ .sym → (((compile j d).take n).foldl sys d).file f = d.file f) ∧
      ((((compile j d).take n).foldl sys d).file .sym = d.file .sym ∨ (((compile j d).take n).foldl sys d).file .sym = none)) := by
  obtain ⟨A, B, h, hA, hB⟩ := compile_split j d
  rw [h, List.take_append]
  have hA' : ∀ c ∈ A.take n, SymOnly c := fun c hc => hA c (List.mem_of_mem_take hc)
  rw [List.foldl_append]
  cases hm : B.take (n - A.length) with
  | nil => right; exact symOnly_ok _ hA' d
  | cons c r =>
    left
    rcases hB with hB | ⟨B', hB⟩
    · rw [hB] at hm; simp at hm
    · have hc : c = .removeObj := by
        rw [hB] at hm
        cases hk : n - A.length with
        | zero => rw [hk] at hm; simp at hm
        | succ k => rw [hk, List.take_succ_cons] at hm; exact (List.cons.inj hm).1.symm
      rw [hc, List.foldl_cons]
      exact obj_none r _ rfl

theorem full_ok (j : Job) (d : Disk) : (compile j d).foldl sys d = ((compile j d).take (compile j d).length).foldl sys d := by
  rw [List.take_length]

/-- Writing the pieces. -/
theorem appends_ok (f : F) : ∀ (ps : List Bytes) (d : Disk) (b : Bytes), d.file f = some b →
    ((ps.map (.append f)).foldl sys d).file f = some (b ++ ps.flatten) ∧
    (∀ x, x ≠ f → ((ps.map (.append f)).foldl sys d).file x = d.file x) ∧ ((ps.map (.append f)).foldl sys d).obj = d.obj
  | [], d, b, h => ⟨by simpa using h, fun _ _ => rfl, rfl⟩
  | p :: ps, d, b, h => by
    have h1 : (sys d (.append f p)).file f = some (b ++ p) := by simp [sys, h]
    obtain ⟨h2, h3, h4⟩ := appends_ok f ps _ _ h1
    refine ⟨?_, fun x hx => ?_, ?_⟩
    · rw [List.map_cons, List.foldl_cons, h2]; simp
    · rw [List.map_cons, List.foldl_cons, h3 x hx]; simp [sys, hx]
    · rw [List.map_cons, List.foldl_cons, h4]; rfl

theorem register_done (f : F) (ps : List Bytes) (o : Bool) (d : Disk) : ((register f ps o).foldl sys d).file f = some ps.flatten ∧
    (∀ x, x ≠ f → ((register f ps o).foldl sys d).file x = d.file x) ∧ ((register f ps o).foldl sys d).obj = d.obj := by
  unfold register
  rw [List.foldl_append]
  obtain ⟨d1, hd1, h1, h2⟩ : ∃ d1, d1 = (if o then [Sys.remove f] else []).foldl sys d ∧ (∀ x, x ≠ f → d1.file x = d.file x) ∧ d1.obj = d.obj := by
    refine ⟨_, rfl, ?_, ?_⟩
    · intro x hx; cases o <;> simp [sys, hx]
    · cases o <;> rfl
  rw [← hd1]
  by_cases hp : ps.length ≤ 4
  · rw [if_pos hp, List.foldl_append]
    obtain ⟨h3, h4, h5⟩ := appends_ok f ps ([Sys.remove f, Sys.create f].foldl sys d1) [] (by simp [sys])
    refine ⟨by simpa using h3, fun x hx => ?_, ?_⟩
    · rw [h4 x hx, ← h1 x hx]; simp [sys, hx]
    · rw [h5, ← h2]; rfl
  · rw [if_neg hp]
    refine ⟨by simp [sys], fun x hx => ?_, ?_⟩
    · rw [← h1 x hx]; simp [sys, hx]
    · rw [← h2]; rfl

/-- A successful compilation that is not of a main program. -/
theorem module_done (j : Job) (he : j.error = none) (hm : j.main = false) (d : Disk) :
    ((compile j d).foldl sys d).obj = none ∧ ((compile j d).foldl sys d).file .h = some j.h.flatten ∧
    ((compile j d).foldl sys d).file .c = some j.c.flatten ∧
    (((compile j d).foldl sys d).file .sym = some j.sym.flatten ∨
      (((compile j d).foldl sys d).file .sym = none ∧ j.force = false ∧ d.file .sym = none ∧ j.lib = some j.sym.flatten)) := by
  unfold compile
  rw [if_neg (show ¬ j.error = some .parse by rw [he]; simp), if_neg (show ¬ j.error = some .sizes by rw [he]; simp),
    if_neg (show ¬ j.error = some .export by rw [he]; simp), if_neg (show ¬ j.error = some .gen by rw [he]; simp), if_neg (show ¬ j.main = true by rw [hm]; simp)]
  simp only [List.foldl_append]
  obtain ⟨d1, hd1, hd2, hd3⟩ : ∃ d1, d1 = [Sys.removeObj].foldl sys ((if j.force then [Sys.remove .sym] else []).foldl sys d) ∧
      d1.obj = none ∧ (j.force = false → d1.file .sym = d.file .sym) := by
    refine ⟨_, rfl, rfl, ?_⟩
    intro hf; rw [hf]; rfl
  rw [← hd1]
  obtain ⟨d2, he1, he2, he3⟩ : ∃ d2, d2 = (if j.force ∨ old j d ≠ some j.sym.flatten then
      register .sym j.sym (!j.force && (d.file .sym).isSome) else []).foldl sys d1 ∧
      (d2.file .sym = some j.sym.flatten ∨ (d2.file .sym = none ∧ j.force = false ∧ d.file .sym = none ∧ j.lib = some j.sym.flatten)) ∧
      d2.obj = none := by
    refine ⟨_, rfl, ?_, ?_⟩
    · split
      · exact Or.inl (register_done .sym j.sym _ d1).1
      · rename_i hn
        have hs : old j d = some j.sym.flatten := by
          by_contra hx; exact hn (Or.inr hx)
        have hf : j.force = false := by
          cases hf : j.force with
          | false => rfl
          | true => exact absurd (Or.inl hf) hn
        show d1.file .sym = _ ∨ d1.file .sym = _ ∧ _
        rw [hd3 hf]
        cases hds : d.file .sym with
        | none => right; rw [old, hds] at hs; exact ⟨rfl, hf, rfl, hs⟩
        | some b => left; rw [old, hds] at hs; exact hs
    · exact obj_none _ _ hd2
  rw [← he1]
  obtain ⟨h1, h2, h3⟩ := register_done .h j.h false d2
  obtain ⟨c1, c2, c3⟩ := register_done .c j.c false ((register .h j.h false).foldl sys d2)
  refine ⟨by rw [c3, h3, he3], ?_, c1, ?_⟩
  · rw [c2 .h (by decide), h1]
  · rw [c2 .sym (by decide), h2 .sym (by decide)]; exact he2

/-- A successful compilation of a main program. -/
theorem main_done (j : Job) (he : j.error = none) (hm : j.main = true) (d : Disk) :
    ((compile j d).foldl sys d).obj = none ∧ ((compile j d).foldl sys d).file .h = none ∧
    ((compile j d).foldl sys d).file .c = some j.c.flatten ∧ ((compile j d).foldl sys d).file .sym = none := by
  unfold compile
  rw [if_neg (show ¬ j.error = some .parse by rw [he]; simp), if_neg (show ¬ j.error = some .sizes by rw [he]; simp),
    if_neg (show ¬ j.error = some .export by rw [he]; simp), if_neg (show ¬ j.error = some .gen by rw [he]; simp), if_pos hm]
  simp only [List.foldl_append]
  generalize hd1 : [Sys.remove F.sym, .remove .h, .remove .sym].foldl sys
    ([Sys.removeObj].foldl sys ((if j.force then [Sys.remove .sym] else []).foldl sys d)) = d1
  obtain ⟨c1, c2, c3⟩ := register_done .c j.c false d1
  refine ⟨?_, ?_, c1, ?_⟩
  · rw [c3, ← hd1]; rfl
  · rw [c2 .h (by decide), ← hd1]; simp [sys]
  · rw [c2 .sym (by decide), ← hd1]; simp [sys]

/-! ## Theorems -/

/-- The translations of the texts compiled in a history. -/
def outs (es : List Event) : List Out := es.map fun | .crash j _ => j.out | .full j _ => j.out

theorem event_ok {os : List Out} {d : Disk} (h : Consistent os d) (e : Event) : Consistent (os ++ outs [e]) (event d e) := by
  have key : ∀ (j : Job) (n : Nat), Consistent os (((compile j d).take n).foldl sys d) := by
    intro j n x hx
    rcases prefix_ok j d n with h1 | ⟨h1, h2, h3⟩
    · rw [h1] at hx; simp at hx
    · rw [h1] at hx
      obtain ⟨o, ho, g1, g2, g3, g4⟩ := h x hx
      refine ⟨o, ho, g1, by rw [h2 .h (by decide)]; exact g2, by rw [h2 .c (by decide)]; exact g3, ?_⟩
      rcases h3 with h3 | h3
      · rw [h3]; exact g4
      · exact Or.inl h3
  have lift : ∀ d', Consistent os d' → Consistent (os ++ outs [e]) d' := fun d' h x hx => by
    obtain ⟨o, ho, r⟩ := h x hx
    exact ⟨o, List.mem_append_left _ ho, r⟩
  cases e with
  | crash j n => exact lift _ (key j n)
  | full j cc =>
    show Consistent _ (if j.error = none ∧ cc then assemble ((compile j d).foldl sys d) else (compile j d).foldl sys d)
    split
    · rename_i hc
      obtain ⟨he, _⟩ := hc
      intro x hx
      have hx' : x = (((compile j d).foldl sys d).file .h, ((compile j d).foldl sys d).file .c) := by
        simp only [assemble, Option.some.injEq] at hx; exact hx.symm
      refine ⟨j.out, List.mem_append_right _ List.mem_cons_self, ?_⟩
      rw [hx']
      show _ ∧ ((compile j d).foldl sys d).file .h = _ ∧ ((compile j d).foldl sys d).file .c = _ ∧
        (((compile j d).foldl sys d).file .sym = _ ∨ ((compile j d).foldl sys d).file .sym = _)
      unfold Job.out
      cases hm : j.main with
      | false =>
        obtain ⟨_, h2, h3, h4⟩ := module_done j he hm d
        rw [h2, h3]
        refine ⟨rfl, rfl, rfl, ?_⟩
        rcases h4 with h4 | ⟨h4, _⟩
        · exact Or.inr h4
        · exact Or.inl h4
      | true =>
        obtain ⟨_, h2, h3, h4⟩ := main_done j he hm d
        rw [h2, h3]
        exact ⟨rfl, rfl, rfl, Or.inl h4⟩
    · rw [full_ok]; exact lift _ (key j _)

/-- Whatever compilations of a module are tried, with whatever errors and options, each interrupted after any number of steps or not: if there
is an object file then, it, the C file and the header file are the translation of one of the texts, and the symbol file is that of this text or
is missing. -/
theorem C78_object (d : Disk) (hd : d.obj = none) (es : List Event) : Consistent (outs es) (run d es) := by
  have key : ∀ (es : List Event) (os : List Out) (d : Disk), Consistent os d → Consistent (os ++ outs es) (run d es) := by
    intro es
    induction es with
    | nil => intro os d h; simpa [outs, run] using h
    | cons e es ih =>
      intro os d h
      have := ih _ _ (event_ok h e)
      rw [List.append_assoc] at this
      exact this
  exact key es [] d (fun x hx => by rw [hd] at hx; simp at hx)

/-- If the object file is linked, it, the C file, the header file and the symbol file are the translation of one text. -/
theorem C78_linked (d : Disk) (hd : d.obj = none) (es : List Event) (hl : linked (run d es) = true) :
    ∃ o ∈ outs es, (run d es).obj = some (o.h, some o.c) ∧ (run d es).file .h = o.h ∧ (run d es).file .c = some o.c ∧
      (run d es).file .sym = o.sym := by
  simp only [linked, Bool.and_eq_true, Option.isSome_iff_exists] at hl
  obtain ⟨⟨s, hs⟩, x, hx⟩ := hl
  obtain ⟨o, ho, h1, h2, h3, h4⟩ := C78_object d hd es x hx
  refine ⟨o, ho, by rw [hx, h1], h2, h3, ?_⟩
  rcases h4 with h4 | h4
  · rw [hs] at h4; simp at h4
  · exact h4

/-- A text with errors changes no file. -/
theorem C78_parse (j : Job) (h : j.error = some .parse) (d : Disk) (n : Nat) (cc : Bool) :
    event d (.crash j n) = d ∧ event d (.full j cc) = d := by
  have : compile j d = [] := by unfold compile; rw [if_pos h]
  constructor
  · simp [event, this]
  · simp [event, this, h]

/-- A compilation without errors writes the translation; the old object file is gone, and so are the other files if it is a main program.
The symbol file is missing only if there was none and the same one is found elsewhere on the search path. -/
theorem C78_done (j : Job) (he : j.error = none) (d : Disk) :
    (event d (.full j false)).obj = none ∧ (event d (.full j false)).file .c = some j.c.flatten ∧
    (j.main = false → (event d (.full j false)).file .h = some j.h.flatten) ∧
    (j.main = false → (d.file .sym ≠ none ∨ j.lib ≠ some j.sym.flatten ∨ j.force = true) →
      (event d (.full j false)).file .sym = some j.sym.flatten) ∧
    (j.main = true → (event d (.full j false)).file .h = none ∧ (event d (.full j false)).file .sym = none) := by
  have hev : event d (.full j false) = (compile j d).foldl sys d := by simp [event]
  rw [hev]
  cases hm : j.main with
  | false =>
    obtain ⟨h1, h2, h3, h4⟩ := module_done j he hm d
    refine ⟨h1, h3, fun _ => h2, fun _ hs => ?_, fun h => by simp at h⟩
    rcases h4 with h4 | ⟨_, g1, g2, g3⟩
    · exact h4
    · rcases hs with hs | hs | hs
      · exact absurd g2 hs
      · exact absurd g3 hs
      · rw [g1] at hs; simp at hs
  | true =>
    obtain ⟨h1, h2, h3, h4⟩ := main_done j he hm d
    exact ⟨h1, h3, fun h => by simp at h, fun h => by simp at h, fun _ => ⟨h2, h4⟩⟩

/-- A compilation with errors leaves the header file and the C file alone, and keeps or removes the symbol file; one that fails before it
writes the C text leaves the object file, too; one that fails before it looks at the interface changes nothing unless it is forced. -/
theorem C78_failed (j : Job) (s : Stage) (he : j.error = some s) (d : Disk) (n : Nat) :
    (∀ f, f ≠ .sym → (event d (.crash j n)).file f = d.file f) ∧ (s ≠ .gen → (event d (.crash j n)).obj = d.obj) ∧
    ((event d (.crash j n)).file .sym = d.file .sym ∨ (event d (.crash j n)).file .sym = none) ∧
    (s = .sizes → j.force = false → event d (.crash j n) = d) := by
  show (∀ f, f ≠ .sym → (((compile j d).take n).foldl sys d).file f = _) ∧ (_ → (((compile j d).take n).foldl sys d).obj = _) ∧
    ((((compile j d).take n).foldl sys d).file .sym = _ ∨ (((compile j d).take n).foldl sys d).file .sym = none) ∧
    (_ → _ → ((compile j d).take n).foldl sys d = d)
  have hc : ∀ c ∈ compile j d, c = .remove .sym ∨ (s = .gen ∧ c = .removeObj) := by
    intro c hc
    unfold compile at hc
    rw [he] at hc
    cases hf : j.force <;> cases s <;> simp [hf] at hc <;> first | exact Or.inl hc | (rcases hc with hc | hc | hc <;> simp [hc]) | (rcases hc with hc | hc <;> simp [hc])
  have key : ∀ (cs : List Sys) (d : Disk), (∀ c ∈ cs, c = .remove .sym ∨ (s = .gen ∧ c = .removeObj)) →
      (∀ f, f ≠ .sym → (cs.foldl sys d).file f = d.file f) ∧ (s ≠ .gen → (cs.foldl sys d).obj = d.obj) ∧
      ((cs.foldl sys d).file .sym = d.file .sym ∨ (cs.foldl sys d).file .sym = none) := by
    intro cs
    induction cs with
    | nil => intro d _; exact ⟨fun _ _ => rfl, fun _ => rfl, Or.inl rfl⟩
    | cons c cs ih =>
      intro d h
      obtain ⟨h1, h2, h3⟩ := ih (sys d c) (fun x hx => h x (List.mem_cons_of_mem _ hx))
      rw [List.foldl_cons]
      rcases h c List.mem_cons_self with hc | ⟨hs, hc⟩
      · subst hc
        refine ⟨fun f hf => ?_, h2, ?_⟩
        · rw [h1 f hf]; simp [sys, hf]
        · rcases h3 with h3 | h3
          · right; rw [h3]; simp [sys]
          · exact Or.inr h3
      · subst hc
        exact ⟨h1, fun hn => absurd hs hn, h3⟩
  obtain ⟨h1, h2, h3⟩ := key ((compile j d).take n) d (fun c h => hc c (List.mem_of_mem_take h))
  refine ⟨h1, h2, h3, fun hs hf => ?_⟩
  have : compile j d = [] := by
    unfold compile
    rw [he, hs, hf]; simp
  rw [this]; simp

/-! ### What is left of a file -/

/-- Nothing, the file as it was, or the beginning of the new one. -/
def Left (f : F) (ps : List Bytes) (d d' : Disk) : Prop :=
  d'.file f = d.file f ∨ d'.file f = none ∨ (∃ k, d'.file f = some (ps.take k).flatten ∧ (4 < ps.length → ps.length ≤ k))

/-- A call that concerns another file. -/
def Other (f : F) : Sys → Prop
  | .remove x | .create x | .append x _ | .replace x _ => x ≠ f
  | .removeObj => True

theorem other_ok (f : F) : ∀ (cs : List Sys), (∀ c ∈ cs, Other f c ∨ c = .remove f) → ∀ d, (cs.foldl sys d).file f = d.file f ∨
    (cs.foldl sys d).file f = none
  | [], _, _ => Or.inl rfl
  | c :: cs, h, d => by
    rw [List.foldl_cons]
    have h1 : (sys d c).file f = d.file f ∨ (sys d c).file f = none := by
      rcases h c List.mem_cons_self with hc | hc
      · left
        cases c with
        | removeObj => rfl
        | _ => simp only [Other] at hc; simp [sys, Ne.symm hc]
      · right; rw [hc]; simp [sys]
    rcases other_ok f cs (fun x hx => h x (List.mem_cons_of_mem _ hx)) (sys d c) with h2 | h2
    · rw [h2]; exact h1
    · exact Or.inr h2

theorem other_same (f : F) : ∀ (cs : List Sys), (∀ c ∈ cs, Other f c) → ∀ d, (cs.foldl sys d).file f = d.file f
  | [], _, _ => rfl
  | c :: cs, h, d => by
    rw [List.foldl_cons, other_same f cs (fun x hx => h x (List.mem_cons_of_mem _ hx))]
    have hc := h c List.mem_cons_self
    cases c with
    | removeObj => rfl
    | _ => simp only [Other] at hc; simp [sys, Ne.symm hc]

theorem register_left (f : F) (ps : List Bytes) (o : Bool) (n : Nat) (d : Disk) : Left f ps d (((register f ps o).take n).foldl sys d) := by
  unfold register
  rw [List.take_append, List.foldl_append]
  generalize hd1 : ((if o then [Sys.remove f] else []).take n).foldl sys d = d1
  generalize n - (if o then [Sys.remove f] else []).length = m
  have h1 : d1.file f = d.file f ∨ d1.file f = none := by
    rw [← hd1]
    refine other_ok f _ (fun c hc => Or.inr ?_) d
    have := List.mem_of_mem_take hc
    split at this
    · exact List.mem_singleton.mp this
    · exact absurd this List.not_mem_nil
  have key : ∀ d' : Disk, d'.file f = d1.file f → Left f ps d d' := by
    intro d' h
    rcases h1 with h1 | h1
    · exact Or.inl (h.trans h1)
    · exact Or.inr (Or.inl (h.trans h1))
  by_cases hp : ps.length ≤ 4
  · rw [if_pos hp]
    match m with
    | 0 => exact key _ rfl
    | 1 => exact Or.inr (Or.inl (by simp [sys]))
    | m + 2 =>
      rw [show ([Sys.remove f, Sys.create f] ++ ps.map (Sys.append f)).take (m + 2) =
        [Sys.remove f, Sys.create f] ++ (ps.take m).map (Sys.append f) from by
        simp [List.map_take], List.foldl_append]
      have := (appends_ok f (ps.take m) ([Sys.remove f, .create f].foldl sys d1) [] (by simp [sys])).1
      exact Or.inr (Or.inr ⟨m, by simpa using this, fun h => absurd hp (by omega)⟩)
  · rw [if_neg hp]
    match m with
    | 0 => exact key _ rfl
    | m + 1 => exact Or.inr (Or.inr ⟨ps.length, by simp [sys], fun _ => Nat.le_refl _⟩)

theorem left_pre {f : F} {ps : List Bytes} {d d1 d' : Disk} (h1 : d1.file f = d.file f ∨ d1.file f = none) (h : Left f ps d1 d') :
    Left f ps d d' := by
  rcases h with h | h | h
  · rcases h1 with h1 | h1
    · exact Or.inl (h.trans h1)
    · exact Or.inr (Or.inl (h.trans h1))
  · exact Or.inr (Or.inl h)
  · exact Or.inr (Or.inr h)

theorem left_post {f : F} {ps : List Bytes} {d d1 d' : Disk} (h1 : d'.file f = d1.file f) (h : Left f ps d d1) : Left f ps d d' := by
  unfold Left at h ⊢; rw [h1]; exact h

theorem register_other {f g : F} (h : g ≠ f) (ps : List Bytes) (o : Bool) : ∀ c ∈ register g ps o, Other f c := by
  intro c hc
  unfold register at hc
  rcases List.mem_append.mp hc with hc | hc
  · split at hc
    · rw [List.mem_singleton.mp hc]; exact h
    · exact absurd hc List.not_mem_nil
  · split at hc
    · rcases List.mem_append.mp hc with hc | hc
      · simp only [List.mem_cons, List.not_mem_nil, or_false] at hc
        rcases hc with rfl | rfl <;> exact h
      · obtain ⟨p, _, rfl⟩ := List.mem_map.mp hc
        exact h
    · rw [List.mem_singleton.mp hc]; exact h

/-- A prefix of calls that are harmless, those of one file, and those of others. -/
theorem three_left (f : F) (A C : List Sys) (ps : List Bytes) (o : Bool) (hA : ∀ c ∈ A, Other f c ∨ c = .remove f) (hC : ∀ c ∈ C, Other f c)
    (n : Nat) (d : Disk) : Left f ps d (((A ++ (register f ps o ++ C)).take n).foldl sys d) := by
  rw [List.take_append, List.foldl_append, List.take_append, List.foldl_append]
  refine left_post (other_same f _ (fun c hc => hC c (List.mem_of_mem_take hc)) _) ?_
  refine left_pre ?_ (register_left f ps o _ _)
  exact other_ok f _ (fun c hc => hA c (List.mem_of_mem_take hc)) d

theorem none_left (f : F) (A : List Sys) (ps : List Bytes) (hA : ∀ c ∈ A, Other f c ∨ c = .remove f) (n : Nat) (d : Disk) :
    Left f ps d ((A.take n).foldl sys d) := by
  rcases other_ok f (A.take n) (fun c hc => hA c (List.mem_of_mem_take hc)) d with h | h
  · exact Or.inl h
  · exact Or.inr (Or.inl h)

/-- The pieces of a file. -/
def Job.pieces (j : Job) : F → List Bytes
  | .sym => j.sym
  | .h => j.h
  | .c => j.c

/-- After a crash each file is as it was, or missing, or holds a number of pieces of the new file; files of more than four pieces are never
left incomplete.  Partial: shorter files may be, see `C78_short`. -/
theorem C78_pieces_partial (j : Job) (d : Disk) (n : Nat) (f : F) : Left f (j.pieces f) d (event d (.crash j n)) := by
  show Left f (j.pieces f) d (((compile j d).take n).foldl sys d)
  unfold compile
  have hF : ∀ c ∈ (if j.force then [Sys.remove .sym] else []), Other f c ∨ c = .remove f := by
    intro c hc
    split at hc
    · rw [List.mem_singleton.mp hc]
      by_cases h : F.sym = f
      · right; rw [h]
      · left; exact h
    · exact absurd hc List.not_mem_nil
  have hR : ∀ g : F, Other f (.remove g) ∨ Sys.remove g = .remove f := by
    intro g
    by_cases h : g = f
    · right; rw [h]
    · left; exact h
  have happ : ∀ {A B : List Sys}, (∀ c ∈ A, Other f c ∨ c = .remove f) → (∀ c ∈ B, Other f c ∨ c = .remove f) →
      ∀ c ∈ A ++ B, Other f c ∨ c = .remove f := by
    intro A B hA hB c hc
    rcases List.mem_append.mp hc with hc | hc
    · exact hA c hc
    · exact hB c hc
  generalize (if j.force then [Sys.remove .sym] else []) = A at hF ⊢
  have hob : ∀ c ∈ [Sys.removeObj], Other f c ∨ c = .remove f := fun c hc => by rw [List.mem_singleton.mp hc]; exact Or.inl trivial
  split
  · exact none_left f [] _ (fun _ h => absurd h List.not_mem_nil) n d
  split
  · exact none_left f _ _ (happ hF (fun _ h => absurd h List.not_mem_nil)) n d
  · split
    · exact none_left f _ _ (happ hF (fun c hc => by rw [List.mem_singleton.mp hc]; exact hR .sym)) n d
    · split
      · exact none_left f _ _ (happ hF (happ hob (fun c hc => by rw [List.mem_singleton.mp hc]; exact hR .sym))) n d
      · split
        · have h3 : ∀ c ∈ [Sys.remove F.sym, .remove .h, .remove .sym], Other f c ∨ c = .remove f := by
            intro c hc
            simp only [List.mem_cons, List.not_mem_nil, or_false] at hc
            rcases hc with rfl | rfl | rfl
            · exact hR _
            · exact hR _
            · exact hR _
          by_cases hf : f = .c
          · subst hf
            have := three_left .c _ [] j.c false (happ hF (happ hob h3)) (fun _ h => absurd h List.not_mem_nil) n d
            simpa only [List.append_nil, List.append_assoc, Job.pieces] using this
          · refine none_left f _ _ (happ hF (happ hob (happ h3 ?_))) n d
            exact fun c hc => Or.inl (register_other (Ne.symm hf) _ _ c hc)
        · generalize hS : (if j.force ∨ old j d ≠ some j.sym.flatten then register .sym j.sym (!j.force && (d.file .sym).isSome) else []) = S
          have hSo : f ≠ .sym → ∀ c ∈ S, Other f c := by
            intro hf c hc
            rw [← hS] at hc
            split at hc
            · exact register_other (Ne.symm hf) _ _ c hc
            · exact absurd hc List.not_mem_nil
          cases f with
          | sym =>
            rw [← hS]
            split
            · have := three_left .sym _ (register .h j.h false ++ register .c j.c false) j.sym (!j.force && (d.file .sym).isSome) (happ hF hob) (fun c hc => by
                rcases List.mem_append.mp hc with hc | hc
                · exact register_other (by decide) _ _ c hc
                · exact register_other (by decide) _ _ c hc) n d
              simpa only [List.append_assoc, Job.pieces] using this
            · refine none_left .sym _ _ (happ hF (happ hob (happ (happ (fun _ h => absurd h List.not_mem_nil) ?_) ?_))) n d
              · exact fun c hc => Or.inl (register_other (by decide) _ _ c hc)
              · exact fun c hc => Or.inl (register_other (by decide) _ _ c hc)
          | h =>
            have := three_left .h _ (register .c j.c false) j.h false (happ hF (happ hob (fun c hc => Or.inl (hSo (by decide) c hc))))
              (fun c hc => register_other (by decide) _ _ c hc) n d
            simpa only [List.append_assoc, Job.pieces] using this
          | c =>
            have := three_left .c _ [] j.c false (happ hF (happ hob (happ (fun c hc => Or.inl (hSo (by decide) c hc))
              (fun c hc => Or.inl (register_other (g := .h) (by decide) j.h false c hc))))) (fun _ h => absurd h List.not_mem_nil) n d
            simpa only [List.append_nil, List.append_assoc, Job.pieces] using this

/-! ## Examples -/

/-- A text; its C file has two pieces. -/
def exJob (x : Nat) : Job := ⟨none, false, false, [[x]], [[x, x]], [[x, 1], [2]], none⟩

/-- An empty directory. -/
def exDisk : Disk := ⟨fun _ => none, none⟩

/-- A history with an object file at the end, that is linked: a compilation, one of another text that is interrupted before anything is
changed, one with an error. -/
example : linked (run exDisk [.full (exJob 1) true, .crash (exJob 2) 0, .full { exJob 3 with error := some .parse } true]) = true ∧
    (run exDisk [.full (exJob 1) true, .crash (exJob 2) 0, .full { exJob 3 with error := some .parse } true]).obj =
      some (some [1, 1], some [1, 1, 2]) := by decide +kernel

/-- After an interrupted compilation there is no object file. -/
example : (run exDisk [.full (exJob 1) true, .crash (exJob 2) 5]).obj = none := by decide +kernel

/-! ## Deviations -/

/-- A file of at most four pieces may be left incomplete under its name after a crash. -/
theorem C78_short : ∃ (d : Disk) (j : Job) (n : Nat), d.file .c = some [1, 1, 2] ∧ j.c = [[2, 1], [2]] ∧
    (event d (.crash j n)).file .c = some [2, 1] :=
  ⟨run exDisk [.full (exJob 1) true], exJob 2, 11, (by decide +kernel), (by decide +kernel), (by decide +kernel)⟩

/-- After a crash a new header file may stand beside an old C file, and a new symbol file beside both old ones. -/
theorem C78_mixed : ∃ (d : Disk) (j : Job) (n m : Nat), d.file .c = some [1, 1, 2] ∧ d.file .h = some [1, 1] ∧ j.out = ⟨some [2], some [2, 2], [2, 1, 2]⟩ ∧
    (event d (.crash j n)).file .h = some [2, 2] ∧ (event d (.crash j n)).file .c = some [1, 1, 2] ∧
    (event d (.crash j m)).file .sym = some [2] ∧ (event d (.crash j m)).file .h = some [1, 1] :=
  ⟨run exDisk [.full (exJob 1) true], exJob 2, 8, 5, (by decide +kernel), (by decide +kernel), (by decide +kernel), (by decide +kernel),
    (by decide +kernel), (by decide +kernel), (by decide +kernel)⟩

/-- A compilation that is refused because the interface has changed removes the old symbol file, so that the object file, which is still there
and up to date, is not linked any more. -/
theorem C78_sym_lost : ∃ (d : Disk) (j : Job), linked d = true ∧ j.error = some .export ∧ linked (event d (.full j true)) = false ∧
    (event d (.full j true)).obj = d.obj ∧ d.obj ≠ none :=
  ⟨run exDisk [.full (exJob 1) true], { exJob 2 with error := some .export }, (by decide +kernel), rfl, (by decide +kernel), (by decide +kernel),
    (by decide +kernel)⟩

/-- If the same symbol file is found elsewhere on the search path, no symbol file is written, and the new object file is not linked. -/
theorem C78_elsewhere : ∃ (d : Disk) (j : Job), j.error = none ∧ j.main = false ∧ (event d (.full j true)).file .sym = none ∧
    (event d (.full j true)).obj = some (some [1, 1], some [1, 1, 2]) ∧ linked (event d (.full j true)) = false :=
  ⟨exDisk, { exJob 1 with lib := some [1] }, rfl, rfl, (by decide +kernel), (by decide +kernel), (by decide +kernel)⟩

end Verif.Outputs
