import Verif.SymUpdate.Main

/-!
# C69: a module's interface changes only with permission

`compile` (Verif.SymUpdate.Model) compares the module with its old symbol file and replaces the file.  Options: `-e` (`extsf`) permits
additions, `-s` (`newsf`) any change, `-F` (`force`) ignores the old file, `-m` (`main`): a main program has no symbol file.
-/
namespace Verif.SymUpdate
open Verif.FPrint

theorem fileOk_nil : FileOk [] := ⟨by simp, by simp, by simp, by simp⟩

theorem readFp_anon (f : File) : f.foldl readFp 0 = anonFp f := by
  unfold anonFp
  have key : ∀ w : Word, f.foldl readFp w =
      (f.filterMap fun | .obj _ _ a => a | _ => none).foldl (fun w (r : Nat) => fprint w (huge (14 + (r : Int)))) w := by
    induction f with
    | nil => intro w; rfl
    | cons e f ih =>
      intro w
      rw [List.foldl_cons, ih]
      cases e with
      | struct k fp => rfl
      | typ n => rfl
      | obj n fp a => cases a <;> rfl
  exact key 0

/-! ### The file written -/

theorem local_kind {s : Src} (h : s.Ok) {f : File} (hf : FileOk f) {r : Rec} (hr : r ∈ (after s f).filter fun r => r.key.1 = 0)
    {k : Kind} (hk : r.kind = some k) : ∃ d ∈ s.decls, r = f.foldl step (recOf d) ∧ d.kind = k := by
  rw [List.mem_filter] at hr
  rcases after_local h hf hr.1 (of_decide_eq_true hr.2) with ⟨d, hd, rfl⟩ | ⟨-, hk', -⟩
  · refine ⟨d, hd, rfl, ?_⟩
    rw [(steps_eqs f (recOf d)).2.2.2] at hk
    exact Option.some.inj hk
  · rw [hk'] at hk; cases hk

theorem after_filter {s : Src} (h : s.Ok) {f : File} (hf : FileOk f) :
    (((after s f).filter fun r => r.key.1 = 0).filter fun r => written r ∧ r.kind.isSome = true).map (fun r => r.key.2) =
      (s.decls.filter fun d => d.exported).map Decl.name := by
  obtain ⟨X, hX, hE⟩ := read_spec s.scope f hf
  unfold after
  rw [hX, List.filter_append, List.filter_append, scope_eq, List.map_append (l₁ := s.decls.map recOf), List.filter_append, List.filter_append]
  have e3 : (X.filter fun r => decide (r.key.1 = 0)).filter (fun r => decide (written r ∧ r.kind.isSome = true)) = [] := by
    rw [List.filter_eq_nil_iff]
    intro r hr hc
    rw [List.mem_filter] at hr
    have := (of_decide_eq_true hc).2
    rw [hE.kind r hr.1] at this; simp at this
  have e2 : ((s.foreign.map recOfF).map fun r => f.foldl step r).filter (fun r => decide (r.key.1 = 0)) = [] := by
    rw [List.filter_eq_nil_iff]
    intro r hr hc
    obtain ⟨r0, hr0, rfl⟩ := List.mem_map.1 hr
    obtain ⟨x, hx, rfl⟩ := List.mem_map.1 hr0
    have hc := of_decide_eq_true hc
    rw [(steps_eqs f (recOfF x)).1] at hc
    exact h.other x hx hc
  rw [e2, e3]
  simp only [List.append_nil, List.filter_nil]
  clear hX hE e2 e3
  generalize s.decls = ds
  induction ds with
  | nil => rfl
  | cons d ds ih =>
    simp only [List.map_cons]
    have e1 : decide ((f.foldl step (recOf d)).key.1 = 0) = true := decide_eq_true (by rw [(steps_eqs f (recOf d)).1]; rfl)
    rw [List.filter_cons_of_pos (by exact e1)]
    have hsome : (f.foldl step (recOf d)).kind.isSome = true := by rw [(steps_eqs f (recOf d)).2.2.2]; rfl
    by_cases hx : d.exported = true
    · rw [List.filter_cons_of_pos (by exact decide_eq_true ⟨(written_decl hf d).2 hx, hsome⟩), List.filter_cons_of_pos hx,
        List.map_cons, List.map_cons, ih, (steps_eqs f (recOf d)).1]
      rfl
    · rw [List.filter_cons_of_neg, List.filter_cons_of_neg hx, ih]
      simp only [decide_eq_true_eq]
      exact fun hc => hx ((written_decl hf d).1 hc.1)

theorem tyEntry_decl {s : Src} (h : s.Ok) {f : File} (hf : FileOk f) {d : Decl} (hd : d ∈ s.decls) :
    tyEntry (after s f) (some (0, d.name)) = .struct (some (0, d.name)) d.fp := by
  have hfd := find_after h hf (decl_mem hd)
  have : (recOf d).key = (0, d.name) := rfl
  rw [this] at hfd
  simp only [tyEntry, hfd, (steps_eqs f (recOf d)).2.2.1]
  rfl

theorem written_file {s : Src} (h : s.Ok) {f : File} (hf : FileOk f) (hc : 228 ∉ (outAll (after s f) s.tys).codes) :
    FileOk (outAll (after s f) s.tys).file ∧
      ∀ n fp, Exports (outAll (after s f) s.tys).file n fp ↔ ∃ d ∈ s.decls, d.name = n ∧ d.exported = true ∧ d.fp = fp := by
  have st := the_state h hf
  generalize outAll (after s f) s.tys = w at st hc ⊢
  rcases st.done with hd | ⟨-, d2, -⟩
  · exact absurd hd.2 hc
  have hstruct : ∀ n fp, .struct (some (0, n)) fp ∈ w.file → ∃ d ∈ s.decls, d.name = n ∧ d.fp = fp ∧ ∃ t, d.kind = .typ t := by
    intro n fp hm
    obtain ⟨x, hx, he⟩ := st.structs' _ _ hm
    cases hk : (s.tys x).key with
    | none => rw [hk] at he; cases he
    | some k =>
      rw [hk] at he
      have hkn : k = (0, n) := by
        obtain ⟨fp', h'⟩ := tyEntry_struct (after s f) (some k)
        rw [h'] at he
        injection he with he _
        injection he with he
        exact he.symm
      subst hkn
      rcases h.key x _ hk with ⟨d, hd, hn, hkd⟩ | ⟨y, hy, hn⟩
      · simp only [Prod.mk.injEq, true_and] at hn; subst hn
        rw [tyEntry_decl h hf hd] at he
        injection he with _ he
        exact ⟨d, hd, rfl, he.symm, x, hkd⟩
      · exact absurd (by rw [← hn]) (h.other y hy)
  have hobj : ∀ n fp a, .obj n fp a ∈ w.file → ∃ d ∈ s.decls, d.name = n ∧ d.exported = true ∧ d.fp = fp ∧ ∃ ks an, d.kind = .other ks an := by
    intro n fp a hm
    obtain ⟨r, hr, hw, hn, hfp, ks, an, hk⟩ := st.objs n fp a hm
    obtain ⟨d, hd, rfl, hkd⟩ := local_kind h hf hr hk
    refine ⟨d, hd, ?_, (written_decl hf d).1 hw, ?_, ks, an, hkd⟩
    · rw [← hn, (steps_eqs f (recOf d)).1]; rfl
    · rw [← hfp, (steps_eqs f (recOf d)).2.2.1]; rfl
  have htyp : ∀ n, .typ n ∈ w.file → ∃ d ∈ s.decls, d.name = n ∧ d.exported = true ∧ ∃ t, d.kind = .typ t := by
    intro n hm
    obtain ⟨r, hr, hw, hn, t, hk⟩ := st.typs n hm
    obtain ⟨d, hd, rfl, hkd⟩ := local_kind h hf hr hk
    refine ⟨d, hd, ?_, (written_decl hf d).1 hw, t, hkd⟩
    rw [← hn, (steps_eqs f (recOf d)).1]; rfl
  refine ⟨⟨?_, ?_, ?_, ?_⟩, ?_⟩
  · have e : (w.file.filterMap fun | .struct k _ => k | _ => none) =
        (w.file.filterMap fun | .struct k _ => some k | _ => none).filterMap id := by
      rw [List.filterMap_filterMap]
      apply List.filterMap_congr
      intro e _
      cases e <;> rfl
    have e' := e.trans (congrArg (List.filterMap id) st.structs)
    rw [List.filterMap_map] at e'
    refine Eq.mpr (congrArg List.Nodup e') ?_
    have key : ∀ l : List Nat, l.Nodup → (l.filterMap (id ∘ fun x => (s.tys x).key)).Nodup := by
      intro l
      induction l with
      | nil => intro _; simp
      | cons x l ih =>
        intro hn
        rw [List.nodup_cons] at hn
        rw [List.filterMap_cons]
        simp only [Function.comp, id]
        split
        · exact ih hn.2
        · next k hk =>
          rw [List.nodup_cons]
          refine ⟨?_, ih hn.2⟩
          intro hm
          obtain ⟨y, hy, hyk⟩ := List.mem_filterMap.1 hm
          have := h.inj x y k hk hyk
          subst this
          exact hn.1 hy
    exact key _ st.nodup
  · refine Eq.mpr (congrArg List.Nodup (st.names.trans (after_filter h hf))) ?_
    exact (List.Sublist.map Decl.name List.filter_sublist).nodup h.names
  · intro pre n post he
    obtain ⟨r, hr, hn, t, hk, hm⟩ := st.order hc pre n post he
    obtain ⟨d, hd, rfl, hkd⟩ := local_kind h hf hr hk
    have hn' : d.name = n := by rw [← hn, (steps_eqs f (recOf d)).1]; rfl
    rw [h.own d hd t hkd, tyEntry_decl h hf hd, hn'] at hm
    exact ⟨_, hm⟩
  · intro n fp a hm fp' hm'
    obtain ⟨d, hd, hn, -, -, ks, an, hk⟩ := hobj n fp a hm
    obtain ⟨d', hd', hn', -, t, hk'⟩ := hstruct n fp' hm'
    have := name_unique h hd hd' (hn.trans hn'.symm)
    subst this
    rw [hk] at hk'; cases hk'
  · intro n fp
    constructor
    · rintro (⟨a, hm⟩ | ⟨hm, hm'⟩)
      · obtain ⟨d, hd, hn, hx, hfp, -⟩ := hobj n fp a hm
        exact ⟨d, hd, hn, hx, hfp⟩
      · obtain ⟨d, hd, hn, hx, -⟩ := htyp n hm
        obtain ⟨d', hd', hn', hfp, -⟩ := hstruct n fp hm'
        have := name_unique h hd hd' (hn.trans hn'.symm)
        subst this
        exact ⟨d, hd, hn, hx, hfp⟩
    · rintro ⟨d, hd, rfl, hx, rfl⟩
      have hmem : f.foldl step (recOf d) ∈ (after s f).filter fun r => r.key.1 = 0 := by
        rw [List.mem_filter]
        exact ⟨after_mem hf (decl_mem hd), decide_eq_true (by rw [(steps_eqs f (recOf d)).1]; rfl)⟩
      have hw := (written_decl hf d).2 hx
      obtain ⟨q1, -, q3, q4⟩ := steps_eqs f (recOf d)
      cases hk : d.kind with
      | typ t =>
        have hkr : (f.foldl step (recOf d)).kind = some (.typ t) := by rw [q4]; show some d.kind = _; rw [hk]
        have h1 := st.typs' _ hmem hw t hkr
        rw [q1] at h1
        have ht : t ∈ w.refs := d2 _ hmem hw t (by simp only [recKids, hkr, Kind.kids, List.mem_singleton])
        have h2 := st.structs2 t ht
        rw [h.own d hd t hk, tyEntry_decl h hf hd] at h2
        exact .inr ⟨h1, h2⟩
      | other ks an =>
        have hkr : (f.foldl step (recOf d)).kind = some (.other ks an) := by rw [q4]; show some d.kind = _; rw [hk]
        obtain ⟨a, h1⟩ := st.objs' _ hmem hw ks an hkr
        rw [q1, q3] at h1
        exact .inl ⟨a, h1⟩

/-! ### `Export` -/

/-- What the compiler accepts, given the old symbol file. -/
def Permitted (o : Opts) (s : Src) (f : File) (file : File) : Prop :=
  (o.newsf = false → Kept f s) ∧ (o.newsf = false → o.extsf = false → NothingNew f s ∧ anonFp f = anonFp file)

theorem noerr_228 {newsf extsf : Bool} {cs : List Nat} (h : cs.all (okCode newsf extsf) = true) : 228 ∉ cs := by
  intro hc; have := ok_of h hc; simp [okCode] at this

theorem export_none {o : Opts} {s : Src} (hs : s.Ok) {disk : Option File} (hd : (if o.force then none else disk) = none) :
    («export» o s disk).new = true ∧ («export» o s disk).file = (outAll (after s []) s.tys).file ∧
      ((«export» o s disk).noerr = true ↔ (outAll (after s []) s.tys).codes.all (okCode true true) = true) ∧
      ((«export» o s disk).noerr = true ↔ Writable s) := by
  have e : «export» o s disk = ⟨((outAll s.scope s.tys).codes.foldl (fprintErr true true) {}).noerr, false, true, (outAll s.scope s.tys).file⟩ := by
    unfold «export»; rw [hd]
  rw [e]
  have hc := codes_spec true true (fun h => h) (outAll s.scope s.tys).codes {} (by simp) (by simp)
  have ho := codes_ok hs fileOk_nil (newsf := true) (extsf := true) (fun h => h)
  refine ⟨rfl, rfl, ?_, ?_⟩
  · dsimp only; rw [hc.1, Bool.true_and]; rfl
  · dsimp only
    rw [hc.1, Bool.true_and]
    refine ho.trans ?_
    simp

theorem export_some {o : Opts} {s : Src} (hs : s.Ok) {f : File} (hf : FileOk f) {disk : Option File} (hd : (if o.force then none else disk) = some f) :
    («export» o s disk).file = (outAll (after s f) s.tys).file ∧
      ((«export» o s disk).noerr = true → (outAll (after s f) s.tys).codes.all (okCode o.newsf (o.newsf || o.extsf)) = true) ∧
      ((«export» o s disk).noerr = true ↔ Writable s ∧ Permitted o s f («export» o s disk).file) ∧
      ((«export» o s disk).noerr = true → o.newsf = false → o.extsf = false →
        («export» o s disk).new = false ∧ («export» o s disk).ext = false) ∧
      ((«export» o s disk).noerr = true → («export» o s disk).new = false → («export» o s disk).ext = false →
        (outAll (after s f) s.tys).codes = []) := by
  have st := the_state hs hf
  let w := outAll (after s f) s.tys
  let p := w.codes.foldl (fprintErr o.newsf (o.newsf || o.extsf)) {}
  have e : «export» o s disk = if p.noerr && decide (f.foldl readFp 0 ≠ w.reffp) then
      ⟨p.noerr && (o.newsf || o.extsf), p.symExtended, true, w.file⟩ else ⟨p.noerr, p.symExtended, p.symNew, w.file⟩ := by
    unfold «export»; rw [hd]; rfl
  have hne : o.newsf = true → (o.newsf || o.extsf) = true := by intro h; rw [h]; rfl
  obtain ⟨c1, c2, c3⟩ := codes_spec o.newsf (o.newsf || o.extsf) hne w.codes {} (by simp) (by simp)
  have c1 : p.noerr = w.codes.all (okCode o.newsf (o.newsf || o.extsf)) := c1
  have c2 : p.symNew = w.codes.any fun c => c ≠ 228 ∧ c ≠ 249 ∧ c ≠ 253 := by
    refine c2.trans ?_; rw [Bool.false_or]
  have c3 : p.symExtended = w.codes.any fun c => c = 253 := by
    refine c3.trans ?_; rw [Bool.false_or]
  have ho : w.codes.all (okCode o.newsf (o.newsf || o.extsf)) = true ↔ _ := codes_ok hs hf hne
  have hreff : w.reffp = anonFp w.file := by
    rw [← readFp_anon]; exact st.reffp
  rw [readFp_anon, hreff] at e
  have hfile : («export» o s disk).file = w.file := by rw [e]; split <;> rfl
  have hnoerr : («export» o s disk).noerr = (p.noerr && (decide (anonFp f = anonFp w.file) || (o.newsf || o.extsf))) := by
    rw [e]
    by_cases ha : anonFp f = anonFp w.file
    · simp [ha]
    · cases hp : p.noerr <;> simp [ha, hp]
  refine ⟨hfile, ?_, ?_, ?_, ?_⟩
  · intro h
    rw [hnoerr, Bool.and_eq_true] at h
    rw [← c1]; exact h.1
  · rw [hfile, hnoerr, Bool.and_eq_true, c1, ho]
    unfold Permitted
    cases hn : o.newsf <;> cases hx : o.extsf <;> simp
    tauto
  · intro h hn hx
    rw [hnoerr, hn, hx, Bool.and_eq_true] at h
    obtain ⟨h1, h2⟩ := h
    have ha : anonFp f = anonFp w.file := by simpa using h2
    have hall := h1
    rw [c1, hn, hx, List.all_eq_true] at hall
    have hempty : w.codes = [] := by
      rw [List.eq_nil_iff_forall_not_mem]
      intro c hc
      have := hall c hc
      simp [okCode] at this
    rw [hempty] at c2 c3
    rw [e]
    simp [ha, c2, c3]
  · intro h hnw hxt
    have hall : w.codes.all (okCode o.newsf (o.newsf || o.extsf)) = true := by
      rw [← c1]; rw [hnoerr, Bool.and_eq_true] at h; exact h.1
    have hp : p.symExtended = false := by rw [e] at hxt; split at hxt <;> exact hxt
    have hp2 : p.symNew = false := by
      rw [e] at hnw; split at hnw
      · cases hnw
      · exact hnw
    rw [c2, List.any_eq_false] at hp2
    rw [c3, List.any_eq_false] at hp
    rw [List.eq_nil_iff_forall_not_mem]
    intro c hc
    have h1 := hp2 c hc
    have h2 := hp c hc
    have h3 := List.all_eq_true.1 hall c hc
    simp only [decide_eq_true_eq] at h1 h2
    simp only [okCode] at h3
    by_cases q1 : c = 228
    · rw [if_pos q1] at h3; cases h3
    · by_cases q2 : c = 249
      · rw [if_neg q1, if_pos q2] at h3; cases h3
      · exact h1 ⟨q1, q2, h2⟩

theorem compile_eq (o : Opts) (s : Src) (b : Rest) (disk : Option File) :
    (compile o s b disk).1 = (b.parse && («export» o s disk).noerr && b.code) ∧
      (compile o s b disk).2 = if b.parse = false then disk else if («export» o s disk).noerr && b.code then
        (if o.main then none else if («export» o s disk).new || («export» o s disk).ext then some («export» o s disk).file else disk) else none := by
  unfold compile
  dsimp only
  generalize «export» o s disk = r
  cases b.parse <;> cases r.noerr <;> cases b.code <;> cases o.main <;> cases r.new <;> cases r.ext <;> exact ⟨rfl, rfl⟩

/-! ### The theorems -/

/-- **C69, acceptance.**  A correct module is compiled exactly if a symbol file can be written for it and, if there is an old one (and
`-F` is not given): without `-s`, all that the old file exports is still exported with the same fingerprints and the types it describes
are the same (`Kept`); without `-s` and `-e`, nothing new is exported either. -/
theorem C69_accept (o : Opts) (s : Src) (hs : s.Ok) (b : Rest) (disk : Option File) (hd : ∀ f, disk = some f → FileOk f) :
    (compile o s b disk).1 = true ↔ b.parse = true ∧ b.code = true ∧ Writable s ∧
      ∀ f, disk = some f → o.force = false → Permitted o s f («export» o s disk).file := by
  have key : («export» o s disk).noerr = true ↔
      Writable s ∧ ∀ f, disk = some f → o.force = false → Permitted o s f («export» o s disk).file := by
    cases hdd : (if o.force then none else disk) with
    | none =>
      rw [(export_none hs hdd).2.2.2]
      constructor
      · intro h
        refine ⟨h, ?_⟩
        intro f hf hforce
        rw [hforce, hf] at hdd; cases hdd
      · exact fun h => h.1
    | some f =>
      have hf : disk = some f ∧ o.force = false := by
        cases hforce : o.force with
        | true => rw [hforce] at hdd; cases hdd
        | false => rw [hforce] at hdd; exact ⟨hdd, rfl⟩
      rw [(export_some hs (hd f hf.1) hdd).2.2.1]
      constructor
      · rintro ⟨h1, h2⟩
        refine ⟨h1, ?_⟩
        intro f' hf' _
        rw [hf.1] at hf'; injection hf' with hf'; subst hf'
        exact h2
      · rintro ⟨h1, h2⟩
        exact ⟨h1, h2 f hf.1 hf.2⟩
  rw [← key, (compile_eq o s b disk).1]
  cases b.parse <;> cases b.code <;> cases («export» o s disk).noerr <;> simp

/-- **C69, the file.**  After a module is compiled its symbol file, unless it is a main program, exports exactly what the module exports,
with its fingerprints; and the file is well formed. -/
theorem C69_file (o : Opts) (s : Src) (hs : s.Ok) (b : Rest) (disk : Option File) (hd : ∀ f, disk = some f → FileOk f)
    (h : (compile o s b disk).1 = true) (hm : o.main = false) :
    ∃ f, (compile o s b disk).2 = some f ∧ FileOk f ∧
      ∀ n fp, Exports f n fp ↔ ∃ d ∈ s.decls, d.name = n ∧ d.exported = true ∧ d.fp = fp := by
  rw [(compile_eq o s b disk).1, Bool.and_eq_true, Bool.and_eq_true] at h
  obtain ⟨⟨hp, hno⟩, hcd⟩ := h
  have e : (compile o s b disk).2 = if («export» o s disk).new || («export» o s disk).ext then some («export» o s disk).file else disk := by
    rw [(compile_eq o s b disk).2, hno, hp, hcd, hm]; rfl
  rw [e]
  cases hdd : (if o.force then none else disk) with
  | none =>
    obtain ⟨h1, h2, h3, -⟩ := export_none hs hdd
    have := written_file hs fileOk_nil (noerr_228 (h3.1 hno))
    rw [h1, Bool.true_or, if_pos rfl, h2]
    exact ⟨_, rfl, this⟩
  | some f =>
    have hf : disk = some f ∧ o.force = false := by
      cases hforce : o.force with
      | true => rw [hforce] at hdd; cases hdd
      | false => rw [hforce] at hdd; exact ⟨hdd, rfl⟩
    have hfo := hd f hf.1
    obtain ⟨h1, h2, h3, -, h5⟩ := export_some hs hfo hdd
    by_cases hnx : («export» o s disk).new = true ∨ («export» o s disk).ext = true
    · have hc : ((«export» o s disk).new || («export» o s disk).ext) = true := by
        rcases hnx with h | h <;> rw [h] <;> simp
      rw [hc, if_pos rfl, h1]
      exact ⟨_, rfl, written_file hs hfo (noerr_228 (h2 hno))⟩
    · have hn1 : («export» o s disk).new = false := by
        cases hq : («export» o s disk).new with
        | false => rfl
        | true => exact absurd (.inl hq) hnx
      have hn2 : («export» o s disk).ext = false := by
        cases hq : («export» o s disk).ext with
        | false => rfl
        | true => exact absurd (.inr hq) hnx
      rw [hn1, hn2]
      have hcs := h5 hno hn1 hn2
      have hall : (outAll (after s f) s.tys).codes.all (okCode false false) = true := by rw [hcs]; rfl
      obtain ⟨-, hK, hN⟩ := (codes_ok hs hfo (newsf := false) (extsf := false) (by simp)).1 hall
      refine ⟨f, hf.1, hfo, ?_⟩
      intro n fp
      constructor
      · exact (hK rfl).objs n fp
      · rintro ⟨d, hdm, rfl, hx, rfl⟩
        obtain ⟨fp, he⟩ := hN rfl d hdm hx
        obtain ⟨d', hd', hn', -, hfp⟩ := (hK rfl).objs _ _ he
        have := name_unique hs hd' hdm hn'
        subst this
        rw [hfp]; exact he

/-- **C69, no permission.**  A module compiled without `-s`, `-e`, `-F` and `-m` keeps its old symbol file. -/
theorem C69_unchanged (o : Opts) (ho : o = {}) (s : Src) (hs : s.Ok) (b : Rest) (f : File) (hf : FileOk f)
    (h : (compile o s b (some f)).1 = true) : (compile o s b (some f)).2 = some f := by
  subst ho
  rw [(compile_eq {} s b (some f)).1, Bool.and_eq_true, Bool.and_eq_true] at h
  obtain ⟨⟨hp, hno⟩, hcd⟩ := h
  obtain ⟨-, -, -, h4, -⟩ := export_some (o := {}) hs hf (disk := some f) rfl
  obtain ⟨n1, n2⟩ := h4 hno rfl rfl
  rw [(compile_eq {} s b (some f)).2, hno, hp, hcd, n1, n2]; rfl

/-- **C69, extension.**  A module compiled without `-s` and `-F` still has in its symbol file all that was exported before, with the same
fingerprints. -/
theorem C69_extended (o : Opts) (s : Src) (hs : s.Ok) (b : Rest) (f : File) (hf : FileOk f) (hn : o.newsf = false)
    (hF : o.force = false) (hm : o.main = false) (h : (compile o s b (some f)).1 = true) :
    ∃ f', (compile o s b (some f)).2 = some f' ∧ ∀ n fp, Exports f n fp → Exports f' n fp := by
  have hd : ∀ g, some f = some g → FileOk g := by intro g hg; injection hg with hg; subst hg; exact hf
  obtain ⟨f', h1, -, h3⟩ := C69_file o s hs b (some f) hd h hm
  obtain ⟨-, -, -, hp⟩ := (C69_accept o s hs b (some f) hd).1 h
  refine ⟨f', h1, ?_⟩
  intro n fp he
  exact (h3 n fp).2 (((hp f rfl hF).1 hn).objs n fp he)

/-- A compilation. -/
structure Job where
  opts : Opts
  src : Src
  rest : Rest

/-- The symbol file after some compilations. -/
def runs (js : List Job) (disk : Option File) : Option File :=
  js.foldl (fun d j => (compile j.opts j.src j.rest d).2) disk

/-- Each of the compilations succeeds, or stops at an error that is found before the symbol file is looked at. -/
def Smooth : List Job → Option File → Prop
  | [], _ => True
  | j :: js, d => ((compile j.opts j.src j.rest d).1 = true ∨ j.rest.parse = false) ∧ Smooth js (compile j.opts j.src j.rest d).2

/-- **C69, histories.**  In any history of compilations without permission, whatever the texts of the module, its symbol file stays the
same, and all versions that are compiled export the same objects with the same fingerprints.

Partial: only while no compilation fails after the symbol file is looked at, see `C69_refused_twice`. -/
theorem C69_history_partial (js : List Job) (f : File) (hf : FileOk f) (hj : ∀ j ∈ js, j.opts = {} ∧ j.src.Ok) (h : Smooth js (some f)) :
    runs js (some f) = some f ∧ ∀ j ∈ js, (compile j.opts j.src j.rest (some f)).1 = true →
      ∀ n fp, Exports f n fp ↔ ∃ d ∈ j.src.decls, d.name = n ∧ d.exported = true ∧ d.fp = fp := by
  have hd : ∀ g, some f = some g → FileOk g := by intro g hg; injection hg with hg; subst hg; exact hf
  constructor
  · induction js with
    | nil => rfl
    | cons j js ih =>
      obtain ⟨h1, h2⟩ := h
      have e : (compile j.opts j.src j.rest (some f)).2 = some f := by
        obtain ⟨ho, hs⟩ := hj j List.mem_cons_self
        rcases h1 with h1 | h1
        · exact C69_unchanged j.opts ho j.src hs j.rest f hf h1
        · rw [(compile_eq _ _ _ _).2, h1]; rfl
      show runs js (compile j.opts j.src j.rest (some f)).2 = some f
      rw [e] at h2 ⊢
      exact ih (fun j' hj' => hj j' (List.mem_cons_of_mem _ hj')) h2
  · intro j hjm hc
    obtain ⟨ho, hs⟩ := hj j hjm
    have e := C69_unchanged j.opts ho j.src hs j.rest f hf hc
    obtain ⟨f', h1, -, h3⟩ := C69_file j.opts j.src hs j.rest (some f) hd hc (by rw [ho])
    rw [e] at h1
    injection h1 with h1
    subst h1
    exact h3

/-- **C69 fails: a change that is refused is accepted when it is tried again.**  When an error is found after the symbol file is looked
at, be it that the interface has changed without permission, the old symbol file is deleted (src/compiler/OPT.Mod 1288-1290, the file
written is not yet registered).  Compiled once more, with the same options, the module is accepted and gets a new symbol file. -/
theorem C69_refused_twice (o : Opts) (s : Src) (hs : s.Ok) (hw : Writable s) (disk : Option File)
    (h : (compile o s {} disk).1 = false) (hm : o.main = false) :
    (compile o s {} disk).2 = none ∧ (compile o s {} none).1 = true ∧
      ∃ f, (compile o s {} none).2 = some f ∧
        ∀ n fp, Exports f n fp ↔ ∃ d ∈ s.decls, d.name = n ∧ d.exported = true ∧ d.fp = fp := by
  have h1 : (compile o s {} none).1 = true := (C69_accept o s hs {} none (by simp)).2 ⟨rfl, rfl, hw, by simp⟩
  obtain ⟨f, h2, -, h3⟩ := C69_file o s hs {} none (by simp) h1 hm
  refine ⟨?_, h1, f, h2, h3⟩
  rw [(compile_eq _ _ _ _).1] at h
  rw [(compile_eq _ _ _ _).2]
  cases hq : («export» o s disk).noerr with
  | true => rw [hq] at h; cases h
  | false => rfl

/-- **C69: so does any error in writing the C text.**  The old symbol file is deleted even if the interface has not changed
(src/compiler/Compiler.Mod 36-38). -/
theorem C69_code_error (o : Opts) (s : Src) (disk : Option File) : compile o s ⟨true, false⟩ disk = (false, none) := by
  apply Prod.ext
  · rw [(compile_eq _ _ _ _).1, Bool.and_false]
  · rw [(compile_eq _ _ _ _).2, Bool.and_false]; rfl

/-! ### Concrete cases -/

/-- TYPE T* = RECORD ... END; VAR x*: T; PROCEDURE p (not exported). -/
def mod1 : Src where
  decls := [⟨1, true, ⟨11, 12⟩, .typ 0⟩, ⟨2, true, ⟨21, 22⟩, .other [0] none⟩, ⟨3, false, ⟨31, 32⟩, .other [] none⟩]
  foreign := []
  tys := fun t => if t = 0 then ⟨some (0, 1), []⟩ else ⟨none, []⟩

/-- The same, but `x` is changed, with fingerprint `fp`. -/
def mod2 (fp : Fp) : Src := { mod1 with decls := [⟨1, true, ⟨11, 12⟩, .typ 0⟩, ⟨2, true, fp, .other [0] none⟩, ⟨3, false, ⟨31, 32⟩, .other [] none⟩] }

/-- The same, and `p` is exported. -/
def mod3 : Src := { mod1 with decls := [⟨1, true, ⟨11, 12⟩, .typ 0⟩, ⟨2, true, ⟨21, 22⟩, .other [0] none⟩, ⟨3, true, ⟨31, 32⟩, .other [] none⟩] }

theorem mod2_ok (fp : Fp) : (mod2 fp).Ok where
  names := by simp [mod2, mod1]
  foreign := by simp [mod2, mod1]
  other := by simp [mod2, mod1]
  own := by simp [mod2, mod1]
  key := by
    intro t k hk
    simp only [mod2, mod1] at hk
    split at hk
    · next h => subst h; injection hk with hk; subst hk; left; exact ⟨_, List.mem_cons_self, rfl, rfl⟩
    · cases hk
  inj := by
    intro t u k h1 h2
    simp only [mod2, mod1] at h1 h2
    split at h1
    · split at h2
      · next h h' => rw [h, h']
      · cases h2
    · cases h1

theorem mod2_mentioned (fp : Fp) {t : Nat} (h : Mentioned (mod2 fp) t) : t = 0 := by
  induction h with
  | root hd hx ht =>
    simp only [mod2, mod1, List.mem_cons, List.not_mem_nil, or_false] at hd
    rcases hd with rfl | rfl | rfl <;> simpa [Kind.kids] using ht
  | kid ht hu ih =>
    subst ih
    simp [mod2, mod1] at hu

theorem mod2_writable (fp : Fp) : Writable (mod2 fp) :=
  ⟨⟨[0], by simp, fun t ht => by simp [mod2_mentioned fp ht]⟩, by simp [mod2, mod1]⟩

/-- The symbol file of `mod1`. -/
def file1 : File := [.struct (some (0, 1)) ⟨11, 12⟩, .typ 1, .obj 2 ⟨21, 22⟩ none]

example : compile {} mod1 {} none = (true, some file1) := by decide +kernel
example : compile {} mod1 {} (some file1) = (true, some file1) := by decide +kernel
-- a changed variable: refused, then accepted
example : compile {} (mod2 ⟨23, 22⟩) {} (some file1) = (false, none) := by decide +kernel
example : compile {} (mod2 ⟨23, 22⟩) {} none = (true, some [.struct (some (0, 1)) ⟨11, 12⟩, .typ 1, .obj 2 ⟨23, 22⟩ none]) := by decide +kernel
-- with -e refused, with -s accepted
example : (compile { extsf := true } (mod2 ⟨21, 23⟩) {} (some file1)).1 = false := by decide +kernel
example : (compile { newsf := true } (mod2 ⟨21, 23⟩) {} (some file1)).1 = true := by decide +kernel
-- an addition needs -e
example : (compile {} mod3 {} (some file1)).1 = false := by decide +kernel
example : compile { extsf := true } mod3 {} (some file1) =
    (true, some [.struct (some (0, 1)) ⟨11, 12⟩, .typ 1, .obj 2 ⟨21, 22⟩ none, .obj 3 ⟨31, 32⟩ none]) := by decide +kernel
-- a removal needs -s
example : (compile { extsf := true } mod1 {} (compile { extsf := true } mod3 {} (some file1)).2).1 = false := by decide +kernel
-- the hypotheses of C69_refused_twice hold here
example := C69_refused_twice {} (mod2 ⟨23, 22⟩) (mod2_ok _) (mod2_writable _) (some file1) (by decide +kernel) rfl
-- and those of C69_history_partial
example : Smooth [⟨{}, mod1, {}⟩, ⟨{}, mod2 ⟨1, 1⟩, ⟨false, true⟩⟩, ⟨{}, mod1, {}⟩] (some file1) :=
  ⟨.inl (by decide +kernel), .inr rfl, .inl (by decide +kernel), trivial⟩

end Verif.SymUpdate
