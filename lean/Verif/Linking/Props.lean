import Verif.Linking.Lemmas

namespace Verif.Linking

/-! ## Which modules are linked -/

section
variable {cfg : Config} {lib : Text → Option (List Text)} {h : List Job} {d : Disk} {imps : List Text}

theorem complete (hi : Inv cfg lib h d) (ho : InOrder h imps) (hr : Renewed h imps) {i n : Text} (hp : Relation.ReflTransGen (Imports h) i n) :
    Needs h imps i → Compiled h n → Compiled h i ∧ ∀ l, d.sym (i ++ sfExt) = some l → n ∈ l := by
  induction hp using Relation.ReflTransGen.head_induction_on with
  | refl =>
    intro hn hc
    obtain ⟨t, j, hl⟩ := hc
    exact ⟨⟨t, j, hl⟩, fun l hs => (hi.more n t j l hl hs (hr n t j hn hl)).1⟩
  | head hab hbc ih =>
    rename_i a c
    intro hn hc
    obtain ⟨t, j, hl, hj⟩ := hab
    obtain ⟨i0, hi0, h0⟩ := hn
    have hn : Needs h imps a := ⟨i0, hi0, h0⟩
    obtain ⟨⟨t', j', hl'⟩, h2⟩ := ih ⟨i0, hi0, h0.tail ⟨t, j, hl, hj⟩⟩ hc
    refine ⟨⟨t, j, hl⟩, fun l hs => ?_⟩
    obtain ⟨li, h3, h4⟩ := (hi.more a t j l hl hs (hr a t j hn hl)).2 c hj t' j' hl' (ho a c t j t' j' hn hl hj hl')
    exact h4 n (h2 li h3)

theorem sound (hi : Inv cfg lib h d) (ho : InOrder h imps) (hcl : Clean h imps) (ha : Apart lib h) {n : Text} (hc : Compiled h n) :
    ∀ (k t : Nat) (i : Text) (j : Job) (l : List Text), t ≤ k → Needs h imps i → last h i = some (t, j) → d.sym (i ++ sfExt) = some l → n ∈ l →
      Relation.ReflTransGen (Imports h) i n := by
  intro k
  induction k with
  | zero =>
    intro t i j l ht hn hl hs hnl
    rcases hi.less i t j l n hl hs (hcl i t j hn hl) hnl with rfl | ⟨i', hj, ⟨li, h1, h2⟩ | ⟨t', j', h1, h2⟩⟩
    · exact .refl
    · exact absurd hc (ha.2 _ _ _ h1 h2)
    · have := ho i i' t j t' j' hn hl hj h1
      omega
  | succ k ih =>
    intro t i j l ht hn hl hs hnl
    rcases hi.less i t j l n hl hs (hcl i t j hn hl) hnl with rfl | ⟨i', hj, ⟨li, h1, h2⟩ | ⟨t', j', h1, h2⟩⟩
    · exact .refl
    · exact absurd hc (ha.2 _ _ _ h1 h2)
    · have hlt := ho i i' t j t' j' hn hl hj h1
      obtain ⟨li, h3, h4⟩ := h2 hlt
      obtain ⟨i0, hi0, h0⟩ := hn
      exact .head ⟨t, j, hl, hj⟩ (ih t' i' j' li (by omega) ⟨i0, hi0, h0.tail ⟨t, j, hl, hj⟩⟩ h1 h3 h4)

end

/-! ## The list of object files -/

theorem fn_short {l ext : Text} (hl : l.length ≤ 27) (he : ext.length ≤ 4) : app 64 ext (copy 64 l) = l ++ ext := by
  unfold app copy
  rw [List.take_of_length_le (l := l) (by omega), List.take_of_length_le (by simp; omega)]

theorem fn_long {l m : Text} (hm : m.length ≤ 27) (h : app 64 sfExt (copy 64 l) = m ++ sfExt) : m = l := by
  have hs : sfExt.length = 4 := rfl
  have hlen := congrArg List.length h
  unfold app copy at hlen
  simp only [List.length_take, List.length_append] at hlen
  rw [fn_short (by omega) (by omega), sym_inj] at h
  exact h.symm

/-- The modules of a list with a symbol file and an object file. -/
noncomputable def localObjs (cfg : Config) (h : List Job) (ls : List Text) : List Text := by
  classical exact (ls.filter fun n => decide (Compiled h n)).map (· ++ cfg.objext)

theorem findLocal_eq {cfg : Config} {lib : Text → Option (List Text)} {h : List Job} {d : Disk} {main : Text} (hi : Inv cfg lib h d) (hx : cfg.objext = ".o".toList)
    (hm : ∀ k ∈ h, k.mod ≠ main) : ∀ (ls : List Text) (x : Text),
    findLocal cfg { sym := upd d.sym (main ++ sfExt) none, obj := upd d.obj (main ++ cfg.objext) false } (x.take 2048) ls = (x ++ joined (localObjs cfg h ls)).take 2048
  | [], x => by simp [findLocal, localObjs, joined]
  | l :: ls, x => by
    rw [findLocal]
    dsimp only
    have hxl : cfg.objext.length ≤ 4 := by rw [hx]; decide
    by_cases hc : Compiled h l
    · obtain ⟨t, j, hl⟩ := hc
      obtain ⟨⟨li, h1⟩, h2, h3⟩ := hi.have_ l t j hl
      have hne : l ≠ main := by
        rintro rfl; obtain ⟨h4, h5, -⟩ := last_mod hl; exact hm j h5 h4
      have e1 : (upd d.sym (main ++ sfExt) none (l ++ sfExt)) = some li := by
        unfold upd; rw [if_neg (by rw [sym_inj]; exact hne)]; exact h1
      have e2 : (upd d.obj (main ++ cfg.objext) false (l ++ cfg.objext)) = true := by
        unfold upd; rw [if_neg (by rw [List.append_left_inj]; exact hne)]; exact h2
      rw [fn_short h3 (show sfExt.length ≤ 4 by decide), fn_short h3 hxl, if_pos (show (upd d.sym (main ++ sfExt) none (l ++ sfExt)).isSome = true ∧ upd d.obj (main ++ cfg.objext) false (l ++ cfg.objext) = true from ⟨by rw [e1]; rfl, e2⟩), app_take, app_take, findLocal_eq hi hx hm ls]
      have : localObjs cfg h (l :: ls) = (l ++ cfg.objext) :: localObjs cfg h ls := by
        unfold localObjs; rw [List.filter_cons_of_pos (by simpa using ⟨t, j, hl⟩)]; rfl
      rw [this, joined]
      simp
    · have : localObjs cfg h (l :: ls) = localObjs cfg h ls := by
        unfold localObjs; rw [List.filter_cons_of_neg (by simpa using hc)]
      rw [if_neg, this, findLocal_eq hi hx hm ls]
      rintro ⟨h1, -⟩
      rw [Option.isSome_iff_exists] at h1
      obtain ⟨li, h1⟩ := h1
      unfold upd at h1
      split at h1
      · cases h1
      · obtain ⟨m, t, j, h2, h3⟩ := hi.only _ _ h1
        have := fn_long (hi.have_ m t j h3).2.2 h2
        subst this
        exact hc ⟨t, j, h3⟩

theorem mem_localObjs {cfg : Config} {h : List Job} {ls : List Text} {o : Text} : o ∈ localObjs cfg h ls ↔ ∃ n ∈ ls, Compiled h n ∧ o = n ++ cfg.objext := by
  unfold localObjs
  simp only [List.mem_map, List.mem_filter, decide_eq_true_eq]
  constructor
  · rintro ⟨n, ⟨h1, h2⟩, rfl⟩; exact ⟨n, h1, h2, rfl⟩
  · rintro ⟨n, h1, h2, rfl⟩; exact ⟨n, ⟨h1, h2⟩, rfl⟩

theorem nodup_localObjs {cfg : Config} {h : List Job} {ls : List Text} (hn : ls.Nodup) : (localObjs cfg h ls).Nodup := by
  unfold localObjs
  apply List.Nodup.map
  · intro a b hab; exact List.append_cancel_right hab
  · exact hn.filter _

/-! ## The command -/

theorem initCommand_eq {cfg : Config} {env : Env} {opts : Text} (h1 : cfg.compile.length ≤ 4095) (h2 : env.cflags.length ≤ 4095) :
    initCommand cfg env opts = (cfg.compile ++ (" -I \"".toList ++ env.resourceDir ++ "/include\" ".toList ++ opts ++ [' '] ++ env.cflags ++ [' '])).take 4096 := by
  unfold initCommand copy
  rw [List.take_of_length_le (l := cfg.compile) (by omega), List.take_of_length_le (l := env.cflags) (by omega), appends_small _ _ (by omega)]
  simp

theorem closed_st {t : Text} (h : t = [] ∨ t = " -static".toList) : Closed t := by
  rcases h with rfl | rfl <;> (unfold Closed; decide)

theorem linkMain_words {cfg : Config} {env : Env} {mod : Text} {statically : Bool} {objs : List Text} (hu : Unix cfg) (he : env.Ok) (hm : Plain mod)
    (ho : ∀ o ∈ objs, Plain o) (hlen : linkLength cfg env mod statically objs ≤ 4095) :
    ∃ cmd, linkMain cfg env mod statically (joined objs) = [some cmd] ∧ words cmd = linkWords cfg env mod statically objs := by
  obtain ⟨st, hst⟩ : ∃ st, st = if statically then cfg.staticLink else [] := ⟨_, rfl⟩
  have hcs : Closed st := by rw [hst]; split; exact closed_st hu.staticLink; rfl
  unfold linkLength at hlen
  have hsl : st.length = if statically then cfg.staticLink.length else 0 := by rw [hst]; split <;> rfl
  rw [← hsl] at hlen
  obtain ⟨T, hT⟩ : ∃ T, T = cfg.compile ++ (" -I \"".toList ++ env.resourceDir ++ "/include\" ".toList ++ joined objs ++ [' '] ++ env.cflags ++ [' '] ++ mod ++ ".c ".toList ++ st ++
      " -o ".toList ++ mod ++ " -L\"".toList ++ env.installDir ++ "/lib\"".toList ++ (" -l".toList ++ cfg.name) ++ "-O".toList ++ env.model) := ⟨_, rfl⟩
  have hTl : T.length ≤ 4095 := by
    rw [hT]
    simp only [List.length_append, joined_length]
    have e1 : " -I \"".toList.length = 5 := rfl
    have e2 : "/include\" ".toList.length = 10 := rfl
    have e3 : ".c ".toList.length = 3 := rfl
    have e4 : " -o ".toList.length = 4 := rfl
    have e5 : " -L\"".toList.length = 4 := rfl
    have e6 : "/lib\"".toList.length = 5 := rfl
    have e7 : " -l".toList.length = 3 := rfl
    have e8 : "-O".toList.length = 2 := rfl
    have e9 : [' '].length = 1 := rfl
    omega
  refine ⟨T, ?_, ?_⟩
  · unfold linkMain
    dsimp only
    rw [initCommand_eq (by omega) (by omega), appends_take]
    rw [if_neg hu.os, if_neg (show ¬ (cfg.os = "darwin".toList ∧ (!statically) = true) from fun h => hu.os h.1), if_pos (Or.inr hu.os)]
    rw [hu.objflag, hu.linkflags, hu.libspec, hu.libext]
    unfold execute
    rw [if_neg hu.compiler]
    refine congrArg (fun x : Text => [some x]) ?_
    cases statically
    · rw [if_neg (by simp), appends_take, appends_take]
      rw [if_neg (by simp)] at hst
      subst hst
      unfold copy
      rw [List.take_take, min_eq_left (by omega), List.take_of_length_le]
      · rw [hT]; simp
      · rw [hT] at hTl; simp only [List.length_append, List.flatten_cons, List.flatten_nil, List.length_nil] at hTl ⊢; omega
    · rw [if_pos rfl, appends_take, appends_take, appends_take]
      rw [if_pos rfl] at hst
      subst hst
      unfold copy
      rw [List.take_take, min_eq_left (by omega), List.take_of_length_le]
      · rw [hT]; simp
      · rw [hT] at hTl; simp only [List.length_append, List.flatten_cons, List.flatten_nil, List.length_nil] at hTl ⊢; omega
  · have hT' : T = cfg.compile ++ ' ' :: ("-I".toList ++ ' ' :: (('"' :: ((env.resourceDir ++ "/include".toList) ++ ['"'])) ++ ' ' :: (joined objs ++ ' ' :: (env.cflags ++ ' ' ::
        ((mod ++ ".c".toList) ++ ' ' :: (st ++ ' ' :: ("-o".toList ++ ' ' :: (mod ++ ' ' :: (("-L".toList ++ '"' :: ((env.installDir ++ "/lib".toList) ++ ['"'])) ++ ' ' ::
          ("-l".toList ++ cfg.name ++ "-O".toList ++ env.model)))))))))) := by
      rw [hT]; simp
    have q1 : '"' ∉ env.resourceDir ++ "/include".toList := by
      rw [List.mem_append, not_or]; exact ⟨he.resourceDir, by decide⟩
    have q2 : '"' ∉ env.installDir ++ "/lib".toList := by
      rw [List.mem_append, not_or]; exact ⟨he.installDir, by decide⟩
    have pI : Plain "-I".toList := by unfold Plain; decide
    have po : Plain "-o".toList := by unfold Plain; decide
    have pL : Plain "-L".toList := by unfold Plain; decide
    have pl : Plain "-l".toList := by unfold Plain; decide
    have pc : Plain (mod ++ ".c".toList) := hm.append (by decide)
    have pe : Plain ("-l".toList ++ cfg.name ++ "-O".toList ++ env.model) :=
      ((pl.append hu.name.2).append (by decide)).append he.model.2
    have cL : Closed ("-L".toList ++ '"' :: ((env.installDir ++ "/lib".toList) ++ ['"'])) := closed_append (closed_none pL.2.2) (closed_quoted q2)
    rw [hT', words_space hu.compile, words_space (closed_none pI.2.2), words_space (closed_quoted q1), words_space (closed_none (joined_no_quote _ ho)), words_space he.cflags,
      words_space (closed_none pc.2.2), words_space hcs, words_space (closed_none po.2.2), words_space (closed_none hm.2.2), words_space cL, words_plain pI, words_quoted q1,
      words_joined _ ho, words_plain pc, words_plain po, words_plain hm, words_mixed pL q2, words_plain pe]
    unfold linkWords
    have : words st = if statically then words cfg.staticLink else [] := by rw [hst]; split <;> rfl
    rw [this]
    simp

theorem links_eq {cfg : Config} {lib : Text → Option (List Text)} {h : List Job} {d : Disk} {j : Job} {links : List Text} {b : Bool} (hi : Inv cfg lib h d)
    (hm : ∀ k ∈ h, k.mod ≠ j.mod) (hl : lib (j.mod ++ sfExt) = none) (hc : collect lib d j = some (links, b)) :
    imports lib d [j.mod] j.imps = some links := by
  unfold collect at hc
  rw [Option.bind_eq_some_iff] at hc
  obtain ⟨ls, h1, hc⟩ := hc
  rw [Option.map_eq_some_iff] at hc
  obtain ⟨fn, h2, hc⟩ := hc
  obtain ⟨rfl, -⟩ := makeFileName_some h2
  have : look lib d (j.mod ++ sfExt) = none := by
    unfold look
    cases hs : d.sym (j.mod ++ sfExt) with
    | none => exact hl
    | some l =>
      obtain ⟨m, t, k, h3, h4⟩ := hi.only _ _ hs
      rw [sym_inj] at h3
      obtain ⟨h5, h6, -⟩ := last_mod h4
      exact absurd (h5.trans h3.symm) (hm k h6)
  rw [this] at hc
  split at hc
  · injection hc with hc _; rw [h1, hc]
  · injection hc with hc _; rw [h1, hc]

/-- The list `Links` of a main program, and the command. -/
theorem link_core {cfg : Config} {env : Env} {lib : Text → Option (List Text)} {h : List Job} {d : Disk} {j : Job} {statically : Bool}
    (hu : Unix cfg) (he : env.Ok) (hi : Inv cfg lib h d) (hp : ∀ k ∈ h, Plain k.mod) (hj : Plain j.mod) (hm : ∀ k ∈ h, k.mod ≠ j.mod)
    (hl : lib (j.mod ++ sfExt) = none) (hd : (link cfg env lib d j statically).isSome) :
    ∃ links : List Text, links.Nodup ∧ (∀ n, n ∈ links ↔ n = j.mod ∨ ∃ i ∈ j.imps, ∃ l, look lib d (i ++ sfExt) = some l ∧ n ∈ l) ∧
      (((localObjs cfg h links).map fun o => o.length + 1).sum ≤ 2048 → linkLength cfg env j.mod statically (localObjs cfg h links) ≤ 4095 →
        ∃ cmd, link cfg env lib d j statically = some [some cmd] ∧ words cmd = linkWords cfg env j.mod statically (localObjs cfg h links)) := by
  rw [Option.isSome_iff_exists] at hd
  obtain ⟨r, hd⟩ := hd
  have hd0 := hd
  unfold link at hd
  rw [Option.bind_eq_some_iff] at hd
  obtain ⟨⟨links, b⟩, hcol, hd⟩ := hd
  dsimp only at hd
  rw [Option.bind_eq_some_iff] at hd
  obtain ⟨sf, hsf, hd⟩ := hd
  rw [Option.map_eq_some_iff] at hd
  obtain ⟨of', hof, hd⟩ := hd
  obtain ⟨rfl, hlen⟩ := makeFileName_some hsf
  obtain ⟨rfl, -⟩ := makeFileName_some hof
  obtain ⟨m1, m2, m3⟩ := imports_some _ _ _ (links_eq hi hm hl hcol)
  refine ⟨links, m2 (by simp), fun n => by rw [m1, List.mem_singleton], ?_⟩
  intro h1 h2
  have hcp : copy 32 j.mod = j.mod := by
    unfold copy; rw [List.take_of_length_le]; have : sfExt.length = 4 := rfl; omega
  have hf := findLocal_eq hi hu.objext hm links []
  rw [List.take_nil, List.nil_append, List.take_of_length_le (by rw [joined_length]; exact h1)] at hf
  rw [hf, hcp] at hd
  obtain ⟨cmd, h3, h4⟩ := linkMain_words (statically := statically) hu he hj (objs := localObjs cfg h links) (by
    intro o ho'
    rw [mem_localObjs] at ho'
    obtain ⟨n, -, ⟨t, k, hk⟩, rfl⟩ := ho'
    obtain ⟨e1, e2, -⟩ := last_mod hk
    rw [← e1, hu.objext]
    exact (hp k e2).append (by decide)) h2
  exact ⟨cmd, by rw [hd0, ← hd, h3], h4⟩

/-- Every module that is needed is in the list. -/
theorem needed_mem {cfg : Config} {lib : Text → Option (List Text)} {h : List Job} {d : Disk} {imps : List Text} (hi : Inv cfg lib h d) (ho : InOrder h imps)
    (hr : Renewed h imps) {n : Text} (hn : Compiled h n) (hk : Needs h imps n) : ∃ i ∈ imps, ∃ l, look lib d (i ++ sfExt) = some l ∧ n ∈ l := by
  obtain ⟨i, h1, h2⟩ := hk
  obtain ⟨⟨t, k, h4⟩, h5⟩ := complete hi ho hr h2 ⟨i, h1, .refl⟩ hn
  obtain ⟨⟨l, h6⟩, -, -⟩ := hi.have_ i t k h4
  exact ⟨i, h1, l, look_sym h6, h5 l h6⟩

/-- **C89** (partly): after any history of compilations, when the modules a program needs were compiled in order and each got a symbol file without a trace of an older one,
the command that links the program names the object file of each module compiled here that the program needs, directly or not, and no other, once each, if the list fits in
2048 characters and the command in 4095.  Missing: a module whose interface has not changed keeps its symbol file, with the old list (`C89_stale`); a local module may also be
in the library (`C89_shadow`); longer lists are cut (`C89_cut`). -/
theorem C89_link_partial (cfg : Config) (env : Env) (lib : Text → Option (List Text)) (h : List Job) (d : Disk) (j : Job) (statically : Bool)
    (hu : Unix cfg) (he : env.Ok) (hr : run cfg lib empty h.reverse = some d) (hp : ∀ k ∈ h, Plain k.mod) (hj : Plain j.mod) (hm : ∀ k ∈ h, k.mod ≠ j.mod)
    (hl : lib (j.mod ++ sfExt) = none) (ha : Apart lib h) (ho : InOrder h j.imps) (hc : Clean h j.imps) (hd : (link cfg env lib d j statically).isSome) :
    ∃ objs : List Text, objs.Nodup ∧ (∀ o, o ∈ objs ↔ ∃ n, Compiled h n ∧ Needs h j.imps n ∧ o = n ++ ".o".toList) ∧
      ((objs.map fun o => o.length + 1).sum ≤ 2048 → linkLength cfg env j.mod statically objs ≤ 4095 →
        ∃ cmd, link cfg env lib d j statically = some [some cmd] ∧ words cmd = linkWords cfg env j.mod statically objs) := by
  rw [run_reverse] at hr
  have hi := inv_run h d ha.1 hr
  have hrn : Renewed h j.imps := fun m t k h1 h2 => (hc m t k h1 h2).imp (fun h => h) (fun h => Or.inr h)
  obtain ⟨links, m2, m1, hcmd⟩ := link_core hu he hi hp hj hm hl hd
  refine ⟨localObjs cfg h links, nodup_localObjs m2, ?_, hcmd⟩
  intro o
  rw [mem_localObjs, hu.objext]
  constructor
  · rintro ⟨n, h1, hn, h3⟩
    refine ⟨n, hn, ?_, h3⟩
    rcases (m1 n).1 h1 with rfl | ⟨i, h1, l, h2, h3⟩
    · obtain ⟨t, k, hk⟩ := hn
      obtain ⟨h1, h2, -⟩ := last_mod hk
      exact absurd h1 (hm k h2)
    · unfold look at h2
      cases hs : d.sym (i ++ sfExt) with
      | none => rw [hs] at h2; exact absurd hn (ha.2 _ _ _ h2 h3)
      | some l' =>
        rw [hs] at h2; injection h2 with h2; subst h2
        obtain ⟨m, t, k, h4, h5⟩ := hi.only _ _ hs
        rw [sym_inj] at h4; subst h4
        exact ⟨i, h1, sound hi ho hc ha hn t t i k l' (le_refl _) ⟨i, h1, .refl⟩ h5 hs h3⟩
  · rintro ⟨n, h2, h1, h3⟩; exact ⟨n, (m1 n).2 (Or.inr (needed_mem hi ho hrn h2 h1)), h2, h3⟩

/-- **C89** (partly): when modules are compiled again, it is enough that each got a new symbol file the last time (because its interface changed, or -F was given): then no module
that is needed is missing.  There may be object files of modules that were needed before. -/
theorem C89_nothing_missing_partial (cfg : Config) (env : Env) (lib : Text → Option (List Text)) (h : List Job) (d : Disk) (j : Job) (statically : Bool)
    (hu : Unix cfg) (he : env.Ok) (hr : run cfg lib empty h.reverse = some d) (hp : ∀ k ∈ h, Plain k.mod) (hj : Plain j.mod) (hm : ∀ k ∈ h, k.mod ≠ j.mod)
    (hl : lib (j.mod ++ sfExt) = none) (ha : ∀ k ∈ h, lib (k.mod ++ sfExt) = none) (ho : InOrder h j.imps) (hc : Renewed h j.imps)
    (hd : (link cfg env lib d j statically).isSome) :
    ∃ objs : List Text, objs.Nodup ∧ (∀ n, Compiled h n → Needs h j.imps n → n ++ ".o".toList ∈ objs) ∧ (∀ o ∈ objs, ∃ n, Compiled h n ∧ o = n ++ ".o".toList) ∧
      ((objs.map fun o => o.length + 1).sum ≤ 2048 → linkLength cfg env j.mod statically objs ≤ 4095 →
        ∃ cmd, link cfg env lib d j statically = some [some cmd] ∧ words cmd = linkWords cfg env j.mod statically objs) := by
  rw [run_reverse] at hr
  have hi := inv_run h d ha hr
  obtain ⟨links, m2, m1, hcmd⟩ := link_core hu he hi hp hj hm hl hd
  refine ⟨localObjs cfg h links, nodup_localObjs m2, ?_, ?_, hcmd⟩
  · intro n h1 h2
    rw [mem_localObjs, hu.objext]
    exact ⟨n, (m1 n).2 (Or.inr (needed_mem hi ho hc h1 h2)), h1, rfl⟩
  · intro o ho'
    rw [mem_localObjs, hu.objext] at ho'
    obtain ⟨n, -, h2, h3⟩ := ho'
    exact ⟨n, h2, h3⟩

/-- **C89**: the command that compiles a module to an object file has the words it should have, for all directories and options, if it fits in 4095 characters. -/
theorem C89_compile (cfg : Config) (env : Env) (mod : Text) (hu : Unix cfg) (he : env.Ok) (hm : Plain mod)
    (hlen : cfg.compile.length + env.resourceDir.length + env.cflags.length + mod.length + 22 ≤ 4095) :
    ∃ cmd, assemble cfg env mod = some cmd ∧
      words cmd = words cfg.compile ++ ["-I".toList, env.resourceDir ++ "/include".toList] ++ words env.cflags ++ ["-c".toList, mod ++ ".c".toList] := by
  obtain ⟨T, hT⟩ : ∃ T, T = cfg.compile ++ (" -I \"".toList ++ env.resourceDir ++ "/include\" ".toList ++ [] ++ [' '] ++ env.cflags ++ [' ']) ++ ("-c ".toList ++ mod ++ ".c".toList) := ⟨_, rfl⟩
  have hTl : T.length ≤ 4095 := by
    rw [hT]
    simp only [List.length_append]
    have e1 : " -I \"".toList.length = 5 := rfl
    have e2 : "/include\" ".toList.length = 10 := rfl
    have e3 : ".c".toList.length = 2 := rfl
    have e4 : "-c ".toList.length = 3 := rfl
    have e9 : [' '].length = 1 := rfl
    have e0 : ([] : Text).length = 0 := rfl
    omega
  refine ⟨T, ?_, ?_⟩
  · unfold assemble execute
    rw [if_neg hu.compiler, initCommand_eq (by omega) (by omega), appends_take]
    unfold copy
    rw [List.take_take, min_eq_left (by omega), List.take_of_length_le]
    · rw [hT]; simp
    · rw [hT] at hTl; simp only [List.length_append, List.flatten_cons, List.flatten_nil, List.length_nil] at hTl ⊢; omega
  · have hT' : T = cfg.compile ++ ' ' :: ("-I".toList ++ ' ' :: (('"' :: ((env.resourceDir ++ "/include".toList) ++ ['"'])) ++ ' ' :: ([] ++ ' ' :: (env.cflags ++ ' ' ::
        ("-c".toList ++ ' ' :: (mod ++ ".c".toList)))))) := by
      rw [hT]; simp
    have q1 : '"' ∉ env.resourceDir ++ "/include".toList := by
      rw [List.mem_append, not_or]; exact ⟨he.resourceDir, by decide⟩
    have pI : Plain "-I".toList := by unfold Plain; decide
    have pc : Plain "-c".toList := by unfold Plain; decide
    rw [hT', words_space hu.compile, words_space (closed_none pI.2.2), words_space (closed_quoted q1), words_space (t := []) rfl, words_space he.cflags,
      words_space (closed_none pc.2.2), words_plain pI, words_quoted q1, words_plain pc, words_plain (hm.append (by decide))]
    simp [show words [] = [] from rfl]

/-! ## Concrete cases, and what fails -/

def linux : Config :=
  ⟨"voc".toList, ".o".toList, " -o ".toList, " -L\"".toList, " -lvoc".toList, [], "linux".toList, "gcc".toList, "gcc -fPIC -g".toList, " -static".toList⟩

def here : Env := ⟨"/opt/voc".toList, "/opt/voc/2".toList, "2".toList, []⟩

theorem linux_unix : Unix linux := by
  refine ⟨rfl, rfl, rfl, rfl, rfl, by decide, by decide, ?_, ?_, Or.inr rfl⟩
  · unfold Plain; decide
  · unfold Closed; decide

theorem here_ok : here.Ok := ⟨by decide, by decide, by unfold Plain; decide, by unfold Closed; decide⟩

/-- Compiling some modules, then a main program. -/
def build (lib : Text → Option (List Text)) (h : List Job) (j : Job) : Option (List (Option Text)) :=
  (run linux lib empty h.reverse).bind fun d => link linux here lib d j false

/-- N, then A, which imports N. -/
def good : List Job := [⟨"A".toList, ["N".toList], false, false⟩, ⟨"N".toList, [], false, false⟩]

/-- The main program M imports A. -/
def main : Job := ⟨"M".toList, ["A".toList], false, false⟩

theorem last_good {m : Text} {t : Nat} {j : Job} (h : last good m = some (t, j)) :
    m = "A".toList ∧ t = 1 ∧ j = ⟨"A".toList, ["N".toList], false, false⟩ ∨ m = "N".toList ∧ t = 0 ∧ j = ⟨"N".toList, [], false, false⟩ := by
  unfold good last at h
  split at h
  · rename_i h1; injection h with h; injection h with h2 h3
    exact Or.inl ⟨h1.symm, h2.symm, h3.symm⟩
  · rw [last] at h
    split at h
    · rename_i h1; injection h with h; injection h with h2 h3
      exact Or.inr ⟨h1.symm, h2.symm, h3.symm⟩
    · simp [last] at h

theorem good_order (imps : List Text) : InOrder good imps := by
  intro m i t j t' j' _ h1 h2 h3
  rcases last_good h1 with ⟨rfl, rfl, rfl⟩ | ⟨rfl, rfl, rfl⟩
  · rw [List.mem_singleton] at h2
    subst h2
    rcases last_good h3 with ⟨h4, -, -⟩ | ⟨-, h4, -⟩
    · exact absurd h4 (by decide)
    · omega
  · cases h2

theorem good_clean (imps : List Text) : Clean good imps := by
  intro m t j _ h1
  rcases last_good h1 with ⟨rfl, rfl, rfl⟩ | ⟨rfl, rfl, rfl⟩ <;> (right; decide)

/-- The hypotheses of `C89_link_partial` hold for M, A and N; the program needs A and N. -/
example : (∃ d, run linux (fun _ => none) empty good.reverse = some d ∧ (link linux here (fun _ => none) d main false).isSome) ∧ (∀ k ∈ good, Plain k.mod) ∧ Plain main.mod ∧
    (∀ k ∈ good, k.mod ≠ main.mod) ∧ Apart (fun _ => none) good ∧ InOrder good main.imps ∧ Clean good main.imps ∧ Needs good main.imps "N".toList := by
  refine ⟨?_, ?_, ?_, by decide, ⟨fun _ _ => rfl, fun _ _ _ h => by cases h⟩, good_order _, good_clean _, ?_⟩
  · have : (build (fun _ => none) good main).isSome = true := by decide +kernel
    unfold build at this
    rw [Option.isSome_iff_exists] at this
    obtain ⟨r, h⟩ := this
    rw [Option.bind_eq_some_iff] at h
    obtain ⟨d, h1, h2⟩ := h
    exact ⟨d, h1, by rw [h2]; rfl⟩
  · unfold Plain; decide
  · unfold Plain; decide
  · exact ⟨"A".toList, by decide, .tail .refl ⟨1, _, rfl, by decide⟩⟩

/-- The command for M, A and N. -/
example : build (fun _ => none) good main =
    some [some "gcc -fPIC -g -I \"/opt/voc/2/include\"  A.o N.o  M.c  -o M -L\"/opt/voc/lib\" -lvoc-O2".toList] := by decide +kernel

/-- A without imports; N; then A again, which now imports N, with the same interface. -/
def stale : List Job := ⟨"A".toList, ["N".toList], false, false⟩ :: ⟨"N".toList, [], false, false⟩ :: [⟨"A".toList, [], false, false⟩]

/-- **C89**, what fails: A is changed so that it imports N; its interface is as before.  All is compiled in order, without errors, but the symbol file of A stays, with the old
list, and a program that imports A is linked without N. -/
theorem C89_stale : Compiled stale "N".toList ∧ Needs stale main.imps "N".toList ∧ InOrder stale main.imps ∧
    build (fun _ => none) stale main = some [some "gcc -fPIC -g -I \"/opt/voc/2/include\"  A.o  M.c  -o M -L\"/opt/voc/lib\" -lvoc-O2".toList] := by
  refine ⟨⟨1, _, rfl⟩, ⟨"A".toList, by decide, .tail .refl ⟨2, _, rfl, by decide⟩⟩, ?_, by decide +kernel⟩
  intro m i t j t' j' _ h1 h2 h3
  unfold stale last at h1
  split at h1
  · injection h1 with h1; injection h1 with e1 e2
    subst e1 e2
    rw [List.mem_singleton] at h2
    subst h2
    have : last stale "N".toList = some (1, ⟨"N".toList, [], false, false⟩) := rfl
    rw [this] at h3
    injection h3 with h3; injection h3 with e1 e2
    subst e1
    decide
  · rename_i hm
    rw [last] at h1
    split at h1
    · injection h1 with h1; injection h1 with e1 e2
      subst e2
      cases h2
    · rw [last, if_neg hm] at h1
      cases h1

/-- With option -F for A the program is linked with N. -/
example : build (fun _ => none) (⟨"A".toList, ["N".toList], true, false⟩ :: stale.drop 1) main =
    some [some "gcc -fPIC -g -I \"/opt/voc/2/include\"  A.o N.o  M.c  -o M -L\"/opt/voc/lib\" -lvoc-O2".toList] := by decide +kernel

/-- **C89**, what fails: a module of the library is changed and compiled in the current directory, with the same interface.  It gets no symbol file there, and programs are linked
with the old one in the library. -/
theorem C89_shadow : build (fun fn => if fn = "A.sym".toList then some ["A".toList] else none) [⟨"A".toList, [], false, false⟩] main =
    some [some "gcc -fPIC -g -I \"/opt/voc/2/include\"   M.c  -o M -L\"/opt/voc/lib\" -lvoc-O2".toList] := by decide +kernel

/-- 70 names of 27 characters. -/
def names : List Text := (List.range 70).map fun k => [Char.ofNat (97 + k % 10), Char.ofNat (97 + k / 10)] ++ "ModuleWithALongNameInItxx".toList

/-- 70 modules, and a program that imports them. -/
def many : List Job := names.map fun n => ⟨n, [], false, false⟩

/-- Is the list cut within a name? -/
def isCut (ns : List Text) : Option (List (Option Text)) → Bool
  | some [some cmd] => (ns.any fun n => !(words cmd).elem (n ++ ".o".toList)) && (words cmd).elem "baModul".toList
  | _ => false

theorem isCut_iff {ns : List Text} {r : Option (List (Option Text))} (h : isCut ns r = true) :
    ∃ cmd, r = some [some cmd] ∧ (∃ n ∈ ns, n ++ ".o".toList ∉ words cmd) ∧ "baModul".toList ∈ words cmd := by
  unfold isCut at h
  split at h
  · rename_i cmd
    rw [Bool.and_eq_true, List.any_eq_true] at h
    obtain ⟨⟨n, h1, h2⟩, h3⟩ := h
    refine ⟨cmd, rfl, ⟨n, h1, ?_⟩, by simpa using h3⟩
    simpa using h2
  · cases h

theorem many_cut : isCut names (build (fun _ => none) many ⟨"M".toList, names, false, false⟩) = true := by decide +kernel

/-- **C89**, what fails: the list of the object files is cut after 2048 characters, within a name, and there is no message. -/
theorem C89_cut : ∃ cmd, build (fun _ => none) many ⟨"M".toList, names, false, false⟩ = some [some cmd] ∧
    (∃ n ∈ names, n ++ ".o".toList ∉ words cmd) ∧ "baModul".toList ∈ words cmd := isCut_iff many_cut

end Verif.Linking
