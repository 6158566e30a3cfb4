import Verif.CNames.Lemmas

/-! That names in the C text are distinct (C71). -/
namespace Verif.CNames

theorem text_inj {s s' : Sym} {n : Name} (h : Text s n) (h' : Text s' n) : s = s' := by
  have := (decode_text s n h).symm.trans (decode_text s' n h')
  exact Option.some.inj this

def Sym.stamp? : Sym → Option Nat
  | .stamped k | .stampedS k | .stampedT k => some k
  | _ => none

/-- The key of the declaration. -/
def Sym.owner : Sym → Option (List Name)
  | .glob _ x | .desc _ x => some [x]
  | .bound _ t x => some [t, x]
  | .loc x | .len x _ | .tag x | .copy x | .wth x => some [x]
  | _ => none

def Sym.IsLocal : Sym → Prop
  | .loc _ | .len _ _ | .tag _ | .copy _ | .wth _ | .sv | .rv => True
  | _ => False

def Sym.IsGlob (m : Name) : Sym → Prop
  | .glob m' _ | .desc m' _ | .bound m' _ _ => m' = m
  | _ => False

/-- The keys that a declaration uses for its own names. -/
def keys (lev : Nat) : Decl → List (List Name)
  | .var v => [[v.name]]
  | .loop => []
  | .typ n _ => if lev = 0 then [[n]] else []
  | .proc n _ => if lev = 0 then [[n]] else []
  | .bound t n _ => if lev = 0 then [[t, n]] else []

/-- Names that come from declarations with these keys and with numbers in `(k, k']`. -/
def Good (m : Name) (lev f k k' : Nat) (ks : List (List Name)) (e : Entry) : Prop :=
  ∃ s, Text s e.name ∧
    (((if lev = 0 then e.place = .file ∧ s.IsGlob m else (e.place = .local f ∨ e.place = .member f) ∧ s.IsLocal) ∧
        ∃ o ∈ ks, s.owner = some o) ∨
     (∃ j, s.stamp? = some j ∧ k < j ∧ j ≤ k') ∨
     (∃ g, k < g ∧ g ≤ k' ∧ (e.place = .local g ∨ e.place = .member g) ∧ s.IsLocal))

/-- To be different; members of records only if `b`. -/
def Tog (b : Bool) (p q : Place) : Prop := Together p q ∧ (b = true ∨ ∀ f, p ≠ .member f)

def Sep (b : Bool) (a c : Entry) : Prop := Tog b a.place c.place → a.name ≠ c.name

theorem together_symm {p q : Place} (h : Together p q) : Together q p := by
  cases p <;> cases q <;> simp_all [Together]

theorem together_lm {f g : Nat} {p q : Place} (hp : p = .local f ∨ p = .member f) (hq : q = .local g ∨ q = .member g)
    (h : Together p q) : f = g := by
  rcases hp with rfl | rfl <;> rcases hq with rfl | rfl <;> simp_all [Together]

theorem stamp_notLocal {s : Sym} {j : Nat} (h : s.stamp? = some j) : ¬ s.IsLocal := by
  cases s <;> simp_all [Sym.stamp?, Sym.IsLocal]

theorem glob_notLocal {s : Sym} {m : Name} (h : s.IsGlob m) : ¬ s.IsLocal ∧ s.stamp? = none := by
  cases s <;> simp_all [Sym.IsGlob, Sym.IsLocal, Sym.stamp?]

theorem local_notStamp {s : Sym} (h : s.IsLocal) : s.stamp? = none := by
  cases s <;> simp_all [Sym.IsLocal, Sym.stamp?]

theorem cross {m : Name} {lev f k k1 k2 : Nat} {K K' : List (List Name)} {a c : Entry} {b : Bool} (hf : lev ≠ 0 → f ≤ k) (hk : k ≤ k1)
    (ha : Good m lev f k k1 K a) (hc : Good m lev f k1 k2 K' c) (hd : ∀ o ∈ K, o ∉ K') : Sep b a c := by
  intro ht e
  obtain ⟨s, h1, ha⟩ := ha
  obtain ⟨s', h2, hc⟩ := hc
  rw [← e] at h2
  obtain rfl := text_inj h1 h2
  rcases ha with ⟨p1, o, ho, w⟩ | ⟨j, w, p1, p2⟩ | ⟨g, p1, p2, p3, p4⟩
  · rcases hc with ⟨q1, o', ho', w'⟩ | ⟨j', w', q1, q2⟩ | ⟨g', q1, q2, q3, q4⟩
    · rw [w] at w'
      obtain rfl := Option.some.inj w'
      exact hd _ ho ho'
    · split at p1
      · rw [(glob_notLocal p1.2).2] at w'; cases w'
      · rw [local_notStamp p1.2] at w'; cases w'
    · split at p1
      · exact (glob_notLocal p1.2).1 q4
      · rename_i hl
        have := together_lm p1.1 q3 ht.1
        have := hf hl
        omega
  · rcases hc with ⟨q1, o', ho', w'⟩ | ⟨j', w', q1, q2⟩ | ⟨g', q1, q2, q3, q4⟩
    · split at q1
      · rw [(glob_notLocal q1.2).2] at w; cases w
      · rw [local_notStamp q1.2] at w; cases w
    · rw [w] at w'
      obtain rfl := Option.some.inj w'
      omega
    · exact stamp_notLocal w q4
  · rcases hc with ⟨q1, o', ho', w'⟩ | ⟨j', w', q1, q2⟩ | ⟨g', q1, q2, q3, q4⟩
    · split at q1
      · exact (glob_notLocal q1.2).1 p4
      · rename_i hl
        have := together_lm p3 q1.1 ht.1
        have := hf hl
        omega
    · exact stamp_notLocal w' p4
    · have := together_lm p3 q3 ht.1
      omega

theorem Good.mono {m : Name} {lev f k k' l l' : Nat} {K K' : List (List Name)} {e : Entry} (h : Good m lev f k k' K e) (h1 : l ≤ k)
    (h2 : k' ≤ l') (h3 : ∀ o ∈ K, o ∈ K') : Good m lev f l l' K' e := by
  obtain ⟨s, t, h⟩ := h
  refine ⟨s, t, ?_⟩
  rcases h with ⟨p, o, ho, w⟩ | ⟨j, w, p1, p2⟩ | ⟨g, p1, p2, p3, p4⟩
  · exact Or.inl ⟨p, o, h3 o ho, w⟩
  · exact Or.inr (Or.inl ⟨j, w, by omega, by omega⟩)
  · exact Or.inr (Or.inr ⟨g, by omega, by omega, p3, p4⟩)

/-- What is proved by induction. -/
def Res (b : Bool) (m : Name) (lev f k : Nat) (K : List (List Name)) (r : List Entry × Nat) : Prop :=
  k ≤ r.2 ∧ (r.2 ≤ 32767 → (∀ e ∈ r.1, Good m lev f k r.2 K e) ∧ r.1.Pairwise (Sep b))

theorem entered_short : ∀ s ∈ entered, (comps s).length ≤ 2 := by decide

theorem ident_stamp (k : Nat) (s : Name) : ident (stampName k s) = stampName k s := by
  unfold ident
  split
  · rename_i h
    have := entered_short _ (table_mem h)
    unfold stampName at this
    rw [comps_dunder, comps_plain _ (dec_no k), List.length_append] at this
    have h2 : 0 < (comps (s.take 25)).length := List.length_pos_iff.2 (comps_ne_nil _)
    simp only [List.length_cons, List.length_nil] at this
    omega
  · rfl

theorem lnk_ident : IsIdent linkName := ⟨by decide, 'l', ['n', 'k'], rfl, by decide⟩
theorem lnk_text : Text (.loc linkName) linkName := ⟨lnk_ident, by decide⟩

/-- The text of a name in a function. -/
def lstr : Sym → Name
  | .loc x => ident x
  | .len x d => ident x ++ lenExt ++ (if d = 0 then [] else dec d)
  | .tag x => ident x ++ typExt
  | .copy x => ident x ++ copyExt
  | .wth x => ident x ++ withExt
  | _ => []

def memberSyms (v : Var) : List Sym :=
  [.loc v.name] ++ (List.range v.dims).map (.len v.name) ++ (if v.tagged then [.tag v.name] else [])

def localSyms (v : Var) : List Sym :=
  memberSyms v ++ (if v.tagged then [.wth v.name] else []) ++ (if v.copied then [.copy v.name] else [])

theorem lens_eq (v : Var) : lens v = ((List.range v.dims).map (Sym.len v.name)).map lstr := by
  unfold lens
  cases v.dims with
  | zero => rfl
  | succ n =>
    rw [List.range_succ_eq_map]
    simp [lstr, Function.comp_def]

theorem member_eq (v : Var) : memberNames v = (memberSyms v).map lstr := by
  unfold memberNames memberSyms
  rw [lens_eq, List.map_append, List.map_append]
  cases v.tagged <;> rfl

theorem local_eq (v : Var) : localNames v = (localSyms v).map lstr := by
  unfold localNames localSyms
  rw [member_eq, List.map_append, List.map_append]
  cases v.tagged <;> cases v.copied <;> rfl

theorem localSyms_nodup (v : Var) : (localSyms v).Nodup := by
  unfold localSyms memberSyms
  have h : ((List.range v.dims).map (Sym.len v.name)).Nodup :=
    List.Nodup.map (fun a b e => by injection e) List.nodup_range
  cases v.tagged <;> cases v.copied <;> simp [List.nodup_append, h]

theorem memberSyms_nodup (v : Var) : (memberSyms v).Nodup := by
  have := localSyms_nodup v
  unfold localSyms at this
  rw [List.nodup_append, List.nodup_append] at this
  exact this.1.1

theorem mem_localSyms {v : Var} (h : IsIdent v.name) (hd : v.dims ≤ 32767) {s : Sym} (hs : s ∈ localSyms v) :
    Text s (lstr s) ∧ s.IsLocal ∧ s.owner = some [v.name] := by
  unfold localSyms memberSyms at hs
  simp only [List.mem_append, List.mem_singleton, List.mem_map, List.mem_range] at hs
  rcases hs with (((rfl | ⟨i, hi, rfl⟩) | hs) | hs) | hs
  · exact ⟨⟨h, rfl⟩, trivial, rfl⟩
  · exact ⟨⟨h, by omega, rfl⟩, trivial, rfl⟩
  · split at hs
    · rw [List.mem_singleton] at hs; subst hs; exact ⟨⟨h, rfl⟩, trivial, rfl⟩
    · simp at hs
  · split at hs
    · rw [List.mem_singleton] at hs; subst hs; exact ⟨⟨h, rfl⟩, trivial, rfl⟩
    · simp at hs
  · split at hs
    · rw [List.mem_singleton] at hs; subst hs; exact ⟨⟨h, rfl⟩, trivial, rfl⟩
    · simp at hs

theorem memberSyms_sub {v : Var} {s : Sym} (hs : s ∈ memberSyms v) : s ∈ localSyms v := by
  unfold localSyms
  exact List.mem_append_left _ (List.mem_append_left _ hs)

theorem nodup_sep {b : Bool} {p : Place} {l : List Name} (h : l.Nodup) : (l.map (⟨p, ·⟩ : Name → Entry)).Pairwise (Sep b) := by
  rw [List.pairwise_map]
  exact List.Pairwise.imp (S := fun a c => Sep b ⟨p, a⟩ ⟨p, c⟩) (fun {x y} hxy _ => hxy) h

theorem var_res (b : Bool) (m : Name) (lev f k : Nat) (v : Var) (hl : lev ≠ 0) (h : IsIdent v.name) (hd : v.dims ≤ 32767) :
    Res b m lev f k [[v.name]] (varEntries f v, k) := by
  refine ⟨Nat.le_refl _, fun _ => ⟨?_, ?_⟩⟩
  · intro e he
    dsimp only at he ⊢
    unfold varEntries at he
    rw [member_eq, local_eq] at he
    simp only [List.mem_append, List.mem_map, exists_exists_and_eq_and] at he
    rcases he with ⟨s, hs, rfl⟩ | ⟨s, hs, rfl⟩
    · obtain ⟨h1, h2, h3⟩ := mem_localSyms h hd hs
      refine ⟨s, h1, Or.inl ⟨?_, _, List.mem_singleton.2 rfl, h3⟩⟩
      rw [if_neg hl]; exact ⟨Or.inl rfl, h2⟩
    · obtain ⟨h1, h2, h3⟩ := mem_localSyms h hd (memberSyms_sub hs)
      refine ⟨s, h1, Or.inl ⟨?_, _, List.mem_singleton.2 rfl, h3⟩⟩
      rw [if_neg hl]; exact ⟨Or.inr rfl, h2⟩
  · dsimp only
    have inj : ∀ s ∈ localSyms v, ∀ t ∈ localSyms v, lstr s = lstr t → s = t := by
      intro s hs t ht e
      have h1 := (mem_localSyms h hd hs).1
      rw [e] at h1
      exact text_inj h1 (mem_localSyms h hd ht).1
    unfold varEntries
    rw [List.pairwise_append]
    refine ⟨nodup_sep ?_, nodup_sep ?_, ?_⟩
    · rw [local_eq]; exact List.Nodup.map_on inj (localSyms_nodup v)
    · rw [member_eq]
      exact List.Nodup.map_on (fun s hs t ht => inj s (memberSyms_sub hs) t (memberSyms_sub ht)) (memberSyms_nodup v)
    · intro a ha c hc ht
      rw [List.mem_map] at ha hc
      obtain ⟨_, _, rfl⟩ := ha
      obtain ⟨_, _, rfl⟩ := hc
      exact absurd ht.1 (by simp [Together])

/-- The entries of a procedure itself, without its name. -/
theorem proc_good (m : Name) (lev f k k' : Nat) (n : Name) (K : List (List Name)) (hk : k < f) (hk' : f ≤ k') (h : k' ≤ 32767) (f' : Nat) :
    ∀ e ∈ procEntries f (stampName f n), Good m lev f' k k' K e := by
  intro e he
  unfold procEntries at he
  simp only [List.mem_cons, List.not_mem_nil, or_false] at he
  rcases he with rfl | rfl | rfl | rfl | rfl
  · exact ⟨.stamped f, ⟨by omega, n.take 25, rfl⟩, Or.inr (Or.inl ⟨f, rfl, hk, hk'⟩)⟩
  · exact ⟨.stampedS f, ⟨by omega, n.take 25, rfl⟩, Or.inr (Or.inl ⟨f, rfl, hk, hk'⟩)⟩
  · exact ⟨.sv, rfl, Or.inr (Or.inr ⟨f, hk, hk', Or.inl rfl, trivial⟩)⟩
  · exact ⟨.rv, rfl, Or.inr (Or.inr ⟨f, hk, hk', Or.inl rfl, trivial⟩)⟩
  · exact ⟨.loc linkName, lnk_text, Or.inr (Or.inr ⟨f, hk, hk', Or.inr rfl, trivial⟩)⟩

theorem sep_text {b : Bool} {a c : Entry} {s s' : Sym} (h : Text s a.name) (h' : Text s' c.name) (hne : s ≠ s') : Sep b a c := by
  intro _ e
  rw [← e] at h'
  exact hne (text_inj h h')

theorem proc_sep (b : Bool) (f : Nat) (n : Name) (h : f ≤ 32767) : (procEntries f (stampName f n)).Pairwise (Sep b) := by
  have t1 : Text (.stamped f) (stampName f n) := ⟨h, n.take 25, rfl⟩
  have t2 : Text (.stampedS f) (stampName f n ++ scopeExt) := ⟨h, n.take 25, rfl⟩
  have t3 : Text .sv scopeExt := rfl
  have t4 : Text .rv "__retval".toList := rfl
  have t5 := lnk_text
  unfold procEntries
  repeat' rw [List.pairwise_cons]
  refine ⟨?_, ?_, ?_, ?_, ?_, List.Pairwise.nil⟩
  all_goals
    intro e he
    simp only [List.mem_cons, List.not_mem_nil, or_false] at he
  · rcases he with rfl | rfl | rfl | rfl
    · exact sep_text t1 t2 (by simp)
    · exact sep_text t1 t3 (by simp)
    · exact sep_text t1 t4 (by simp)
    · exact sep_text t1 t5 (by simp)
  · rcases he with rfl | rfl | rfl
    · exact sep_text t2 t3 (by simp)
    · exact sep_text t2 t4 (by simp)
    · exact sep_text t2 t5 (by simp)
  · rcases he with rfl | rfl
    · exact sep_text t3 t4 (by simp)
    · exact sep_text t3 t5 (by simp)
  · subst he; exact sep_text t4 t5 (by simp)

/-- What the declarations in procedure `f` yield for the outside. -/
theorem inner_good {m : Name} {lev lev' f f' k k' : Nat} {K K' : List (List Name)} {e : Entry} (h : Good m (lev + 1) f f k' K e) (hk : k < f)
    (hf : f ≤ k') : Good m lev' f' k k' K' e := by
  obtain ⟨s, t, h⟩ := h
  refine ⟨s, t, ?_⟩
  rcases h with ⟨p, o, ho, w⟩ | ⟨j, w, p1, p2⟩ | ⟨g, p1, p2, p3, p4⟩
  · rw [if_neg (Nat.succ_ne_zero _)] at p
    exact Or.inr (Or.inr ⟨f, hk, hf, p.1, p.2⟩)
  · exact Or.inr (Or.inl ⟨j, w, by omega, p2⟩)
  · exact Or.inr (Or.inr ⟨g, by omega, p2, p3, p4⟩)

/-- The entries of a procedure and those of its declarations. -/
theorem proc_inner {b : Bool} {m : Name} {lev f k' : Nat} {n : Name} {K : List (List Name)} (h : f ≤ 32767)
    (hl : b = true → [linkName] ∉ K) {a c : Entry} (ha : a ∈ procEntries f (stampName f n)) (hc : Good m (lev + 1) f f k' K c) :
    Sep b a c := by
  intro ht e
  obtain ⟨s, t, hc⟩ := hc
  rw [← e] at t
  unfold procEntries at ha
  simp only [List.mem_cons, List.not_mem_nil, or_false] at ha
  have key : ∀ u : Sym, Text u a.name → s = u := fun u hu => text_inj t hu
  rcases ha with rfl | rfl | rfl | rfl | rfl
  · obtain rfl := key (.stamped f) ⟨h, n.take 25, rfl⟩
    rcases hc with ⟨p, o, ho, w⟩ | ⟨j, w, p1, p2⟩ | ⟨g, p1, p2, p3, p4⟩
    · simp [Sym.owner] at w
    · simp only [Sym.stamp?, Option.some.injEq] at w; omega
    · exact p4
  · obtain rfl := key (.stampedS f) ⟨h, n.take 25, rfl⟩
    rcases hc with ⟨p, o, ho, w⟩ | ⟨j, w, p1, p2⟩ | ⟨g, p1, p2, p3, p4⟩
    · simp [Sym.owner] at w
    · simp only [Sym.stamp?, Option.some.injEq] at w; omega
    · exact p4
  · obtain rfl := key .sv rfl
    rcases hc with ⟨p, o, ho, w⟩ | ⟨j, w, p1, p2⟩ | ⟨g, p1, p2, p3, p4⟩
    · simp [Sym.owner] at w
    · simp [Sym.stamp?] at w
    · have := together_lm (Or.inl rfl) p3 ht.1; omega
  · obtain rfl := key .rv rfl
    rcases hc with ⟨p, o, ho, w⟩ | ⟨j, w, p1, p2⟩ | ⟨g, p1, p2, p3, p4⟩
    · simp [Sym.owner] at w
    · simp [Sym.stamp?] at w
    · have := together_lm (Or.inl rfl) p3 ht.1; omega
  · obtain rfl := key (.loc linkName) lnk_text
    rcases hc with ⟨p, o, ho, w⟩ | ⟨j, w, p1, p2⟩ | ⟨g, p1, p2, p3, p4⟩
    · simp only [Sym.owner, Option.some.injEq] at w
      subst w
      rcases ht.2 with hb | hb
      · exact hl hb ho
      · exact hb f rfl
    · simp [Sym.stamp?] at w
    · have := together_lm (Or.inr rfl) p3 ht.1; omega

/-- The C name of a procedure against all it contains. -/
theorem proc_res {b : Bool} {m : Name} {lev f' k k0 : Nat} {n name : Name} {K K' : List (List Name)} {r : List Entry × Nat} {s : Sym}
    (hk : k0 ≤ k) (hs : r.2 ≤ 32767 → Text s name)
    (hg : (if lev = 0 then s.IsGlob m ∧ ∃ o ∈ K', s.owner = some o else s.stamp? = some k ∧ k0 < k))
    (hl : b = true → [linkName] ∉ K) (hr : Res b m (lev + 1) (k + 1) (k + 1) K r) :
    Res b m lev f' k0 K' (⟨.file, name⟩ :: procEntries (k + 1) (stampName (k + 1) n) ++ r.1, r.2) := by
  obtain ⟨h1, h2⟩ := hr
  refine ⟨by dsimp only; omega, fun hb => ?_⟩
  dsimp only at hb ⊢
  obtain ⟨h3, h4⟩ := h2 hb
  have hs := hs hb
  have g1 : ∀ e ∈ procEntries (k + 1) (stampName (k + 1) n), Good m lev f' k r.2 [] e :=
    proc_good m lev (k + 1) k r.2 n [] (by omega) h1 hb f'
  have g2 : ∀ e ∈ r.1, Good m lev f' k r.2 [] e := fun e he => inner_good (h3 e he) (by omega) h1
  have g0 : Good m lev f' k0 k K' ⟨.file, name⟩ := by
    refine ⟨s, hs, ?_⟩
    split at hg
    · rename_i hz
      exact Or.inl ⟨by rw [if_pos hz]; exact ⟨rfl, hg.1⟩, hg.2⟩
    · exact Or.inr (Or.inl ⟨k, hg.1, hg.2, Nat.le_refl _⟩)
  constructor
  · intro e he
    rw [List.cons_append, List.mem_cons, List.mem_append] at he
    rcases he with rfl | he | he
    · exact g0.mono (Nat.le_refl _) (by omega) (fun _ h => h)
    · exact (g1 e he).mono hk (Nat.le_refl _) (by simp)
    · exact (g2 e he).mono hk (Nat.le_refl _) (by simp)
  · rw [List.cons_append, List.pairwise_cons]
    constructor
    · intro e he
      have ge : Good m lev f' k r.2 [] e := by
        rw [List.mem_append] at he
        rcases he with he | he
        · exact g1 e he
        · exact g2 e he
      intro ht en
      obtain ⟨u, tu, ge⟩ := ge
      rw [← en] at tu
      obtain rfl := text_inj tu hs
      have notl : ¬ u.IsLocal ∧ ∀ j, u.stamp? = some j → j ≤ k := by
        split at hg
        · exact ⟨(glob_notLocal hg.1).1, fun j hj => by rw [(glob_notLocal hg.1).2] at hj; cases hj⟩
        · exact ⟨stamp_notLocal hg.1, fun j hj => by rw [hg.1] at hj; obtain rfl := Option.some.inj hj; omega⟩
      rcases ge with ⟨p, o, ho, w⟩ | ⟨j, w, p1, p2⟩ | ⟨g, p1, p2, p3, p4⟩
      · simp at ho
      · have := notl.2 j w; omega
      · exact notl.1 p4
    · rw [List.pairwise_append]
      exact ⟨proc_sep b (k + 1) n (by omega), h4, fun a ha c hc => proc_inner (by omega) hl ha (h3 c hc)⟩

theorem lnk_keys {ds : List Decl} {lev : Nat} (h : ∀ d ∈ ds, ∀ v, d = .var v → v.name ≠ linkName) :
    [linkName] ∉ ds.flatMap (keys (lev + 1)) := by
  intro hm
  rw [List.mem_flatMap] at hm
  obtain ⟨d, hd, hm⟩ := hm
  cases d with
  | var v =>
    simp only [keys, List.mem_singleton, List.cons.injEq, and_true] at hm
    exact h _ hd v rfl hm.symm
  | _ => simp [keys] at hm

theorem keys_nodup {ds : List Decl} {lev : Nat} (h : (ds.filterMap Decl.name?).Nodup) : (ds.flatMap (keys (lev + 1))).Nodup := by
  induction ds with
  | nil => simp
  | cons d ds ih =>
    have hm : ∀ x, [x] ∈ ds.flatMap (keys (lev + 1)) → x ∈ ds.filterMap Decl.name? := by
      intro x hx
      rw [List.mem_flatMap] at hx
      obtain ⟨d, hd, hx⟩ := hx
      cases d with
      | var v =>
        simp only [keys, List.mem_singleton, List.cons.injEq, and_true] at hx
        subst hx
        exact List.mem_filterMap.2 ⟨_, hd, rfl⟩
      | _ => simp [keys] at hx
    cases d with
    | var v =>
      rw [List.filterMap_cons] at h
      simp only [Decl.name?, List.nodup_cons] at h
      rw [List.flatMap_cons]
      exact List.nodup_cons.2 ⟨fun e => h.1 (hm _ e), ih h.2⟩
    | loop => exact ih h
    | bound t n e => exact ih h
    | typ n e =>
      rw [List.filterMap_cons] at h
      simp only [Decl.name?, List.nodup_cons] at h
      exact ih h.2
    | proc n e =>
      rw [List.filterMap_cons] at h
      simp only [Decl.name?, List.nodup_cons] at h
      exact ih h.2

theorem keys_nodup0 {ds : List Decl} (h : (ds.filterMap Decl.name?).Nodup) (h' : (ds.filterMap Decl.bound?).Nodup) :
    (ds.flatMap (keys 0)).Nodup := by
  induction ds with
  | nil => simp
  | cons d ds ih =>
    have hm : ∀ o, o ∈ ds.flatMap (keys 0) → (∃ x ∈ ds.filterMap Decl.name?, o = [x]) ∨ ∃ x ∈ ds.filterMap Decl.bound?, o = [x.1, x.2] := by
      intro o hx
      rw [List.mem_flatMap] at hx
      obtain ⟨d, hd, hx⟩ := hx
      cases d with
      | loop => simp [keys] at hx
      | bound t n e =>
        simp only [keys, ↓reduceIte, List.mem_singleton] at hx
        exact Or.inr ⟨(t, n), List.mem_filterMap.2 ⟨_, hd, rfl⟩, hx⟩
      | _ =>
        simp only [keys, ↓reduceIte, List.mem_singleton] at hx
        exact Or.inl ⟨_, List.mem_filterMap.2 ⟨_, hd, rfl⟩, hx⟩
    have h1 : ∀ x, [x] ∈ ds.flatMap (keys 0) → x ∈ ds.filterMap Decl.name? := by
      intro x hx
      rcases hm _ hx with ⟨y, hy, e⟩ | ⟨y, hy, e⟩
      · simp only [List.cons.injEq, and_true] at e; rw [e]; exact hy
      · simp at e
    have h2 : ∀ t x, [t, x] ∈ ds.flatMap (keys 0) → (t, x) ∈ ds.filterMap Decl.bound? := by
      intro t x hx
      rcases hm _ hx with ⟨y, hy, e⟩ | ⟨y, hy, e⟩
      · simp at e
      · simp only [List.cons.injEq, and_true] at e
        obtain ⟨rfl, rfl⟩ := e
        exact hy
    rw [List.filterMap_cons] at h h'
    rw [List.flatMap_cons]
    cases d with
    | loop => exact ih h h'
    | bound t n e =>
      simp only [Decl.bound?, List.nodup_cons] at h'
      exact List.nodup_cons.2 ⟨fun e => h'.1 (h2 _ _ e), ih h h'.2⟩
    | var v =>
      simp only [Decl.name?, List.nodup_cons] at h
      exact List.nodup_cons.2 ⟨fun e => h.1 (h1 _ e), ih h.2 h'⟩
    | typ n e =>
      simp only [Decl.name?, List.nodup_cons] at h
      exact List.nodup_cons.2 ⟨fun e => h.1 (h1 _ e), ih h.2 h'⟩
    | proc n e =>
      simp only [Decl.name?, List.nodup_cons] at h
      exact List.nodup_cons.2 ⟨fun e => h.1 (h1 _ e), ih h.2 h'⟩

mutual
theorem decl_res (b : Bool) (m : Name) (hm : IsIdent m) (lev f k : Nat) (hf : lev ≠ 0 → f ≤ k) : (d : Decl) → d.Ok lev →
    (b = true → d.NoLocal linkName) → Res b m lev f k (keys lev d) (declEntries m lev f d k)
  | .var v, hok, _ => by
    obtain ⟨h1, h2⟩ := hok
    rw [show keys lev (.var v) = [[v.name]] from rfl]
    unfold declEntries
    by_cases hz : lev = 0
    · rw [if_pos hz]
      refine ⟨Nat.le_refl _, fun _ => ⟨fun e he => ?_, List.pairwise_singleton _ _⟩⟩
      simp only [List.mem_singleton] at he
      subst he
      exact ⟨.glob m v.name, ⟨hm, h1, rfl⟩, Or.inl ⟨by rw [if_pos hz]; exact ⟨rfl, rfl⟩, _, List.mem_singleton.2 rfl, rfl⟩⟩
    · rw [if_neg hz]
      exact var_res b m lev f k v hz h1 h2
  | .loop, _, _ => by
    rw [show keys lev .loop = [] from rfl]
    unfold declEntries
    refine ⟨Nat.le_succ _, fun hb => ?_⟩
    dsimp only at hb ⊢
    have t1 : Text (.stamped (k + 1)) (stampName (k + 1) "_for".toList) := ⟨hb, _, rfl⟩
    have t2 : Text (.stamped (k + 1)) (qual m (stampName (k + 1) "_for".toList)) :=
      ⟨hb, m ++ "__for".toList, by simp [qual, stampName]⟩
    split
    · refine ⟨fun e he => ?_, List.pairwise_singleton _ _⟩
      rw [List.mem_singleton] at he
      subst he
      exact ⟨_, t2, Or.inr (Or.inl ⟨k + 1, rfl, by omega, Nat.le_refl _⟩)⟩
    · constructor
      · intro e he
        simp only [List.mem_cons, List.not_mem_nil, or_false] at he
        rcases he with rfl | rfl
        · exact ⟨_, t1, Or.inr (Or.inl ⟨k + 1, rfl, by omega, Nat.le_refl _⟩)⟩
        · exact ⟨_, t1, Or.inr (Or.inl ⟨k + 1, rfl, by omega, Nat.le_refl _⟩)⟩
      · rw [List.pairwise_cons]
        refine ⟨fun e he ht => ?_, List.pairwise_singleton _ _⟩
        rw [List.mem_singleton] at he
        subst he
        exact absurd ht.1 (by simp [Together])
  | .typ n r, hok, _ => by
    have h1 : IsIdent n := hok
    unfold declEntries
    by_cases hz : lev = 0
    · rw [show keys lev (.typ n r) = [[n]] from if_pos hz, if_pos hz]
      refine ⟨Nat.le_refl _, fun hb => ?_⟩
      dsimp only at hb ⊢
      have t1 : Text (.glob m n) (qual m n) := ⟨hm, h1, rfl⟩
      have t2 : Text (.desc m n) (qual m n ++ typExt) := ⟨hm, h1, rfl⟩
      have g1 : Good m lev f k k [[n]] ⟨.file, qual m n⟩ :=
        ⟨_, t1, Or.inl ⟨by rw [if_pos hz]; exact ⟨rfl, rfl⟩, _, List.mem_singleton.2 rfl, rfl⟩⟩
      have g2 : Good m lev f k k [[n]] ⟨.file, qual m n ++ typExt⟩ :=
        ⟨_, t2, Or.inl ⟨by rw [if_pos hz]; exact ⟨rfl, rfl⟩, _, List.mem_singleton.2 rfl, rfl⟩⟩
      cases r with
      | false => exact ⟨fun e he => (by rw [if_neg (by decide), List.mem_singleton] at he; subst he; exact g1), List.pairwise_singleton _ _⟩
      | true =>
        rw [if_pos rfl]
        constructor
        · intro e he
          simp only [List.mem_cons, List.not_mem_nil, or_false] at he
          rcases he with rfl | rfl
          · exact g1
          · exact g2
        · rw [List.pairwise_cons]
          refine ⟨fun e he => ?_, List.pairwise_singleton _ _⟩
          rw [List.mem_singleton] at he
          subst he
          exact sep_text t1 t2 (by simp)
    · rw [show keys lev (.typ n r) = [] from if_neg hz, if_neg hz]
      refine ⟨Nat.le_succ _, fun hb => ?_⟩
      dsimp only at hb ⊢
      rw [ident_stamp]
      have t1 : Text (.stamped (k + 1)) (stampName (k + 1) n) := ⟨hb, _, rfl⟩
      have t2 : Text (.stampedT (k + 1)) (stampName (k + 1) n ++ typExt) := ⟨hb, _, rfl⟩
      have g1 : Good m lev f k (k + 1) [] ⟨.file, stampName (k + 1) n⟩ :=
        ⟨_, t1, Or.inr (Or.inl ⟨k + 1, rfl, by omega, Nat.le_refl _⟩)⟩
      have g2 : Good m lev f k (k + 1) [] ⟨.file, stampName (k + 1) n ++ typExt⟩ :=
        ⟨_, t2, Or.inr (Or.inl ⟨k + 1, rfl, by omega, Nat.le_refl _⟩)⟩
      cases r with
      | false => exact ⟨fun e he => (by rw [if_neg (by decide), List.mem_singleton] at he; subst he; exact g1), List.pairwise_singleton _ _⟩
      | true =>
        rw [if_pos rfl]
        constructor
        · intro e he
          simp only [List.mem_cons, List.not_mem_nil, or_false] at he
          rcases he with rfl | rfl
          · exact g1
          · exact g2
        · rw [List.pairwise_cons]
          refine ⟨fun e he => ?_, List.pairwise_singleton _ _⟩
          rw [List.mem_singleton] at he
          subst he
          exact sep_text t1 t2 (by simp)
  | .proc n ds, hok, hl => by
    obtain ⟨h1, h2, h3⟩ := hok
    have hl1 : b = true → [linkName] ∉ ds.flatMap (keys (lev + 1)) := fun hb => lnk_keys (hl hb).1
    by_cases hz : lev = 0
    · have hr := decls_res b m hm (lev + 1) (k + 1) (k + 1) (fun _ => Nat.le_refl _) ds h3 (keys_nodup h2) (fun hb => (hl hb).2)
      have e : declEntries m lev f (.proc n ds) k =
          (⟨.file, qual m n⟩ :: procEntries (k + 1) (stampName (k + 1) n) ++ (declsEntries m (lev + 1) (k + 1) ds (k + 1)).1,
            (declsEntries m (lev + 1) (k + 1) ds (k + 1)).2) := by
        unfold declEntries; rw [if_pos hz]
      rw [e]
      refine proc_res (s := .glob m n) (Nat.le_refl _) (fun _ => ⟨hm, h1, rfl⟩) ?_ hl1 hr
      rw [if_pos hz]
      exact ⟨rfl, [n], by simp [keys, hz], rfl⟩
    · have hr := decls_res b m hm (lev + 1) (k + 2) (k + 2) (fun _ => Nat.le_refl _) ds h3 (keys_nodup h2) (fun hb => (hl hb).2)
      have e : declEntries m lev f (.proc n ds) k =
          (⟨.file, stampName (k + 1) n⟩ :: procEntries (k + 2) (stampName (k + 2) (stampName (k + 1) n)) ++
              (declsEntries m (lev + 1) (k + 2) ds (k + 2)).1,
            (declsEntries m (lev + 1) (k + 2) ds (k + 2)).2) := by
        unfold declEntries; rw [if_neg hz, ident_stamp]
      rw [e]
      refine proc_res (k := k + 1) (s := .stamped (k + 1)) (Nat.le_succ _) (fun hb => ⟨?_, n.take 25, rfl⟩) ?_ hl1 hr
      · have := hr.1; omega
      · rw [if_neg hz]; exact ⟨rfl, by omega⟩
  | .bound t n ds, hok, hl => by
    obtain ⟨hz, h0, h1, h2, h3⟩ := hok
    have hl1 : b = true → [linkName] ∉ ds.flatMap (keys (lev + 1)) := fun hb => lnk_keys (hl hb).1
    have hr := decls_res b m hm (lev + 1) (k + 1) (k + 1) (fun _ => Nat.le_refl _) ds h3 (keys_nodup h2) (fun hb => (hl hb).2)
    have e : declEntries m lev f (.bound t n ds) k =
        (⟨.file, qual (qual m t) n⟩ :: procEntries (k + 1) (stampName (k + 1) n) ++ (declsEntries m (lev + 1) (k + 1) ds (k + 1)).1,
          (declsEntries m (lev + 1) (k + 1) ds (k + 1)).2) := by
      unfold declEntries; rfl
    rw [e]
    refine proc_res (s := .bound m t n) (Nat.le_refl _) (fun _ => ⟨hm, h0, h1, rfl⟩) ?_ hl1 hr
    rw [if_pos hz]
    exact ⟨rfl, [t, n], by simp [keys, hz], rfl⟩
theorem decls_res (b : Bool) (m : Name) (hm : IsIdent m) (lev f k : Nat) (hf : lev ≠ 0 → f ≤ k) : (ds : List Decl) → DeclsOk lev ds →
    (ds.flatMap (keys lev)).Nodup → (b = true → NoLocals linkName ds) →
    Res b m lev f k (ds.flatMap (keys lev)) (declsEntries m lev f ds k)
  | [], _, _, _ => ⟨Nat.le_refl _, fun _ => ⟨by simp [declsEntries], by simp [declsEntries]⟩⟩
  | d :: ds, hok, hn, hl => by
    have r1 := decl_res b m hm lev f k hf d hok.1 (fun hb => (hl hb).1)
    have e : declsEntries m lev f (d :: ds) k =
        ((declEntries m lev f d k).1 ++ (declsEntries m lev f ds (declEntries m lev f d k).2).1,
          (declsEntries m lev f ds (declEntries m lev f d k).2).2) := by
      rw [declsEntries]
    rw [e]
    rw [List.flatMap_cons, List.nodup_append] at hn
    generalize declEntries m lev f d k = r at *
    have r2 := decls_res b m hm lev f r.2 (fun h => Nat.le_trans (hf h) r1.1) ds hok.2 hn.2.1 (fun hb => (hl hb).2)
    generalize declsEntries m lev f ds r.2 = q at *
    obtain ⟨a1, a2⟩ := r1
    obtain ⟨b1, b2⟩ := r2
    refine ⟨Nat.le_trans a1 b1, fun hb => ?_⟩
    dsimp only at hb ⊢
    obtain ⟨a3, a4⟩ := a2 (by omega)
    obtain ⟨b3, b4⟩ := b2 hb
    constructor
    · intro e he
      rw [List.mem_append] at he
      rcases he with he | he
      · exact (a3 e he).mono (Nat.le_refl _) b1 (fun o ho => by rw [List.flatMap_cons]; exact List.mem_append_left _ ho)
      · exact (b3 e he).mono a1 (Nat.le_refl _) (fun o ho => by rw [List.flatMap_cons]; exact List.mem_append_right _ ho)
    · rw [List.pairwise_append]
      exact ⟨a4, b4, fun x hx y hy => cross hf a1 (a3 x hx) (b3 y hy) (fun o ho ho' => hn.2.2 o ho o ho' rfl)⟩
end

end Verif.CNames
