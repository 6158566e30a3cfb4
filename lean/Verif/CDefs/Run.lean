import Verif.CDefs.Lemmas

/-! # The order of definitions in C: the run of the compiler -/
namespace Verif.CDefs

/-- What holds all the time; `pre` are the records without names whose structures are defined. -/
structure Inv (T : Tab) (pre : List Nat) (s : State) : Prop where
  base : Base T s.mark s.out
  err : s.err = false
  ord : Ordered [] s.out
  defd : ∀ i, Defined s.out i → s.mark i = .done
  compl : ∀ t, Complete s.out t → s.mark t = .done ∨ (T.named t = false ∧ t ∈ pre)

/-- What a step leaves as it was. -/
structure Ext (s s' : State) : Prop where
  done : ∀ i, s.mark i = .done → s'.mark i = .done
  proc : ∀ i, s'.mark i = .processing ↔ s.mark i = .processing
  out : ∃ l, s'.out = s.out ++ l

theorem Ext.refl (s : State) : Ext s s := ⟨fun _ h => h, fun _ => Iff.rfl, [], by simp⟩

theorem Ext.trans {a b c : State} (h : Ext a b) (h' : Ext b c) : Ext a c := by
  refine ⟨fun i hi => h'.done i (h.done i hi), fun i => (h'.proc i).trans (h.proc i), ?_⟩
  obtain ⟨l, hl⟩ := h.out
  obtain ⟨m, hm⟩ := h'.out
  exact ⟨l ++ m, by rw [hm, hl, List.append_assoc]⟩

theorem Ext.complete {a b : State} (h : Ext a b) {t : Nat} (hc : Complete a.out t) : Complete b.out t := by
  obtain ⟨l, hl⟩ := h.out
  rw [hl]; exact hc.mono

theorem each_run {α : Type} (f : Nat → α → State → Option State) (Q : State → Prop) (R : α → State → Prop) (hR : ∀ a s s', R a s → Ext s s' → R a s') (s0 : State) :
    ∀ (L : List α), (∀ a ∈ L, ∀ s, Q s → Ext s0 s → ∃ s', Evals (fun n => f n a s) s' ∧ Q s' ∧ Ext s s' ∧ R a s') → ∀ s, Q s → Ext s0 s →
    ∃ s', Evals (fun n => each (f n) L s) s' ∧ Q s' ∧ Ext s s' ∧ ∀ a ∈ L, R a s'
  | [], _, s, hq, _ => ⟨s, Evals.pure _, hq, Ext.refl s, by simp⟩
  | a :: L, h, s, hq, hx => by
    obtain ⟨s1, h1, hq1, hx1, hr1⟩ := h a (List.mem_cons_self ..) s hq hx
    obtain ⟨s2, h2, hq2, hx2, hr2⟩ := each_run f Q R hR s0 L (fun b hb => h b (List.mem_cons_of_mem _ hb)) s1 hq1 (hx.trans hx1)
    refine ⟨s2, Evals.bind h1 h2, hq2, hx1.trans hx2, fun b hb => ?_⟩
    rcases List.mem_cons.1 hb with rfl | hb
    · exact hR _ _ _ hr1 hx2
    · exact hr2 b hb

/-- Adding a piece of text without definitions. -/
theorem Inv.add {T : Tab} {pre : List Nat} {s : State} (h : Inv T pre s) {it : Item} (hf : Fine s.out it.mentions) (ht : ∀ t ms, it ≠ .typedef t ms) :
    Inv T pre { s with out := s.out ++ [it] } := by
  refine ⟨⟨h.base.nopre, fun i hi => (h.base.text i hi).mono, h.base.named, h.base.closed⟩, h.err, ?_, fun i hi => ?_, fun t hc => ?_⟩
  · exact ordered_snoc it _ _ h.ord (by simpa using hf.1) (by rw [hf.2]; exact List.nodup_nil) (fun t ms he => absurd he (ht t ms))
  · obtain ⟨ms, hm⟩ := hi
    rcases List.mem_append.1 hm with hm | hm
    · exact h.defd i ⟨ms, hm⟩
    · exact absurd (List.mem_singleton.1 hm).symm (ht i ms)
  · obtain ⟨x, hx, hb⟩ := hc
    rcases List.mem_append.1 hx with hx | hx
    · exact h.compl t ⟨x, hx, hb⟩
    · rw [List.mem_singleton.1 hx] at hb
      have := mem_bodies hb
      rw [hf.2] at this
      exact absurd this (by simp)

theorem ext_add (s : State) (it : Item) : Ext s { s with out := s.out ++ [it] } := ⟨fun _ h => h, fun _ => Iff.rfl, [it], rfl⟩

/-- The type is marked as being processed. -/
theorem Inv.begin {T : Tab} {pre : List Nat} {s : State} (h : Inv T pre s) {i : Nat} (hi : s.mark i ≠ .done) : Inv T pre (setMark s i .processing) := by
  have hd : ∀ j, (setMark s i .processing).mark j = .done ↔ s.mark j = .done := by
    intro j
    simp only [setMark]
    split
    · rename_i e; subst e; simp [hi]
    · rfl
  refine ⟨⟨fun j => ?_, fun j hj => h.base.text j ((hd j).1 hj), fun j hj => h.base.named j ((hd j).1 hj), fun j hj k hk => ?_⟩, h.err, h.ord,
    fun j hj => (hd j).2 (h.defd j hj), fun t hc => ?_⟩
  · simp only [setMark]
    split
    · simp
    · exact h.base.nopre j
  · exact (h.base.closed j ((hd j).1 hj) k hk).mono (fun l hl => (hd l).2 hl)
  · rcases h.compl t hc with h1 | h1
    · exact Or.inl ((hd t).2 h1)
    · exact Or.inr h1

/-- The type is defined. -/
theorem Inv.finish {T : Tab} {pre : List Nat} {s : State} (h : Inv T pre s) {i : Nat} (hi : s.mark i = .processing) (hn : T.named i = true) (hb : T.node i ≠ .basic)
    (hr : ∀ j ∈ needs T i, Ready T s.mark j) {u : List Mention} (hu : ∀ m ∈ u, MentionOk s.out m) (hbd : bodies u = [] ∨ bodies u = [i]) :
    Inv T pre (setMark { s with out := s.out ++ [.typedef i u] } i .done) := by
  have hd : ∀ j, s.mark j = .done → (setMark { s with out := s.out ++ [.typedef i u] } i .done).mark j = .done := by
    intro j hj
    simp only [setMark]
    split
    · rfl
    · exact hj
  have hne : ¬ Defined s.out i := fun hc => by rw [h.defd i hc] at hi; cases hi
  have hinv : ∀ j, (setMark { s with out := s.out ++ [.typedef i u] } i .done).mark j = .done → j = i ∨ s.mark j = .done := by
    intro j hj
    by_cases he : j = i
    · exact Or.inl he
    · simp only [setMark, if_neg he] at hj; exact Or.inr hj
  have hii : (setMark { s with out := s.out ++ [.typedef i u] } i .done).mark i = .done := by simp [setMark]
  refine ⟨⟨fun j => ?_, fun j hj => ?_, fun j hj => ?_, fun j hj k hk => ?_⟩, h.err, ?_, fun j hj => ?_, fun t hc => ?_⟩
  · simp only [setMark]
    split
    · simp
    · exact h.base.nopre j
  · rcases hinv j hj with rfl | hj
    · exact ⟨u, by simp [setMark]⟩
    · exact (h.base.text j hj).mono
  · rcases hinv j hj with rfl | hj
    · exact ⟨hn, hb⟩
    · exact h.base.named j hj
  · rcases hinv j hj with rfl | hj
    · exact (hr k hk).mono hd
    · exact (h.base.closed j hj k hk).mono hd
  · refine ordered_snoc _ _ _ h.ord (by simpa [Item.mentions] using hu) ?_ (fun t ms he => ?_)
    · rcases hbd with e | e <;> simp [Item.mentions, e]
    · injection he with he _
      subst he
      simpa using hne
  · obtain ⟨ms, hm⟩ := hj
    rcases List.mem_append.1 hm with hm | hm
    · exact hd j (h.defd j ⟨ms, hm⟩)
    · have := List.mem_singleton.1 hm
      injection this with e _
      subst e; exact hii
  · obtain ⟨x, hx, hbx⟩ := hc
    rcases List.mem_append.1 hx with hx | hx
    · rcases h.compl t ⟨x, hx, hbx⟩ with h1 | h1
      · exact Or.inl (hd t h1)
      · exact Or.inr h1
    · rw [List.mem_singleton.1 hx] at hbx
      have := mem_bodies hbx
      rcases hbd with e | e
      · rw [show Item.mentions (.typedef i u) = u from rfl, e] at this; exact absurd this (by simp)
      · rw [show Item.mentions (.typedef i u) = u from rfl, e] at this
        rw [List.mem_singleton.1 this]; exact Or.inl hii

/-- What is done for the types needed. -/
def defineNeeds (T : Tab) (n i : Nat) (s1 : State) : Option State :=
  match T.node i with
  | .basic => some s1
  | .record base fs _ => each (defineType T n) (base.toList ++ fs) s1
  | .pointer b => if (T.node b).isRecord then some s1 else defineType T n b s1
  | .array b => defineType T n b (if T.named b && decide (s1.mark b = .processing) then setMark { s1 with err := true } b .predef else s1)
  | .openArr b => defineType T n b (if T.named b && decide (s1.mark b = .processing) then setMark { s1 with err := true } b .predef else s1)
  | .proc res ps => each (defineType T n) (res.toList ++ ps) s1

/-- The procedures of a record. -/
def defineProc (T : Tab) (n : Nat) (m : Option Nat × List Nat) (s : State) : Option State := do
  let s' ← each (defineType T n) (m.1.toList ++ m.1.toList ++ m.2) s
  let u ← collect (uses T s'.mark n false) (m.1.toList ++ m.2)
  some { s' with out := s'.out ++ [.proto u] }

def defineRest (T : Tab) (n i : Nat) (s2 : State) : Option State :=
  if T.named i && !defined T s2.mark i then do
    let u ← uses T (setMark s2 i .processing).mark n false i
    (match T.node i with
      | .record _ _ ms => each (defineProc T n) ms (setMark { s2 with out := s2.out ++ [.typedef i u] } i .done)
      | _ => some (setMark { s2 with out := s2.out ++ [.typedef i u] } i .done))
  else some s2

theorem defineType_succ (T : Tab) (n i : Nat) (s : State) : defineType T (n + 1) i s =
    if T.named i && defined T s.mark i then some s
    else (defineNeeds T n i (if T.named i then
          if s.mark i = .processing then (if (T.node i).isPointer then s else setMark { s with err := true } i .predef)
          else setMark s i .processing
        else s)) >>= defineRest T n i := by
  rw [defineType]
  rfl

variable {T : Tab} {r : Nat → Nat} (hr : ∀ i j, Needs T i j → r j < r i)

include hr in
theorem define_run : ∀ (k i : Nat), r i < k → ∀ (pre : List Nat) (s : State), Inv T pre s → (∀ j, s.mark j = .processing → r i < r j) →
    (∀ j, Needs T i j → Anon T j → Complete s.out j) → ∃ s', Evals (fun n => defineType T n i s) s' ∧ Inv T pre s' ∧ Ext s s' ∧ Ready T s'.mark i
  | 0, _, h => absurd h (by omega)
  | k + 1, i, hk => by
    intro pre s hinv hproc hanon
    have sub : ∀ (j : Nat), Needs T i j → ∀ (s0 : State), Inv T pre s0 → (∀ j, s0.mark j = .processing → r i ≤ r j) →
        (∀ j, Needs T i j → Anon T j → Complete s0.out j) → ∃ s', Evals (fun n => defineType T n j s0) s' ∧ Inv T pre s' ∧ Ext s0 s' ∧ Ready T s'.mark j := by
      intro j hj s0 h1 h2 h3
      have hlt := hr i j hj
      exact define_run k j (by omega) pre s0 h1 (fun l hl => by have := h2 l hl; omega) (fun l hl => h3 l (.trans hj hl))
    have hmono : ∀ (a : Nat) (s s' : State), Ready T s.mark a → Ext s s' → Ready T s'.mark a := fun a s s' h hx => h.mono hx.done
    by_cases hd : (T.named i && defined T s.mark i) = true
    · refine ⟨s, Evals.step (fun n => (by rw [defineType_succ, if_pos hd])) (Evals.pure _), hinv, Ext.refl s, ?_⟩
      simp only [defined, Bool.and_eq_true, Bool.or_eq_true, decide_eq_true_eq] at hd
      rcases hd.2 with (h | h) | h
      · exact .basic h
      · exact .done hd.1 h
      · exact absurd h (hinv.base.nopre i)
    have hnd : T.named i = true → s.mark i ≠ .done ∧ T.node i ≠ .basic := by
      intro hn
      simp only [hn, defined, Bool.true_and, Bool.or_eq_true, decide_eq_true_eq, not_or] at hd
      exact ⟨hd.1.2, hd.1.1⟩
    have hnp : s.mark i ≠ .processing := fun h => by have := hproc i h; omega
    -- the state after marking
    generalize hs1 : (if T.named i then
        if s.mark i = .processing then (if (T.node i).isPointer then s else setMark { s with err := true } i .predef)
        else setMark s i .processing
      else s) = s1
    have hs1' : s1 = if T.named i then setMark s i .processing else s := by rw [← hs1, if_neg hnp]
    have hinv1 : Inv T pre s1 := by
      rw [hs1']
      split
      · rename_i hn; exact hinv.begin (hnd hn).1
      · exact hinv
    have hout1 : s1.out = s.out := by rw [hs1']; split <;> rfl
    have hproc1 : ∀ j, s1.mark j = .processing → r i ≤ r j := by
      intro j hj
      rw [hs1'] at hj
      split at hj
      · by_cases e : j = i
        · subst e; omega
        · simp only [setMark, if_neg e] at hj
          have := hproc j hj; omega
      · have := hproc j hj; omega
    have hanon1 : ∀ j, Needs T i j → Anon T j → Complete s1.out j := by rw [hout1]; exact hanon
    -- the types needed
    have hneeds : ∃ s2, Evals (fun n => defineNeeds T n i s1) s2 ∧ Inv T pre s2 ∧ Ext s1 s2 ∧ ∀ j ∈ needs T i, Ready T s2.mark j := by
      have hlist : ∀ L : List Nat, (∀ j ∈ L, Needs T i j) → ∃ s2, Evals (fun n => each (defineType T n) L s1) s2 ∧ Inv T pre s2 ∧ Ext s1 s2 ∧ ∀ j ∈ L, Ready T s2.mark j := by
        intro L hL
        refine each_run (fun n => defineType T n) (Inv T pre) (fun j s => Ready T s.mark j) hmono s1 L (fun j hj s0 hq hx => ?_) s1 hinv1 (Ext.refl s1)
        exact sub j (hL j hj) s0 hq (fun l hl => hproc1 l ((hx.proc l).1 hl)) (fun l hl ha => hx.complete (hanon1 l hl ha))
      have hone : ∀ j, Needs T i j → ∃ s2, Evals (fun n => defineType T n j (if T.named j && decide (s1.mark j = .processing) then setMark { s1 with err := true } j .predef
          else s1)) s2 ∧ Inv T pre s2 ∧ Ext s1 s2 ∧ Ready T s2.mark j := by
        intro j hj
        have hlt := hr i j hj
        have : s1.mark j ≠ .processing := fun h => by have := hproc1 j h; omega
        simp only [this, decide_false, Bool.and_false, Bool.false_eq_true, if_false]
        exact sub j hj s1 hinv1 hproc1 hanon1
      unfold defineNeeds
      cases hn : T.node i with
      | basic => exact ⟨s1, Evals.pure _, hinv1, Ext.refl s1, by simp [needs, hn]⟩
      | record base fs ms =>
        obtain ⟨s2, h1, h2, h3, h4⟩ := hlist (base.toList ++ fs) (fun j hj => .direct (by simpa [needs, hn] using hj))
        exact ⟨s2, h1, h2, h3, by simpa [needs, hn] using h4⟩
      | proc res ps =>
        obtain ⟨s2, h1, h2, h3, h4⟩ := hlist (res.toList ++ ps) (fun j hj => .direct (by simpa [needs, hn] using hj))
        exact ⟨s2, h1, h2, h3, by simpa [needs, hn] using h4⟩
      | array b =>
        obtain ⟨s2, h1, h2, h3, h4⟩ := hone b (.direct (by simp [needs, hn]))
        exact ⟨s2, h1, h2, h3, by simpa [needs, hn] using h4⟩
      | openArr b =>
        obtain ⟨s2, h1, h2, h3, h4⟩ := hone b (.direct (by simp [needs, hn]))
        exact ⟨s2, h1, h2, h3, by simpa [needs, hn] using h4⟩
      | pointer b =>
        by_cases hb : (T.node b).isRecord = true
        · simp only [hb, if_true]
          exact ⟨s1, Evals.pure _, hinv1, Ext.refl s1, by simp [needs, hn, hb]⟩
        · simp only [hb]
          obtain ⟨s2, h1, h2, h3, h4⟩ := sub b (.direct (by simp [needs, hn, hb])) s1 hinv1 hproc1 hanon1
          exact ⟨s2, h1, h2, h3, by simpa [needs, hn, hb] using h4⟩
    obtain ⟨s2, hev2, hinv2, hext2, hrd2⟩ := hneeds
    have hstep : ∀ n, defineType T (n + 1) i s = (defineNeeds T n i s1) >>= defineRest T n i := by
      intro n; rw [defineType_succ, if_neg hd, hs1]
    have hanon2 : ∀ j, Needs T i j → Anon T j → Complete s2.out j := fun j hj ha => hext2.complete (hanon1 j hj ha)
    by_cases hnm : T.named i = true
    case neg =>
      have hnf : T.named i = false := by simpa using hnm
      have e1 : s1 = s := by rw [hs1', hnf]; rfl
      refine ⟨s2, Evals.step hstep (Evals.bind hev2 (g := fun s n => defineRest T n i s) ?_), hinv2, e1 ▸ hext2, .anon hnf hrd2⟩
      simp only [defineRest, hnf, Bool.false_and, Bool.false_eq_true, if_false]
      exact Evals.pure _
    case pos =>
      have e1 : s1 = setMark s i .processing := by rw [hs1', hnm]; rfl
      have hm2 : s2.mark i = .processing := (hext2.proc i).2 (by rw [e1]; simp [setMark])
      have hndef : defined T s2.mark i = false := by
        simp [defined, hm2, (hnd hnm).2]
      have hmk : (setMark s2 i .processing).mark = s2.mark := by
        funext j
        simp only [setMark]
        split
        · rename_i e; rw [e, hm2]
        · rfl
      -- what the definition mentions
      have hu : ∃ u, Evals (fun n => uses T s2.mark n false i) u ∧ (∀ m ∈ u, MentionOk s2.out m) ∧ (bodies u = [] ∨ bodies u = [i]) := by
        have hst : ∀ n, uses T s2.mark (n + 1) false i = usesNode T s2.mark n false i := by
          intro n
          rw [uses_succ, if_neg (hnd hnm).2, hndef]
          simp
        by_cases hrec : (T.node i).isRecord = true
        · obtain ⟨ms, h1, h2⟩ := body_run hr hinv2.base i hrd2 hanon2
          refine ⟨.body i :: ms, Evals.step hst ?_, ?_, Or.inr (by simp [bodies, h2.2])⟩
          · unfold usesNode
            cases hn : T.node i with
            | record base fs ps => simpa only [hnm, if_true, Bool.false_eq_true, if_false] using h1
            | _ => rw [hn] at hrec; simp [Node.isRecord] at hrec
          · intro m hm
            rcases List.mem_cons.1 hm with rfl | hm
            · intro hc
              rcases hinv2.compl i hc with h | ⟨h, _⟩
              · rw [hm2] at h; cases h
              · rw [hnm] at h; cases h
            · exact h2.1 m hm
        · obtain ⟨ms, h1, h2⟩ := (uses_run hr hinv2.base (r i + 1) i (by omega)).1 hrd2 hanon2 (by simpa using hrec) false
          exact ⟨ms, Evals.step hst h1, h2.1, Or.inl h2.2⟩
      obtain ⟨u, hevu, humok, hubod⟩ := hu
      have hinv3 := hinv2.finish hm2 hnm (hnd hnm).2 hrd2 humok hubod
      have hext3 : Ext s (setMark { s2 with out := s2.out ++ [.typedef i u] } i .done) := by
        obtain ⟨l, hl⟩ := hext2.out
        refine ⟨fun j hj => ?_, fun j => ?_, l ++ [.typedef i u], ?_⟩
        · simp only [setMark]
          split
          · rfl
          · rename_i e
            refine hext2.done j ?_
            rw [e1]; simpa only [setMark, if_neg e] using hj
        · simp only [setMark]
          split
          · rename_i e; subst e; simp [hnp]
          · rename_i e
            rw [hext2.proc j, e1]
            simp only [setMark, if_neg e]
        · show s2.out ++ _ = _
          rw [hl, hout1, List.append_assoc]
      generalize hs3 : setMark { s2 with out := s2.out ++ [.typedef i u] } i .done = s3 at hinv3 hext3
      have hdone3 : s3.mark i = .done := by rw [← hs3]; simp [setMark]
      have hcase : ∃ s', Evals (fun n => (match T.node i with
          | .record _ _ ms => each (defineProc T n) ms s3
          | _ => some s3)) s' ∧ Inv T pre s' ∧ Ext s3 s' := by
        cases hn : T.node i with
        | record base fs ms =>
          have hproc3 : ∀ j, s3.mark j = .processing → r i ≤ r j := fun j hj => by have := hproc j ((hext3.proc j).1 hj); omega
          have hanon3 : ∀ j, Needs T i j → Anon T j → Complete s3.out j := fun j hj ha => hext3.complete (hanon j hj ha)
          have hone : ∀ m ∈ ms, ∀ s0, (Inv T pre s0 ∧ s0.mark i = .done) → Ext s3 s0 → ∃ s', Evals (fun n => defineProc T n m s0) s' ∧ (Inv T pre s' ∧ s'.mark i = .done) ∧
              Ext s0 s' ∧ True := by
            intro m hm s0 ⟨hi0, hd0⟩ hx0
            have hmem : ∀ j ∈ m.1.toList ++ m.2, j ∈ heads T i := by
              intro j hj
              simp only [heads, hn]
              exact List.mem_flatMap.2 ⟨m, hm, hj⟩
            have hl : ∃ s', Evals (fun n => each (defineType T n) (m.1.toList ++ m.1.toList ++ m.2) s0) s' ∧ (Inv T pre s' ∧ s'.mark i = .done) ∧ Ext s0 s' ∧
                ∀ j ∈ m.1.toList ++ m.1.toList ++ m.2, Ready T s'.mark j := by
              refine each_run (fun n => defineType T n) (fun s => Inv T pre s ∧ s.mark i = .done) (fun j s => Ready T s.mark j) hmono s0 _ (fun j hj s' hq hx => ?_) s0 ⟨hi0, hd0⟩
                (Ext.refl s0)
              have hj' : j ∈ heads T i := hmem j (by simp only [List.mem_append] at hj ⊢; rcases hj with (h | h) | h <;> simp [h])
              by_cases e : j = i
              · subst e
                refine ⟨s', Evals.step (fun n => ?_) (Evals.pure _), hq, Ext.refl s', .done hnm hq.2⟩
                rw [defineType_succ, if_pos (by simp [hnm, defined, hq.2])]
              · obtain ⟨s'', h1, h2, h3, h4⟩ := sub j (.head hj' e) s' hq.1 (fun l hl => hproc3 l ((hx0.proc l).1 ((hx.proc l).1 hl)))
                  (fun l hl ha => hx.complete (hx0.complete (hanon3 l hl ha)))
                exact ⟨s'', h1, ⟨h2, h3.done i hq.2⟩, h3, h4⟩
            obtain ⟨s', h1, ⟨h2, h2'⟩, h3, h4⟩ := hl
            have hc : ∃ ms, Evals (fun n => collect (uses T s'.mark n false) (m.1.toList ++ m.2)) ms ∧ Fine s'.out ms := by
              refine collect_run _ (fun j hj => ?_)
              have hrd : Ready T s'.mark j := h4 j (by simp only [List.mem_append] at hj ⊢; rcases hj with h | h <;> simp [h])
              refine (uses_run hr h2.base (r j + 1) j (by omega)).2 hrd (fun l hl ha => ?_) false
              have hall : i = l ∨ Needs T i l := by
                have hj' := hmem j hj
                by_cases e : j = i
                · subst e; exact hl
                · rcases hl with rfl | hl
                  · exact Or.inr (.head hj' e)
                  · exact Or.inr (.trans (.head hj' e) hl)
              rcases hall with rfl | hall
              · rw [ha.1] at hnm; cases hnm
              · exact h3.complete (hx0.complete (hanon3 l hall ha))
            obtain ⟨v, hv, hfv⟩ := hc
            exact ⟨_, Evals.bind h1 (Evals.bind hv (Evals.pure _)), ⟨h2.add (it := .proto v) hfv (fun _ _ h => nomatch h), h2'⟩, h3.trans (ext_add _ _), trivial⟩
          obtain ⟨s', h1, h2, h3, _⟩ := each_run (fun n => defineProc T n) (fun s => Inv T pre s ∧ s.mark i = .done) (fun _ _ => True) (fun _ _ _ _ _ => trivial) s3 ms
            hone s3 ⟨hinv3, hdone3⟩ (Ext.refl s3)
          exact ⟨s', h1, h2.1, h3⟩
        | _ => exact ⟨s3, Evals.pure _, hinv3, Ext.refl s3⟩
      obtain ⟨s', hev', hinv', hext'⟩ := hcase
      refine ⟨s', Evals.step hstep (Evals.bind hev2 (g := fun s n => defineRest T n i s) ?_), hinv', hext3.trans hext', .done hnm (hext'.done i hdone3)⟩
      unfold defineRest
      simp only [hnm, hndef, Bool.not_false, Bool.and_self, if_true, hmk]
      refine Evals.bind hevu ?_
      rw [hs3]
      exact hev'

end Verif.CDefs
