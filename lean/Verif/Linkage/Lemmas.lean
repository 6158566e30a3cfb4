import Verif.Common
import Verif.Linkage.Model

/-!
# C files that fit together: lemmas
-/
namespace Verif.Linkage

/-- What is asked of a program beyond the rules of the language.  Each condition is needed: see the deviations in Verif.Linkage.Props. -/
structure Plain (P : Program) : Prop where
  /-- Other names are exported for own, exported types only. -/
  aliases : ∀ a m, P a = some m → ∀ q ∈ m.aliases, q.1 = a ∧ ∃ v d, Decl P q v d ∧ v ≠ .internal
  /-- The elements of exported open array types are of own types. -/
  opens : ∀ q v e, Decl P q v (.other (.openArr e)) → v ≠ .internal → ∀ x, Mention P e x → x.1 = q.1
  /-- Procedures are not marked with `-`. -/
  marks : ∀ a m n p, P a = some m → m.procs n = some p → p.vis ≠ .readonly
  boundMarks : ∀ q v b fs ms n w t, Decl P q v (.record b fs ms) → ms n = some (w, t) → w ≠ .readonly
  /-- Interrupt procedures are not exported. -/
  interrupts : ∀ a m n p, P a = some m → m.procs n = some p → p.kind = .I → p.vis = .internal

variable {P : Program}

theorem Decl.unique {q : Q} {v v' : Vis} {d d' : TyDef} (h : Decl P q v d) (h' : Decl P q v' d') : v = v' ∧ d = d' := by
  obtain ⟨m, h1, h2⟩ := h
  obtain ⟨m', h1', h2'⟩ := h'
  rw [h1] at h1'
  cases h1'
  rw [h2] at h2'
  cases h2'
  exact ⟨rfl, rfl⟩

theorem Exports.own (hp : Plain P) {k : Nat} {q : Q} (h : Exports P k q) : q.1 = k ∧ ∃ v d, Decl P q v d ∧ v ≠ .internal := by
  rcases h with h | ⟨m, h1, h2⟩
  · exact h
  · exact hp.aliases k m h1 q h2

theorem Exports.needed (hp : Plain P) {k : Nat} {q : Q} (h : Exports P k q) : Needed P q.1 q.2 := by
  have h1 := (h.own hp).1
  subst h1
  exact .exported h

theorem Named.split (hp : Plain P) {a : Nat} {q : Q} (h : Named P a q) :
    (q.1 = a ∧ ∃ v d, Decl P q v d) ∨ (Exports P q.1 q ∧ ∃ m, P a = some m ∧ q.1 ∈ m.imports) := by
  rcases h with h | ⟨m, h1, k, h2, h3⟩
  · exact .inl h
  · have h4 := (h3.own hp).1
    subst h4
    exact .inr ⟨h3, m, h1, h2⟩

/-- Names of a type expression are mentioned with it. -/
theorem Mention.occurs {t : Ty} {q x : Q} (h : Occurs t q) (hm : Mention P (.name q) x) : Mention P t x := by
  induction h with
  | name q => exact hm
  | openArr _ ih => exact .openArr (ih hm)
  | one _ ih => exact .one (ih hm)
  | left _ ih => exact .left (ih hm)
  | right _ ih => exact .right (ih hm)

/-- What the text of a type in module `h` mentions. -/
theorem mention_home (hl : Legal P) (hp : Plain P) {t : Ty} {x : Q} (hm : Mention P t x) :
    ∀ (h : Nat) (N : Prop), (∀ q, Occurs t q → Named P h q ∧ (N → q.1 = h → Needed P h q.2)) →
      (x.1 = h ∧ (N → Needed P h x.2)) ∨ ((∃ m, P h = some m ∧ x.1 ∈ m.imports) ∧ Needed P x.1 x.2) := by
  induction hm with
  | @name q v d _ _ =>
    intro h N ho
    obtain ⟨h1, h2⟩ := ho q (.name q)
    rcases h1.split hp with h3 | ⟨h3, h4⟩
    · exact .inl ⟨h3.1, fun n => h2 n h3.1⟩
    · exact .inr ⟨h4, h3.needed hp⟩
  | @nameOpen q x v e hd hm ih =>
    intro h N ho
    obtain ⟨h1, h2⟩ := ho q (.name q)
    have text : ∀ r, Occurs e r → Named P q.1 r := fun r hr => by
      obtain ⟨m, hm1, hm2⟩ := hd
      exact hl.types q.1 m q.2 v _ hm1 hm2 r (.other (.openArr hr))
    rcases h1.split hp with h3 | ⟨h3, h4⟩
    · obtain ⟨h3, -⟩ := h3
      subst h3
      exact ih q.1 N (fun r hr => ⟨text r hr, fun n he => by
        have h5 := h2 n rfl
        refine .part (k := q.2) h5 hd (.other (.openArr ?_))
        have e1 : ((q.1, r.2) : Q) = r := by rw [← he]
        rw [e1]
        exact hr⟩)
    · have h5 : Needed P q.1 q.2 := h3.needed hp
      have h6 : v ≠ .internal := by
        obtain ⟨-, v', d', h7, h8⟩ := h3.own hp
        rw [(hd.unique h7).1]
        exact h8
      have h7 := hp.opens q v e hd h6 x hm
      have h8 : Needed P x.1 x.2 := by
        rcases ih q.1 True (fun r hr => ⟨text r hr, fun _ he => by
          refine .part (k := q.2) h5 hd (.other (.openArr ?_))
          have e1 : ((q.1, r.2) : Q) = r := by rw [← he]
          rw [e1]
          exact hr⟩) with ⟨h9, h10⟩ | ⟨-, h10⟩
        · rw [h9]
          exact h10 trivial
        · exact h10
      exact .inr ⟨by rw [h7]; exact h4, h8⟩
  | openArr _ ih => intro h N ho; exact ih h N (fun q hq => ho q (.openArr hq))
  | one _ ih => intro h N ho; exact ih h N (fun q hq => ho q (.one hq))
  | left _ ih => intro h N ho; exact ih h N (fun q hq => ho q (.left hq))
  | right _ ih => intro h N ho; exact ih h N (fun q hq => ho q (.right hq))

/-- A type is known in a C file: it is of the module itself, or its declaration is in an included header file. -/
def Good (P : Program) (a : Nat) (x : Q) : Prop := x.1 = a ∨ (InUnit P a x.1 ∧ Needed P x.1 x.2)

theorem Needed.step {a n : Nat} {v : Vis} {d : TyDef} {q : Q} (h : Needed P a n) (hd : Decl P (a, n) v d) (hp : Part false d q) (he : q.1 = a) :
    Needed P a q.2 := by
  refine .part h hd ?_
  have e1 : ((a, q.2) : Q) = q := by rw [← he]
  rw [e1]
  exact hp

theorem Part.weaken {all : Bool} {d : TyDef} {q : Q} (h : Part all d q) : Part true d q := by
  cases h with
  | base => exact .base
  | field h1 _ h3 => exact .field h1 (.inl rfl) h3
  | method h1 _ h3 => exact .method h1 (.inl rfl) h3
  | other h1 => exact .other h1

theorem record_not_open {b : Option Q} {fs : List (Vis × Ty)} {ms : Nat → Option (Vis × Ty)} : ∀ e, TyDef.record b fs ms ≠ .other (.openArr e) := by
  intro e h
  cases h

/-- A header file mentions the visible parts of its types. -/
theorem HdrMention.ofPart (hl : Legal P) (hp : Plain P) {h n : Nat} {v : Vis} {d : TyDef} {q x : Q} (hn : Needed P h n) (hd : Decl P (h, n) v d)
    (hq : Part false d q) (hm : Mention P (.name q) x) (hx : x.1 ≠ h) : HdrMention P h x := by
  cases hq with
  | @base b fs ms =>
    obtain ⟨m, hm1, hm2⟩ := hd
    obtain ⟨w, b', fs', ms', hb⟩ := hl.bases h m n v _ fs ms hm1 hm2
    have e : x = q := by
      cases hm with
      | name _ _ => rfl
      | nameOpen h1 _ => exact absurd ((hb.unique h1).2) (record_not_open _)
    subst e
    refine .base hn ⟨m, hm1, hm2⟩ hb (.inl ?_)
    rcases (hl.types h m n v _ hm1 hm2 x .base).split hp with h1 | ⟨h1, -⟩
    · exact absurd h1.1 hx
    · obtain ⟨-, v', d', h2, h3⟩ := h1.own hp
      rw [(hb.unique h2).1]
      exact h3
  | @field b fs ms f _ hf hv ho =>
    have hv : f.1 ≠ .internal := by rcases hv with hv | hv; exacts [absurd hv (by decide), hv]
    exact .field hn (.own hd hf hv) (Mention.occurs ho hm)
  | @method b fs ms k w t _ hk hv ho =>
    have hv : w ≠ .internal := by rcases hv with hv | hv; exacts [absurd hv (by decide), hv]
    have hw : w = .external := by
      have := hp.boundMarks (h, n) v b fs ms k w t hd hk
      cases w <;> simp_all
    subst hw
    exact .method hn hd hk (Mention.occurs ho hm)
  | @other t _ ho => exact .other hn hd (Mention.occurs ho hm)

/-- Every type that a module can reach is known in its C file. -/
theorem reach_good (hl : Legal P) (hp : Plain P) {a : Nat} {q : Q} (hr : Reach P a q) : ∀ x, Mention P (.name q) x → Good P a x := by
  induction hr with
  | @named q hn =>
    intro x hx
    rcases hn.split hp with ⟨h1, h2⟩ | ⟨h1, m, h3, h4⟩
    · subst h1
      rcases mention_home hl hp hx q.1 False (fun r hr => by cases hr; exact ⟨hn, fun f => f.elim⟩) with h5 | ⟨⟨m, h5, h6⟩, h7⟩
      · exact .inl h5.1
      · exact .inr ⟨.direct h5 h6, h7⟩
    · obtain ⟨-, v, d, h5, h6⟩ := h1.own hp
      have hc := mention_home hl hp hx q.1 True (fun r hr => by cases hr; exact ⟨.inl ⟨rfl, v, d, h5⟩, fun _ _ => h1.needed hp⟩)
      have he : x.1 = q.1 := by
        cases hx with
        | name _ _ => rfl
        | nameOpen h7 h8 =>
          exact hp.opens q _ _ h7 (by rw [(h7.unique h5).1]; exact h6) x h8
      refine .inr ⟨by rw [he]; exact .direct h3 h4, ?_⟩
      rcases hc with ⟨h7, h8⟩ | ⟨-, h8⟩
      · rw [h7]
        exact h8 trivial
      · exact h8
  | @var m mk k n v t q h1 h2 h3 h4 h5 h6 =>
    intro x hx
    rcases mention_home hl hp (Mention.occurs h6 hx) k True (fun r hr => ⟨hl.vars k mk n v t h3 h4 r hr, fun _ he => by
      refine .var h3 h4 h5 ?_
      have e1 : ((k, r.2) : Q) = r := by rw [← he]
      rw [e1]
      exact hr⟩) with ⟨h7, h8⟩ | ⟨⟨m', h7, h8⟩, h9⟩
    · exact .inr ⟨by rw [h7]; exact .direct h1 h2, by rw [h7]; exact h8 trivial⟩
    · exact .inr ⟨.nested (.direct h1 h2) ⟨m', h7, h8, x.2, .var h3 h4 h5 (Mention.occurs h6 hx)⟩, h9⟩
  | @proc m mk k n p q h1 h2 h3 h4 h5 h5' h6 =>
    intro x hx
    rcases mention_home hl hp (Mention.occurs h6 hx) k True (fun r hr => ⟨hl.procs k mk n p h3 h4 r hr, fun _ he => by
      refine .proc h3 h4 h5 ?_
      have e1 : ((k, r.2) : Q) = r := by rw [← he]
      rw [e1]
      exact hr⟩) with ⟨h7, h8⟩ | ⟨⟨m', h7, h8⟩, h9⟩
    · exact .inr ⟨by rw [h7]; exact .direct h1 h2, by rw [h7]; exact h8 trivial⟩
    · exact .inr ⟨.nested (.direct h1 h2) ⟨m', h7, h8, x.2, .proc h3 h4 (.inr h5') h5 (.inl ((hl.kinds k mk n p h3 h4).2 h5))
        (Mention.occurs h6 hx)⟩, h9⟩
  | @part q r v d hr hd hq ih =>
    intro x hx
    by_cases ho : ∃ e, d = .other (.openArr e)
    · obtain ⟨e, rfl⟩ := ho
      cases hq with
      | other hq =>
        cases hq with
        | openArr hq => exact ih x (.nameOpen hd (Mention.occurs hq hx))
    · have hg := ih r (.name hd (fun e he => ho ⟨e, he⟩))
      have text : Named P r.1 q := by
        obtain ⟨m, hm1, hm2⟩ := hd
        exact hl.types r.1 m r.2 v d hm1 hm2 q hq.weaken
      by_cases ha : r.1 = a
      · rcases mention_home hl hp hx a False (fun s hs => by cases hs; rw [← ha]; exact ⟨text, fun f => f.elim⟩) with h5 | ⟨⟨m, h5, h6⟩, h7⟩
        · exact .inl h5.1
        · exact .inr ⟨.direct h5 h6, h7⟩
      · rw [decide_eq_false ha] at hq
        rcases hg with hg | ⟨hu, hn⟩
        · exact absurd hg ha
        · by_cases hx1 : x.1 = r.1
          · rcases mention_home hl hp hx r.1 True (fun s hs => by cases hs; exact ⟨text, fun _ he => hn.step hd hq he⟩) with ⟨h5, h6⟩ | ⟨-, h7⟩
            · exact .inr ⟨by rw [h5]; exact hu, by rw [h5]; exact h6 trivial⟩
            · exact .inr ⟨by rw [hx1]; exact hu, h7⟩
          · rcases mention_home hl hp hx r.1 True (fun s hs => by cases hs; exact ⟨text, fun _ he => hn.step hd hq he⟩) with
              ⟨h5, h6⟩ | ⟨⟨m, h5, h6⟩, h7⟩
            · exact absurd h5 hx1
            · exact .inr ⟨.nested hu ⟨m, h5, h6, x.2, .ofPart hl hp hn hd hq hx hx1⟩, h7⟩

theorem InUnit.lib (hl : Legal P) {a h : Nat} (hu : InUnit P a h) : ∃ m, P h = some m ∧ m.main = false := by
  cases hu with
  | direct h1 h2 => exact (hl.imports _ _ h1 _ h2).2
  | nested h1 h2 =>
    obtain ⟨m, h3, h4, -⟩ := h2
    exact (hl.imports _ _ h3 _ h4).2

theorem InHdr.trans {a b c : Nat} (h1 : InHdr P a b) (h2 : InHdr P b c) : InHdr P a c := by
  induction h2 with
  | self => exact h1
  | step _ h ih => exact .step ih h

/-- The types mentioned with the fields of a record of module `a`. -/
theorem field_known (hl : Legal P) (hp : Plain P) {r : Q} {t : Ty} (hf : HdrField P r t) :
    ∀ x, Needed P r.1 r.2 → Mention P t x → InHdr P r.1 x.1 ∧ Needed P x.1 x.2 := by
  induction hf with
  | @own r v b fs ms f hd hf hv =>
    intro x hn hm
    have hmm : HdrMention P r.1 x := .field hn (.own hd hf hv) hm
    rcases mention_home hl hp hm r.1 True (fun s hs => by
      have hs' : Part false (.record b fs ms) s := .field hf (.inr hv) hs
      refine ⟨?_, fun _ he => hn.step hd hs' he⟩
      obtain ⟨m, hm1, hm2⟩ := hd
      exact hl.types r.1 m r.2 v _ hm1 hm2 s hs'.weaken) with ⟨h5, h6⟩ | ⟨⟨m, h5, h6⟩, h7⟩
    · rw [h5]
      exact ⟨.self, h6 trivial⟩
    · exact ⟨.step .self ⟨m, h5, h6, x.2, hmm⟩, h7⟩
  | @inherited r b v fs ms t hd hf ih =>
    intro x hn hm
    have hb : Part false (.record (some b) fs ms) b := .base
    obtain ⟨m, hm1, hm2⟩ := hd
    rcases (hl.types r.1 m r.2 v _ hm1 hm2 b hb.weaken).split hp with ⟨h1, h2⟩ | ⟨h1, m', h3, h4⟩
    · have h5 := ih x (by have := hn.step ⟨m, hm1, hm2⟩ hb h1; rw [h1]; exact this) hm
      rw [h1] at h5
      exact h5
    · have h5 := ih x (h1.needed hp) hm
      obtain ⟨-, w, d, h6, h7⟩ := h1.own hp
      refine ⟨InHdr.trans (.step .self ⟨m', h3, h4, b.2, ?_⟩) h5.1, h5.2⟩
      exact .base hn ⟨m, hm1, hm2⟩ h6 (.inl h7)

end Verif.Linkage
