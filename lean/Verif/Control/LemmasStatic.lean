import Verif.Control.Lemmas

/-!
# Statements: the C text is well formed, and more iterations do not change a result
-/
namespace Verif.Control

open Spec

variable {σ : Type}

/-! There is an EXIT that is not in a LOOP. -/
mutual
def FreeExit : St σ → Prop
  | .exit => True
  | .ifelse c els => FreeExitIfs c ∨ FreeExits els
  | .wth c _ els => FreeExitIfs c ∨ FreeExits els
  | .case _ cs _ els => FreeExitCases cs ∨ FreeExits els
  | .whileDo _ b => FreeExits b
  | .repeatUntil b _ => FreeExits b
  | .forTo _ _ _ _ b => FreeExits b
  | _ => False
def FreeExits : Ss σ → Prop
  | .nil => False
  | .cons x t => FreeExit x ∨ FreeExits t
def FreeExitIfs : Ifs σ → Prop
  | .nil => False
  | .cons _ b t => FreeExits b ∨ FreeExitIfs t
def FreeExitCases : Cases σ → Prop
  | .nil => False
  | .cons _ b t => FreeExits b ∨ FreeExitCases t
end

theorem freeExits_append : ∀ (a b : Ss σ), ¬ FreeExits a → ¬ FreeExits b → ¬ FreeExits (a.append b)
  | .nil, _, _, h => h
  | .cons x t, b, ha, hb => by
    simp only [FreeExits, not_or] at ha
    simp only [Ss.append, FreeExits, not_or]
    exact ⟨ha.1, freeExits_append t b ha.2 hb⟩

theorem optRest_free : ∀ (c : Ifs σ) (els : Ss σ), ¬ FreeExitIfs c → ¬ FreeExits els →
    ¬ FreeExitIfs (optRest c els).1 ∧ ¬ FreeExits (optRest c els).2
  | .nil, els, _, h => ⟨fun h => h, h⟩
  | .cons c b t, els, hc, h => by
    simp only [FreeExitIfs, not_or] at hc
    have ih := optRest_free t els hc.2 h
    cases c with
    | const v =>
      cases v with
      | true => simp only [optRest]; exact ⟨fun h => h, hc.1⟩
      | false => simp only [optRest]; exact ih
    | dyn f => simp only [optRest, FreeExitIfs, not_or]; exact ⟨⟨hc.1, ih.1⟩, ih.2⟩

theorem optIf_free : ∀ (c : Ifs σ) (els : Ss σ), ¬ FreeExitIfs c → ¬ FreeExits els → ¬ FreeExits (optIf c els)
  | .nil, els, _, h => h
  | .cons c b t, els, hc, h => by
    simp only [FreeExitIfs, not_or] at hc
    cases c with
    | const v =>
      cases v with
      | true => simp only [optIf]; exact hc.1
      | false => simp only [optIf]; exact optIf_free t els hc.2 h
    | dyn f =>
      have ih := optRest_free t els hc.2 h
      simp only [optIf, FreeExits, FreeExit, FreeExitIfs, not_or]
      exact ⟨⟨⟨hc.1, ih.1⟩, ih.2⟩, fun h => h⟩

/-! The tree of an accepted text has no EXIT outside LOOP. -/
mutual
theorem parse_free {k : Nat} : ∀ (s : St σ), (parse 0 k s).2.2 = [] → ¬ FreeExits (parse 0 k s).1
  | .act f, _ => by simp [parse, FreeExits, FreeExit]
  | .ifelse i els, h => by
    simp only [parse, List.append_eq_nil_iff] at h ⊢
    exact optIf_free _ _ (parseIfs_free i h.1) (parses_free els h.2)
  | .wth i e els, h => by
    simp only [parse, List.append_eq_nil_iff] at h
    simp only [parse, FreeExits, FreeExit, or_false, not_or]
    exact ⟨parseIfs_free i h.1, parses_free els h.2⟩
  | .case e cs el els, h => by
    simp only [parse, List.append_eq_nil_iff] at h
    simp only [parse, FreeExits, FreeExit, or_false, not_or]
    exact ⟨parseCases_free cs h.1.1, parses_free els h.2⟩
  | .whileDo c b, h => by
    simp only [parse] at h
    simp only [parse, FreeExits, FreeExit, or_false]
    exact parses_free b h
  | .repeatUntil b c, h => by
    simp only [parse] at h
    simp only [parse, FreeExits, FreeExit, or_false]
    exact parses_free b h
  | .loop b, _ => by simp [parse, FreeExits, FreeExit]
  | .exit, h => by simp [parse] at h
  | .ret f, _ => by simp [parse, FreeExits, FreeExit]
  | .halt n, _ => by simp [parse, FreeExits, FreeExit]
  | .forTo v a (.const e) step body, h => by
    simp only [parse, List.append_eq_nil_iff] at h
    simp only [parse, FreeExits, FreeExit, or_false, false_or]
    exact freeExits_append _ _ (parses_free body h.2) (by simp [FreeExits, FreeExit])
  | .forTo v a (.dyn f) step body, h => by
    simp only [parse, List.append_eq_nil_iff] at h
    simp only [parse, FreeExits, FreeExit, or_false, false_or]
    exact freeExits_append _ _ (parses_free body h.2) (by simp [FreeExits, FreeExit])
theorem parses_free {k : Nat} : ∀ (s : Ss σ), (parses 0 k s).2.2 = [] → ¬ FreeExits (parses 0 k s).1
  | .nil, _ => by simp [parses, FreeExits]
  | .cons s t, h => by
    simp only [parses, List.append_eq_nil_iff] at h ⊢
    exact freeExits_append _ _ (parse_free s h.1) (parses_free t h.2)
theorem parseIfs_free {k : Nat} : ∀ (s : Ifs σ), (parseIfs 0 k s).2.2 = [] → ¬ FreeExitIfs (parseIfs 0 k s).1
  | .nil, _ => by simp [parseIfs, FreeExitIfs]
  | .cons c b t, h => by
    simp only [parseIfs, List.append_eq_nil_iff, FreeExitIfs, not_or] at h ⊢
    exact ⟨parses_free b h.1, parseIfs_free t h.2⟩
theorem parseCases_free {k : Nat} {tab : Nat → Int × Int} {n : Nat} : ∀ (s : Cases σ), (parseCases 0 k tab n s).2.2.2.2 = [] →
    ¬ FreeExitCases (parseCases 0 k tab n s).1
  | .nil, _ => by simp [parseCases, FreeExitCases]
  | .cons l b t, h => by
    simp only [parseCases, List.append_eq_nil_iff, FreeExitCases, not_or] at h ⊢
    exact ⟨parses_free b h.1.2, parseCases_free t h.2⟩
end

theorem gotoss_append : ∀ (a b : Css σ), gotoss (a.append b) = gotoss a ++ gotoss b
  | .nil, b => rfl
  | .cons x t, b => by simp only [Css.append, gotoss, gotoss_append t b, List.append_assoc]

theorem freeBreaks_append : ∀ (a b : Css σ), freeBreaks (a.append b) ↔ freeBreaks a ∨ freeBreaks b
  | .nil, b => by simp [Css.append, freeBreaks]
  | .cons x t, b => by simp only [Css.append, freeBreaks, freeBreaks_append t b, or_assoc]

/-- Every `goto` has its label, in the text or still to be written. -/
def Has (ls : List Nat) (lab : Option Nat) (gs : List Nat) : Prop := ∀ n ∈ gs, n ∈ ls ∨ lab = some n

theorem Has.app {a b ga gb : List Nat} {l l' : Option Nat} (h : Has a l ga) (he : Ext l l') (h' : Has b l' gb) : Has (a ++ b) l' (ga ++ gb) := by
  intro n hn
  rcases List.mem_append.1 hn with hn | hn
  · rcases h n hn with h | h
    · exact Or.inl (List.mem_append_left _ h)
    · exact Or.inr (he n h)
  · rcases h' n hn with h | h
    · exact Or.inl (List.mem_append_right _ h)
    · exact Or.inr h

mutual
theorem emit_static {lv : Nat} {lab : Option Nat} {nof : Nat} : ∀ (s : St σ), ∀ c lab' nof', emit lv lab nof s = (c, lab', nof') →
    Ext lab lab' ∧ Has (labelss c) lab' (gotoss c) ∧ (¬ FreeExit s → lab' = lab ∧ ¬ freeBreaks c) ∧ (lv ≠ 0 → ¬ freeBreaks c)
  | .act f, c, lab', nof', h => by
    simp only [emit, Prod.mk.injEq] at h
    obtain ⟨rfl, rfl, rfl⟩ := h
    exact ⟨fun _ h => h, by intro n hn; simp [gotoss, gotos] at hn, fun _ => ⟨rfl, by simp [freeBreaks, freeBreak]⟩, fun _ => by simp [freeBreaks, freeBreak]⟩
  | .ifelse i els, c, lab', nof', h => by
    rcases h1 : emitIfs lv lab nof i with ⟨c1, l1, n1⟩
    rcases h2 : emits lv l1 n1 els with ⟨c2, l2, n2⟩
    simp only [emit, h1, h2, Prod.mk.injEq] at h
    obtain ⟨rfl, rfl, rfl⟩ := h
    obtain ⟨a1, a2, a3, a4⟩ := emitIfs_static i _ _ _ h1
    obtain ⟨b1, b2, b3, b4⟩ := emits_static els _ _ _ h2
    refine ⟨fun n hn => b1 n (a1 n hn), by simpa [labelss, labels, gotoss, gotos] using a2.app b1 b2, ?_, ?_⟩
    · intro hf
      simp only [FreeExit, not_or] at hf
      simp only [freeBreaks, freeBreak, or_false, not_or]
      exact ⟨(b3 hf.2).1.trans (a3 hf.1).1, (a3 hf.1).2, (b3 hf.2).2⟩
    · intro hl
      simp only [freeBreaks, freeBreak, or_false, not_or]
      exact ⟨a4 hl, b4 hl⟩
  | .wth i e els, c, lab', nof', h => by
    rcases h1 : emitIfs lv lab nof i with ⟨c1, l1, n1⟩
    obtain ⟨a1, a2, a3, a4⟩ := emitIfs_static i _ _ _ h1
    cases e with
    | true =>
      rcases h2 : emits lv l1 n1 els with ⟨c2, l2, n2⟩
      simp only [emit, h1, h2, if_true, Prod.mk.injEq] at h
      obtain ⟨rfl, rfl, rfl⟩ := h
      obtain ⟨b1, b2, b3, b4⟩ := emits_static els _ _ _ h2
      refine ⟨fun n hn => b1 n (a1 n hn), by simpa [labelss, labels, gotoss, gotos] using a2.app b1 b2, ?_, ?_⟩
      · intro hf
        simp only [FreeExit, not_or] at hf
        simp only [freeBreaks, freeBreak, or_false, not_or]
        exact ⟨(b3 hf.2).1.trans (a3 hf.1).1, (a3 hf.1).2, (b3 hf.2).2⟩
      · intro hl
        simp only [freeBreaks, freeBreak, or_false, not_or]
        exact ⟨a4 hl, b4 hl⟩
    | false =>
      simp only [emit, h1, Bool.false_eq_true, if_false, Prod.mk.injEq] at h
      obtain ⟨rfl, rfl, rfl⟩ := h
      refine ⟨a1, by simpa [labelss, labels, gotoss, gotos] using a2, ?_, ?_⟩
      · intro hf
        simp only [FreeExit, not_or] at hf
        simp only [freeBreaks, freeBreak, or_false]
        exact a3 hf.1
      · intro hl
        simp only [freeBreaks, freeBreak, or_false]
        exact a4 hl
  | .case e cs el els, c, lab', nof', h => by
    rcases h1 : emitCases (lv + 1) lab nof cs with ⟨c1, l1, n1⟩
    obtain ⟨a1, a2, a3⟩ := emitCases_static cs _ _ _ h1
    cases el with
    | true =>
      rcases h2 : emits (lv + 1) l1 n1 els with ⟨c2, l2, n2⟩
      simp only [emit, h1, h2, if_true, Prod.mk.injEq] at h
      obtain ⟨rfl, rfl, rfl⟩ := h
      obtain ⟨b1, b2, b3, b4⟩ := emits_static els _ _ _ h2
      refine ⟨fun n hn => b1 n (a1 n hn), by simpa [labelss, labels, gotoss, gotos, labelss_append, gotoss_append] using a2.app b1 b2, ?_, ?_⟩
      · intro hf
        simp only [FreeExit, not_or] at hf
        exact ⟨(b3 hf.2).1.trans (a3 hf.1), by simp [freeBreaks, freeBreak]⟩
      · intro hl
        simp [freeBreaks, freeBreak]
    | false =>
      simp only [emit, h1, Bool.false_eq_true, if_false, Prod.mk.injEq] at h
      obtain ⟨rfl, rfl, rfl⟩ := h
      refine ⟨a1, by simpa [labelss, labels, gotoss, gotos] using a2, ?_, ?_⟩
      · intro hf
        simp only [FreeExit, not_or] at hf
        exact ⟨a3 hf.1, by simp [freeBreaks, freeBreak]⟩
      · intro hl
        simp [freeBreaks, freeBreak]
  | .whileDo e b, c, lab', nof', h => by
    rcases h1 : emits (lv + 1) lab nof b with ⟨c1, l1, n1⟩
    simp only [emit, h1, Prod.mk.injEq] at h
    obtain ⟨rfl, rfl, rfl⟩ := h
    obtain ⟨a1, a2, a3, a4⟩ := emits_static b _ _ _ h1
    refine ⟨a1, by simpa [labelss, labels, gotoss, gotos] using a2, ?_, ?_⟩
    · intro hf
      simp only [FreeExit] at hf
      exact ⟨(a3 hf).1, by simp [freeBreaks, freeBreak]⟩
    · intro hl
      simp [freeBreaks, freeBreak]
  | .repeatUntil b e, c, lab', nof', h => by
    rcases h1 : emits (lv + 1) lab nof b with ⟨c1, l1, n1⟩
    simp only [emit, h1, Prod.mk.injEq] at h
    obtain ⟨rfl, rfl, rfl⟩ := h
    obtain ⟨a1, a2, a3, a4⟩ := emits_static b _ _ _ h1
    refine ⟨a1, by simpa [labelss, labels, gotoss, gotos] using a2, ?_, ?_⟩
    · intro hf
      simp only [FreeExit] at hf
      exact ⟨(a3 hf).1, by simp [freeBreaks, freeBreak]⟩
    · intro hl
      simp [freeBreaks, freeBreak]
  | .loop b, c, lab', nof', h => by
    rcases h1 : emits 0 none nof b with ⟨c1, l1, n1⟩
    simp only [emit, h1, Prod.mk.injEq] at h
    obtain ⟨rfl, rfl, rfl⟩ := h
    obtain ⟨a1, a2, a3, a4⟩ := emits_static b _ _ _ h1
    refine ⟨fun _ h => h, ?_, fun _ => ⟨rfl, ?_⟩, fun _ => ?_⟩
    · intro n hn
      left
      cases l1 with
      | none =>
        simp only [labelss, labels, gotoss, gotos, List.append_nil] at hn ⊢
        rcases a2 n hn with h | h
        · exact h
        · simp at h
      | some m =>
        simp only [labelss, labels, gotoss, gotos, List.append_nil] at hn ⊢
        rcases a2 n hn with h | h
        · exact List.mem_append_left _ h
        · rw [Option.some.inj h]; exact List.mem_append_right _ (List.mem_singleton.2 rfl)
    · cases l1 <;> simp [freeBreaks, freeBreak]
    · cases l1 <;> simp [freeBreaks, freeBreak]
  | .exit, c, lab', nof', h => by
    simp only [emit] at h
    by_cases h0 : lv = 0
    · rw [if_pos h0] at h
      simp only [Prod.mk.injEq] at h
      obtain ⟨rfl, rfl, rfl⟩ := h
      exact ⟨fun _ h => h, by intro n hn; simp [gotoss, gotos] at hn, fun hf => by simp [FreeExit] at hf, fun hl => absurd h0 hl⟩
    · rw [if_neg h0] at h
      cases lab with
      | some m =>
        simp only [Prod.mk.injEq] at h
        obtain ⟨rfl, rfl, rfl⟩ := h
        refine ⟨fun _ h => h, ?_, fun hf => by simp [FreeExit] at hf, fun _ => by simp [freeBreaks, freeBreak]⟩
        intro n hn
        simp only [gotoss, gotos, List.append_nil, List.mem_singleton] at hn
        exact Or.inr (by rw [hn])
      | none =>
        simp only [Prod.mk.injEq] at h
        obtain ⟨rfl, rfl, rfl⟩ := h
        refine ⟨fun _ h => by simp at h, ?_, fun hf => by simp [FreeExit] at hf, fun _ => by simp [freeBreaks, freeBreak]⟩
        intro n hn
        simp only [gotoss, gotos, List.append_nil, List.mem_singleton] at hn
        exact Or.inr (by rw [hn])
  | .ret f, c, lab', nof', h => by
    simp only [emit, Prod.mk.injEq] at h
    obtain ⟨rfl, rfl, rfl⟩ := h
    exact ⟨fun _ h => h, by intro n hn; simp [gotoss, gotos] at hn, fun _ => ⟨rfl, by simp [freeBreaks, freeBreak]⟩, fun _ => by simp [freeBreaks, freeBreak]⟩
  | .halt m, c, lab', nof', h => by
    simp only [emit, Prod.mk.injEq] at h
    obtain ⟨rfl, rfl, rfl⟩ := h
    exact ⟨fun _ h => h, by intro n hn; simp [gotoss, gotos] at hn, fun _ => ⟨rfl, by simp [freeBreaks, freeBreak]⟩, fun _ => by simp [freeBreaks, freeBreak]⟩
  | .forTo _ _ _ _ _, c, lab', nof', h => by
    simp only [emit, Prod.mk.injEq] at h
    obtain ⟨rfl, rfl, rfl⟩ := h
    exact ⟨fun _ h => h, by intro n hn; simp [gotoss] at hn, fun _ => ⟨rfl, by simp [freeBreaks]⟩, fun _ => by simp [freeBreaks]⟩
theorem emits_static {lv : Nat} {lab : Option Nat} {nof : Nat} : ∀ (s : Ss σ), ∀ c lab' nof', emits lv lab nof s = (c, lab', nof') →
    Ext lab lab' ∧ Has (labelss c) lab' (gotoss c) ∧ (¬ FreeExits s → lab' = lab ∧ ¬ freeBreaks c) ∧ (lv ≠ 0 → ¬ freeBreaks c)
  | .nil, c, lab', nof', h => by
    simp only [emits, Prod.mk.injEq] at h
    obtain ⟨rfl, rfl, rfl⟩ := h
    exact ⟨fun _ h => h, by intro n hn; simp [gotoss] at hn, fun _ => ⟨rfl, by simp [freeBreaks]⟩, fun _ => by simp [freeBreaks]⟩
  | .cons s t, c, lab', nof', h => by
    rcases h1 : emit lv lab nof s with ⟨c1, l1, n1⟩
    rcases h2 : emits lv l1 n1 t with ⟨c2, l2, n2⟩
    simp only [emits, h1, h2, Prod.mk.injEq] at h
    obtain ⟨rfl, rfl, rfl⟩ := h
    obtain ⟨a1, a2, a3, a4⟩ := emit_static s _ _ _ h1
    obtain ⟨b1, b2, b3, b4⟩ := emits_static t _ _ _ h2
    refine ⟨fun n hn => b1 n (a1 n hn), by rw [labelss_append, gotoss_append]; exact a2.app b1 b2, ?_, ?_⟩
    · intro hf
      simp only [FreeExits, not_or] at hf
      rw [freeBreaks_append, not_or]
      exact ⟨(b3 hf.2).1.trans (a3 hf.1).1, (a3 hf.1).2, (b3 hf.2).2⟩
    · intro hl
      rw [freeBreaks_append, not_or]
      exact ⟨a4 hl, b4 hl⟩
theorem emitIfs_static {lv : Nat} {lab : Option Nat} {nof : Nat} : ∀ (s : Ifs σ), ∀ c lab' nof', emitIfs lv lab nof s = (c, lab', nof') →
    Ext lab lab' ∧ Has (labelsIfs c) lab' (gotosIfs c) ∧ (¬ FreeExitIfs s → lab' = lab ∧ ¬ freeBreakIfs c) ∧ (lv ≠ 0 → ¬ freeBreakIfs c)
  | .nil, c, lab', nof', h => by
    simp only [emitIfs, Prod.mk.injEq] at h
    obtain ⟨rfl, rfl, rfl⟩ := h
    exact ⟨fun _ h => h, by intro n hn; simp [gotosIfs] at hn, fun _ => ⟨rfl, by simp [freeBreakIfs]⟩, fun _ => by simp [freeBreakIfs]⟩
  | .cons e b t, c, lab', nof', h => by
    rcases h1 : emits lv lab nof b with ⟨c1, l1, n1⟩
    rcases h2 : emitIfs lv l1 n1 t with ⟨c2, l2, n2⟩
    simp only [emitIfs, h1, h2, Prod.mk.injEq] at h
    obtain ⟨rfl, rfl, rfl⟩ := h
    obtain ⟨a1, a2, a3, a4⟩ := emits_static b _ _ _ h1
    obtain ⟨b1, b2, b3, b4⟩ := emitIfs_static t _ _ _ h2
    refine ⟨fun n hn => b1 n (a1 n hn), a2.app b1 b2, ?_, ?_⟩
    · intro hf
      simp only [FreeExitIfs, not_or] at hf
      simp only [freeBreakIfs, not_or]
      exact ⟨(b3 hf.2).1.trans (a3 hf.1).1, (a3 hf.1).2, (b3 hf.2).2⟩
    · intro hl
      simp only [freeBreakIfs, not_or]
      exact ⟨a4 hl, b4 hl⟩
theorem emitCases_static {lv : Nat} {lab : Option Nat} {nof : Nat} : ∀ (s : Cases σ), ∀ c lab' nof', emitCases lv lab nof s = (c, lab', nof') →
    Ext lab lab' ∧ Has (labelsGs c) lab' (gotosGs c) ∧ (¬ FreeExitCases s → lab' = lab)
  | .nil, c, lab', nof', h => by
    simp only [emitCases, Prod.mk.injEq] at h
    obtain ⟨rfl, rfl, rfl⟩ := h
    exact ⟨fun _ h => h, by intro n hn; simp [gotosGs] at hn, fun _ => rfl⟩
  | .cons l b t, c, lab', nof', h => by
    rcases h1 : emits lv lab nof b with ⟨c1, l1, n1⟩
    rcases h2 : emitCases lv l1 n1 t with ⟨c2, l2, n2⟩
    simp only [emitCases, h1, h2, Prod.mk.injEq] at h
    obtain ⟨rfl, rfl, rfl⟩ := h
    obtain ⟨a1, a2, a3, a4⟩ := emits_static b _ _ _ h1
    obtain ⟨b1, b2, b3⟩ := emitCases_static t _ _ _ h2
    refine ⟨fun n hn => b1 n (a1 n hn), by simpa [labelsGs, gotosGs, labelss_append, gotoss_append, labelss, labels, gotoss, gotos] using a2.app b1 b2, ?_⟩
    intro hf
    simp only [FreeExitCases, not_or] at hf
    exact (b3 hf.2).trans (a3 hf.1).1
end

/-! ## More iterations -/

/-- A result stays. -/
def Le (r r' : Option (Res σ)) : Prop := ∀ x, r = some x → r' = some x

theorem Le.refl (r : Option (Res σ)) : Le r r := fun _ h => h

theorem Le.bind {r r' : Option (Res σ)} {f f' : Res σ → Option (Res σ)} (h : Le r r') (hf : ∀ x, Le (f x) (f' x)) : Le (r.bind f) (r'.bind f') := by
  intro x hx
  cases r with
  | none => simp at hx
  | some y => rw [h y rfl]; exact hf y x hx

theorem while_le {c : σ → Option (Bool × σ)} {b b' : σ → Option (Res σ)} (h : ∀ s, Le (b s) (b' s)) :
    ∀ f f' s, f ≤ f' → Le (while' c b f s) (while' c b' f' s)
  | 0, _, _, _ => by intro x hx; simp [while'] at hx
  | f + 1, 0, _, hf => by omega
  | f + 1, f' + 1, s, hf => by
    simp only [while']
    cases c s with
    | none => exact Le.refl _
    | some p =>
      obtain ⟨v, s⟩ := p
      simp only [Option.bind_some]
      cases v with
      | false => exact Le.refl _
      | true =>
        simp only [if_true]
        refine (h s).bind fun x => ?_
        cases x with
        | norm s => exact while_le h f f' s (by omega)
        | _ => exact Le.refl _

theorem repeat_le {c : σ → Option (Bool × σ)} {b b' : σ → Option (Res σ)} (h : ∀ s, Le (b s) (b' s)) :
    ∀ f f' s, f ≤ f' → Le (repeat' b c f s) (repeat' b' c f' s)
  | 0, _, _, _ => by intro x hx; simp [repeat'] at hx
  | f + 1, 0, _, hf => by omega
  | f + 1, f' + 1, s, hf => by
    simp only [repeat']
    refine (h s).bind fun x => ?_
    cases x with
    | norm s =>
      simp only
      cases c s with
      | none => exact Le.refl _
      | some p =>
        obtain ⟨v, s⟩ := p
        simp only [Option.bind_some]
        cases v with
        | true => exact Le.refl _
        | false => exact repeat_le h f f' s (by omega)
    | _ => exact Le.refl _

theorem loop_le {b b' : σ → Option (Res σ)} (h : ∀ s, Le (b s) (b' s)) :
    ∀ f f' s, f ≤ f' → Le (loop' b f s) (loop' b' f' s)
  | 0, _, _, _ => by intro x hx; simp [loop'] at hx
  | f + 1, 0, _, hf => by omega
  | f + 1, f' + 1, s, hf => by
    simp only [loop']
    refine (h s).bind fun x => ?_
    cases x with
    | norm s => exact loop_le h f f' s (by omega)
    | _ => exact Le.refl _

theorem for_le {v : Var σ} {e step : Int} {b b' : σ → Option (Res σ)} (h : ∀ s, Le (b s) (b' s)) :
    ∀ f f' s, f ≤ f' → Le (for' v e step b f s) (for' v e step b' f' s)
  | 0, _, _, _ => by intro x hx; simp [for'] at hx
  | f + 1, 0, _, hf => by omega
  | f + 1, f' + 1, s, hf => by
    simp only [for']
    by_cases hc : (0 < step ∧ v.get s ≤ e) ∨ (step < 0 ∧ e ≤ v.get s)
    · rw [if_pos hc, if_pos hc]
      refine (h s).bind fun x => ?_
      cases x with
      | norm s =>
        simp only
        cases v.arith (v.get s + step) with
        | none => exact Le.refl _
        | some y => exact for_le h f f' _ (by omega)
      | _ => exact Le.refl _
    · rw [if_neg hc, if_neg hc]; exact Le.refl _

mutual
theorem exec_le {F F' : Nat} (hF : F ≤ F') : ∀ (s : St σ) (x : σ), Le (exec F s x) (exec F' s x)
  | .act f, x => by simp only [exec]; exact Le.refl _
  | .ifelse i els, x => by
    simp only [exec]
    exact execIfs_le hF i (fun s => execs_le hF els s) x
  | .wth i e els, x => by
    simp only [exec]
    refine execIfs_le hF i (fun s => ?_) x
    cases e with
    | true => exact execs_le hF els s
    | false => exact Le.refl _
  | .case e cs el els, x => by
    simp only [exec]
    cases e x with
    | none => exact Le.refl _
    | some p =>
      obtain ⟨v, s⟩ := p
      simp only [Option.bind_some]
      refine execCases_le hF v cs (fun s => ?_) s
      cases el with
      | true => exact execs_le hF els s
      | false => exact Le.refl _
  | .whileDo c b, x => by simp only [exec]; exact while_le (fun s => execs_le hF b s) F F' x hF
  | .repeatUntil b c, x => by simp only [exec]; exact repeat_le (fun s => execs_le hF b s) F F' x hF
  | .loop b, x => by simp only [exec]; exact loop_le (fun s => execs_le hF b s) F F' x hF
  | .exit, x => by simp only [exec]; exact Le.refl _
  | .ret f, x => by simp only [exec]; exact Le.refl _
  | .halt n, x => by simp only [exec]; exact Le.refl _
  | .forTo v a b step body, x => by
    simp only [exec]
    cases b.eval x with
    | none => exact Le.refl _
    | some p =>
      obtain ⟨e, s⟩ := p
      simp only [Option.bind_some]
      cases a s with
      | none => exact Le.refl _
      | some p =>
        obtain ⟨y, s⟩ := p
        simp only [Option.bind_some]
        exact for_le (fun s => execs_le hF body s) F F' _ hF
theorem execs_le {F F' : Nat} (hF : F ≤ F') : ∀ (s : Ss σ) (x : σ), Le (execs F s x) (execs F' s x)
  | .nil, x => by simp only [execs]; exact Le.refl _
  | .cons s t, x => by
    simp only [execs]
    refine (exec_le hF s x).bind fun y => ?_
    cases y with
    | norm s => exact execs_le hF t s
    | _ => exact Le.refl _
theorem execIfs_le {F F' : Nat} (hF : F ≤ F') : ∀ (i : Ifs σ) {q q' : σ → Option (Res σ)}, (∀ s, Le (q s) (q' s)) → ∀ x,
    Le (execIfs F i q x) (execIfs F' i q' x)
  | .nil, q, q', hq, x => hq x
  | .cons c b t, q, q', hq, x => by
    simp only [execIfs]
    cases c.eval x with
    | none => exact Le.refl _
    | some p =>
      obtain ⟨v, s⟩ := p
      simp only [Option.bind_some]
      cases v with
      | true => exact execs_le hF b s
      | false => exact execIfs_le hF t hq s
theorem execCases_le {F F' : Nat} (hF : F ≤ F') (v : Int) : ∀ (i : Cases σ) {q q' : σ → Option (Res σ)}, (∀ s, Le (q s) (q' s)) → ∀ x,
    Le (execCases F v i q x) (execCases F' v i q' x)
  | .nil, q, q', hq, x => hq x
  | .cons l b t, q, q', hq, x => by
    simp only [execCases]
    by_cases hv : ∃ r ∈ l, r.1 ≤ v ∧ v ≤ r.2
    · rw [if_pos hv, if_pos hv]; exact execs_le hF b x
    · rw [if_neg hv, if_neg hv]; exact execCases_le hF v t hq x
end

end Verif.Control
