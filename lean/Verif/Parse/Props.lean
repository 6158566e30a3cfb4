import Verif.Common
import Verif.Chars
import Verif.Parse.SoundB
import Verif.Parse.CompB
import Verif.Parse.TotalB
import Verif.Scanner.PropsTokens

/-!
C50: the compiler accepts exactly the texts of the grammar and builds the tree the grammar gives them.
C51: it comes to an end on every text, whatever errors there are in it.
-/
namespace Verif.Parse
open Verif.Scanner (Tok Spells Gap render scanAll)

/-- The input begins with the symbols of the module `m`, which is put together as the grammar says. -/
def Begins (m : Mod) (i : List T) : Prop := okMod m ∧ ∃ pre post, i = pre ++ post ∧ Fits (yMod m) pre

/-! ### C50 -/

/-- **C50, soundness.**  When the parser reports no error, the tree it returns is put together as the grammar says, and the
symbols read are those of the tree, up to the period at its end, which the parser sees and leaves. -/
theorem C50_sound {f : Nat} {i k : List T} {r : Option Mod} (h : parse f i = some (r, k, [])) :
    ∃ m pre v post, r = some m ∧ okMod m ∧ i = pre ++ post ∧ Fits (yMod m) pre ∧ k = (.sym 18, v) :: post := by
  cases r with
  | none =>
    exfalso
    unfold parse at h
    rcases hh : header f i with _ | ⟨_ | ⟨x, is⟩, j, e⟩
    · rw [hh] at h; cases h
    · rw [hh] at h
      simp only [Option.some.injEq, Prod.mk.injEq, true_and] at h
      obtain ⟨rfl, rfl⟩ := h
      unfold header at hh
      stp at hh
      repeat' spl at hh
      all_goals (obtain ⟨_, _, _, hh⟩ := bind_ok.mp hh.2; have := pure_ok.mp hh; simp at this)
    · rw [hh] at h
      simp only at h
      split at h
      · rw [rest] at h
        obtain ⟨b, _, hb, h⟩ := bind_ok.mp h
        stp at h
        spl at h
        obtain ⟨_, h⟩ := h
        spl at h
        simp at h
      · rename_i he
        simp only [Option.some.injEq, Prod.mk.injEq, true_and] at h
        exact he h.2
  | some m =>
    obtain ⟨hw, hc, pre, hi, hf⟩ := parse_ok h
    obtain ⟨v, j, rfl⟩ := cur_sym (by decide) hc
    exact ⟨m, pre, v, j, rfl, hw, hi, hf, rfl⟩

/-- **C50, completeness.**  A text that begins with the symbols of a module is read without an error, and the tree is that of
the module; any number of steps is enough from some number on. -/
theorem C50_complete {m : Mod} (hw : okMod m) {pre : List T} (hf : Fits (yMod m) pre) (post : List T) :
    ∃ F, ∀ f, F ≤ f → ∃ k, parse f (pre ++ post) = some (some m, k, []) := by
  obtain ⟨j, -, -, F, hF⟩ := parse_go hw (i := pre ++ post) (k := post) ⟨pre, rfl, hf⟩
  exact ⟨F, fun f hf => ⟨j, hF f hf⟩⟩

/-- **C50, unambiguity.**  No text begins with the symbols of two different modules: the grammar, with the answers of the symbol
table, gives every text one tree at most. -/
theorem C50_unambiguous {m m' : Mod} {i : List T} (h : Begins m i) (h' : Begins m' i) : m = m' := by
  obtain ⟨hw, pre, post, rfl, hf⟩ := h
  obtain ⟨hw', pre', post', hi, hf'⟩ := h'
  obtain ⟨F, hF⟩ := C50_complete hw hf post
  obtain ⟨G, hG⟩ := C50_complete hw' hf' post'
  obtain ⟨k, hk⟩ := hF (max F G) (by omega)
  obtain ⟨k', hk'⟩ := hG (max F G) (by omega)
  rw [← hi, hk] at hk'
  simp only [Option.some.injEq, Prod.mk.injEq] at hk'
  exact hk'.1

/-- **C51, termination.**  On every sequence of symbols, and whatever the symbol table says, the parser comes to an end, with
calls nested no deeper than in proportion to the length of the text; allowing more changes nothing. -/
theorem C51_terminates (i : List T) : ∃ r k e, k.length ≤ i.length ∧
    ∀ f, 16 * i.length + 2 ≤ f → parse f i = some (r, k, e) := by
  obtain ⟨⟨r, k, e⟩, hr, hk⟩ := parse_w (F := 16 * i.length + 2) (i := i) (Nat.le_refl _)
  exact ⟨r, k, e, hk, hr⟩

/-- **C50, decision.**  For every sequence of symbols: an error is reported unless it begins with the symbols of a module, and
otherwise none is, and the tree is that of the module. -/
theorem C50_decides (i : List T) {f : Nat} (hf : 16 * i.length + 2 ≤ f) :
    ∃ r k e, parse f i = some (r, k, e) ∧ (e = [] ↔ ∃ m, Begins m i) ∧ ∀ m, Begins m i → r = some m := by
  obtain ⟨r, k, e, -, h⟩ := C51_terminates i
  have com : ∀ m, Begins m i → r = some m ∧ e = [] := by
    rintro m ⟨hw, pre, post, rfl, hfit⟩
    obtain ⟨F, hF⟩ := C50_complete hw hfit post
    obtain ⟨k', hk'⟩ := hF (max F f) (by omega)
    rw [h (max F f) (by omega)] at hk'
    simp only [Option.some.injEq, Prod.mk.injEq] at hk'
    exact ⟨hk'.1, hk'.2.2⟩
  refine ⟨r, k, e, h f hf, ⟨?_, fun ⟨m, hm⟩ => (com m hm).2⟩, fun m hm => (com m hm).1⟩
  rintro rfl
  obtain ⟨m, pre, v, post, -, hw, hi, hfit, -⟩ := C50_sound (h f hf)
  exact ⟨m, hw, pre, post, hi, hfit⟩

/-- **C50, texts.**  A module written as text, each symbol in any of its spellings and with any blanks and comments between
them, is delivered by the scanner and read by the parser as this module, with whatever text after it. -/
theorem C50_text {m : Mod} (hw : okMod m) (items : List (Tok × List Nat × Nat × List Nat))
    (h : ∀ i ∈ items, Spells i.1 i.2.1 ∧ 0 < i.2.2.1 ∧ i.2.2.1 ≤ 32 ∧ Gap i.2.2.2) (g : List Nat) (hg : Gap g)
    (ans : List Bool) (hl : ans.length = items.length) {pre post : List T}
    (hi : (items.map (·.1)).zip ans = pre ++ post) (hfit : Fits (yMod m) pre) :
    ∃ toks, scanAll (items.length + 1) (g ++ render items) = some (toks, []) ∧
      ∃ k, parse (16 * toks.length + 2) (toks.zip ans) = some (some m, k, []) := by
  refine ⟨items.map (·.1), Verif.Scanner.C43_token_stream items h g hg _ (Nat.lt_succ_self _), ?_⟩
  have hlen : (items.map (·.1)).length = ((items.map (·.1)).zip ans).length := by
    rw [List.length_zip, List.length_map, hl, Nat.min_self]
  rw [hlen]
  obtain ⟨r, k, e, hp, h1, h2⟩ := C50_decides ((items.map (·.1)).zip ans) (Nat.le_refl _)
  have hb : Begins m ((items.map (·.1)).zip ans) := ⟨hw, pre, post, hi, hfit⟩
  exact ⟨k, by rw [hp, h2 m hb, h1.mpr ⟨m, hb⟩]⟩

/-! ### Examples -/

private def sample : Mod := ⟨w! "M", [(w! "Out", none)], .mk
  [.var [([⟨w! "x", some 1⟩, ⟨w! "y", none⟩], .name ⟨none, w! "SET"⟩)]]
  [.mk none (some ⟨true, w! "r", w! "R"⟩) ⟨w! "P", some 1⟩ (some (.mk [.mk false [w! "a", w! "b"] (.array (.opn none (.name ⟨none, w! "CHAR"⟩)))] none))
    (.block (.mk [] [] (some [.ret none])) (w! "P"))]
  (some [.assign ⟨none, w! "x"⟩ [] (.bin 7 (.bin 7 (.lit (.int 1)) (.bin 1 (.lit (.int 2)) (.lit (.int 3)))) (.lit (.int 4))),
    .ifs (.bin 15 (.des ⟨none, w! "a"⟩ [.dot (w! "b"), .idx [.lit (.int 0)]]) (.set [.range (.lit (.int 1)) (.lit (.int 3))]))
      [.call ⟨some (w! "Out"), w! "Ln"⟩ [] none] [] (.some [.exit, .empty])]), w! "M"⟩

private def sampleIn : List T := (yMod sample).map fun y => (y.1, y.2.getD false)

example : okMod sample := by
  simp [sample, okMod, okBlock, okSect, okDef, okTy, okArr, okFlag, okProcs, okProc, okParsO, okPars, okSecs, okSec, kindOk, okBody, okBegin,
    okSts, okSt, okEx, okSels, okSel, okExs, okEls, okEl, okElsifs, okElse, okArgs, isLit, lev]
example : Fits (yMod sample) sampleIn := by
  unfold Fits sampleIn
  rw [List.forall₂_map_right_iff]
  exact List.forall₂_same.mpr fun y _ => ⟨rfl, fun v hv => by rw [hv]; rfl⟩
/-- The tree is found, and with a symbol left out an error is reported and the parser comes to an end. -/
example : ∃ k, parse 200 sampleIn = some (some sample, k, []) := ⟨_, rfl⟩
example : (parse 200 (sampleIn.eraseIdx 5)).map (·.2.2) = some [39] := by decide +kernel

end Verif.Parse
