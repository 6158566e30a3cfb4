import Verif.Linking.Spec
import Verif.Str.Lemmas
import Verif.Common

namespace Verif.Linking

/-- `app` is `Strings.Append` of C31, on the texts of the arrays. -/
theorem append_text (extra dest : List Nat) (h1 : (Str.str dest).length ≤ 32767) (h2 : (Str.str extra).length ≤ 32767) :
    (Str.append extra dest).map Str.str = some ((Str.str dest ++ Str.str extra).take dest.length) := by
  rw [Str.append_ok h1 h2, Option.map_some]
  have hz : 0 ∉ Str.str dest ++ Str.str extra := by
    simp only [List.mem_append, not_or]; exact ⟨Str.str_nz _, Str.str_nz _⟩
  split
  · rename_i h
    rw [Str.str_append hz, List.take_of_length_le (by simp; omega)]
  · rw [Str.str_full (fun hm => hz (List.mem_of_mem_take hm))]

/-! ## Texts -/

theorem app_take (cap : Nat) (x e : Text) : app cap e (x.take cap) = (x ++ e).take cap := by
  unfold app
  rw [List.take_append, List.take_append, List.take_take, List.length_take, min_self]
  congr 1
  by_cases h : cap ≤ x.length
  · rw [min_eq_left h, Nat.sub_self, Nat.sub_eq_zero_of_le h]
  · rw [min_eq_right (by omega)]

theorem appends_take : ∀ (ts : List Text) (x : Text), appends (x.take 4096) ts = (x ++ ts.flatten).take 4096
  | [], x => by simp [appends]
  | t :: ts, x => by rw [appends, app_take, appends_take ts]; simp

theorem appends_small (x : Text) (ts : List Text) (h : x.length ≤ 4096) : appends x ts = (x ++ ts.flatten).take 4096 := by
  rw [← appends_take, List.take_of_length_le h]

/-! ## Words -/

theorem lex_space : ∀ (t : Text) (q : Bool) (cur : Option Text) (r : Text), open_ q t = false →
    lex q cur (t ++ ' ' :: r) = lex q cur t ++ lex false none r
  | [], q, cur, r, h => by
    have h : q = false := h
    subst h
    cases cur <;> simp [lex]
  | c :: t, q, cur, r, h => by
    rw [open_] at h
    rw [List.cons_append, lex.eq_3, lex.eq_3]
    by_cases h1 : c = '"'
    · rw [if_pos h1] at h
      rw [if_pos h1, if_pos h1, lex_space t _ _ _ h]
    · rw [if_neg h1] at h
      rw [if_neg h1, if_neg h1]
      split
      · rw [lex_space t _ _ _ h, List.append_assoc]
      · rw [lex_space t _ _ _ h]

theorem words_space {t : Text} (h : Closed t) (r : Text) : words (t ++ ' ' :: r) = words t ++ words r := lex_space t _ _ r h

theorem words_blank (r : Text) : words (' ' :: r) = words r := words_space (t := []) rfl r

theorem open_none : ∀ (t : Text) (q : Bool), '"' ∉ t → open_ q t = q
  | [], _, _ => rfl
  | c :: t, q, h => by
    rw [List.mem_cons, not_or] at h
    rw [open_, if_neg (Ne.symm h.1), open_none t q h.2]

theorem open_append : ∀ (t u : Text) (q : Bool), open_ q (t ++ u) = open_ (open_ q t) u
  | [], _, _ => rfl
  | c :: t, u, q => by rw [List.cons_append, open_, open_, open_append t u]

theorem lex_plain : ∀ (p : Text) (w r : Text), ' ' ∉ p → '"' ∉ p → lex false (some w) (p ++ r) = lex false (some (w ++ p)) r
  | [], w, r, _, _ => by simp
  | c :: p, w, r, h1, h2 => by
    rw [List.mem_cons, not_or] at h1 h2
    rw [List.cons_append, lex.eq_3, if_neg (Ne.symm h2.1), if_neg (fun h => h1.1 h.1.symm), lex_plain p _ r h1.2 h2.2]
    simp

theorem lex_quoted : ∀ (x : Text) (w r : Text), '"' ∉ x → lex true (some w) (x ++ '"' :: r) = lex false (some (w ++ x)) r
  | [], w, r, _ => by rw [List.nil_append, lex.eq_3, if_pos rfl]; simp
  | c :: x, w, r, h => by
    rw [List.mem_cons, not_or] at h
    rw [List.cons_append, lex.eq_3, if_neg (Ne.symm h.1), if_neg (by simp), lex_quoted x _ r h.2]
    simp

theorem lex_first {p : Text} (hp : Plain p) (r : Text) : lex false none (p ++ r) = lex false (some p) r := by
  obtain ⟨h0, h1, h2⟩ := hp
  cases p with
  | nil => exact absurd rfl h0
  | cons c p =>
    rw [List.mem_cons, not_or] at h1 h2
    rw [List.cons_append, lex.eq_3, if_neg (Ne.symm h2.1), if_neg (fun h => h1.1 h.1.symm), Option.getD_none, List.nil_append, lex_plain p _ r h1.2 h2.2]
    rfl

theorem words_plain {p : Text} (hp : Plain p) : words p = [p] := by
  have := lex_first hp []
  rw [List.append_nil] at this
  exact this

theorem words_quoted {x : Text} (hx : '"' ∉ x) : words ('"' :: (x ++ ['"'])) = [x] := by
  unfold words
  rw [lex.eq_3, if_pos rfl]
  have := lex_quoted x [] [] hx
  rw [List.nil_append] at this
  exact this

theorem words_mixed {p x : Text} (hp : Plain p) (hx : '"' ∉ x) : words (p ++ '"' :: (x ++ ['"'])) = [p ++ x] := by
  unfold words
  rw [lex_first hp, lex.eq_3, if_pos rfl]
  exact lex_quoted x p [] hx

theorem closed_none {t : Text} (h : '"' ∉ t) : Closed t := open_none t false h

theorem closed_append {t u : Text} (h1 : Closed t) (h2 : Closed u) : Closed (t ++ u) := by
  unfold Closed at *; rw [open_append, h1, h2]

theorem closed_quoted {x : Text} (h : '"' ∉ x) : Closed ('"' :: (x ++ ['"'])) := by
  unfold Closed; rw [open_, if_pos rfl, open_append, open_none x _ h]; rfl

theorem Plain.append {p q : Text} (hp : Plain p) (hq : ' ' ∉ q ∧ '"' ∉ q) : Plain (p ++ q) := by
  obtain ⟨h0, h1, h2⟩ := hp
  refine ⟨by simp [h0], by simp [h1, hq.1], by simp [h2, hq.2]⟩

/-- The object files as they are in the command. -/
def joined : List Text → Text
  | [] => []
  | o :: os => ' ' :: (o ++ joined os)

theorem joined_append : ∀ (a b : List Text), joined (a ++ b) = joined a ++ joined b
  | [], _ => rfl
  | x :: a, b => by simp [joined, joined_append a b]

theorem joined_length : ∀ (os : List Text), (joined os).length = (os.map fun o => o.length + 1).sum
  | [] => rfl
  | o :: os => by simp [joined, joined_length os]; omega

theorem words_joined : ∀ (os : List Text), (∀ o ∈ os, Plain o) → words (joined os) = os
  | [], _ => rfl
  | [o], h => by
    rw [joined, joined, words_blank, List.append_nil, words_plain (h o (by simp))]
  | o :: o' :: os, h => by
    have ih := words_joined (o' :: os) (fun x hx => h x (by simp [hx]))
    rw [joined, words_blank]
    rw [joined, words_blank] at ih
    rw [joined, words_space (closed_none (h o (by simp)).2.2), words_plain (h o (by simp)), ih]
    rfl

theorem joined_no_quote : ∀ (os : List Text), (∀ o ∈ os, Plain o) → '"' ∉ joined os
  | [], _ => by simp [joined]
  | o :: os, h => by
    have ih := joined_no_quote os (fun x hx => h x (by simp [hx]))
    have := (h o (by simp)).2.2
    simp [joined, ih, this]

/-! ## Links -/

theorem mem_inLinks : ∀ (ns links : List Text) (n : Text), n ∈ inLinks links ns ↔ n ∈ links ∨ n ∈ ns
  | [], links, n => by simp [inLinks]
  | x :: ns, links, n => by
    rw [inLinks, mem_inLinks ns]
    by_cases h : x ∈ links
    · rw [if_pos h, List.mem_cons]
      constructor
      · rintro (h | h)
        · exact Or.inl h
        · exact Or.inr (Or.inr h)
      · rintro (h' | rfl | h')
        · exact Or.inl h'
        · exact Or.inl h
        · exact Or.inr h'
    · rw [if_neg h, List.mem_cons, List.mem_cons]
      constructor
      · rintro ((h | h) | h)
        · exact Or.inr (Or.inl h)
        · exact Or.inl h
        · exact Or.inr (Or.inr h)
      · rintro (h' | h' | h')
        · exact Or.inl (Or.inr h')
        · exact Or.inl (Or.inl h')
        · exact Or.inr h'

theorem nodup_inLinks : ∀ (ns links : List Text), links.Nodup → (inLinks links ns).Nodup
  | [], _, h => h
  | x :: ns, links, h => by
    rw [inLinks]
    apply nodup_inLinks
    split
    · exact h
    · rename_i hx; exact List.nodup_cons.mpr ⟨hx, h⟩

theorem makeFileName_some {n e fn : Text} (h : makeFileName n e = some fn) : fn = n ++ e ∧ n.length + e.length + 1 ≤ 32 := by
  unfold makeFileName at h
  split at h
  · injection h with h; exact ⟨h.symm, by assumption⟩
  · cases h

theorem imports_some {lib : Text → Option (List Text)} {d : Disk} : ∀ (is links r : List Text), imports lib d links is = some r →
    (∀ n, n ∈ r ↔ n ∈ links ∨ ∃ i ∈ is, ∃ l, look lib d (i ++ sfExt) = some l ∧ n ∈ l) ∧ (links.Nodup → r.Nodup) ∧ ∀ i ∈ is, ∃ l, look lib d (i ++ sfExt) = some l
  | [], links, r, h => by
    rw [imports] at h; injection h with h; subst h
    exact ⟨fun n => by simp, fun h => h, fun i hi => by simp at hi⟩
  | i :: is, links, r, h => by
    rw [imports, Option.bind_eq_some_iff] at h
    obtain ⟨fn, hfn, h⟩ := h
    obtain ⟨rfl, -⟩ := makeFileName_some hfn
    rw [Option.bind_eq_some_iff] at h
    obtain ⟨l, hl, h⟩ := h
    obtain ⟨h1, h2, h3⟩ := imports_some is _ r h
    refine ⟨fun n => ?_, fun hn => h2 (nodup_inLinks _ _ hn), fun k hk => ?_⟩
    · rw [h1, mem_inLinks]
      constructor
      · rintro ((h | h) | ⟨k, hk, l', hl', hn⟩)
        · exact Or.inl h
        · exact Or.inr ⟨i, by simp, l, hl, h⟩
        · exact Or.inr ⟨k, by simp [hk], l', hl', hn⟩
      · rintro (h | ⟨k, hk, l', hl', hn⟩)
        · exact Or.inl (Or.inl h)
        · rcases List.mem_cons.mp hk with rfl | hk
          · rw [hl] at hl'; injection hl' with hl'; subst hl'; exact Or.inl (Or.inr hn)
          · exact Or.inr ⟨k, hk, l', hl', hn⟩
    · rcases List.mem_cons.mp hk with rfl | hk
      · exact ⟨l, hl⟩
      · exact h3 k hk

theorem sym_inj {a b : Text} : a ++ sfExt = b ++ sfExt ↔ a = b := List.append_left_inj _

theorem last_mod : ∀ {h : List Job} {m : Text} {t : Nat} {j : Job}, last h m = some (t, j) → j.mod = m ∧ j ∈ h ∧ t < h.length
  | [], _, _, _, h => by simp [last] at h
  | k :: h, m, t, j, e => by
    rw [last] at e
    split at e
    · injection e with e; injection e with e1 e2; subst e1 e2
      exact ⟨by assumption, by simp, by simp⟩
    · obtain ⟨h1, h2, h3⟩ := last_mod e
      exact ⟨h1, by simp [h2], by simp; omega⟩

theorem last_none {m : Text} : ∀ {h : List Job}, last h m = none → ∀ k ∈ h, k.mod ≠ m
  | [], _ => by simp
  | k :: h, e => by
    rw [last] at e
    split at e
    · cases e
    · intro x hx
      rcases List.mem_cons.mp hx with rfl | hx
      · assumption
      · exact last_none e x hx

theorem last_none_of {m : Text} {h : List Job} (hk : ∀ k ∈ h, k.mod ≠ m) : last h m = none := by
  cases e : last h m with
  | none => rfl
  | some p => obtain ⟨t, j⟩ := p; obtain ⟨h1, h2, -⟩ := last_mod e; exact absurd h1 (hk j h2)

/-- The history, with the last compilation first. -/
def runR (cfg : Config) (lib : Text → Option (List Text)) : List Job → Option Disk
  | [] => some empty
  | j :: h => (runR cfg lib h).bind fun d => compile cfg lib d j

theorem run_snoc (cfg : Config) (lib : Text → Option (List Text)) : ∀ (js : List Job) (d : Disk) (j : Job),
    run cfg lib d (js ++ [j]) = (run cfg lib d js).bind fun d => compile cfg lib d j
  | [], d, j => by simp [run]
  | k :: js, d, j => by
    rw [List.cons_append, run, run]
    cases compile cfg lib d k with
    | none => rfl
    | some d => exact run_snoc cfg lib js d j

theorem run_reverse (cfg : Config) (lib : Text → Option (List Text)) : ∀ (h : List Job), run cfg lib empty h.reverse = runR cfg lib h
  | [] => rfl
  | j :: h => by rw [List.reverse_cons, run_snoc, run_reverse cfg lib h, runR]

/-- The symbol files and object files after a history. -/
structure Inv (cfg : Config) (lib : Text → Option (List Text)) (h : List Job) (d : Disk) : Prop where
  only : ∀ fn l, d.sym fn = some l → ∃ m t j, fn = m ++ sfExt ∧ last h m = some (t, j)
  have_ : ∀ m t j, last h m = some (t, j) → (∃ l, d.sym (m ++ sfExt) = some l) ∧ d.obj (m ++ cfg.objext) = true ∧ m.length ≤ 27
  more : ∀ m t j l, last h m = some (t, j) → d.sym (m ++ sfExt) = some l →
    (j.force = true ∨ j.changed = true ∨ ∀ k ∈ h.drop (h.length - t), k.mod ≠ m) →
    m ∈ l ∧ ∀ i ∈ j.imps, ∀ t' j', last h i = some (t', j') → t' < t → ∃ li, d.sym (i ++ sfExt) = some li ∧ ∀ n ∈ li, n ∈ l
  less : ∀ m t j l n, last h m = some (t, j) → d.sym (m ++ sfExt) = some l →
    (j.force = true ∨ ∀ k ∈ h.drop (h.length - t), k.mod ≠ m) → n ∈ l →
    n = m ∨ ∃ i ∈ j.imps, (∃ li, lib (i ++ sfExt) = some li ∧ n ∈ li) ∨
      ∃ t' j', last h i = some (t', j') ∧ (t' < t → ∃ li, d.sym (i ++ sfExt) = some li ∧ n ∈ li)

theorem look_sym {lib : Text → Option (List Text)} {d : Disk} {fn : Text} {l : List Text} (h : d.sym fn = some l) : look lib d fn = some l := by
  unfold look; rw [h]

theorem inv_step {cfg : Config} {lib : Text → Option (List Text)} {h : List Job} {d d' : Disk} {e : Job} (hi : Inv cfg lib h d)
    (hl : lib (e.mod ++ sfExt) = none) (hc : compile cfg lib d e = some d') : Inv cfg lib (e :: h) d' := by
  unfold compile at hc
  rw [Option.bind_eq_some_iff] at hc
  obtain ⟨⟨links, present⟩, hcol, hc⟩ := hc
  dsimp only at hc
  rw [Option.bind_eq_some_iff] at hc
  obtain ⟨sf, hsf, hc⟩ := hc
  rw [Option.map_eq_some_iff] at hc
  obtain ⟨of', hof, rfl⟩ := hc
  obtain ⟨rfl, hlen⟩ := makeFileName_some hsf
  obtain ⟨rfl, -⟩ := makeFileName_some hof
  unfold collect at hcol
  rw [Option.bind_eq_some_iff] at hcol
  obtain ⟨ls, hls, hcol⟩ := hcol
  rw [hsf, Option.map_some] at hcol
  injection hcol with hcol
  obtain ⟨m1, -, m3⟩ := imports_some _ _ _ hls
  -- what is known of `links` and `present`
  have hlook : look lib d (e.mod ++ sfExt) = d.sym (e.mod ++ sfExt) := by
    unfold look; cases d.sym (e.mod ++ sfExt) <;> simp [hl]
  have hpres : present = true → ∃ l, d.sym (e.mod ++ sfExt) = some l ∧ e.force = false := by
    intro hp
    rw [hlook] at hcol
    by_cases hf : e.force = true
    · rw [if_pos hf] at hcol; injection hcol with _ h2; rw [hp] at h2; cases h2
    · rw [if_neg hf] at hcol
      cases hs : d.sym (e.mod ++ sfExt) with
      | none => rw [hs] at hcol; injection hcol with _ h2; rw [hp] at h2; cases h2
      | some l => exact ⟨l, rfl, by simpa using hf⟩
  have hsub : ∀ n ∈ ls, n ∈ links := by
    intro n hn
    split at hcol
    · injection hcol with h1 _; rw [← h1]; exact hn
    · split at hcol
      · injection hcol with h1 _; rw [← h1, mem_inLinks]; exact Or.inl hn
      · injection hcol with h1 _; rw [← h1]; exact hn
  have hclean : (e.force = true ∨ d.sym (e.mod ++ sfExt) = none) → links = ls ∧ present = false := by
    intro hq
    rw [hlook] at hcol
    by_cases hf : e.force = true
    · rw [if_pos hf] at hcol; injection hcol with h1 h2; exact ⟨h1.symm, h2.symm⟩
    · rw [if_neg hf] at hcol
      rcases hq with hq | hq
      · exact absurd hq hf
      · rw [hq] at hcol; injection hcol with h1 h2; exact ⟨h1.symm, h2.symm⟩
  have hother : ∀ m, m ≠ e.mod → (if !present || e.changed then upd d.sym (e.mod ++ sfExt) (some links) else d.sym) (m ++ sfExt) = d.sym (m ++ sfExt) := by
    intro m hm
    split
    · unfold upd; rw [if_neg (by rw [sym_inj]; exact hm)]
    · rfl
  have hlast : ∀ m, m ≠ e.mod → last (e :: h) m = last h m := by
    intro m hm; rw [last, if_neg (Ne.symm hm)]
  have hself : last (e :: h) e.mod = some (h.length, e) := by rw [last, if_pos rfl]
  have hdrop : ∀ m t j, last h m = some (t, j) → (e :: h).drop ((e :: h).length - t) = h.drop (h.length - t) := by
    intro m t j hm
    have := (last_mod hm).2.2
    rw [List.length_cons, show h.length + 1 - t = (h.length - t) + 1 by omega, List.drop_succ_cons]
  -- an import that was compiled here
  have hread : ∀ i ∈ e.imps, ∀ l, d.sym (i ++ sfExt) = some l → ∀ n ∈ l, n ∈ links := by
    intro i hi' l hl' n hn
    exact hsub n ((m1 n).2 (Or.inr ⟨i, hi', l, look_sym hl', hn⟩))
  refine ⟨?_, ?_, ?_, ?_⟩
  · intro fn l hfn
    dsimp only at hfn
    have : fn = e.mod ++ sfExt ∨ d.sym fn = some l := by
      split at hfn
      · unfold upd at hfn
        split at hfn
        · exact Or.inl (by assumption)
        · exact Or.inr hfn
      · exact Or.inr hfn
    rcases this with rfl | hd
    · exact ⟨e.mod, _, _, rfl, hself⟩
    · obtain ⟨m, t, j, h1, h2⟩ := hi.only fn l hd
      by_cases hm : m = e.mod
      · subst hm; exact ⟨e.mod, _, _, h1, hself⟩
      · exact ⟨m, t, j, h1, by rw [hlast m hm]; exact h2⟩
  · intro m t j hm
    by_cases he : m = e.mod
    · subst he
      refine ⟨?_, ?_, ?_⟩
      · dsimp only
        by_cases hp : present = true
        · obtain ⟨l, h1, -⟩ := hpres hp
          split
          · exact ⟨links, by unfold upd; rw [if_pos rfl]⟩
          · exact ⟨l, h1⟩
        · rw [if_pos (by simp [hp])]
          exact ⟨links, by unfold upd; rw [if_pos rfl]⟩
      · show upd d.obj (e.mod ++ cfg.objext) true _ = true
        unfold upd; rw [if_pos rfl]
      · have : sfExt.length = 4 := rfl
        omega
    · rw [hlast m he] at hm
      obtain ⟨h1, h2, h3⟩ := hi.have_ m t j hm
      refine ⟨by dsimp only; rw [hother m he]; exact h1, ?_, h3⟩
      show upd d.obj (e.mod ++ cfg.objext) true _ = true
      unfold upd; rw [if_neg (by rw [List.append_left_inj]; exact he)]; exact h2
  · intro m t j l hm hs hq
    by_cases he : m = e.mod
    · subst he
      rw [hself] at hm
      injection hm with hm
      injection hm with e1 e2
      subst e1 e2
      have hq : (!present || e.changed) = true := by
        rcases hq with hq | hq | hq
        · rw [(hclean (Or.inl hq)).2]; rfl
        · rw [hq, Bool.or_true]
        · rw [List.length_cons, show h.length + 1 - h.length = 1 by omega, List.drop_succ_cons, List.drop_zero] at hq
          have : d.sym (e.mod ++ sfExt) = none := by
            cases hs' : d.sym (e.mod ++ sfExt) with
            | none => rfl
            | some l' =>
              obtain ⟨m', t', j', h1, h2⟩ := hi.only _ _ hs'
              rw [sym_inj] at h1
              obtain ⟨h3, h4, -⟩ := last_mod h2
              exact absurd (h3.trans h1.symm) (hq j' h4)
          rw [(hclean (Or.inr this)).2]; rfl
      dsimp only at hs
      rw [if_pos hq] at hs
      have hs : some links = some l := by unfold upd at hs; rw [if_pos rfl] at hs; exact hs
      injection hs with hs
      subst hs
      refine ⟨hsub _ ((m1 _).2 (Or.inl (by simp))), ?_⟩
      intro i hi' t' j' hl' ht
      by_cases hie : i = e.mod
      · subst hie; rw [hself] at hl'; injection hl' with hl'; injection hl' with h1 _; omega
      · rw [hlast i hie] at hl'
        obtain ⟨⟨li, hli⟩, -, -⟩ := hi.have_ i t' j' hl'
        refine ⟨li, by dsimp only; rw [hother i hie]; exact hli, fun n hn => hread i hi' li hli n hn⟩
    · rw [hlast m he] at hm
      dsimp only at hs
      rw [hother m he] at hs
      rw [hdrop m t j hm] at hq
      obtain ⟨h1, h2⟩ := hi.more m t j l hm hs hq
      refine ⟨h1, ?_⟩
      intro i hi' t' j' hl' ht
      by_cases hie : i = e.mod
      · subst hie; rw [hself] at hl'; injection hl' with hl'; injection hl' with h3 _
        have := (last_mod hm).2.2
        omega
      · rw [hlast i hie] at hl'
        obtain ⟨li, h3, h4⟩ := h2 i hi' t' j' hl' ht
        exact ⟨li, by dsimp only; rw [hother i hie]; exact h3, h4⟩
  · intro m t j l n hm hs hq hn
    by_cases he : m = e.mod
    · subst he
      rw [hself] at hm
      injection hm with hm
      injection hm with e1 e2
      subst e1 e2
      have hq : e.force = true ∨ d.sym (e.mod ++ sfExt) = none := by
        rcases hq with hq | hq
        · exact Or.inl hq
        · right
          rw [List.length_cons, show h.length + 1 - h.length = 1 by omega, List.drop_succ_cons, List.drop_zero] at hq
          cases hs' : d.sym (e.mod ++ sfExt) with
          | none => rfl
          | some l' =>
            obtain ⟨m', t', j', h1, h2⟩ := hi.only _ _ hs'
            rw [sym_inj] at h1
            obtain ⟨h3, h4, -⟩ := last_mod h2
            exact absurd (h3.trans h1.symm) (hq j' h4)
      obtain ⟨rfl, rfl⟩ := hclean hq
      dsimp only at hs
      rw [if_pos (show (!false || e.changed) = true from rfl)] at hs
      have hs : some links = some l := by unfold upd at hs; rw [if_pos rfl] at hs; exact hs
      injection hs with hs
      subst hs
      rcases (m1 n).1 hn with hn | ⟨i, hi', li, hli, hn⟩
      · left; simpa using hn
      · right
        refine ⟨i, hi', ?_⟩
        unfold look at hli
        cases hsi : d.sym (i ++ sfExt) with
        | none => rw [hsi] at hli; exact Or.inl ⟨li, hli, hn⟩
        | some li' =>
          rw [hsi] at hli
          injection hli with hli
          subst hli
          right
          by_cases hie : i = e.mod
          · subst hie; exact ⟨_, _, hself, fun h => absurd h (lt_irrefl _)⟩
          · obtain ⟨m', t', j', h1, h2⟩ := hi.only _ _ hsi
            rw [sym_inj] at h1
            subst h1
            exact ⟨t', j', by rw [hlast i hie]; exact h2, fun _ => ⟨li', by dsimp only; rw [hother i hie]; exact hsi, hn⟩⟩
    · rw [hlast m he] at hm
      dsimp only at hs
      rw [hother m he] at hs
      rw [hdrop m t j hm] at hq
      rcases hi.less m t j l n hm hs hq hn with h1 | ⟨i, hi', h1 | ⟨t', j', h2, h3⟩⟩
      · exact Or.inl h1
      · exact Or.inr ⟨i, hi', Or.inl h1⟩
      · refine Or.inr ⟨i, hi', Or.inr ?_⟩
        by_cases hie : i = e.mod
        · subst hie
          refine ⟨_, _, hself, fun h => ?_⟩
          have := (last_mod hm).2.2
          omega
        · refine ⟨t', j', by rw [hlast i hie]; exact h2, fun ht => ?_⟩
          obtain ⟨li, h4, h5⟩ := h3 ht
          exact ⟨li, by dsimp only; rw [hother i hie]; exact h4, h5⟩

theorem inv_run {cfg : Config} {lib : Text → Option (List Text)} : ∀ (h : List Job) (d : Disk), (∀ j ∈ h, lib (j.mod ++ sfExt) = none) →
    runR cfg lib h = some d → Inv cfg lib h d
  | [], d, _, hr => by
    rw [runR] at hr; injection hr with hr; subst hr
    refine ⟨fun fn l h => by simp [empty] at h, fun m t j h => by simp [last] at h, fun m t j l h => by simp [last] at h, fun m t j l n h => by simp [last] at h⟩
  | e :: h, d, hl, hr => by
    rw [runR, Option.bind_eq_some_iff] at hr
    obtain ⟨d0, h0, hr⟩ := hr
    exact inv_step (inv_run h d0 (fun j hj => hl j (by simp [hj])) h0) (hl e (by simp)) hr

end Verif.Linking
