import Verif.Parse.Model
import Verif.Parse.Spec

/-! # Steps of the parser without errors -/
namespace Verif.Parse
open Verif.Scanner (Tok)

variable {α β : Type}

/-! ### Forwards -/

theorem bind_ok {p : P α} {g : α → P β} {i k : List T} {b : β} :
    (p >>= g) i = some (b, k, []) ↔ ∃ a j, p i = some (a, j, []) ∧ g a j = some (b, k, []) := by
  show P.bind p g i = _ ↔ _
  unfold P.bind
  constructor
  · intro h
    split at h
    · cases h
    · next a j e hp =>
      split at h
      · cases h
      · next b' k' e' hg =>
        simp only [Option.some.injEq, Prod.mk.injEq, List.append_eq_nil_iff] at h
        obtain ⟨rfl, rfl, rfl, rfl⟩ := h
        exact ⟨a, j, hp, hg⟩
  · rintro ⟨a, j, hp, hg⟩
    rw [hp]; simp only; rw [hg]; rfl

theorem pure_ok {i k : List T} {a b : α} : (pure a : P α) i = some (b, k, []) ↔ b = a ∧ k = i := by
  show some (a, i, []) = _ ↔ _
  simp [eq_comm]

theorem sy_ok {i k : List T} {n : Nat} : sy i = some (n, k, []) ↔ n = cur i ∧ k = i := by
  simp [sy, eq_comm]

theorem get_ok {i k : List T} {u : Unit} : get i = some (u, k, []) ↔ k = i.tail := by
  simp [get, eq_comm]

theorem err_ok {i k : List T} {u : Unit} {n : Nat} : ¬ err n i = some (u, k, []) := by
  simp [err]

theorem name_ok {i k : List T} {n : Name} : name i = some (n, k, []) ↔ n = curName i ∧ k = i := by
  simp [name, eq_comm]

theorem tok_ok {i k : List T} {t : Tok} : tok i = some (t, k, []) ↔ t = (i.head?.map (·.1)).getD .eof ∧ k = i := by
  simp [tok, eq_comm]

theorem ask_ok {i k : List T} {b : Bool} : ask i = some (b, k, []) ↔ b = (i.head?.map (·.2)).getD false ∧ k = i := by
  simp [ask, eq_comm]

theorem ite_run {c : Prop} [Decidable c] {p q : P α} {i : List T} : (if c then p else q) i = if c then p i else q i := by
  split <;> rfl

theorem stop_ok {i k : List T} {a : α} : ¬ (stop : P α) i = some (a, k, []) := by simp [stop]

theorem checkSym_ok {i k : List T} {u : Unit} {n : Nat} : checkSym n i = some (u, k, []) ↔ cur i = n ∧ k = i.tail := by
  simp only [checkSym, bind_ok, sy_ok]
  constructor
  · rintro ⟨a, j, ⟨rfl, rfl⟩, h⟩
    rw [ite_run] at h
    split at h
    · next hc => exact ⟨hc, get_ok.mp h⟩
    · exact absurd h err_ok
  · rintro ⟨hc, rfl⟩
    exact ⟨_, _, ⟨rfl, rfl⟩, by rw [ite_run, if_pos hc]; exact get_ok.mpr rfl⟩

theorem sync_ok {i k : List T} {u : Unit} {n e : Nat} : sync n e i = some (u, k, []) ↔ n ≤ cur i ∧ k = i := by
  simp only [sync, bind_ok, sy_ok]
  constructor
  · rintro ⟨a, j, ⟨rfl, rfl⟩, h⟩
    rw [ite_run] at h
    split at h
    · obtain ⟨_, _, h, _⟩ := bind_ok.mp h
      exact absurd h err_ok
    · next hc => exact ⟨by omega, (pure_ok.mp h).2⟩
  · rintro ⟨hc, rfl⟩
    exact ⟨_, _, ⟨rfl, rfl⟩, by rw [ite_run, if_neg (by omega)]; exact pure_ok.mpr ⟨rfl, rfl⟩⟩

theorem sameName_ok {i k : List T} {u : Unit} {x n : Name} : sameName x n i = some (u, k, []) ↔ x = n ∧ k = i := by
  unfold sameName
  rw [ite_run]
  split
  · next h => simp [pure_ok, h]
  · next h => simp [err_ok, h]

/-! Steps of a sequence. -/

theorem sy_b {g : Nat → P β} {i k : List T} {b : β} :
    (sy >>= g) i = some (b, k, []) ↔ g (cur i) i = some (b, k, []) := by
  rw [bind_ok]; simp only [sy_ok]
  exact ⟨by rintro ⟨_, _, ⟨rfl, rfl⟩, h⟩; exact h, fun h => ⟨_, _, ⟨rfl, rfl⟩, h⟩⟩

theorem get_b {g : Unit → P β} {i k : List T} {b : β} :
    (get >>= g) i = some (b, k, []) ↔ g () i.tail = some (b, k, []) := by
  rw [bind_ok]; simp only [get_ok]
  exact ⟨by rintro ⟨_, _, rfl, h⟩; exact h, fun h => ⟨_, _, rfl, h⟩⟩

theorem name_b {g : Name → P β} {i k : List T} {b : β} :
    (name >>= g) i = some (b, k, []) ↔ g (curName i) i = some (b, k, []) := by
  rw [bind_ok]; simp only [name_ok]
  exact ⟨by rintro ⟨_, _, ⟨rfl, rfl⟩, h⟩; exact h, fun h => ⟨_, _, ⟨rfl, rfl⟩, h⟩⟩

theorem tok_b {g : Tok → P β} {i k : List T} {b : β} :
    (tok >>= g) i = some (b, k, []) ↔ g ((i.head?.map (·.1)).getD .eof) i = some (b, k, []) := by
  rw [bind_ok]; simp only [tok_ok]
  exact ⟨by rintro ⟨_, _, ⟨rfl, rfl⟩, h⟩; exact h, fun h => ⟨_, _, ⟨rfl, rfl⟩, h⟩⟩

theorem ask_b {g : Bool → P β} {i k : List T} {b : β} :
    (ask >>= g) i = some (b, k, []) ↔ g ((i.head?.map (·.2)).getD false) i = some (b, k, []) := by
  rw [bind_ok]; simp only [ask_ok]
  exact ⟨by rintro ⟨_, _, ⟨rfl, rfl⟩, h⟩; exact h, fun h => ⟨_, _, ⟨rfl, rfl⟩, h⟩⟩

theorem checkSym_b {n : Nat} {g : Unit → P β} {i k : List T} {b : β} :
    (checkSym n >>= g) i = some (b, k, []) ↔ cur i = n ∧ g () i.tail = some (b, k, []) := by
  rw [bind_ok]; simp only [checkSym_ok]
  exact ⟨by rintro ⟨_, _, ⟨hc, rfl⟩, h⟩; exact ⟨hc, h⟩, fun h => ⟨_, _, ⟨h.1, rfl⟩, h.2⟩⟩

theorem sync_b {n e : Nat} {g : Unit → P β} {i k : List T} {b : β} :
    (sync n e >>= g) i = some (b, k, []) ↔ n ≤ cur i ∧ g () i = some (b, k, []) := by
  rw [bind_ok]; simp only [sync_ok]
  exact ⟨by rintro ⟨_, _, ⟨hc, rfl⟩, h⟩; exact ⟨hc, h⟩, fun h => ⟨_, _, ⟨h.1, rfl⟩, h.2⟩⟩

theorem sameName_b {x n : Name} {g : Unit → P β} {i k : List T} {b : β} :
    (sameName x n >>= g) i = some (b, k, []) ↔ x = n ∧ g () i = some (b, k, []) := by
  rw [bind_ok]; simp only [sameName_ok]
  exact ⟨by rintro ⟨_, _, ⟨hc, rfl⟩, h⟩; exact ⟨hc, h⟩, fun h => ⟨_, _, ⟨h.1, rfl⟩, h.2⟩⟩

theorem err_b {n : Nat} {g : Unit → P β} {i k : List T} {b : β} : (err n >>= g) i = some (b, k, []) ↔ False := by
  rw [bind_ok]
  exact ⟨by rintro ⟨_, _, h, _⟩; exact err_ok h, False.elim⟩

theorem pure_b {a : α} {g : α → P β} {i : List T} {r : Option (β × List T × List Nat)} :
    (pure a >>= g) i = r ↔ g a i = r := by
  show P.bind (P.pure a) g i = r ↔ _
  simp only [P.bind, P.pure]
  cases h : g a i with
  | none => simp
  | some x => obtain ⟨b, k, e⟩ := x; simp

theorem ite_b {c : Prop} [Decidable c] {p q : P α} {g : α → P β} {i : List T} :
    ((if c then p else q) >>= g) i = if c then (p >>= g) i else (q >>= g) i := by
  split <;> rfl

theorem bind_b {γ : Type} {p : P γ} {q : γ → P α} {g : α → P β} {i : List T} :
    ((p >>= q) >>= g) i = (p >>= fun x => q x >>= g) i := by
  show P.bind (P.bind p q) g i = P.bind p (fun x => P.bind (q x) g) i
  unfold P.bind
  cases p i with
  | none => rfl
  | some x =>
    obtain ⟨a, j, e⟩ := x
    simp only
    cases q a j with
    | none => rfl
    | some x =>
      obtain ⟨b, k, e'⟩ := x
      simp only
      cases g b k with
      | none => rfl
      | some x => obtain ⟨c, l, e''⟩ := x; simp

macro "stp" "at" h:ident : tactic => `(tactic|
  try simp only [sy_b, get_b, name_b, tok_b, ask_b, checkSym_b, sync_b, sameName_b, err_b, pure_b, ite_b, bind_b, ite_run, pure_ok,
    sameName_ok, checkSym_ok, get_ok] at $h:ident)

macro "spl" "at" h:ident : tactic => `(tactic| (split at $h:ident <;> stp at $h:ident))

/-! ### Symbols read -/

/-- The symbols `y` are read between `i` and `k`. -/
def Rd (y : List Y) (i k : List T) : Prop := ∃ pre, i = pre ++ k ∧ Fits y pre

theorem Rd.nil {i : List T} : Rd [] i i := ⟨[], rfl, .nil⟩

theorem Rd.app {a b : List Y} {i j k : List T} (h : Rd a i j) (h' : Rd b j k) : Rd (a ++ b) i k := by
  obtain ⟨p, rfl, hp⟩ := h
  obtain ⟨q, rfl, hq⟩ := h'
  exact ⟨p ++ q, by simp, List.rel_append hp hq⟩

theorem Rd.cons {y : Y} {b : List Y} {i j k : List T} (h : Rd [y] i j) (h' : Rd b j k) : Rd (y :: b) i k := h.app h'

theorem Rd.snoc {y : Y} {b : List Y} {i j k : List T} (h : Rd b i j) (h' : Rd [y] j k) : Rd (b ++ [y]) i k := h.app h'

theorem Rd.one {t : Tok} {b : Bool} {i : List T} {v : Option Bool} (h : ∀ w, v = some w → b = w) :
    Rd [(t, v)] ((t, b) :: i) i :=
  ⟨[(t, b)], rfl, .cons ⟨rfl, h⟩ .nil⟩

/-- A symbol that has no attributes. -/
def plainSym (n : Nat) : Prop := n ≠ 0 ∧ n ≠ 35 ∧ n ≠ 37 ∧ n ≠ 38 ∧ n ≠ 64

instance (n : Nat) : Decidable (plainSym n) := by unfold plainSym; infer_instance

theorem cur_sym {i : List T} {n : Nat} (hn : plainSym n) (h : cur i = n) : ∃ b j, i = (.sym n, b) :: j := by
  obtain ⟨h0, h1, h2, h3, h4⟩ := hn
  rcases i with _ | ⟨⟨t, b⟩, j⟩
  · simp only [cur, List.head?_nil, Option.map_none, Option.getD_none] at h; omega
  · simp only [cur, List.head?_cons, Option.map_some, Option.getD_some] at h
    cases t with
    | sym m =>
      simp only [code] at h
      split at h
      · omega
      · exact ⟨b, j, by rw [h]⟩
    | _ => simp only [code] at h; omega

theorem cur_ident {i : List T} (h : cur i = 38) : ∃ x b j, i = (.ident x, b) :: j := by
  rcases i with _ | ⟨⟨t, b⟩, j⟩
  · simp [cur] at h
  · simp only [cur, List.head?_cons, Option.map_some, Option.getD_some] at h
    cases t with
    | ident x => exact ⟨x, b, j, rfl⟩
    | sym m => simp only [code] at h; split at h <;> omega
    | _ => simp [code] at h

theorem cur_lit {i : List T} (h : cur i = 35 ∨ cur i = 37) : ∃ t b j, i = (t, b) :: j ∧ isLit t = true := by
  rcases i with _ | ⟨⟨t, b⟩, j⟩
  · simp [cur] at h
  · simp only [cur, List.head?_cons, Option.map_some, Option.getD_some] at h
    cases t with
    | sym m => simp only [code] at h; split at h <;> omega
    | ident _ => simp [code] at h
    | eof => simp [code] at h
    | _ => exact ⟨_, _, _, rfl, rfl⟩

theorem Rd.sym {i : List T} {n : Nat} (hn : plainSym n) (h : cur i = n) : Rd [sm n] i i.tail := by
  obtain ⟨b, j, rfl⟩ := cur_sym hn h
  exact Rd.one (fun _ h => by cases h)

theorem Rd.idn {i : List T} (h : cur i = 38) : Rd [idn (curName i)] i i.tail := by
  obtain ⟨x, b, j, rfl⟩ := cur_ident h
  exact Rd.one (fun _ h => by cases h)

theorem qualident_ok {i k : List T} {q : Qual} (hc : cur i = 38) (h : qualident i = some (q, k, [])) : Rd (yQual q) i k := by
  obtain ⟨x, b, j, rfl⟩ := cur_ident hc
  simp only [qualident, bind_ok, name_ok, ask_ok, get_ok] at h
  obtain ⟨a, j1, ⟨rfl, rfl⟩, m, j2, ⟨rfl, rfl⟩, _, j3, rfl, h⟩ := h
  rw [ite_run] at h
  split at h
  · next hb =>
    simp only [bind_ok, sy_ok] at h
    obtain ⟨_, _, ⟨rfl, rfl⟩, h⟩ := h
    rw [ite_run] at h
    split at h
    · next h18 =>
      simp only [bind_ok, sy_ok, get_ok] at h
      obtain ⟨_, _, rfl, _, _, ⟨rfl, rfl⟩, h⟩ := h
      rw [ite_run] at h
      split at h
      · next h38 =>
        simp only [bind_ok, name_ok, get_ok, pure_ok] at h
        obtain ⟨_, _, ⟨rfl, rfl⟩, _, _, rfl, rfl, rfl⟩ := h
        exact Rd.cons (Rd.one (fun w hw => by cases hw; exact hb)) (Rd.cons (Rd.sym (by decide) h18) (Rd.idn h38))
      · obtain ⟨_, _, h, _⟩ := bind_ok.mp h
        exact absurd h err_ok
    · obtain ⟨_, _, h, _⟩ := bind_ok.mp h
      exact absurd h err_ok
  · next hb =>
    obtain ⟨rfl, rfl⟩ := pure_ok.mp h
    exact Rd.one (fun w hw => by cases hw; simpa using hb)

theorem sep_cons {c : Y} {a : List Y} {l : List (List Y)} (h : l ≠ []) : sep c (a :: l) = a ++ c :: sep c l := by
  cases l with
  | nil => exact absurd rfl h
  | cons b r => rfl

theorem commas_ok {item : P α} {again : Nat → Bool} {y : α → List Y} {W : α → Prop}
    (hi : ∀ i a k, item i = some (a, k, []) → W a ∧ Rd (y a) i k) : ∀ (f : Nat) (i : List T) (as : List α) (k : List T),
    commas item again f i = some (as, k, []) → as ≠ [] ∧ (∀ a ∈ as, W a) ∧ Rd (sep (sm 19) (as.map y)) i k
  | 0, i, as, k, h => absurd h (by simp only [commas]; exact stop_ok)
  | f + 1, i, as, k, h => by
    simp only [commas, bind_ok, sy_ok] at h
    obtain ⟨a, j, ha, _, _, ⟨rfl, rfl⟩, h⟩ := h
    obtain ⟨hw, hr⟩ := hi _ _ _ ha
    rw [ite_run] at h
    split at h
    · next hc =>
      simp only [bind_ok, get_ok, pure_ok] at h
      obtain ⟨_, _, rfl, as', _, has, rfl, rfl⟩ := h
      obtain ⟨h1, h2, h3⟩ := commas_ok hi f _ _ _ has
      refine ⟨by simp, by simp only [List.mem_cons, forall_eq_or_imp]; exact ⟨hw, h2⟩, ?_⟩
      rw [List.map_cons, sep_cons (by simpa using h1)]
      exact hr.app (Rd.cons (Rd.sym (by decide) hc) h3)
    · rw [ite_run] at h
      split at h
      · obtain ⟨_, _, h, _⟩ := bind_ok.mp h
        exact absurd h err_ok
      · obtain ⟨rfl, rfl⟩ := pure_ok.mp h
        exact ⟨by simp, by simpa using hw, hr⟩

theorem yExs_map (es : List Ex) : yExs es = es.map yEx := by
  induction es with
  | nil => simp [yExs]
  | cons e es ih => simp [yExs, ih]

theorem yEls_map (es : List El) : yEls es = es.map yEl := by
  induction es with
  | nil => simp [yEls]
  | cons e es ih => simp [yEls, ih]

theorem okExs_all (es : List Ex) : okExs es ↔ ∀ e ∈ es, okEx e := by
  induction es with
  | nil => simp [okExs]
  | cons e es ih => simp [okExs, ih]

theorem okEls_all (es : List El) : okEls es ↔ ∀ e ∈ es, okEl e := by
  induction es with
  | nil => simp [okEls]
  | cons e es ih => simp [okEls, ih]

theorem lev_le (e : Ex) : lev e ≤ 3 := by
  cases e <;> simp only [lev] <;> (try split) <;> (try split) <;> omega

end Verif.Parse
