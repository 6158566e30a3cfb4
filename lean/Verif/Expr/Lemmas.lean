import Verif.Common
import Verif.Expr.Spec

namespace Verif.Expr

/-- With enough fuel. -/
def Ev {α : Type} (g : Nat → Option α) (r : α) : Prop := ∃ F, ∀ f, F ≤ f → g f = some r

theorem Ev.step {α : Type} {g : Nat → Option α} {r : α} (F : Nat) (h : ∀ f, F ≤ f → g (f + 1) = some r) : Ev g r :=
  ⟨F + 1, fun f hf => by
    obtain ⟨f', rfl⟩ : ∃ f', f = f' + 1 := ⟨f - 1, by omega⟩
    exact h f' (by omega)⟩

/-- A token that continues an expression of rank `k`. -/
def cont (k : Nat) : Tok → Bool
  | .lp | .lb | .dot | .arrow => true
  | .op o _ => match rank o with
    | some j => decide (k ≤ j)
    | none => false
  | _ => false

/-- The tokens do not continue an expression of rank `k`. -/
def Stop (k : Nat) : List Tok → Prop
  | [] => True
  | t :: _ => cont k t = false

/-- The first token. -/
def hd : List Tok → Tok
  | [] => .rp
  | t :: _ => t

/-- The last token. -/
def last : List Tok → Tok
  | [] => .rp
  | [t] => t
  | _ :: t :: r => last (t :: r)

/-- Tokens an expression begins with. -/
def startOk : Tok → Bool
  | .lp | .num _ | .lit _ | .id _ => true
  | .op o sp => !sp && match o with
    | .star | .amp | .minus | .tilde | .bang => true
    | _ => false
  | _ => false

/-- Tokens an expression ends with. -/
def endOk : Tok → Bool
  | .rp | .rb | .num _ | .lit _ | .id _ => true
  | _ => false

/-- Tokens after which any expression may follow. -/
def before : Tok → Bool
  | .lp | .lb | .comma | .rp => true
  | .op o sp => sp || match o with
    | .star | .tilde | .bang => true
    | _ => false
  | _ => false

/-- Tokens that may follow any expression. -/
def after : Tok → Bool
  | .lp | .rp | .lb | .rb | .comma | .arrow => true
  | .op _ sp => sp
  | _ => false

theorem glue_after {a b : Tok} (ha : endOk a = true) (hb : after b = true) : glue a b = false := by
  cases a <;> first | (cases ha; done) | skip
  all_goals cases b <;> first | (cases hb; done) | skip
  all_goals first
    | rfl
    | decide
    | (rename_i o sp; simp only [after] at hb; subst hb; cases o <;> decide)
    | (rename_i o sp; simp only [after] at hb; subst hb; cases o <;> rfl)

theorem glue_spaced (o : COp) (b : Tok) : glue (.op o true) b = false := by
  cases b <;> first | rfl | simp [glue, pun]

theorem start_op {o : COp} {sp : Bool} (h : startOk (.op o sp) = true) :
    sp = false ∧ (o = .star ∨ o = .amp ∨ o = .minus ∨ o = .tilde ∨ o = .bang) := by
  cases sp with
  | true => cases h
  | false => cases o <;> first | (cases h; done) | simp

theorem glue_before {a b : Tok} (ha : before a = true) (hb : startOk b = true) : glue a b = false := by
  have hop : ∀ {o : COp} {sp : Bool}, before (.op o sp) = true → sp = true ∨ sp = false ∧ (o = .star ∨ o = .tilde ∨ o = .bang) := by
    intro o sp h
    cases sp with
    | true => exact .inl rfl
    | false => cases o <;> first | (cases h; done) | simp
  cases b with
  | op o sp =>
    obtain ⟨rfl, hb2⟩ := start_op hb
    cases a with
    | op o' sp' =>
      rcases hop ha with rfl | ⟨rfl, h | h | h⟩
      · exact glue_spaced _ _
      all_goals rcases hb2 with h' | h' | h' | h' | h' <;> subst h h' <;> decide
    | lp => rcases hb2 with h' | h' | h' | h' | h' <;> subst h' <;> decide
    | rp => rcases hb2 with h' | h' | h' | h' | h' <;> subst h' <;> decide
    | lb => rcases hb2 with h' | h' | h' | h' | h' <;> subst h' <;> decide
    | comma => rcases hb2 with h' | h' | h' | h' | h' <;> subst h' <;> decide
    | _ => cases ha
  | lp =>
    cases a with
    | op o' sp' =>
      rcases hop ha with rfl | ⟨rfl, h | h | h⟩
      · exact glue_spaced _ _
      all_goals subst h; decide
    | _ => first | (cases ha; done) | decide
  | num n => cases a <;> first | (cases ha; done) | rfl
  | lit n => cases a <;> first | (cases ha; done) | rfl
  | id n => cases a <;> first | (cases ha; done) | rfl
  | _ => cases hb

theorem glue_minus {b : Tok} (hb : startOk b = true) (h : b ≠ .op .minus false) : glue (.op .minus false) b = false := by
  cases b <;> first | (cases hb; done) | skip
  all_goals first
    | rfl
    | decide
    | (rename_i o sp; cases sp <;> cases o <;> first | (cases hb; done) | exact absurd rfl h | decide)

theorem glue_amp {b : Tok} (hb : startOk b = true) (h : b ≠ .op .amp false) : glue (.op .amp false) b = false := by
  cases b <;> first | (cases hb; done) | skip
  all_goals first
    | rfl
    | decide
    | (rename_i o sp; cases sp <;> cases o <;> first | (cases hb; done) | exact absurd rfl h | decide)

theorem apart_append {a b : List Tok} (ha : a ≠ []) (hb : b ≠ []) (h1 : Apart a) (h2 : Apart b) (h : glue (last a) (hd b) = false) :
    Apart (a ++ b) := by
  induction a with
  | nil => exact absurd rfl ha
  | cons x a ih =>
    cases a with
    | nil =>
      cases b with
      | nil => exact absurd rfl hb
      | cons y b => exact ⟨h, h2⟩
    | cons y a => exact ⟨h1.1, ih (by simp) h1.2 h⟩

theorem last_append {a b : List Tok} (hb : b ≠ []) : last (a ++ b) = last b := by
  induction a with
  | nil => rfl
  | cons x a ih =>
    rw [← ih]
    cases h : a ++ b with
    | nil => simp at h; exact absurd h.2 hb
    | cons y r => rw [List.cons_append, h]; rfl

theorem hd_append {a b : List Tok} (ha : a ≠ []) : hd (a ++ b) = hd a := by
  cases a with
  | nil => exact absurd rfl ha
  | cons x a => rfl

/-- A text that begins and ends like an expression, and whose tokens do not run together. -/
structure Hd (ts : List Tok) : Prop where
  ne : ts ≠ []
  start : startOk (hd ts) = true
  fin : endOk (last ts) = true
  apart : Apart ts

/-- An expression followed by a token and an expression. -/
theorem Hd.mid {a b : List Tok} {t : Tok} (ha : Hd a) (hb : Hd b) (h1 : after t = true) (h2 : before t = true) : Hd (a ++ t :: b) := by
  have hb' : Apart (t :: b) := apart_append (a := [t]) (by simp) hb.ne trivial hb.apart (glue_before h2 hb.start)
  refine ⟨by simp, by rw [hd_append ha.ne]; exact ha.start, ?_, apart_append ha.ne (by simp) ha.apart hb' (glue_after ha.fin h1)⟩
  rw [last_append (by simp), show t :: b = [t] ++ b from rfl, last_append hb.ne]; exact hb.fin

/-- An expression followed by tokens. -/
theorem Hd.then {a b : List Tok} (ha : Hd a) (hb : b ≠ []) (h1 : glue (last a) (hd b) = false) (h2 : Apart b) (h3 : endOk (last b) = true) :
    Hd (a ++ b) :=
  ⟨by simp [hb], by rw [hd_append ha.ne]; exact ha.start, by rw [last_append hb]; exact h3, apart_append ha.ne hb ha.apart h2 h1⟩

/-- Tokens followed by an expression. -/
theorem Hd.from {a b : List Tok} (ha : Hd a) (hb : b ≠ []) (h1 : glue (last b) (hd a) = false) (h2 : Apart b) (h3 : startOk (hd b) = true) :
    Hd (b ++ a) :=
  ⟨by simp [hb], by rw [hd_append hb]; exact h3, by rw [last_append ha.ne]; exact ha.fin, apart_append hb ha.ne h2 ha.apart h1⟩

theorem Hd.brackets {a : List Tok} (ha : Hd a) : Hd (.lp :: a ++ [.rp]) :=
  (ha.from (b := [.lp]) (by simp) (glue_before rfl ha.start) trivial rfl).then (by simp)
    (glue_after (by
      show endOk (last ([.lp] ++ a)) = true
      rw [last_append ha.ne]; exact ha.fin) rfl) trivial rfl

/-- The text is an expression of rank `k`. -/
def Good (k : Nat) (ts : List Tok) (e : CE) : Prop :=
  Hd ts ∧ ∀ rest, Stop k rest → Ev (fun f => level f k (ts ++ rest)) (e, rest)

/-- The text is a unary expression. -/
def Un (ts : List Tok) (e : CE) : Prop :=
  Hd ts ∧ ∀ rest, Stop 9 rest → Ev (fun f => unary f (ts ++ rest)) (e, rest)

/-- The text is a postfix expression. -/
def Post (ts : List Tok) (e : CE) : Prop :=
  Hd ts ∧ ∀ rest res, Ev (fun f => suffix f e rest) res → Ev (fun f => unary f (ts ++ rest)) res

/-- The text is a sequence of arguments. -/
def GI (ts : List Tok) (es : CEs) : Prop :=
  (ts ≠ [] ∧ (startOk (hd ts) = true ∨ ∃ t, hd ts = .ty t) ∧ endOk (last ts) = true ∧ Apart ts) ∧ ∀ rest, Ev (fun f => items f (ts ++ .rp :: rest)) (es, rest)

theorem Stop.mono {j k : Nat} {ts : List Tok} (h : Stop j ts) (hjk : j ≤ k) : Stop k ts := by
  cases ts with
  | nil => trivial
  | cons t r =>
    cases t <;> simp only [Stop, cont] at h ⊢ <;> try exact h
    rename_i o s
    cases hr : rank o with
    | none => rfl
    | some i => simp only [hr, decide_eq_false_iff_not] at h ⊢; omega

theorem suffix_stop (e : CE) {rest : List Tok} (h : Stop 9 rest) : Ev (fun f => suffix f e rest) (e, rest) := by
  refine Ev.step 0 fun f _ => ?_
  cases rest with
  | nil => rfl
  | cons t r => cases t <;> first | rfl | exact absurd h (by simp [Stop, cont])

theorem un_of_post {ts : List Tok} {e : CE} (h : Post ts e) : Un ts e :=
  ⟨h.1, fun rest hs => h.2 rest _ (suffix_stop e hs)⟩

theorem chain_stop {k : Nat} (e : CE) {rest : List Tok} (h : Stop k rest) : Ev (fun f => chain f k e rest) (e, rest) := by
  refine Ev.step 0 fun f _ => ?_
  cases rest with
  | nil => rfl
  | cons t r =>
    cases t with
    | op o s =>
      have : ¬ rank o = some k := by
        intro hr
        simp only [Stop, cont, hr, decide_eq_false_iff_not] at h
        omega
      simp only [chain, if_neg this]
    | _ => rfl

theorem good_nine {ts : List Tok} {e : CE} (h : Un ts e) : Good 9 ts e :=
  ⟨h.1, fun rest hs => by
    obtain ⟨F, hF⟩ := h.2 rest hs
    exact Ev.step F fun f hf => by simp only [level]; rw [if_pos (by omega)]; exact hF f hf⟩

theorem good_down {k : Nat} {ts : List Tok} {e : CE} (h : Good (k + 1) ts e) (hk : k < 9) : Good k ts e :=
  ⟨h.1, fun rest hs => by
    obtain ⟨F, hF⟩ := h.2 rest (hs.mono (by omega))
    obtain ⟨G, hG⟩ := chain_stop e hs
    refine Ev.step (max F G) fun f hf => ?_
    beta_reduce at hF hG
    simp only [level]
    rw [if_neg (by omega), hF f (by omega)]
    exact hG f (by omega)⟩

theorem good_le {j k : Nat} {ts : List Tok} {e : CE} (h : Good k ts e) (hjk : j ≤ k) (hk : k ≤ 9) : Good j ts e := by
  induction k with
  | zero => rw [Nat.le_zero.1 hjk]; exact h
  | succ k ih =>
    by_cases hj : j = k + 1
    · rw [hj]; exact h
    · exact ih (good_down h (by omega)) (by omega) (by omega)

theorem good_un {k : Nat} {ts : List Tok} {e : CE} (h : Un ts e) (hk : k ≤ 9) : Good k ts e := good_le (good_nine h) hk le_rfl

/-- An operand followed by an operator and another operand. -/
theorem good_op {q : Nat} {o : COp} {s : Bool} {a b : List Tok} {ea eb : CE} (ha : Good (q + 1) a ea)
    (hb : Good (q + 1) b eb) (hq : q < 9) (hr : rank o = some q)
    (hs : s = true ∨ glue (last a) (.op o s) = false ∧ glue (.op o s) (hd b) = false) : Good q (a ++ .op o s :: b) (.bin o ea eb) :=
  ⟨by
    rcases hs with rfl | ⟨h1, h2⟩
    · exact ha.1.mid hb.1 rfl rfl
    · have hb' : Apart (.op o s :: b) := apart_append (a := [.op o s]) (by simp) hb.1.ne trivial hb.1.apart h2
      refine ⟨by simp, by rw [hd_append ha.1.ne]; exact ha.1.start, ?_, apart_append ha.1.ne (by simp) ha.1.apart hb' h1⟩
      rw [last_append (by simp), show Tok.op o s :: b = [.op o s] ++ b from rfl, last_append hb.1.ne]; exact hb.1.fin, fun rest hs => by
    obtain ⟨F, hF⟩ := ha.2 (.op o s :: (b ++ rest)) (by simp [Stop, cont, hr])
    obtain ⟨G, hG⟩ := hb.2 rest (hs.mono (by omega))
    obtain ⟨H, hH⟩ := chain_stop (.bin o ea eb) hs
    refine Ev.step (F + G + H + 1) fun f hf => ?_
    beta_reduce at hF hG hH
    obtain ⟨f', rfl⟩ : ∃ f', f = f' + 1 := ⟨f - 1, by omega⟩
    rw [List.append_assoc, List.cons_append, level, if_neg (by omega), hF (f' + 1) (by omega)]
    simp only [Option.bind_some, chain]
    rw [if_pos hr, hG f' (by omega)]
    exact hH f' (by omega)⟩

theorem post_paren {ts : List Tok} {e : CE} (h : Good 0 ts e) : Post (.lp :: ts ++ [.rp]) e :=
  ⟨h.1.brackets, fun rest res hr => by
    obtain ⟨F, hF⟩ := h.2 (.rp :: rest) rfl
    obtain ⟨G, hG⟩ := hr
    refine Ev.step (max F G) fun f hf => ?_
    have h0 := h.1.start
    have h0' := h.1.ne
    have e1 : (Tok.lp :: ts ++ [Tok.rp]) ++ rest = Tok.lp :: (ts ++ .rp :: rest) := by simp
    rw [e1]
    have hf' := hF f (by omega)
    cases ts with
    | nil => exact absurd rfl h0'
    | cons t r =>
      cases t <;> first
        | (cases h0; done)
        | (simp only [List.cons_append] at hf' ⊢
           simp only [unary, hf', Option.bind_some]
           exact hG f (by omega))⟩

theorem un_op {o : COp} {ts : List Tok} {e : CE} (h : Un ts e) (ho : isUn o = true)
    (hg : glue (.op o false) (hd ts) = false) (hst : startOk (.op o false) = true) : Un (.op o false :: ts) (.un o e) :=
  ⟨h.1.from (b := [.op o false]) (by simp) hg trivial hst, fun rest hs => by
    obtain ⟨F, hF⟩ := h.2 rest hs
    refine Ev.step F fun f hf => ?_
    simp only [List.cons_append, unary, if_pos ho, hF f hf, Option.map_some]⟩

theorem un_op' {o : COp} {ts : List Tok} {e : CE} (h : Un ts e) (ho : isUn o = true) (hb : before (.op o false) = true)
    (hst : startOk (.op o false) = true) : Un (.op o false :: ts) (.un o e) :=
  un_op h ho (glue_before hb h.1.start) hst

theorem stars_replicate (n : Nat) (r : List Tok) :
    stars (List.replicate n (.op .star false) ++ .rp :: r) = (n, .rp :: r) := by
  induction n with
  | zero => rfl
  | succ n ih => simp [List.replicate_succ, stars, ih]

theorem cast_apart (t : String) (n : Nat) : Apart (castTok t n) ∧ last (castTok t n) = .rp := by
  have h : ∀ n, Apart (List.replicate n (.op .star false) ++ [.rp]) ∧ last (List.replicate n (Tok.op .star false) ++ [.rp]) = .rp := by
    intro n
    induction n with
    | zero => exact ⟨trivial, rfl⟩
    | succ n ih =>
      refine ⟨?_, last_append (by simp)⟩
      rw [List.replicate_succ, List.cons_append]
      cases n with
      | zero => exact ⟨rfl, trivial⟩
      | succ n => exact ⟨by decide, ih.1⟩
  refine ⟨⟨rfl, ?_⟩, ?_⟩
  · cases n with
    | zero => exact ⟨rfl, trivial⟩
    | succ n => exact ⟨rfl, (h (n + 1)).1⟩
  · exact (last_append (a := [.lp, .ty t]) (by simp)).trans (h n).2

theorem un_cast {t : String} {n : Nat} {ts : List Tok} {e : CE} (h : Un ts e) : Un (castTok t n ++ ts) (.cast t n e) :=
  ⟨h.1.from (by simp [castTok]) (by rw [(cast_apart t n).2]; exact glue_before rfl h.1.start) (cast_apart t n).1 rfl, fun rest hs => by
    obtain ⟨F, hF⟩ := h.2 rest hs
    refine Ev.step F fun f hf => ?_
    have e1 : (castTok t n ++ ts) ++ rest = .lp :: .ty t :: (List.replicate n (.op .star false) ++ .rp :: (ts ++ rest)) := by
      simp [castTok]
    rw [e1, unary]
    simp only [stars_replicate, hF f hf, Option.map_some]⟩

theorem post_id (s : String) : Post [.id s] (.id s) :=
  ⟨⟨by simp, rfl, rfl, trivial⟩, fun _ _ ⟨F, hF⟩ => Ev.step F fun f hf => hF f hf⟩

theorem post_num (n : Nat) : Post [.num n] (.num n) :=
  ⟨⟨by simp, rfl, rfl, trivial⟩, fun _ _ ⟨F, hF⟩ => Ev.step F fun f hf => hF f hf⟩

theorem post_lit (s : String) : Post [.lit s] (.lit s) :=
  ⟨⟨by simp, rfl, rfl, trivial⟩, fun _ _ ⟨F, hF⟩ => Ev.step F fun f hf => hF f hf⟩

theorem post_dot {ts : List Tok} {e : CE} (h : Post ts e) (hn : glue (last ts) .dot = false) (s : String) :
    Post (ts ++ [.dot, .id s]) (.dot e s) :=
  ⟨h.1.then (by simp) hn ⟨rfl, trivial⟩ rfl, fun rest res ⟨F, hF⟩ => by
    rw [List.append_assoc]
    exact h.2 _ _ (Ev.step F fun f hf => hF f hf)⟩

theorem post_arrow {ts : List Tok} {e : CE} (h : Post ts e) (s : String) : Post (ts ++ [.arrow, .id s]) (.arrow e s) :=
  ⟨h.1.then (by simp) (glue_after h.1.fin rfl) ⟨rfl, trivial⟩ rfl, fun rest res ⟨F, hF⟩ => by
    rw [List.append_assoc]
    exact h.2 _ _ (Ev.step F fun f hf => hF f hf)⟩

theorem post_idx {ts is : List Tok} {e i : CE} (h : Post ts e) (hi : Good 0 is i) :
    Post (ts ++ .lb :: is ++ [.rb]) (.idx e i) :=
  ⟨(h.1.mid hi.1 rfl rfl).then (by simp) (glue_after (h.1.mid hi.1 rfl rfl).fin rfl) trivial rfl, fun rest res ⟨F, hF⟩ => by
    have e1 : (ts ++ .lb :: is ++ [.rb]) ++ rest = ts ++ .lb :: (is ++ .rb :: rest) := by simp
    rw [e1]
    obtain ⟨G, hG⟩ := hi.2 (.rb :: rest) rfl
    refine h.2 _ _ (Ev.step (max F G) fun f hf => ?_)
    simp only [suffix, hG f (by omega), Option.bind_some]
    exact hF f (by omega)⟩

theorem post_call0 {ts : List Tok} {e : CE} (h : Post ts e) : Post (ts ++ [.lp, .rp]) (.call e .nil) :=
  ⟨h.1.then (by simp) (glue_after h.1.fin rfl) ⟨rfl, trivial⟩ rfl, fun rest res ⟨F, hF⟩ => by
    rw [List.append_assoc]
    exact h.2 _ _ (Ev.step F fun f hf => hF f hf)⟩

theorem post_call {ts as : List Tok} {e : CE} {es : CEs} (h : Post ts e) (ha : GI as es) :
    Post (ts ++ .lp :: as ++ [.rp]) (.call e es) :=
  ⟨by
    obtain ⟨⟨hne, hst, hend, hap⟩, -⟩ := ha
    have h1 : Apart (.lp :: as) := apart_append (a := [.lp]) (by simp) hne trivial hap (by
      rcases hst with hst | ⟨t, ht⟩
      · exact glue_before rfl hst
      · rw [ht]; rfl)
    have h2 : Hd (ts ++ .lp :: as) := h.1.then (by simp) (glue_after h.1.fin rfl) h1 (by
      rw [show Tok.lp :: as = [.lp] ++ as from rfl, last_append hne]; exact hend)
    exact h2.then (by simp) (glue_after h2.fin rfl) trivial rfl,
  fun rest res ⟨F, hF⟩ => by
    obtain ⟨⟨hne, hst, -, -⟩, ha⟩ := ha
    obtain ⟨t, r, rfl⟩ : ∃ t r, as = t :: r := by
      cases as with
      | nil => exact absurd rfl hne
      | cons t r => exact ⟨t, r, rfl⟩
    have ht : t ≠ .rp := by
      rintro rfl
      rcases hst with h | ⟨t, h⟩ <;> cases h
    have e1 : (ts ++ .lp :: (t :: r) ++ [.rp]) ++ rest = ts ++ .lp :: t :: (r ++ .rp :: rest) := by simp
    rw [e1]
    obtain ⟨G, hG⟩ := ha rest
    refine h.2 _ _ (Ev.step (max F G) fun f hf => ?_)
    have hg := hG f (by omega)
    simp only [List.cons_append] at hg
    cases t <;> first
      | exact absurd rfl ht
      | (simp only [suffix, hg, Option.bind_some]
         exact hF f (by omega))⟩

theorem items_hd {ts : List Tok} (h : Hd ts) (us : List Tok) (f : Nat) :
    items (f + 1) (ts ++ us) = (level f 0 (ts ++ us)).bind fun x => match x with
      | (e, .comma :: r) => (items f r).map fun x => (.cons e x.1, x.2)
      | (e, .rp :: r) => some (.cons e .nil, r)
      | _ => none := by
  have h0 := h.start
  have h1 := h.ne
  cases ts with
  | nil => exact absurd rfl h1
  | cons t r => cases t <;> first | (cases h0; done) | rfl

theorem gi_one {ts : List Tok} {e : CE} (h : Good 0 ts e) : GI ts (.cons e .nil) :=
  ⟨⟨h.1.ne, .inl h.1.start, h.1.fin, h.1.apart⟩, fun rest => by
    obtain ⟨F, hF⟩ := h.2 (.rp :: rest) rfl
    refine Ev.step F fun f hf => ?_
    beta_reduce at hF
    rw [items_hd h.1, hF f hf]; rfl⟩

theorem GI.comma {us : List Tok} {es : CEs} (hu : GI us es) : Apart (.comma :: us) ∧ endOk (last (.comma :: us)) = true := by
  obtain ⟨⟨hne, hst, hend, hap⟩, -⟩ := hu
  refine ⟨apart_append (a := [.comma]) (by simp) hne trivial hap ?_, ?_⟩
  · rcases hst with hst | ⟨t, ht⟩
    · exact glue_before rfl hst
    · rw [ht]; rfl
  · rw [show Tok.comma :: us = [.comma] ++ us from rfl, last_append hne]; exact hend

theorem gi_cons {ts us : List Tok} {e : CE} {es : CEs} (h : Good 0 ts e) (hu : GI us es) :
    GI (ts ++ .comma :: us) (.cons e es) :=
  ⟨by
    have := h.1.then (by simp) (glue_after h.1.fin rfl) hu.comma.1 hu.comma.2
    exact ⟨this.ne, .inl this.start, this.fin, this.apart⟩, fun rest => by
    obtain ⟨F, hF⟩ := h.2 (.comma :: (us ++ .rp :: rest)) rfl
    obtain ⟨G, hG⟩ := hu.2 rest
    refine Ev.step (max F G) fun f hf => ?_
    beta_reduce at hF hG
    have e1 : (ts ++ .comma :: us) ++ .rp :: rest = ts ++ .comma :: (us ++ .rp :: rest) := by simp
    rw [e1, items_hd h.1, hF f (by omega)]
    simp only [Option.bind_some, hG f (by omega), Option.map_some]⟩

theorem gi_ty {us : List Tok} {es : CEs} (t : String) (hu : GI us es) : GI (.ty t :: .comma :: us) (.ty t es) :=
  ⟨⟨by simp, .inr ⟨t, rfl⟩, hu.comma.2, rfl, hu.comma.1⟩, fun rest => by
    obtain ⟨G, hG⟩ := hu.2 rest
    refine Ev.step G fun f hf => ?_
    simp only [List.cons_append, items, hG f hf, Option.map_some]⟩

end Verif.Expr
