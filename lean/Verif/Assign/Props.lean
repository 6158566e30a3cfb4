import Verif.Common
import Verif.Assign.Lemmas

/-! # C72: assignments -/
namespace Verif.Assign
open Verif.Layout Verif.Layout.CSpec

/-- Types as the compiler knows them: alignments of 4 or 8, well-formed, with sizes that fit; equal numbers mean equal types. -/
structure Legal (al : Nat) (l : Lhs) (r : Rhs) : Prop where
  alignment : al = 4 ∨ al = 8
  wf : l.typ.lay.WF
  size : ∃ s a, layoutTyp al l.typ.lay = some (s, a)
  rwf : ∀ t a, r = .var t a → t.lay.WF ∧ ∃ s b, layoutTyp al t.lay = some (s, b)
  elems : ∀ n e t n' t' a, l.typ = .array n e t → r = .var (.array n' e t') a → t = t'
  chars : ∀ n t, l.typ = .array n 0 t → t = .basic 1
  recs : ∀ x y a, l.typ = .record x → r = .var (.record y) a → ∀ q ∈ y.up, q.id = x.id → q = x

/-- The variables on both sides do not overlap. -/
def Apart (al : Nat) (l : Lhs) (r : Rhs) : Prop :=
  ∀ t a, r = .var t a → ∀ s b s' b', layoutTyp al l.typ.lay = some (s, b) → layoutTyp al t.lay = some (s', b') →
    l.adr + s ≤ a ∨ a + s' ≤ l.adr

theorem layout_record {al : Nat} {r : Rec} {s a : Nat} (h : layoutTyp al (.record r) = some (s, a)) :
    ∃ ls l, layoutRec al r = some (ls, l) ∧ s = l.size := by
  simp only [layoutTyp, Option.bind_eq_bind, Option.bind_eq_some_iff, Prod.exists, Option.some.injEq, Prod.mk.injEq] at h
  obtain ⟨ls, l, h1, rfl, _⟩ := h
  exact ⟨ls, l, h1, rfl⟩

theorem overlap_false {a b n s : Nat} (h : b + s ≤ a ∨ a + n ≤ b) (hn : n ≤ s) : overlap a b n = false := by
  unfold overlap
  rw [Bool.and_eq_false_iff]
  simp only [decide_eq_false_iff_not]
  omega

theorem array_assign (al : Nat) (m : Mem) (adr n e : Nat) (t : Typ) (cls : Cls) (k : Nat) (t' : Typ) (a : Nat)
    (h : Legal al ⟨cls, .array n e t, adr⟩ (.var (.array k e t') a)) (hk : k ≤ n)
    (hap : Apart al ⟨cls, .array n e t, adr⟩ (.var (.array k e t') a)) (typchk : Bool) :
    ∃ st m', assign al typchk ⟨cls, .array n e t, adr⟩ (.var (.array k e t') a) = some st ∧ exec m st = .ok m' ∧
      Assigned al ⟨cls, .array n e t, adr⟩ (.var (.array k e t') a) m m' := by
  obtain rfl := h.elems n e t k t' a rfl rfl
  obtain ⟨s, al1, hs⟩ := h.size
  obtain ⟨hw, s', al2, hs'⟩ := h.rwf _ _ rfl
  obtain ⟨s0, a0, he, es⟩ := layout_array hs
  obtain ⟨s0', a0', he', es'⟩ := layout_array hs'
  rw [he] at he'
  simp only [Option.some.injEq, Prod.mk.injEq] at he'
  obtain ⟨rfl, rfl⟩ := he'
  obtain ⟨ss, hss, hin, _⟩ := C13_scalars al h.alignment t hw.2 s0 a0 he
  have hks : s' ≤ s := by rw [es, es']; exact Nat.mul_le_mul_right _ hk
  have hov := overlap_false (hap _ _ rfl _ _ _ _ hs hs') hks
  dsimp only at hov
  refine ⟨.move a adr s', write m adr (read m a s'), ?_, ?_, ?_⟩
  · have : checkAssign (.array n e t) (.var (.array k e t) a) = true := by simp [checkAssign, hk]
    have hz : sizeOf? al (Ty.array k e t).lay = some s' := by rw [sizeOf?, hs']; rfl
    simp only [assign, this, if_true, hz, Option.map_some]
  · simp [exec, hov]
  · have e1 : scalars al (.array k t) = some (comps s0 ss (List.range k)) := scalars_array hss he
    have e2 : scalars al (.array n t) =
        some (comps s0 ss (List.range k) ++ comps s0 ss ((List.range (n - k)).map (k + ·))) := by
      rw [scalars_array hss he, range_split hk]
      unfold comps
      rw [List.flatMap_append]
    refine ⟨_, _, s, al1, by rw [rhsValue, value, Ty.lay, e1]; rfl, by rw [value, Ty.lay, e2]; rfl, hs, ?_,
      only_write _ _ _ _ (by rw [read_length]; exact hks)⟩
    rw [value, Ty.lay, e2, Option.map_some, overlay_short]
    rw [es', value_copied m a adr (k * s0) _ _ (comps_lt fun x hx => (hin x hx).2.1) comps_ge]

theorem record_assign (al : Nat) (m : Mem) (adr : Nat) (x y : Rc) (cls : Cls) (a : Nat)
    (h : Legal al ⟨cls, .record x, adr⟩ (.var (.record y) a)) (hc : checkAssign (.record x) (.var (.record y) a) = true)
    (hap : Apart al ⟨cls, .record x, adr⟩ (.var (.record y) a) ∨ a = adr) (typchk : Bool)
    (hg : (guardOf typchk cls x).2 = x.id ∧ ∀ d, (guardOf typchk cls x).1 = some d → d.1 = d.2) :
    ∃ st m', assign al typchk ⟨cls, .record x, adr⟩ (.var (.record y) a) = some st ∧ exec m st = .ok m' ∧
      Assigned al ⟨cls, .record x, adr⟩ (.var (.record y) a) m m' := by
  have hup : x ∈ y.up := by
    simp only [checkAssign, List.any_eq_true, decide_eq_true_eq] at hc
    obtain ⟨q, hq, e⟩ := hc
    have := h.recs x y a rfl rfl q hq e
    rwa [this] at hq
  obtain ⟨s, al1, hs⟩ := h.size
  obtain ⟨hw, s', al2, hs'⟩ := h.rwf _ _ rfl
  obtain ⟨sx, hsx, hin, _⟩ := C13_scalars al h.alignment _ h.wf s al1 hs
  obtain ⟨sy, hsy, hiny, _⟩ := C13_scalars al h.alignment _ hw s' al2 hs'
  have hsx' : recScalars al x.lay = some sx := by simpa [Ty.lay, scalars] using hsx
  have hsy' : recScalars al y.lay = some sy := by simpa [Ty.lay, scalars] using hsy
  obtain ⟨sx', rest, e1, e2⟩ := up_scalars y x hup hsy'
  rw [hsx'] at e1
  obtain rfl := Option.some.inj e1
  have hov : ¬(overlap a adr s ∧ a ≠ adr) := by
    rintro ⟨h1, h2⟩
    rcases hap with hap | hap
    · have h3 := hap _ _ rfl _ _ _ _ hs hs'
      dsimp only at h3
      -- an extension is not smaller than the area of the base type that is copied
      unfold overlap at h1
      simp only [Bool.and_eq_true, decide_eq_true_eq] at h1
      obtain ⟨ls, ly, hy, rfl⟩ := layout_record hs'
      obtain ⟨lsx, lx, hx, hle⟩ := up_size h.alignment y x hup hw hy
      obtain ⟨ls', lx', hx', rfl⟩ := layout_record hs
      change layoutRec al x.lay = _ at hx'
      rw [hx] at hx'
      simp only [Option.some.injEq, Prod.mk.injEq] at hx'
      obtain ⟨rfl, rfl⟩ := hx'
      omega
    · exact h2 hap
  refine ⟨.struct (guardOf typchk cls x).1 (guardOf typchk cls x).2 x.id a adr s, write m adr (read m a s), ?_, ?_, ?_⟩
  · have hz : sizeOf? al (.record x.lay) = some s := by
      rw [sizeOf?]
      rw [show layoutTyp al (.record x.lay) = some (s, al1) from hs]; rfl
    simp only [assign, hc, if_true, hz, Option.map_some]
  · dsimp only [exec]
    rw [if_neg (by rw [hg.1]; simp)]
    rw [if_neg ?_, if_neg hov]
    cases hq : (guardOf typchk cls x).1 with
    | none => simp
    | some d => have := hg.2 d hq; simp [this]
  · refine ⟨_, _, s, al1, by rw [rhsValue, value, hsy]; rfl, by rw [value, hsx]; rfl, hs, ?_,
      only_write _ _ _ _ (by rw [read_length])⟩
    rw [value, hsx, Option.map_some, e2, overlay_long]
    have := value_copied m a adr s sx [] (fun x hx => (hin x hx).2.1) (by simp)
    rw [List.append_nil] at this
    dsimp only
    rw [this]
    simp

theorem comps_chars (n : Nat) : comps 1 [(0, 1)] (List.range n) = (List.range n).map fun i => (i, 1) := by
  unfold comps shift
  induction n with
  | zero => rfl
  | succ n ih => rw [List.range_succ, List.flatMap_append, ih, List.map_append]; simp

theorem read_one (m : Mem) (a : Nat) : read m a 1 = [m a] := by simp [read]

/-- Bytes stored into an array of characters. -/
theorem chars_write (m : Mem) (adr n : Nat) (bs : List Nat) (h : bs.length ≤ n) :
    ((List.range n).map fun i => (i, 1)).map (fun x : Nat × Nat => read (write m adr bs) (adr + x.1) x.2) =
      overlay (bs.map fun c => [c]) (((List.range n).map fun i => (i, 1)).map (fun x : Nat × Nat => read m (adr + x.1) x.2)) := by
  unfold overlay
  apply List.ext_getElem
  · simp; omega
  · intro i h1 h2
    simp only [List.map_map, List.length_map, List.length_range] at h1
    simp only [List.map_map, List.getElem_map, List.getElem_range, Function.comp_apply, read_one, List.getElem_append,
      List.length_take, List.length_map, List.length_range, List.getElem_take, List.getElem_drop]
    by_cases hi : i < bs.length
    · rw [dif_pos (by omega), write_in hi]; simp [hi]
    · rw [dif_neg (by omega), write_out (by omega), show bs.length + (i - min n bs.length) = i from by omega]

theorem string_assign (al : Nat) (m : Mem) (adr n : Nat) (t : Typ) (cls : Cls) (r : Rhs) (cs : List Nat) (hr : r.string = some cs)
    (hlen : cs.length + 1 ≤ n) (h : Legal al ⟨cls, .array n 0 t, adr⟩ r) (typchk : Bool) :
    ∃ st m', assign al typchk ⟨cls, .array n 0 t, adr⟩ r = some st ∧ exec m st = .ok m' ∧ Assigned al ⟨cls, .array n 0 t, adr⟩ r m m' := by
  obtain rfl := h.chars n t rfl
  obtain ⟨s, al1, hs⟩ := h.size
  obtain ⟨s0, a0, he, es⟩ := layout_array hs
  simp only [layoutTyp, Option.some.injEq, Prod.mk.injEq] at he
  obtain ⟨rfl, _⟩ := he
  have hss : scalars al (.basic 1) = some [(0, 1)] := rfl
  have e2 : scalars al (.array n (.basic 1)) = some ((List.range n).map fun i => (i, 1)) := by
    rw [scalars_array hss (by rw [layoutTyp])]
    rw [comps_chars]
  have hv : rhsValue al m r = some ((cs ++ [0]).map fun c => [c]) := by
    cases r with
    | str c => simp only [Rhs.string, Option.some.injEq] at hr; subst hr; rfl
    | chr c => simp only [Rhs.string, Option.some.injEq] at hr; subst hr; rfl
    | _ => simp [Rhs.string] at hr
  have hchk : checkAssign (.array n 0 (.basic 1)) r = true := by
    cases r with
    | str c => simp only [Rhs.string, Option.some.injEq] at hr; subst hr; simp [checkAssign, hlen]
    | chr c => simp only [Rhs.string, Option.some.injEq] at hr; subst hr; simp only [checkAssign, hlen]; rfl
    | _ => simp [Rhs.string] at hr
  have key : Assigned al ⟨cls, .array n 0 (.basic 1), adr⟩ r m (write m adr (cs ++ [0])) := by
    refine ⟨_, _, s, al1, hv, by rw [value, Ty.lay, e2]; rfl, hs, ?_, only_write _ _ _ _ (by simp; omega)⟩
    rw [value, Ty.lay, e2, Option.map_some, chars_write m adr n (cs ++ [0]) (by simpa using hlen)]
  have hnv : ∀ t a, r ≠ .var t a := by
    rintro t a rfl
    simp [Rhs.string] at hr
  have hst : assign al typchk ⟨cls, .array n 0 (.basic 1), adr⟩ r =
      (match r.string with
        | some [] => some (.store adr .char (.chr 0))
        | some cs => some (.moveStr (cs ++ [0]) adr (cs.length + 1))
        | none => none) := by
    unfold assign
    rw [if_pos hchk]
    cases r with
    | var t a => exact absurd rfl (hnv t a)
    | _ => rfl
  rw [hst, hr]
  cases cs with
  | nil => exact ⟨_, _, rfl, rfl, key⟩
  | cons c r' =>
    refine ⟨_, _, rfl, rfl, ?_⟩
    rw [List.take_of_length_le (by simp)]
    exact key

/-- The left side is not a VAR parameter with a type guard (see `C72_var_guard`), and not `p(T)^` with `T` a pointer to a record type without name
(see `C72_anonymous_guard`). -/
def Lhs.Good (l : Lhs) : Prop :=
  match l.cls, l.typ with
  | .guarded _ _, _ => False
  | .guardedPtr _ _, .record x => x.named = true
  | _, _ => True

/-- **C72**, arrays, strings and records.  For every assignment the compiler accepts, whatever the state of memory: the generated statement
gives the variable exactly the value of the right side and changes nothing else.  Of an extended record only the fields of the type of the variable are
copied, a shorter array or string leaves the elements behind it.  The variables on both sides must not overlap (for records they may be the
same; see `C72_self`), the variable must have its declared type when the program runs (see `C72_guard`), and must not be a VAR parameter with
a type guard (see `C72_var_guard`) or a guarded pointer to a record without name (see `C72_anonymous_guard`). -/
theorem C72_assign_partial (al : Nat) (l : Lhs) (r : Rhs) (m : Mem) (h : Legal al l r) (hs : ∀ b, l.typ ≠ .simple b)
    (hc : checkAssign l.typ r = true) (hcls : l.Good) (hd : ∀ x d, l.typ = .record x → l.dyn = some d → d = x.id)
    (hap : Apart al l r ∨ ∃ x t, l.typ = .record x ∧ r = .var t l.adr) :
    ∃ st m', assign al true l r = some st ∧ exec m st = .ok m' ∧ Assigned al l r m m' := by
  obtain ⟨cls, typ, adr⟩ := l
  dsimp only at *
  cases typ with
  | simple b => exact absurd rfl (hs b)
  | array n e t =>
    have hap : Apart al ⟨cls, .array n e t, adr⟩ r := by
      rcases hap with h | ⟨x, t', h, _⟩
      · exact h
      · simp at h
    cases r with
    | var t' a =>
      cases t' with
      | array k e' t' =>
        simp only [checkAssign, Bool.and_eq_true, decide_eq_true_eq] at hc
        obtain ⟨rfl, hk⟩ := hc
        exact array_assign al m adr n e t cls k t' a h hk hap true
      | _ => simp [checkAssign] at hc
    | str cs =>
      simp only [checkAssign, Bool.and_eq_true, decide_eq_true_eq] at hc
      obtain ⟨rfl, hk⟩ := hc
      exact string_assign al m adr n t cls _ cs rfl hk h true
    | chr c =>
      simp only [checkAssign, Bool.and_eq_true, decide_eq_true_eq] at hc
      obtain ⟨rfl, hk⟩ := hc
      exact string_assign al m adr n t cls _ _ rfl hk h true
    | _ => simp [checkAssign] at hc
  | record x =>
    cases r with
    | var t' a =>
      cases t' with
      | record y =>
        refine record_assign al m adr x y cls a h hc ?_ true ?_
        · rcases hap with h | ⟨x', t', _, h⟩
          · exact .inl h
          · simp only [Rhs.var.injEq] at h
            exact .inr h.2
        · have hd' := fun d => hd x d rfl
          have hn : ∀ d, (guardOf true cls x).1 = some d → d = (d.1, x.id) ∧ d.1 = x.id := by
            intro d hd
            cases cls <;> simp only [guardOf, Bool.true_and, reduceCtorEq] at hd
            case guarded => exact hcls.elim
            all_goals
              split at hd <;> simp only [Option.some.injEq, reduceCtorEq] at hd
              subst hd
              exact ⟨rfl, hd' _ rfl⟩
          refine ⟨?_, fun d h => ?_⟩
          · cases cls <;> simp only [guardOf]
            case guarded => exact hcls.elim
            case guardedPtr s d =>
              have hx : x.named = true := hcls
              simp [hx]
          · have := hn d h
            rw [this.1]; exact this.2
      | _ => simp [checkAssign] at hc
    | _ => simp [checkAssign] at hc

/-- **C72**, the check: an assignment to a VAR parameter or to `p^` whose type is named, but which has another type when the program runs, stops
the program with the trap 6 and changes nothing. -/
theorem C72_guard (al : Nat) (l : Lhs) (x : Rc) (r : Rhs) (m : Mem) (h : Legal al l r) (hx : l.typ = .record x) (hn : x.named = true)
    (hc : checkAssign l.typ r = true) (hcls : l.Good) (d : Nat) (hd : l.dyn = some d) (hne : d ≠ x.id) :
    ∃ st, assign al true l r = some st ∧ exec m st = .halt 6 := by
  obtain ⟨cls, typ, adr⟩ := l
  dsimp only at *
  subst hx
  obtain ⟨s, b, hs⟩ := h.size
  have hz : sizeOf? al (.record x.lay) = some s := by
    rw [sizeOf?]
    rw [show layoutTyp al (.record x.lay) = some (s, b) from hs]; rfl
  have hg : guardOf true cls x = (some (d, x.id), x.id) := by
    cases cls with
    | plain => simp [Lhs.dyn] at hd
    | guarded s d => exact hcls.elim
    | varpar d' => simp only [Lhs.dyn, Option.some.injEq] at hd; subst hd; simp [guardOf, hn]
    | deref d' => simp only [Lhs.dyn, Option.some.injEq] at hd; subst hd; simp [guardOf, hn]
    | guardedPtr s d' => simp only [Lhs.dyn, Option.some.injEq] at hd; subst hd; simp [guardOf, hn]
  cases r with
  | var t a =>
    refine ⟨.struct (some (d, x.id)) x.id x.id a adr s, ?_, ?_⟩
    · simp only [assign, hc, if_true, hz, Option.map_some, hg]
    · simp [exec, hne]
  | _ => simp [checkAssign] at hc

/-- Memory consists of bytes, and so do values; a value has the size of its type. -/
def Bytes (m : Mem) (r : Rhs) : Prop :=
  (∀ i, m i < 256) ∧ (∀ c, r = .chr c → c < 256) ∧ ∀ b bs, r = .val b bs → bs.length = b.size ∧ ∀ x ∈ bs, x < 256

theorem read_lt {m : Mem} (h : ∀ i, m i < 256) (a n : Nat) : ∀ x ∈ read m a n, x < 256 := by
  intro x hx
  unfold read at hx
  obtain ⟨i, _, rfl⟩ := List.mem_map.1 hx
  exact h _

theorem rhsBytes_spec {m : Mem} {t : Basic} {r : Rhs} (hm : Bytes m r) {y : Basic} (h : r.basic = some y) :
    ∃ bs, rhsBytes m t r = some (y, bs) ∧ bytesOf m r = some bs ∧ bs.length = y.size ∧ ∀ x ∈ bs, x < 256 := by
  obtain ⟨h1, h2, h3⟩ := hm
  cases r with
  | var t' a =>
    cases t' with
    | simple b =>
      simp only [Rhs.basic, Option.some.injEq] at h
      subst h
      exact ⟨_, rfl, rfl, read_length _ _ _, read_lt h1 _ _⟩
    | _ => simp [Rhs.basic] at h
  | chr c =>
    simp only [Rhs.basic, Option.some.injEq] at h
    subst h
    exact ⟨_, rfl, rfl, rfl, by simpa using h2 c rfl⟩
  | val b bs =>
    simp only [Rhs.basic, Option.some.injEq] at h
    subst h
    exact ⟨_, rfl, rfl, h3 _ _ rfl⟩
  | _ => simp [Rhs.basic] at h

/-- What `convert` stores. -/
theorem convert_spec {t y : Basic} {r : Rhs} {bs : List Nat} (hy : r.basic = some y) (hc : checkBasic t r = true) (hl : bs.length = y.size)
    (hb : ∀ x ∈ bs, x < 256) : (convert t y bs).length = t.size ∧ Same t (convert t y bs) bs := by
  cases t <;> cases y <;>
    simp only [checkBasic, hy, decide_eq_true_eq, reduceCtorEq, Bool.false_eq_true] at hc <;>
    first
    | exact ⟨hl, rfl⟩
    | skip
  · subst hc; exact ⟨hl, rfl⟩
  · rename_i s s'
    have hle : (256 : Nat) ^ s' ≤ 256 ^ s := Nat.pow_le_pow_right (by omega) hc
    have hr := intOf_range bs hb
    rw [show bs.length = s' from hl] at hr
    refine ⟨toBytes_length _ _, intOf_toBytes s _ (by omega) (by omega)⟩
  · rename_i s s'
    have hle : (256 : Nat) ^ s' ≤ 256 ^ s := Nat.pow_le_pow_right (by omega) hc
    have hr := natOf_lt bs hb
    rw [show bs.length = s' from hl] at hr
    refine ⟨toBytes_length _ _, ?_⟩
    show natOf (toBytes s (natOf bs)) = natOf bs
    rw [natOf_toBytes, Nat.mod_eq_of_lt (by omega)]

/-- **C72**, basic types: every accepted assignment to a variable of a basic type stores the value - the same integer or set when the variable is larger -
and changes no byte outside the variable. -/
theorem C72_simple (al : Nat) (typchk : Bool) (l : Lhs) (r : Rhs) (m : Mem) (b : Basic) (hb : l.typ = .simple b) (hm : Bytes m r)
    (hc : checkAssign l.typ r = true) :
    ∃ st m' bs, assign al typchk l r = some st ∧ exec m st = .ok m' ∧ bytesOf m r = some bs ∧ Same b (read m' l.adr b.size) bs ∧
      Only l.adr b.size m m' := by
  obtain ⟨cls, typ, adr⟩ := l
  dsimp only at *
  subst hb
  have hst : assign al typchk ⟨cls, .simple b, adr⟩ r = some (.store adr b r) := by
    simp only [assign, hc, if_true]
  have hcb : checkBasic b r = true := hc
  cases hy : r.basic with
  | some y =>
    obtain ⟨bs, h1, h2, h3, h4⟩ := rhsBytes_spec (t := b) hm hy
    obtain ⟨h5, h6⟩ := convert_spec hy hcb h3 h4
    refine ⟨_, write m adr (convert b y bs), bs, hst, by simp only [exec, h1], h2, ?_, only_write _ _ _ _ (by omega)⟩
    rw [← h5, read_write]
    exact h6
  | none =>
    have hnil : r = .nil ∧ b.size = 8 ∧ (∀ s, b ≠ .int s) ∧ ∀ s, b ≠ .set s := by
      cases b <;> simp only [checkBasic, hy, Bool.false_eq_true] at hcb
      all_goals
        cases r <;> simp only [Bool.false_eq_true] at hcb
        exact ⟨rfl, rfl, by simp, by simp⟩
    obtain ⟨rfl, h8, hi, hs⟩ := hnil
    have hcv : convert b b (List.replicate 8 0) = List.replicate 8 0 := by
      cases b <;> simp_all [convert]
    refine ⟨_, write m adr (List.replicate 8 0), _, hst, by simp only [exec, rhsBytes, hcv], rfl, ?_, only_write _ _ _ _ (by simp [h8])⟩
    have hrw := read_write m adr (List.replicate 8 0)
    rw [List.length_replicate] at hrw
    rw [h8, hrw]
    cases b <;> simp_all [Same]

/-- **C72**, INC and DEC: whenever the result fits the type of the variable, the variable gets it and nothing else changes. -/
theorem C72_inc (m : Mem) (minus : Bool) (dst s : Nat) (n : Int) (hs : s = 1 ∨ s = 2 ∨ s = 4 ∨ s = 8)
    (h1 : 2 * (intOf (read m dst s) + if minus then -n else n) < (256 ^ s : Nat))
    (h2 : -((256 ^ s : Nat) : Int) ≤ 2 * (intOf (read m dst s) + if minus then -n else n)) :
    ∃ m', execInc m minus dst s n = .ok m' ∧ intOf (read m' dst s) = intOf (read m dst s) + (if minus then -n else n) ∧ Only dst s m m' := by
  have e : (if minus then intOf (read m dst s) - n else intOf (read m dst s) + n) = intOf (read m dst s) + if minus then -n else n := by
    cases minus <;> simp [Int.sub_eq_add_neg]
  unfold execInc
  dsimp only
  rw [e]
  generalize intOf (read m dst s) + (if minus = true then -n else n) = r at *
  have hw : (256 : Nat) ^ s ≤ 256 ^ (if s ≤ 4 then 4 else 8) := by
    apply Nat.pow_le_pow_right (by omega)
    split <;> omega
  rw [if_pos (by omega)]
  refine ⟨_, rfl, ?_, only_write _ _ _ _ (by rw [toBytes_length])⟩
  have := read_write m dst (toBytes s (r % (256 ^ s : Nat)).toNat)
  rw [toBytes_length] at this
  rw [this, intOf_toBytes s r h1 h2]

theorem pow256 (s : Nat) : (256 : Nat) ^ s = 2 ^ (8 * s) := by rw [Nat.pow_mul]

/-- **C72**, INCL and EXCL: for every element that the set can have, exactly this element is included or excluded, and nothing else changes. -/
theorem C72_incl (m : Mem) (hm : ∀ i, m i < 256) (excl : Bool) (dst s i : Nat) (hi : i < 8 * s) :
    ∃ m', execIncl m excl dst s i = .ok m' ∧ Only dst s m m' ∧
      ∀ j, (natOf (read m' dst s)).testBit j = if j = i then !excl else (natOf (read m dst s)).testBit j := by
  have hv := natOf_lt (read m dst s) (read_lt hm dst s)
  rw [read_length, pow256] at hv
  unfold execIncl
  dsimp only
  rw [if_pos (by omega)]
  refine ⟨_, rfl, only_write _ _ _ _ (by rw [toBytes_length]), fun j => ?_⟩
  generalize natOf (read m dst s) = v at *
  have := read_write m dst (toBytes s (if excl = true then v &&& (256 ^ s - 1 - 2 ^ (i : Int).toNat) else v ||| 2 ^ (i : Int).toNat))
  rw [toBytes_length] at this
  rw [this, natOf_toBytes, pow256, Nat.testBit_mod_two_pow, Int.toNat_natCast]
  have hb : 2 ^ i < 2 ^ (8 * s) := Nat.pow_lt_pow_right (by omega) hi
  have hout : ∀ j, 8 * s ≤ j → v.testBit j = false := fun j hj =>
    Nat.testBit_lt_two_pow (Nat.lt_of_lt_of_le hv (Nat.pow_le_pow_right (by omega) hj))
  rw [show 2 ^ (8 * s) - 1 - 2 ^ i = 2 ^ (8 * s) - (2 ^ i + 1) from by omega]
  cases excl
  · simp only [Bool.false_eq_true, if_false, Nat.testBit_or, Nat.testBit_two_pow, Bool.not_false]
    by_cases hj : j = i
    · subst hj; simp [hi]
    · rw [if_neg hj]
      by_cases hj' : j < 8 * s
      · simp [hj', Ne.symm hj]
      · simp [hj', hout j (by omega)]
  · simp only [if_true, Nat.testBit_and, Nat.testBit_two_pow_sub_succ hb, Nat.testBit_two_pow, Bool.not_true]
    by_cases hj : j = i
    · subst hj; simp
    · rw [if_neg hj]
      by_cases hj' : j < 8 * s
      · simp [hj', Ne.symm hj]
      · simp [hj', hout j (by omega)]

/-- **C72**, SYSTEM.MOVE: areas that do not overlap are copied, and nothing else changes. -/
theorem C72_move (m : Mem) (src dst n : Nat) (h : src + n ≤ dst ∨ dst + n ≤ src) :
    ∃ m', execMove m src dst n = .ok m' ∧ read m' dst n = read m src n ∧ Only dst n m m' := by
  refine ⟨write m dst (read m src n), ?_, ?_, only_write _ _ _ _ (by rw [read_length])⟩
  · have : overlap src dst n = false := by
      unfold overlap
      rw [Bool.and_eq_false_iff]
      simp only [decide_eq_false_iff_not]
      omega
    simp [execMove, exec, this]
  · have := read_copied m src dst n 0 n (by omega)
    simpa using this

/-! ### The hypotheses can be met -/

/-- `RECORD x: LONGINT; c: CHAR END` and an extension `RECORD (B) d: CHAR; y: INTEGER END`. -/
def exB : Rc := .root 1 true false (.cons false 1 true (.basic 4) (.cons false 2 true (.basic 1) .nil))
def exT : Rc := .ext exB 2 true false (.cons false 2 true (.basic 1) (.cons false 3 true (.basic 2) .nil))

example : checkAssign (.record exB) (.var (.record exT) 64) = true ∧ checkAssign (.record exT) (.var (.record exB) 64) = false := by decide
/-- An extension fills the padding of its base type: both have 8 bytes, and `d` lies at 5. -/
theorem exB_size : layoutTyp 8 (.record exB.lay) = some (8, 4) := by decide +kernel
theorem exT_size : layoutTyp 8 (.record exT.lay) = some (8, 4) := by decide +kernel
example : scalars 8 (.record exT.lay) = some [(0, 4), (4, 1), (5, 1), (6, 2)] := by decide +kernel
/-- `b := t` is legal, and the variables lie apart. -/
theorem ex_legal (cls : Cls) : Legal 8 ⟨cls, .record exB, 0⟩ (.var (.record exT) 64) where
  alignment := .inr rfl
  wf := ⟨.inr (.inr (.inl rfl)), .inl rfl, trivial⟩
  size := ⟨8, 4, exB_size⟩
  rwf := by
    intro t a h
    simp only [Rhs.var.injEq] at h
    obtain ⟨rfl, _⟩ := h
    exact ⟨⟨⟨.inr (.inr (.inl rfl)), .inl rfl, trivial⟩, .inl rfl, .inr (.inl rfl), trivial⟩, 8, 4, exT_size⟩
  elems := by simp
  chars := by simp
  recs := by
    intro x y a hx hy q hq e
    simp only [Ty.record.injEq, Rhs.var.injEq] at hx hy
    obtain ⟨rfl, _⟩ := hy
    subst hx
    simp only [exT, Rc.up, exB, List.mem_cons, List.not_mem_nil, or_false] at hq
    rcases hq with rfl | rfl
    · simp [Rc.id, exB] at e
    · rfl
example : ∃ st m', assign 8 true ⟨.varpar 1, .record exB, 0⟩ (.var (.record exT) 64) = some st ∧ exec (fun i => i) st = .ok m' ∧
    Assigned 8 ⟨.varpar 1, .record exB, 0⟩ (.var (.record exT) 64) (fun i => i) m' :=
  C72_assign_partial 8 _ _ _ (ex_legal _) (by simp) (by decide) trivial
    (by intro x d hx hd; simp only [Ty.record.injEq, Lhs.dyn, Option.some.injEq] at hx hd; subst hx hd; rfl)
    (.inl (by
      intro t a h s b s' b' h1 h2
      simp only [Rhs.var.injEq] at h
      obtain ⟨rfl, rfl⟩ := h
      have e : some (8, 4) = some (s, b) := exB_size.symm.trans h1
      simp only [Option.some.injEq, Prod.mk.injEq] at e
      left; show 0 + s ≤ 64; omega))
/-- The same when the parameter is of type `T`: trap 6. -/
example : ∃ st, assign 8 true ⟨.varpar 2, .record exB, 0⟩ (.var (.record exT) 64) = some st ∧ exec (fun i => i) st = .halt 6 :=
  C72_guard 8 _ exB _ _ (ex_legal _) rfl rfl (by decide) trivial 2 rfl (by decide)
/-- Arrays of 3 and 5 characters, and a string. -/
example : checkAssign (.array 5 0 (.basic 1)) (.var (.array 3 0 (.basic 1)) 64) = true ∧
    checkAssign (.array 3 0 (.basic 1)) (.var (.array 5 0 (.basic 1)) 64) = false ∧
    checkAssign (.array 3 0 (.basic 1)) (.str [97, 98]) = true ∧ checkAssign (.array 3 0 (.basic 1)) (.str [97, 98, 99]) = false := by decide
example : overlay [[97], [98], [0]] [[1], [2], [3], [4], [5]] = [[97], [98], [0], [4], [5]] := by decide
example : checkBasic (.int 4) (.val (.int 2) [255, 255]) = true ∧ convert (.int 4) (.int 2) [255, 255] = [255, 255, 255, 255] ∧
    convert (.set 8) (.set 4) [1, 0, 0, 128] = [1, 0, 0, 128, 0, 0, 0, 0] := by decide

/-! ### Deviations -/

theorem struct_assign {al : Nat} {typchk : Bool} {cls : Cls} {x y : Rc} {adr a : Nat} (h : Legal al ⟨cls, .record x, adr⟩ (.var (.record y) a))
    (hc : checkAssign (.record x) (.var (.record y) a) = true) :
    ∃ s, assign al typchk ⟨cls, .record x, adr⟩ (.var (.record y) a) =
      some (.struct (guardOf typchk cls x).1 (guardOf typchk cls x).2 x.id a adr s) := by
  obtain ⟨s, b, hs⟩ := h.size
  have hz : sizeOf? al (.record x.lay) = some s := by
    rw [sizeOf?]
    rw [show layoutTyp al (.record x.lay) = some (s, b) from hs]; rfl
  exact ⟨s, by simp only [assign, hc, if_true, hz, Option.map_some]⟩

/-- `v(T) := y` where `v` is a VAR parameter of another type: accepted, but both the guard and the variable in the C text have the type before the guard;
the C text is not legal.  (The same assignment works with a WITH statement, where there is no guard.) -/
theorem C72_var_guard (al : Nat) (typchk : Bool) (x y s : Rc) (d adr a : Nat) (m : Mem)
    (h : Legal al ⟨.guarded s d, .record x, adr⟩ (.var (.record y) a)) (hc : checkAssign (.record x) (.var (.record y) a) = true)
    (hs : s.id ≠ x.id) :
    ∃ st, assign al typchk ⟨.guarded s d, .record x, adr⟩ (.var (.record y) a) = some st ∧ exec m st = .illegal := by
  obtain ⟨n, hn⟩ := struct_assign (typchk := typchk) h hc
  exact ⟨_, hn, by simp [exec, guardOf, hs]⟩

/-- `p(T)^ := y` where the record type that `T` points to has no name: accepted, the guard is dropped, and the C text is not legal. -/
theorem C72_anonymous_guard (al : Nat) (typchk : Bool) (x y s : Rc) (d adr a : Nat) (m : Mem) (hx : x.named = false)
    (h : Legal al ⟨.guardedPtr s d, .record x, adr⟩ (.var (.record y) a)) (hc : checkAssign (.record x) (.var (.record y) a) = true)
    (hs : s.id ≠ x.id) :
    ∃ st, assign al typchk ⟨.guardedPtr s d, .record x, adr⟩ (.var (.record y) a) = some st ∧ exec m st = .illegal := by
  obtain ⟨n, hn⟩ := struct_assign (typchk := typchk) h hc
  exact ⟨_, hn, by simp [exec, guardOf, hs, hx]⟩

/-- Without type checks (option `t`) `p(T)^ := y` is written without the guard and without the type `T`: the C text is not legal. -/
theorem C72_unchecked (al : Nat) (x y s : Rc) (d adr a : Nat) (m : Mem)
    (h : Legal al ⟨.guardedPtr s d, .record x, adr⟩ (.var (.record y) a)) (hc : checkAssign (.record x) (.var (.record y) a) = true)
    (hs : s.id ≠ x.id) :
    ∃ st, assign al false ⟨.guardedPtr s d, .record x, adr⟩ (.var (.record y) a) = some st ∧ exec m st = .illegal := by
  obtain ⟨n, hn⟩ := struct_assign (typchk := false) h hc
  exact ⟨_, hn, by simp [exec, guardOf, hs]⟩

/-- `a := a` for arrays (as in `a[i] := a[j]` with `i = j` for arrays of arrays) is `memcpy` of an area onto itself: undefined in C. -/
theorem C72_self (al : Nat) (typchk : Bool) (cls : Cls) (n e : Nat) (t : Typ) (adr s b : Nat) (m : Mem)
    (hs : layoutTyp al (.array n t) = some (s, b)) (h0 : 0 < s) :
    ∃ st, assign al typchk ⟨cls, .array n e t, adr⟩ (.var (.array n e t) adr) = some st ∧ exec m st = .undefined := by
  have hz : sizeOf? al (Ty.array n e t).lay = some s := by
    rw [sizeOf?]
    rw [show layoutTyp al (Ty.array n e t).lay = some (s, b) from hs]; rfl
  have hc : checkAssign (.array n e t) (.var (.array n e t) adr) = true := by simp [checkAssign]
  refine ⟨.move adr adr s, by simp only [assign, hc, if_true, hz, Option.map_some], ?_⟩
  have : overlap adr adr s = true := by unfold overlap; simp [h0]
  simp [exec, this]

/-- INC is not checked: a SHORTINT of 8 bits with the value 127 becomes -128 ... -/
theorem C72_inc_wraps (m : Mem) (dst : Nat) (h : read m dst 1 = [127]) :
    ∃ m', execInc m false dst 1 1 = .ok m' ∧ intOf (read m dst 1) = 127 ∧ intOf (read m' dst 1) = -128 := by
  unfold execInc
  dsimp only
  rw [h]
  refine ⟨write m dst [128], ?_, by decide +kernel, ?_⟩
  · rw [if_pos (by decide +kernel)]
    rw [show toBytes 1 ((if false = true then intOf [127] - 1 else intOf [127] + 1) % (256 ^ 1 : Nat)).toNat = [128] from by decide +kernel]
  have := read_write m dst [128]
  rw [show read (write m dst [128]) dst 1 = [128] from this]
  decide +kernel

/-- ... and for variables of 32 and 64 bits every overflow is undefined behaviour in C. -/
theorem C72_inc_overflow (m : Mem) (minus : Bool) (dst s : Nat) (n : Int) (hs : s = 4 ∨ s = 8)
    (h : ¬(2 * (intOf (read m dst s) + if minus then -n else n) < (256 ^ s : Nat) ∧
      -((256 ^ s : Nat) : Int) ≤ 2 * (intOf (read m dst s) + if minus then -n else n))) : execInc m minus dst s n = .undefined := by
  have e : (if minus then intOf (read m dst s) - n else intOf (read m dst s) + n) = intOf (read m dst s) + if minus then -n else n := by
    cases minus <;> simp [Int.sub_eq_add_neg]
  unfold execInc
  dsimp only
  rw [e]
  have hw : (if s ≤ 4 then 4 else 8) = s := by rcases hs with rfl | rfl <;> rfl
  rw [hw, if_neg h]

/-- INCL and EXCL do not check the element: one outside the set is undefined behaviour in C. -/
theorem C72_incl_undefined (m : Mem) (excl : Bool) (dst s : Nat) (i : Int) (h : ¬(0 ≤ i ∧ i < (8 * s : Nat))) :
    execIncl m excl dst s i = .undefined := by
  unfold execIncl
  rw [if_neg h]

/-- SYSTEM.MOVE of overlapping areas is undefined behaviour in C: it is `memcpy`. -/
theorem C72_move_overlap (m : Mem) (src dst n : Nat) (h : src < dst + n) (h' : dst < src + n) : execMove m src dst n = .undefined := by
  have : overlap src dst n = true := by unfold overlap; simp [h, h']
  simp [execMove, exec, this]

end Verif.Assign
