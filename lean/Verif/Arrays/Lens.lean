import Verif.Common
import Verif.Arrays.Model

/-! # Lengths -/
namespace Verif.Arrays

/-- The variables of the C program that hold the lengths of what the designator starts with hold them. -/
def Rooted (s : St) (E : Lens) : Desig → Prop
  | .own x t => ∀ i, i < t.opens → s.word (.len x i) = (E.own x)[i]?
  | .outer x t => ∀ i, i < t.opens → s.outer (.len x i) = (E.outer x)[i]?
  | .deref p t => ∀ i, i < t.opens → s.hdr p i = (E.deref p)[i]?
  | .other _ => True
  | .index d => Rooted s E d

theorem closed_ok {t : Ty} (h : t.closed) : t.Ok := by
  cases t <;> simp_all [Ty.Ok, Ty.closed]

theorem ok_base {t : Ty} (h : t.Ok) : t.base.Ok := by
  cases t with
  | arr n t => exact closed_ok h
  | dyn t => exact h
  | _ => exact h

theorem lens_describes {t : Ty} (h : t.closed) : Describes t t.lens := by
  induction t with
  | arr n t ih => exact ⟨rfl, ih h⟩
  | dyn t => exact h.elim
  | _ => trivial

theorem describes_tail {t : Ty} {ls : List Nat} (h : Describes t ls) (hn : ls ≠ []) : Describes t.base ls.tail := by
  cases ls with
  | nil => exact (hn rfl).elim
  | cons l ls =>
    cases t with
    | arr n t => exact h.2
    | dyn t => exact h
    | _ => exact h.elim

theorem desig_ok {E : Lens} {d : Desig} (h : d.Ok E) : d.typ.Ok ∧ Describes d.typ (d.lens E) := by
  induction d with
  | own x t => exact h
  | outer x t => exact h
  | deref x t => exact h
  | other t => exact ⟨closed_ok h, lens_describes h⟩
  | index d ih => exact ⟨ok_base (ih h.1).1, describes_tail (ih h.1).2 h.2⟩

theorem bases_base (d : Nat) (t : Ty) : (bases d t).base = bases (d + 1) t := by
  induction d generalizing t with
  | zero => rfl
  | succ d ih => exact ih t.base

theorem bases_ok {t : Ty} (h : t.Ok) (d : Nat) : (bases d t).Ok := by
  induction d generalizing t with
  | zero => exact h
  | succ d ih => exact ih (ok_base h)

theorem bases_describes {t : Ty} {ls : List Nat} (h : Describes t ls) {d : Nat} (hd : d ≤ ls.length) : Describes (bases d t) (ls.drop d) := by
  induction d generalizing t ls with
  | zero => exact h
  | succ d ih =>
    cases ls with
    | nil => simp at hd
    | cons l ls =>
      have := ih (describes_tail h (by simp)) (by simpa using hd)
      simpa [bases] using this

theorem bases_cases {t : Ty} {ls : List Nat} (h : Describes t ls) {d : Nat} (hd : d < ls.length) :
    (∃ u, bases d t = .dyn u) ∨ (∃ u, bases d t = .arr ls[d] u) := by
  have := bases_describes h (d := d) (by omega)
  rw [List.drop_eq_getElem_cons hd] at this
  cases hb : bases d t with
  | dyn u => exact Or.inl ⟨u, rfl⟩
  | arr n u => rw [hb] at this; exact Or.inr ⟨u, by rw [this.1]⟩
  | _ => rw [hb] at this; exact this.elim

theorem closed_bases {t : Ty} (h : t.closed) (d : Nat) : (bases d t).closed := by
  induction d generalizing t with
  | zero => exact h
  | succ d ih => exact ih (by cases t <;> first | exact h | exact h.elim)

theorem bases_opens {t u : Ty} (h : t.Ok) {d : Nat} (hb : bases d t = .dyn u) : d < t.opens := by
  induction d generalizing t with
  | zero => rw [show t = .dyn u from hb]; simp [Ty.opens]
  | succ d ih =>
    cases t with
    | dyn t => have := ih (t := t) h hb; simp only [Ty.opens]; omega
    | arr n t =>
      have hc := closed_bases (t := .arr n t) h (d + 1)
      rw [hb] at hc
      exact hc.elim
    | _ =>
      have hc := closed_bases h (d + 1)
      rw [hb] at hc
      exact hc.elim

theorem opcLen_root {s : St} {t : Ty} {ls : List Nat} (hk : t.Ok) (h : Describes t ls) {f : Nat → LenE}
    (hf : ∀ i, i < t.opens → (f i).eval s = ls[i]?) {dim : Nat} (hd : dim < ls.length) :
    ∃ e, opcLen (some f) t dim = some e ∧ e.eval s = ls[dim]? := by
  rcases bases_cases h hd with ⟨u, hu⟩ | ⟨u, hu⟩
  · exact ⟨f dim, by simp [opcLen, hu], hf dim (bases_opens hk hu)⟩
  · exact ⟨.num ls[dim], by simp [opcLen, hu], by simp [LenE.eval, hd]⟩

theorem opcLen_closed {s : St} {t : Ty} {ls : List Nat} (hk : t.closed) (h : Describes t ls) {dim : Nat} (hd : dim < ls.length)
    (f : Option (Nat → LenE)) : ∃ e, opcLen f t dim = some e ∧ e.eval s = ls[dim]? := by
  rcases bases_cases h hd with ⟨u, hu⟩ | ⟨u, hu⟩
  · have := closed_bases hk dim
    rw [hu] at this; exact this.elim
  · exact ⟨.num ls[dim], by simp [opcLen, hu], by simp [LenE.eval, hd]⟩

theorem lenText_eval {s : St} {E : Lens} {d : Desig} (h : d.Ok E) (hr : Rooted s E d) {dim : Nat} (hd : dim < (d.lens E).length) :
    ∃ e, lenText d dim = some e ∧ e.eval s = (d.lens E)[dim]? := by
  induction d generalizing dim with
  | own x t => exact opcLen_root h.1 h.2 (f := .own x) hr hd
  | outer x t => exact opcLen_root h.1 h.2 (f := .outer x) hr hd
  | other t => exact opcLen_closed h (lens_describes h) hd none
  | deref p t =>
    cases t with
    | dyn t =>
      simp only [lenText]
      rcases bases_cases h.2 hd with ⟨u, hu⟩ | ⟨u, hu⟩
      · exact ⟨.hdr p dim, by rw [hu], hr dim (bases_opens h.1 hu)⟩
      · exact ⟨.num _, by rw [hu], by simp only [LenE.eval]; rw [List.getElem?_eq_getElem hd]; rfl⟩
    | _ => exact opcLen_closed (s := s) h.1 h.2 hd none
  | index d ih =>
    have hl : dim + 1 < (d.lens E).length := by simp only [Desig.lens, List.length_tail] at hd; omega
    have he : (Desig.lens E (.index d))[dim]? = (d.lens E)[dim + 1]? := by simp [Desig.lens]
    rw [he]
    obtain ⟨e, h1, h2⟩ := ih h.1 hr hl
    have hok := desig_ok (d := .index d) h
    have hc := opcLen_closed (s := s) (t := d.typ.base) (ls := (d.lens E).tail) (dim := dim)
    simp only [Desig.typ, Desig.lens] at hok
    simp only [lenText]
    cases hb : d.typ.base with
    | dyn u => exact ⟨e, h1, h2⟩
    | _ =>
      rw [hb] at hok hc
      have := hc hok.1 hok.2 (by simpa [Desig.lens] using hd) none
      simpa using this

theorem size_bytes {t : Ty} {ls : List Nat} (hc : t.closed) (h : Describes t ls) : t.size = bytes t ls := by
  induction t generalizing ls with
  | arr n t ih =>
    cases ls with
    | nil => exact h.elim
    | cons l ls =>
      have := ih hc h.2
      simp only [Ty.size, this, bytes, List.prod_cons, Ty.elem, h.1, Nat.mul_assoc]
  | dyn t => exact hc.elim
  | simple i s => cases ls <;> simp_all [Describes, Ty.size, bytes, Ty.elem, Ty.unit]
  | record i s => cases ls <;> simp_all [Describes, Ty.size, bytes, Ty.elem, Ty.unit]
  | byte => cases ls <;> simp_all [Describes, Ty.size, bytes, Ty.elem, Ty.unit]

theorem drop_lt {α : Type} {l : List α} {n : Nat} {a : α} {r : List α} (h : l.drop n = a :: r) : n < l.length ∧ l[n]? = some a ∧ l.drop (n + 1) = r := by
  have h1 : n < l.length := by
    by_contra hc
    rw [List.drop_eq_nil_of_le (by omega)] at h; cases h
  rw [List.drop_eq_getElem_cons h1] at h
  injection h with h2 h3
  exact ⟨h1, by rw [List.getElem?_eq_getElem h1, h2], h3⟩

theorem byteLens_eval {s : St} {E : Lens} {d : Desig} (h : d.Ok E) (hr : Rooted s E d) : ∀ (a : Ty) (dim : Nat) (ls : List Nat),
    a.Ok → Describes a ls → (d.lens E).drop dim = ls →
    ∃ es z, byteLens a d dim = some (es, z) ∧ evalProd s es z = some (bytes a ls) := by
  intro a
  induction a with
  | dyn t ih =>
    intro dim ls hk hd hl
    cases ls with
    | nil => exact hd.elim
    | cons l ls =>
      obtain ⟨h1, h2, h3⟩ := drop_lt hl
      obtain ⟨e, g1, g2⟩ := lenText_eval h hr h1
      obtain ⟨es, z, k1, k2⟩ := ih (dim + 1) ls hk hd h3
      refine ⟨e :: es, z, by simp [byteLens, g1, k1], ?_⟩
      simp [evalProd, g2, h2, k2, bytes, Ty.elem, Nat.mul_assoc]
  | _ =>
    intro dim ls hk hd hl
    exact ⟨[], _, rfl, by rw [← size_bytes hk hd]; rfl⟩

theorem lenPars_eval {s : St} {E : Lens} {d : Desig} (h : d.Ok E) (hr : Rooted s E d) {v : Bool} {f a : Ty} (hc : Compatible v f a) :
    ∀ (dim : Nat) (ls : List Nat), f.Ok → a.Ok → Describes a ls → (d.lens E).drop dim = ls →
      ∃ ts, lenPars f a d dim = some ts ∧ evalAll s ts = some ((parLens f a ls).take f.opens) ∧
        ((parLens f a ls).take f.opens).length = f.opens := by
  have hbyte : ∀ (a : Ty) (dim : Nat) (ls : List Nat), a.Ok → Describes a ls → (d.lens E).drop dim = ls →
      ∃ ts, lenPars (.dyn .byte) a d dim = some ts ∧ evalAll s ts = some ((parLens (.dyn .byte) a ls).take (Ty.dyn .byte).opens) ∧
        ((parLens (.dyn .byte) a ls).take (Ty.dyn .byte).opens).length = (Ty.dyn .byte).opens := by
    intro a dim ls ha hd hl
    obtain ⟨es, z, k1, k2⟩ := byteLens_eval h hr a dim ls ha hd hl
    exact ⟨[.prod es z], by simp [lenPars, k1], by simp [evalAll, Text.eval, k2, parLens, Ty.opens], by simp [parLens, Ty.opens]⟩
  have hstep : ∀ (f t : Ty), f ≠ .byte →
      (∀ (dim : Nat) (ls : List Nat), Describes t ls → (d.lens E).drop dim = ls →
        ∃ ts, lenPars f t d dim = some ts ∧ evalAll s ts = some ((parLens f t ls).take f.opens) ∧
          ((parLens f t ls).take f.opens).length = f.opens) →
      ∀ (a : Ty), (a = .dyn t ∨ ∃ n, a = .arr n t) → ∀ (dim : Nat) (ls : List Nat), Describes a ls → (d.lens E).drop dim = ls →
        ∃ ts, lenPars (.dyn f) a d dim = some ts ∧ evalAll s ts = some ((parLens (.dyn f) a ls).take (Ty.dyn f).opens) ∧
          ((parLens (.dyn f) a ls).take (Ty.dyn f).opens).length = (Ty.dyn f).opens := by
    intro f t hf ih a ha dim ls hd hl
    cases ls with
    | nil => rcases ha with rfl | ⟨n, rfl⟩ <;> exact hd.elim
    | cons l ls =>
      obtain ⟨h1, h2, h3⟩ := drop_lt hl
      obtain ⟨e, g1, g2⟩ := lenText_eval h hr h1
      have hdt : Describes t ls := by rcases ha with rfl | ⟨n, rfl⟩; exacts [hd, hd.2]
      obtain ⟨ts, k1, k2, k3⟩ := ih (dim + 1) ls hdt h3
      have hb : a.base = t := by rcases ha with rfl | ⟨n, rfl⟩ <;> rfl
      have e1 : lenPars (.dyn f) a d dim = some (.len e :: ts) := by
        rw [lenPars]
        · rw [g1, hb, k1]; rfl
        · exact hf
      have e2 : parLens (.dyn f) a (l :: ls) = l :: parLens f t ls := by
        rcases ha with rfl | ⟨n, rfl⟩ <;> (rw [parLens]; exact hf)
      refine ⟨.len e :: ts, e1, ?_, ?_⟩
      · rw [e2]; simp [evalAll, Text.eval, g2, h2, k2, Ty.opens]
      · rw [e2]; simp only [Ty.opens, List.take_succ_cons, List.length_cons, k3]
  induction hc with
  | anything a hv => intro dim ls _ ha hd hl; exact hbyte a dim ls ha hd hl
  | @fixed f t n hc ih =>
    intro dim ls hf ha hd hl
    by_cases hfb : f = .byte
    · subst hfb; exact hbyte _ dim ls ha hd hl
    · exact hstep f t hfb (fun dim ls hd hl => ih dim ls hf (closed_ok ha) hd hl) _ (Or.inr ⟨n, rfl⟩) dim ls hd hl
  | @opened f t hc ih =>
    intro dim ls hf ha hd hl
    by_cases hfb : f = .byte
    · subst hfb; exact hbyte _ dim ls ha hd hl
    · exact hstep f t hfb (fun dim ls hd hl => ih dim ls hf ha hd hl) _ (Or.inl rfl) dim ls hd hl
  | same t =>
    induction t with
    | dyn t ih =>
      intro dim ls hf ha hd hl
      by_cases hfb : t = .byte
      · subst hfb; exact hbyte _ dim ls ha hd hl
      · exact hstep t t hfb (fun dim ls hd hl => ih dim ls hf ha hd hl) _ (Or.inl rfl) dim ls hd hl
    | _ => intro dim ls hf ha hd hl; exact ⟨[], rfl, by simp [evalAll, Ty.opens], by simp [Ty.opens]⟩

theorem bytes_byte (n : Nat) : bytes (.dyn .byte) [n] = n := by simp [bytes, Ty.elem, Ty.unit]

/-- For value parameters, the formal parameter has the size of the actual one. -/
theorem parLens_value {f a : Ty} (hc : Compatible false f a) : ∀ (ls : List Nat), Describes a ls →
    Describes f (parLens f a ls) ∧ bytes f (parLens f a ls) = bytes a ls := by
  have hstep : ∀ (f t : Ty), f ≠ .byte → (∀ ls, Describes t ls → Describes f (parLens f t ls) ∧ bytes f (parLens f t ls) = bytes t ls) →
      ∀ (a : Ty), (a = .dyn t ∨ ∃ n, a = .arr n t) → ∀ (ls : List Nat), Describes a ls →
        Describes (.dyn f) (parLens (.dyn f) a ls) ∧ bytes (.dyn f) (parLens (.dyn f) a ls) = bytes a ls := by
    intro f t hf ih a ha ls hd
    cases ls with
    | nil => rcases ha with rfl | ⟨n, rfl⟩ <;> exact hd.elim
    | cons l ls =>
      have hdt : Describes t ls := by rcases ha with rfl | ⟨n, rfl⟩; exacts [hd, hd.2]
      have e2 : parLens (.dyn f) a (l :: ls) = l :: parLens f t ls := by
        rcases ha with rfl | ⟨n, rfl⟩ <;> (rw [parLens]; exact hf)
      have he : a.elem = t.elem := by rcases ha with rfl | ⟨n, rfl⟩ <;> rfl
      obtain ⟨h1, h2⟩ := ih ls hdt
      rw [e2]
      refine ⟨h1, ?_⟩
      simp only [bytes, List.prod_cons, he, Ty.elem, Nat.mul_assoc] at h2 ⊢
      rw [h2]
  have hbyte : ∀ (a : Ty) (ls : List Nat),
      Describes (.dyn .byte) (parLens (.dyn .byte) a ls) ∧ bytes (.dyn .byte) (parLens (.dyn .byte) a ls) = bytes a ls :=
    fun a ls => ⟨trivial, by simp only [parLens]; exact bytes_byte _⟩
  induction hc with
  | anything a hv => cases hv
  | @fixed f t n hc ih =>
    by_cases hfb : f = .byte
    · subst hfb; exact fun ls _ => hbyte _ ls
    · exact hstep f t hfb ih _ (Or.inr ⟨n, rfl⟩)
  | @opened f t hc ih =>
    by_cases hfb : f = .byte
    · subst hfb; exact fun ls _ => hbyte _ ls
    · exact hstep f t hfb ih _ (Or.inl rfl)
  | same t =>
    induction t with
    | dyn t ih =>
      by_cases hfb : t = .byte
      · subst hfb; exact fun ls _ => hbyte _ ls
      · exact hstep t t hfb ih _ (Or.inl rfl)
    | _ => exact fun ls hd => ⟨hd, rfl⟩
end Verif.Arrays
