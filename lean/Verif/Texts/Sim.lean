import Verif.Texts.Readers

/-!
# The state of the module and the contents of texts
-/
namespace Verif.Texts

/-- Texts and buffers. -/
abbrev Key := Nat ⊕ Nat

/-- The sentinel. -/
def hdOf (s : St) : Key → Nat
  | .inl t => (s.txt t).head
  | .inr b => (s.buf b).head

/-- Assignment to one element. -/
def updK {α : Type} (f : Key → α) (k : Key) (x : α) : Key → α := fun j => if j = k then x else f j

theorem updK_same {α : Type} (f : Key → α) (k : Key) (x : α) : updK f k x k = x := if_pos rfl
theorem updK_ne {α : Type} {f : Key → α} {k j : Key} {x : α} (h : j ≠ k) : updK f k x j = f j := if_neg h

/-- Texts and buffers are rings of different runs. -/
structure Good (s : St) (fx : Nat → Bool) (R : Key → Option (List Nat)) : Prop where
  txt : ∀ t l, R (.inl t) = some l → TOk s.h s.files fx t (s.txt t) l ∧ (s.h.run (s.txt t).head).len = maxLen
  buf : ∀ b l, R (.inr b) = some l → BOk s.h s.files fx (s.buf b) l
  dis : ∀ j k l m, j ≠ k → R j = some l → R k = some m → ∀ c ∈ hdOf s j :: l, c ∉ hdOf s k :: m

/-- A writer: its buffer is open, its file is its own, and the last piece of the buffer ends where the file ends. -/
structure WrOk (s : St) (fx : Nat → Bool) (R : Key → Option (List Nat)) (own : Nat → Bool) (w b : Nat) (L : Look) : Prop where
  buf : (s.wr w).buf = b
  look : (s.wr w).look = L
  fnt : L.fnt ≠ none
  own : own b = true
  file : (s.wr w).file < s.nfile
  fx : fx (s.wr w).file = false
  last : ∃ m, R (.inr b) = some m ∧ LastOk s.h s.files (s.wr w).file m

/-- The state of the module and its abstraction. -/
structure Rel (s : St) (a : Abs) (fx : Nat → Bool) (R : Key → Option (List Nat)) : Prop where
  good : Good s fx R
  txt : ∀ t, a.txt t = (R (.inl t)).map (items s.h s.files)
  buf : ∀ b, a.buf b = (R (.inr b)).map (items s.h s.files)
  nbuf : s.nbuf = a.nbuf
  del : s.del = a.del
  fresh : ∀ b, s.nbuf ≤ b → R (.inr b) = none
  nofile : ∀ f, s.nfile ≤ f → s.files f = []
  fxok : ∀ f, fx f = true → noCRLF (s.files f) = true
  fxlt : ∀ f, fx f = true → f < s.nfile
  wr : ∀ w b L, a.wr w = some (b, L) → WrOk s fx R a.own w b L
  wdis : ∀ w w', w ≠ w' → a.wr w ≠ none → a.wr w' ≠ none → (s.wr w).buf ≠ (s.wr w').buf ∧ (s.wr w).file ≠ (s.wr w').file
  rd : ∀ r d, a.rd r = some d → ∃ l, R (.inl d.t) = some l ∧ RdOk s.h (s.txt d.t).head l (s.rd r) d

theorem Good.hd_lt {s : St} {fx : Nat → Bool} {R : Key → Option (List Nat)} (g : Good s fx R) {k : Key} {l : List Nat} (hk : R k = some l) :
    ∀ c ∈ hdOf s k :: l, c < s.h.free := by
  cases k with
  | inl t => exact (g.txt t l hk).1.ring.lt
  | inr b => exact (g.buf b l hk).ring.lt

theorem Good.ok {s : St} {fx : Nat → Bool} {R : Key → Option (List Nat)} (g : Good s fx R) {k : Key} {l : List Nat} (hk : R k = some l) :
    ∃ base, Ring s.h s.files fx base (hdOf s k) l := by
  cases k with
  | inl t => exact ⟨_, (g.txt t l hk).1.ring⟩
  | inr b => exact ⟨_, (g.buf b l hk).ring⟩

/-- What is not touched stays. -/
structure Frame (s s' : St) (fx fx' : Nat → Bool) (R R' : Key → Option (List Nat)) (S : List Nat) (P : Key → Prop) : Prop where
  agree : Agree s.h s'.h S
  grows : Grows s.files s'.files
  fx : ∀ f, fx f = true → fx' f = true
  keepT : ∀ t, ¬ P (.inl t) → R' (.inl t) = R (.inl t) ∧ s'.txt t = s.txt t
  keepB : ∀ b, ¬ P (.inr b) → R' (.inr b) = R (.inr b) ∧ s'.buf b = s.buf b
  sub : ∀ c ∈ S, ∃ k l, P k ∧ R k = some l ∧ c ∈ hdOf s k :: l

section
variable {s s' : St} {fx fx' : Nat → Bool} {R R' : Key → Option (List Nat)} {S : List Nat} {P : Key → Prop}

theorem Frame.keep (f : Frame s s' fx fx' R R' S P) {k : Key} (hk : ¬ P k) : R' k = R k ∧ hdOf s' k = hdOf s k := by
  cases k with
  | inl t => exact ⟨(f.keepT t hk).1, by show (s'.txt t).head = _; rw [(f.keepT t hk).2]; rfl⟩
  | inr b => exact ⟨(f.keepB b hk).1, by show (s'.buf b).head = _; rw [(f.keepB b hk).2]; rfl⟩

theorem Frame.notin (f : Frame s s' fx fx' R R' S P) (g : Good s fx R) {k : Key} {l : List Nat} (hk : ¬ P k) (hl : R k = some l) :
    ∀ c ∈ hdOf s k :: l, c ∉ S := by
  intro c h1 h2
  obtain ⟨j, m, h3, h4, h5⟩ := f.sub c h2
  exact g.dis k j l m (by rintro rfl; exact hk h3) hl h4 c h1 h5

theorem Frame.run (f : Frame s s' fx fx' R R' S P) (g : Good s fx R) {k : Key} {l : List Nat} (hk : ¬ P k) (hl : R k = some l) :
    ∀ c ∈ hdOf s k :: l, s'.h.run c = s.h.run c :=
  fun c hc => f.agree.run c (g.hd_lt hl c hc) (f.notin g hk hl c hc)

theorem Frame.items (f : Frame s s' fx fx' R R' S P) (g : Good s fx R) {k : Key} {l : List Nat} (hk : ¬ P k) (hl : R k = some l) :
    items s'.h s'.files l = items s.h s.files l := by
  obtain ⟨base, hr⟩ := g.ok hl
  rw [items_congr fun c hc => f.run g hk hl c (List.mem_cons_of_mem _ hc), items_grows hr.ok f.grows]

theorem Frame.good (f : Frame s s' fx fx' R R' S P) (g : Good s fx R)
    (ht : ∀ t l, P (.inl t) → R' (.inl t) = some l → TOk s'.h s'.files fx' t (s'.txt t) l ∧ (s'.h.run (s'.txt t).head).len = maxLen)
    (hb : ∀ b l, P (.inr b) → R' (.inr b) = some l → BOk s'.h s'.files fx' (s'.buf b) l)
    (hm : ∀ k l, P k → R' k = some l → ∀ c ∈ hdOf s' k :: l, s.h.free ≤ c ∨ ∃ j m, P j ∧ R j = some m ∧ c ∈ hdOf s j :: m)
    (hd : ∀ j k l m, P j → P k → j ≠ k → R' j = some l → R' k = some m → ∀ c ∈ hdOf s' j :: l, c ∉ hdOf s' k :: m) : Good s' fx' R' := by
  have ring : ∀ base hd l, Ring s.h s.files fx base hd l → (∀ c ∈ hd :: l, c ∉ S) → Ring s'.h s'.files fx' base hd l := fun base hd l h1 h2 =>
    (h1.keep f.agree h2).grows f.grows f.fx
  have old : ∀ k l, ¬ P k → R k = some l → ∀ c ∈ hdOf s k :: l, ∀ j m, P j → R' j = some m → c ∉ hdOf s' j :: m := by
    intro k l h1 h2 c h3 j m h4 h5 h6
    rcases hm j m h4 h5 c h6 with h7 | ⟨i, n, h7, h8, h9⟩
    · have := g.hd_lt h2 c h3; omega
    · exact g.dis k i l n (by rintro rfl; exact h1 h7) h2 h8 c h3 h9
  refine ⟨fun t l h => ?_, fun b l h => ?_, fun j k l m hjk h1 h2 c h3 h4 => ?_⟩
  · by_cases hp : P (.inl t)
    · exact ht t l hp h
    · obtain ⟨e1, e2⟩ := f.keepT t hp
      rw [e1] at h
      have hr := f.run g hp h
      obtain ⟨h1, h2⟩ := g.txt t l h
      rw [e2]
      refine ⟨⟨ring _ _ _ h1.ring (f.notin g hp h), h1.len.trans (sum_congr fun c hc => hr c (List.mem_cons_of_mem _ hc)).symm,
        h1.cache.congr fun c hc => hr c (List.mem_cons_of_mem _ hc)⟩, ?_⟩
      have h0 : s'.h.run (s.txt t).head = _ := hr _ (List.mem_cons_self ..)
      rw [h0]; exact h2
  · by_cases hp : P (.inr b)
    · exact hb b l hp h
    · obtain ⟨e1, e2⟩ := f.keepB b hp
      rw [e1] at h
      have hr := f.run g hp h
      have h1 := g.buf b l h
      rw [e2]
      exact ⟨ring _ _ _ h1.ring (f.notin g hp h), h1.len.trans (sum_congr fun c hc => hr c (List.mem_cons_of_mem _ hc)).symm⟩
  · by_cases hj : P j
    · by_cases hk : P k
      · exact hd j k l m hj hk hjk h1 h2 c h3 h4
      · obtain ⟨e1, e2⟩ := f.keep hk
        rw [e1] at h2; rw [e2] at h4
        exact old k m hk h2 c h4 j l hj h1 h3
    · obtain ⟨e1, e2⟩ := f.keep hj
      rw [e1] at h1; rw [e2] at h3
      by_cases hk : P k
      · exact old j l hj h1 c h3 k m hk h2 h4
      · obtain ⟨e3, e4⟩ := f.keep hk
        rw [e3] at h2; rw [e4] at h4
        exact g.dis j k l m hjk h1 h2 c h3 h4

/-- A step that changes only the texts and buffers in `P`. -/
theorem Frame.rel {a a' : Abs} (f : Frame s s' fx fx' R R' S P) (r : Rel s a fx R) (g' : Good s' fx' R')
    (ht : ∀ t, P (.inl t) → a'.txt t = (R' (.inl t)).map (Texts.items s'.h s'.files)) (ht' : ∀ t, ¬ P (.inl t) → a'.txt t = a.txt t)
    (hb : ∀ b, P (.inr b) → a'.buf b = (R' (.inr b)).map (Texts.items s'.h s'.files)) (hb' : ∀ b, ¬ P (.inr b) → a'.buf b = a.buf b)
    (hnb : s'.nbuf = a'.nbuf) (hdel : s'.del = a'.del) (hfresh : ∀ b, s'.nbuf ≤ b → R' (.inr b) = none)
    (hnf : ∀ f, s'.nfile ≤ f → s'.files f = []) (hfx : ∀ f, fx' f = true → noCRLF (s'.files f) = true) (hfxl : ∀ f, fx' f = true → f < s'.nfile)
    (hw : ∀ w b L, a'.wr w = some (b, L) → WrOk s' fx' R' a'.own w b L ∨
      (a.wr w = some (b, L) ∧ s'.wr w = s.wr w ∧ ¬ P (.inr b) ∧ a'.own b = a.own b ∧ s.nfile ≤ s'.nfile ∧
        s'.files (s.wr w).file = s.files (s.wr w).file ∧ fx' (s.wr w).file = fx (s.wr w).file))
    (hwd : ∀ w w', w ≠ w' → a'.wr w ≠ none → a'.wr w' ≠ none → (s'.wr w).buf ≠ (s'.wr w').buf ∧ (s'.wr w).file ≠ (s'.wr w').file)
    (hr : ∀ r d, a'.rd r = some d → (∃ l, R' (.inl d.t) = some l ∧ RdOk s'.h (s'.txt d.t).head l (s'.rd r) d) ∨
      (a.rd r = some d ∧ s'.rd r = s.rd r ∧ ¬ P (.inl d.t))) : Rel s' a' fx' R' := by
  have itemsk : ∀ k, ¬ P k → (R' k).map (Texts.items s'.h s'.files) = (R k).map (Texts.items s.h s.files) := by
    intro k hk
    rw [(f.keep hk).1]
    cases h : R k with
    | none => rfl
    | some l => simp only [Option.map_some]; rw [f.items r.good hk h]
  refine ⟨g', fun t => ?_, fun b => ?_, hnb, hdel, hfresh, hnf, hfx, hfxl, fun w b L h => ?_, hwd, fun i d h => ?_⟩
  · by_cases hp : P (.inl t)
    · exact ht t hp
    · rw [ht' t hp, itemsk _ hp, r.txt t]
  · by_cases hp : P (.inr b)
    · exact hb b hp
    · rw [hb' b hp, itemsk _ hp, r.buf b]
  · rcases hw w b L h with h1 | ⟨h1, h2, h3, h4, h5, h6, h7⟩
    · exact h1
    · have h8 := r.wr w b L h1
      obtain ⟨m, h9, h10⟩ := h8.last
      refine ⟨by rw [h2]; exact h8.buf, by rw [h2]; exact h8.look, h8.fnt, h4.trans h8.own, by rw [h2]; exact lt_of_lt_of_le h8.file h5,
        by rw [h2, h7]; exact h8.fx, m, (f.keep h3).1.trans h9, ?_⟩
      intro m' u o x e1 e2
      have e3 : s'.h.run u = s.h.run u := f.run r.good h3 h9 u (by rw [e1]; simp)
      rw [h2, e3] at e2
      rw [h2, e3, h6]
      exact h10 m' u o x e1 e2
  · rcases hr i d h with h1 | ⟨h1, h2, h3⟩
    · exact h1
    · obtain ⟨l, h4, h5⟩ := r.rd i d h1
      refine ⟨l, (f.keep h3).1.trans h4, ?_⟩
      rw [h2, (f.keepT d.t h3).2]
      exact h5.keep fun c hc => f.run r.good h3 h4 c (List.mem_cons_of_mem _ hc)

theorem Grows.refl (fs : Nat → List Nat) : Grows fs fs := fun _ => ⟨[], (List.append_nil _).symm⟩

end

/-! ### The calls -/

/-- What has to be shown for a call. -/
def Sim (s : St) (o : Op) (a' : Abs) (out : Out) : Prop := ∃ s' fx' R', step s o = some (s', out) ∧ Rel s' a' fx' R'

variable {s : St} {a : Abs} {fx : Nat → Bool} {R : Key → Option (List Nat)}

theorem Rel.txt_some (r : Rel s a fx R) {t : Nat} {x : List Item} (h : a.txt t = some x) : ∃ l, R (.inl t) = some l ∧ items s.h s.files l = x := by
  rw [r.txt t] at h
  cases h1 : R (.inl t) with
  | none => rw [h1] at h; cases h
  | some l => rw [h1] at h; exact ⟨l, rfl, by cases h; rfl⟩

theorem Rel.buf_some (r : Rel s a fx R) {b : Nat} {x : List Item} (h : a.buf b = some x) : ∃ l, R (.inr b) = some l ∧ items s.h s.files l = x := by
  rw [r.buf b] at h
  cases h1 : R (.inr b) with
  | none => rw [h1] at h; cases h
  | some l => rw [h1] at h; exact ⟨l, rfl, by cases h; rfl⟩

theorem setTxt_rd {a : Abs} {t : Nat} {x : List Item} {i : Nat} {d : Rd} (h : (a.setTxt t x).rd i = some d) : a.rd i = some d ∧ d.t ≠ t := by
  have h : ((a.rd i).bind fun d => if d.t = t then none else some d) = some d := h
  cases h1 : a.rd i with
  | none => rw [h1] at h; cases h
  | some e =>
    rw [h1, Option.bind_some] at h
    by_cases h2 : e.t = t
    · rw [if_pos h2] at h; cases h
    · rw [if_neg h2] at h; cases h; exact ⟨rfl, h2⟩

/-- `Insert` and `Append`. -/
theorem move_rel (r : Rel s a fx R) {t b : Nat} {l m l' : List Nat} {h' : Hp} {T' : Text} {z : List Item} (hl : R (.inl t) = some l) (hm : R (.inr b) = some m)
    (e1 : T'.head = (s.txt t).head) (e2 : TOk h' s.files fx t T' l') (e3 : BOk h' s.files fx { s.buf b with len := 0 } [])
    (e4 : items h' s.files l' = z) (e5 : ∀ c ∈ l', c ∈ l ∨ c ∈ m ∨ s.h.free ≤ c) (e6 : (s.buf b).head ∉ l')
    (e7 : Agree s.h h' ((s.txt t).head :: l ++ (s.buf b).head :: m)) (e8 : h'.run (s.txt t).head = s.h.run (s.txt t).head) :
    Rel { s with h := h', txt := upd s.txt t T', buf := upd s.buf b { s.buf b with len := 0 } } ((a.setTxt t z).setBuf b []) fx
      (updK (updK R (.inl t) (some l')) (.inr b) (some [])) := by
  obtain ⟨s', hs'⟩ : ∃ s' : St, s' = { s with h := h', txt := upd s.txt t T', buf := upd s.buf b { s.buf b with len := 0 } } := ⟨_, rfl⟩
  obtain ⟨R', hR'⟩ : ∃ R', R' = updK (updK R (.inl t) (some l')) (.inr b) (some []) := ⟨_, rfl⟩
  rw [← hs', ← hR']
  have rt : R' (.inl t) = some l' := by rw [hR', updK_ne (by simp), updK_same]
  have rb : R' (.inr b) = some [] := by rw [hR', updK_same]
  have st : s'.txt t = T' := by rw [hs']; exact upd_same _ _ _
  have sb : s'.buf b = { s.buf b with len := 0 } := by rw [hs']; exact upd_same _ _ _
  have sh : s'.h = h' := by rw [hs']
  have sf : s'.files = s.files := by rw [hs']
  have hdt : hdOf s' (.inl t) = (s.txt t).head := by show (s'.txt t).head = _; rw [st, e1]
  have hdb : hdOf s' (.inr b) = (s.buf b).head := by show (s'.buf b).head = _; rw [sb]
  have hlt := r.good.hd_lt hl
  have hmt := r.good.hd_lt hm
  have hdj := r.good.dis (.inl t) (.inr b) l m (by simp) hl hm
  have hf : Frame s s' fx fx R R' ((s.txt t).head :: l ++ (s.buf b).head :: m) (fun k => k = .inl t ∨ k = .inr b) := by
    refine ⟨by rw [sh]; exact e7, by rw [sf]; exact Grows.refl _, fun _ h => h, fun u hu => ?_, fun u hu => ?_, fun c hc => ?_⟩
    · have : u ≠ t := by rintro rfl; exact hu (.inl rfl)
      exact ⟨by rw [hR', updK_ne (by simp), updK_ne (by simpa using this)], by rw [hs']; exact upd_ne this⟩
    · have : u ≠ b := by rintro rfl; exact hu (.inr rfl)
      exact ⟨by rw [hR', updK_ne (by simpa using this), updK_ne (by simp)], by rw [hs']; exact upd_ne this⟩
    · rcases List.mem_append.mp hc with h | h
      · exact ⟨_, l, .inl rfl, hl, h⟩
      · exact ⟨_, m, .inr rfl, hm, h⟩
  have nb : ∀ c ∈ hdOf s' (.inl t) :: l', c ∉ hdOf s' (.inr b) :: [] := by
    rw [hdt, hdb]
    intro c h1 h2
    obtain rfl := List.mem_singleton.mp h2
    rcases List.mem_cons.mp h1 with h1 | h1
    · exact hdj _ (List.mem_cons_self ..) (by show (s.txt t).head ∈ _; rw [← h1]; exact List.mem_cons_self ..)
    · exact e6 h1
  have hg : Good s' fx R' := by
    refine hf.good r.good ?_ ?_ ?_ ?_
    · rintro u k (h1 | h1) h2
      · cases h1
        rw [rt] at h2; cases h2
        rw [st, sh, sf, e1, e8]
        exact ⟨e2, (r.good.txt t l hl).2⟩
      · cases h1
    · rintro u k (h1 | h1) h2
      · cases h1
      · cases h1
        rw [rb] at h2; cases h2
        rw [sb, sh, sf]; exact e3
    · rintro k x (rfl | rfl) h2 c h3
      · rw [rt] at h2; cases h2
        rw [hdt] at h3
        rcases List.mem_cons.mp h3 with h3 | h3
        · exact .inr ⟨_, l, .inl rfl, hl, by rw [h3]; exact List.mem_cons_self ..⟩
        · rcases e5 c h3 with h4 | h4 | h4
          · exact .inr ⟨_, l, .inl rfl, hl, List.mem_cons_of_mem _ h4⟩
          · exact .inr ⟨_, m, .inr rfl, hm, List.mem_cons_of_mem _ h4⟩
          · exact .inl h4
      · rw [rb] at h2; cases h2
        rw [hdb] at h3
        exact .inr ⟨_, m, .inr rfl, hm, by rw [List.mem_singleton.mp h3]; exact List.mem_cons_self ..⟩
    · rintro j k x y (rfl | rfl) (rfl | rfl) hjk h1 h2
      · exact absurd rfl hjk
      · rw [rt] at h1; rw [rb] at h2; cases h1; cases h2; exact nb
      · rw [rb] at h1; rw [rt] at h2; cases h1; cases h2; exact fun c h3 h4 => nb c h4 h3
      · exact absurd rfl hjk
  refine hf.rel r hg ?_ ?_ ?_ ?_ ?_ ?_ ?_ ?_ ?_ ?_ ?_ ?_ ?_
  · rintro u (h1 | h1)
    · cases h1
      rw [rt, Option.map_some, sh, sf, e4]
      exact upd_same _ _ _
    · cases h1
  · intro u hu
    have : u ≠ t := by rintro rfl; exact hu (.inl rfl)
    exact upd_ne this
  · rintro u (h1 | h1)
    · cases h1
    · cases h1
      rw [rb]; exact upd_same _ _ _
  · intro u hu
    have : u ≠ b := by rintro rfl; exact hu (.inr rfl)
    exact upd_ne this
  · rw [hs']; exact r.nbuf
  · rw [hs']; exact r.del
  · intro u hu
    rw [hs'] at hu
    have h1 := r.fresh u hu
    rw [(hf.keepB u (by rintro (h | h) <;> cases h; rw [h1] at hm; cases hm)).1]; exact h1
  · rw [hs']; exact r.nofile
  · rw [sf]; exact r.fxok
  · rw [hs']; exact r.fxlt
  · intro w c L hw
    by_cases hc : c = b
    · left
      have h8 := r.wr w c L hw
      subst hc
      refine ⟨by rw [hs']; exact h8.buf, by rw [hs']; exact h8.look, h8.fnt, h8.own, by rw [hs']; exact h8.file, by rw [hs']; exact h8.fx, [], rb, ?_⟩
      intro m' u o x e1 _
      simp at e1
    · right
      exact ⟨hw, by rw [hs'], by rintro (h | h) <;> cases h; exact hc rfl, rfl, by rw [hs'], by rw [sf], rfl⟩
  · rw [hs']; exact r.wdis
  · intro i d hi
    obtain ⟨h1, h2⟩ := setTxt_rd (a := a) (t := t) (x := z) hi
    exact .inr ⟨h1, by rw [hs'], by rintro (h | h) <;> cases h; exact h2 rfl⟩

/-- A buffer changes. -/
theorem buf_rel (r : Rel s a fx R) {b : Nat} {m m' : List Nat} {h' : Hp} {B' : Buf} {z : List Item} {fs' : Nat → List Nat} (hm : R (.inr b) = some m)
    (e1 : B'.head = (s.buf b).head) (e2 : BOk h' fs' fx B' m') (e3 : items h' fs' m' = z) (e4 : ∀ c ∈ m', c ∈ m ∨ s.h.free ≤ c)
    (e5 : Agree s.h h' ((s.buf b).head :: m)) (e6 : Grows s.files fs') (e7 : ∀ f, s.nfile ≤ f → fs' f = []) (e8 : ∀ f, fx f = true → fs' f = s.files f)
    (e9 : ∀ w L, a.wr w = some (b, L) → LastOk h' fs' (s.wr w).file m') (e10 : ∀ w c L, a.wr w = some (c, L) → c ≠ b → fs' (s.wr w).file = s.files (s.wr w).file) :
    Rel { s with h := h', buf := upd s.buf b B', files := fs' } (a.setBuf b z) fx (updK R (.inr b) (some m')) := by
  obtain ⟨s', hs'⟩ : ∃ s' : St, s' = { s with h := h', buf := upd s.buf b B', files := fs' } := ⟨_, rfl⟩
  obtain ⟨R', hR'⟩ : ∃ R', R' = updK R (.inr b) (some m') := ⟨_, rfl⟩
  rw [← hs', ← hR']
  have rb : R' (.inr b) = some m' := by rw [hR', updK_same]
  have sb : s'.buf b = B' := by rw [hs']; exact upd_same _ _ _
  have sh : s'.h = h' := by rw [hs']
  have sf : s'.files = fs' := by rw [hs']
  have hdb : hdOf s' (.inr b) = (s.buf b).head := by show (s'.buf b).head = _; rw [sb, e1]
  have hf : Frame s s' fx fx R R' ((s.buf b).head :: m) (fun k => k = .inr b) := by
    refine ⟨by rw [sh]; exact e5, by rw [sf]; exact e6, fun _ h => h, fun u hu => ?_, fun u hu => ?_, fun c hc => ⟨_, m, rfl, hm, hc⟩⟩
    · exact ⟨by rw [hR', updK_ne (by simp)], by rw [hs']⟩
    · have : u ≠ b := by rintro rfl; exact hu rfl
      exact ⟨by rw [hR', updK_ne (by simpa using this)], by rw [hs']; exact upd_ne this⟩
  have hg : Good s' fx R' := by
    refine hf.good r.good (fun u k h1 => by cases h1) ?_ ?_ ?_
    · rintro u k h1 h2
      cases h1
      rw [rb] at h2; cases h2
      rw [sb, sh, sf]; exact e2
    · rintro k x rfl h2 c h3
      rw [rb] at h2; cases h2
      rw [hdb] at h3
      rcases List.mem_cons.mp h3 with h3 | h3
      · exact .inr ⟨_, m, rfl, hm, by rw [h3]; exact List.mem_cons_self ..⟩
      · rcases e4 c h3 with h4 | h4
        · exact .inr ⟨_, m, rfl, hm, List.mem_cons_of_mem _ h4⟩
        · exact .inl h4
    · rintro j k x y rfl rfl hjk
      exact absurd rfl hjk
  refine hf.rel r hg (fun u h1 => by cases h1) (fun _ _ => rfl) ?_ ?_ ?_ ?_ ?_ ?_ ?_ ?_ ?_ ?_ ?_
  · rintro u h1
    cases h1
    rw [rb, Option.map_some, sh, sf, e3]; exact upd_same _ _ _
  · intro u hu
    have : u ≠ b := by rintro rfl; exact hu rfl
    exact upd_ne this
  · rw [hs']; exact r.nbuf
  · rw [hs']; exact r.del
  · intro u hu
    rw [hs'] at hu
    have h1 := r.fresh u hu
    rw [(hf.keepB u (by intro h; cases h; rw [h1] at hm; cases hm)).1]; exact h1
  · rw [hs']; exact e7
  · intro f h; rw [sf, e8 f h]; exact r.fxok f h
  · rw [hs']; exact r.fxlt
  · intro w c L hw
    by_cases hc : c = b
    · left
      have h8 := r.wr w c L hw
      subst hc
      exact ⟨by rw [hs']; exact h8.buf, by rw [hs']; exact h8.look, h8.fnt, h8.own, by rw [hs']; exact h8.file, by rw [hs']; exact h8.fx, m', rb,
        by rw [hs']; exact e9 w L hw⟩
    · right
      exact ⟨hw, by rw [hs'], by intro h; cases h; exact hc rfl, rfl, by rw [hs'], by rw [sf]; exact e10 w c L hw hc, rfl⟩
  · rw [hs']; exact r.wdis
  · intro i d hi
    exact .inr ⟨hi, by rw [hs'], by intro h; cases h⟩

/-- Only the cache of a text changes. -/
theorem cache_rel (r : Rel s a fx R) {t : Nat} {l : List Nat} {T' : Text} (hl : R (.inl t) = some l) (e1 : T'.head = (s.txt t).head)
    (e2 : T'.len = (s.txt t).len) (e3 : CacheIn s.h T' (s.txt t).head l) : Rel { s with txt := upd s.txt t T' } a fx R := by
  obtain ⟨s', hs'⟩ : ∃ s' : St, s' = { s with txt := upd s.txt t T' } := ⟨_, rfl⟩
  rw [← hs']
  have st : s'.txt t = T' := by rw [hs']; exact upd_same _ _ _
  have sh : s'.h = s.h := by rw [hs']
  have sf : s'.files = s.files := by rw [hs']
  have hdt : hdOf s' (.inl t) = (s.txt t).head := by show (s'.txt t).head = _; rw [st, e1]
  have hf : Frame s s' fx fx R R [] (fun k => k = .inl t) := by
    refine ⟨by rw [sh]; exact Agree.refl _ _, by rw [sf]; exact Grows.refl _, fun _ h => h, fun u hu => ⟨rfl, ?_⟩, fun u hu => ⟨rfl, by rw [hs']⟩, fun c hc => by cases hc⟩
    have : u ≠ t := by rintro rfl; exact hu rfl
    rw [hs']; exact upd_ne this
  have hg : Good s' fx R := by
    refine hf.good r.good ?_ (fun u k h1 => by cases h1) ?_ ?_
    · rintro u k h1 h2
      cases h1
      rw [hl] at h2; cases h2
      obtain ⟨g1, g2⟩ := r.good.txt t l hl
      rw [st, sh, sf, e1]
      exact ⟨⟨by rw [e1]; exact g1.ring, e2.trans g1.len, by rw [e1]; exact e3⟩, g2⟩
    · rintro k x rfl h2 c h3
      rw [hdt] at h3
      exact .inr ⟨_, x, rfl, h2, h3⟩
    · rintro j k x y rfl rfl hjk
      exact absurd rfl hjk
  refine hf.rel r hg ?_ (fun _ _ => rfl) (fun u h1 => by cases h1) (fun _ _ => rfl) ?_ ?_ ?_ ?_ ?_ ?_ ?_ ?_ ?_
  · intro u _; rw [sh, sf]; exact r.txt u
  · rw [hs']; exact r.nbuf
  · rw [hs']; exact r.del
  · rw [hs']; exact r.fresh
  · rw [hs']; exact r.nofile
  · rw [hs']; exact r.fxok
  · rw [hs']; exact r.fxlt
  · intro w c L hw
    exact .inr ⟨hw, by rw [hs'], (by intro h; cases h), rfl, by rw [hs'], by rw [sf], rfl⟩
  · rw [hs']; exact r.wdis
  · intro i d hi
    left
    obtain ⟨k, h1, h2⟩ := r.rd i d hi
    refine ⟨k, h1, ?_⟩
    have e : (s'.txt d.t).head = (s.txt d.t).head := by
      by_cases hd : d.t = t
      · rw [hd, st, e1]
      · have : s'.txt d.t = s.txt d.t := by rw [hs']; exact upd_ne hd
        rw [this]
    rw [e, sh, hs']; exact h2

/-- A text changes. -/
theorem text_rel (r : Rel s a fx R) {t : Nat} {l l' : List Nat} {h' : Hp} {T' : Text} {z : List Item} (hl : R (.inl t) = some l)
    (e1 : T'.head = (s.txt t).head) (e2 : TOk h' s.files fx t T' l')
    (e4 : items h' s.files l' = z) (e5 : ∀ c ∈ l', c ∈ l ∨ s.h.free ≤ c)
    (e7 : Agree s.h h' ((s.txt t).head :: l)) (e8 : h'.run (s.txt t).head = s.h.run (s.txt t).head) :
    Rel { s with h := h', txt := upd s.txt t T' } (a.setTxt t z) fx (updK R (.inl t) (some l')) := by
  obtain ⟨s', hs'⟩ : ∃ s' : St, s' = { s with h := h', txt := upd s.txt t T' } := ⟨_, rfl⟩
  obtain ⟨R', hR'⟩ : ∃ R', R' = updK R (.inl t) (some l') := ⟨_, rfl⟩
  rw [← hs', ← hR']
  have rt : R' (.inl t) = some l' := by rw [hR', updK_same]
  have st : s'.txt t = T' := by rw [hs']; exact upd_same _ _ _
  have sh : s'.h = h' := by rw [hs']
  have sf : s'.files = s.files := by rw [hs']
  have hdt : hdOf s' (.inl t) = (s.txt t).head := by show (s'.txt t).head = _; rw [st, e1]
  have hf : Frame s s' fx fx R R' ((s.txt t).head :: l) (fun k => k = .inl t) := by
    refine ⟨by rw [sh]; exact e7, by rw [sf]; exact Grows.refl _, fun _ h => h, fun u hu => ?_, fun u hu => ?_, fun c hc => ⟨_, l, rfl, hl, hc⟩⟩
    · have : u ≠ t := by rintro rfl; exact hu rfl
      exact ⟨by rw [hR', updK_ne (by simpa using this)], by rw [hs']; exact upd_ne this⟩
    · exact ⟨by rw [hR', updK_ne (by simp)], by rw [hs']⟩
  have hg : Good s' fx R' := by
    refine hf.good r.good ?_ (fun u k h1 => by cases h1) ?_ ?_
    · rintro u k h1 h2
      cases h1
      rw [rt] at h2; cases h2
      rw [st, sh, sf, e1, e8]
      exact ⟨e2, (r.good.txt t l hl).2⟩
    · rintro k x rfl h2 c h3
      rw [rt] at h2; cases h2
      rw [hdt] at h3
      rcases List.mem_cons.mp h3 with h3 | h3
      · exact .inr ⟨_, l, rfl, hl, by rw [h3]; exact List.mem_cons_self ..⟩
      · rcases e5 c h3 with h4 | h4
        · exact .inr ⟨_, l, rfl, hl, List.mem_cons_of_mem _ h4⟩
        · exact .inl h4
    · rintro j k x y rfl rfl hjk
      exact absurd rfl hjk
  refine hf.rel r hg ?_ ?_ (fun u h1 => by cases h1) (fun _ _ => rfl) ?_ ?_ ?_ ?_ ?_ ?_ ?_ ?_ ?_
  · rintro u h1
    cases h1
    rw [rt, Option.map_some, sh, sf, e4]
    exact upd_same _ _ _
  · intro u hu
    have : u ≠ t := by rintro rfl; exact hu rfl
    exact upd_ne this
  · rw [hs']; exact r.nbuf
  · rw [hs']; exact r.del
  · intro u hu
    rw [hs'] at hu
    rw [(hf.keepB u (by intro h; cases h)).1]; exact r.fresh u hu
  · rw [hs']; exact r.nofile
  · rw [sf]; exact r.fxok
  · rw [hs']; exact r.fxlt
  · intro w c L hw
    exact .inr ⟨hw, by rw [hs'], (by intro h; cases h), rfl, by rw [hs'], by rw [sf], rfl⟩
  · rw [hs']; exact r.wdis
  · intro i d hi
    obtain ⟨h1, h2⟩ := setTxt_rd (a := a) (t := t) (x := z) hi
    exact .inr ⟨h1, by rw [hs'], by intro h; cases h; exact h2 rfl⟩

/-- A new buffer. -/
theorem newBuf_rel (r : Rel s a fx R) (own : Bool) :
    Rel { s with h := (openBuf s.h).1, buf := upd s.buf s.nbuf (openBuf s.h).2, nbuf := s.nbuf + 1 } (a.newBuf [] own) fx (updK R (.inr s.nbuf) (some [])) := by
  obtain ⟨s', hs'⟩ : ∃ s' : St, s' = { s with h := (openBuf s.h).1, buf := upd s.buf s.nbuf (openBuf s.h).2, nbuf := s.nbuf + 1 } := ⟨_, rfl⟩
  obtain ⟨R', hR'⟩ : ∃ R', R' = updK R (.inr s.nbuf) (some []) := ⟨_, rfl⟩
  rw [← hs', ← hR']
  obtain ⟨o1, o2, -⟩ := openBuf_spec (fs := s.files) (fx := fx) s.h
  have rb : R' (.inr s.nbuf) = some [] := by rw [hR', updK_same]
  have sb : s'.buf s.nbuf = ⟨0, s.h.free⟩ := by rw [hs']; exact (upd_same _ _ _).trans o1
  have sh : s'.h = (openBuf s.h).1 := by rw [hs']
  have sf : s'.files = s.files := by rw [hs']
  have hdb : hdOf s' (.inr s.nbuf) = s.h.free := by show (s'.buf s.nbuf).head = _; rw [sb]
  have hnone : R (.inr s.nbuf) = none := r.fresh _ le_rfl
  have hf : Frame s s' fx fx R R' [] (fun k => k = .inr s.nbuf) := by
    refine ⟨by rw [sh]; exact openBuf_agree _ _, by rw [sf]; exact Grows.refl _, fun _ h => h, fun u hu => ?_, fun u hu => ?_, fun c hc => by cases hc⟩
    · exact ⟨by rw [hR', updK_ne (by simp)], by rw [hs']⟩
    · have : u ≠ s.nbuf := by rintro rfl; exact hu rfl
      exact ⟨by rw [hR', updK_ne (by simpa using this)], by rw [hs']; exact upd_ne this⟩
  have hg : Good s' fx R' := by
    refine hf.good r.good (fun u k h1 => by cases h1) ?_ ?_ ?_
    · rintro u k h1 h2
      cases h1
      rw [rb] at h2; cases h2
      rw [sb, sh, sf]; exact ⟨o2, rfl⟩
    · rintro k x rfl h2 c h3
      rw [rb] at h2; cases h2
      rw [hdb] at h3
      exact .inl (by rw [List.mem_singleton.mp h3])
    · rintro j k x y rfl rfl hjk
      exact absurd rfl hjk
  refine hf.rel r hg (fun u h1 => by cases h1) (fun _ _ => rfl) ?_ ?_ ?_ ?_ ?_ ?_ ?_ ?_ ?_ ?_ ?_
  · rintro u h1
    cases h1
    rw [rb, r.nbuf]; exact upd_same _ _ _
  · intro u hu
    have : u ≠ a.nbuf := by rintro rfl; exact hu (by rw [r.nbuf])
    exact upd_ne this
  · rw [hs']; show s.nbuf + 1 = a.nbuf + 1; rw [r.nbuf]
  · rw [hs']; exact r.del
  · intro u hu
    rw [hs'] at hu
    have hu : s.nbuf + 1 ≤ u := hu
    rw [(hf.keepB u (by intro h; cases h; omega)).1]; exact r.fresh u (by omega)
  · rw [hs']; exact r.nofile
  · rw [sf]; exact r.fxok
  · rw [hs']; exact r.fxlt
  · intro w c L hw
    have hc : c ≠ s.nbuf := by
      rintro rfl
      obtain ⟨m, h1, -⟩ := (r.wr w _ L hw).last
      rw [hnone] at h1; cases h1
    exact .inr ⟨hw, by rw [hs'], by intro h; cases h; exact hc rfl, by rw [r.nbuf] at hc; exact upd_ne hc, by rw [hs'], by rw [sf], rfl⟩
  · rw [hs']; exact r.wdis
  · intro i d hi
    exact .inr ⟨hi, by rw [hs'], by intro h; cases h⟩

/-- A writer on a new file. -/
theorem writer_rel (r : Rel s a fx R) {b w : Nat} (hb : R (.inr b) = some []) (ho : a.own b = true) (hw : ∀ v c L, a.wr v = some (c, L) → c ≠ b) :
    Rel { s with files := upd s.files s.nfile [], nfile := s.nfile + 1, wr := upd s.wr w ⟨b, stdLook, s.nfile⟩ } { a with wr := upd a.wr w (some (b, stdLook)) } fx R := by
  have hfe : upd s.files s.nfile [] = s.files := by
    funext f
    by_cases h : f = s.nfile
    · rw [h, upd_same, r.nofile _ le_rfl]
    · rw [upd_ne h]
  have hfl : fx s.nfile = false := by
    cases h : fx s.nfile with
    | false => rfl
    | true => have := r.fxlt _ h; omega
  obtain ⟨s', hs'⟩ : ∃ s' : St, s' = { s with files := upd s.files s.nfile [], nfile := s.nfile + 1, wr := upd s.wr w ⟨b, stdLook, s.nfile⟩ } := ⟨_, rfl⟩
  rw [← hs']
  have sh : s'.h = s.h := by rw [hs']
  have sf : s'.files = s.files := by rw [hs']; exact hfe
  have sw : s'.wr w = ⟨b, stdLook, s.nfile⟩ := by rw [hs']; exact upd_same _ _ _
  have swn : ∀ v, v ≠ w → s'.wr v = s.wr v := fun v hv => by rw [hs']; exact upd_ne hv
  have hf : Frame s s' fx fx R R [] (fun _ => False) :=
    ⟨by rw [sh]; exact Agree.refl _ _, by rw [sf]; exact Grows.refl _, fun _ h => h, fun u _ => ⟨rfl, by rw [hs']⟩, fun u _ => ⟨rfl, by rw [hs']⟩, fun c hc => by cases hc⟩
  have hg : Good s' fx R := hf.good r.good (fun _ _ h => h.elim) (fun _ _ h => h.elim) (fun _ _ h => h.elim) (fun _ _ _ _ h => h.elim)
  refine hf.rel r hg (fun _ h => h.elim) (fun _ _ => rfl) (fun _ h => h.elim) (fun _ _ => rfl) ?_ ?_ ?_ ?_ ?_ ?_ ?_ ?_ ?_
  · rw [hs']; exact r.nbuf
  · rw [hs']; exact r.del
  · rw [hs']; exact r.fresh
  · intro f h; rw [hs'] at h; rw [sf]; exact r.nofile f (by have h : s.nfile + 1 ≤ f := h; omega)
  · rw [sf]; exact r.fxok
  · intro f h; rw [hs']; have := r.fxlt f h; show f < s.nfile + 1; omega
  · intro v c L hv
    by_cases h : v = w
    · subst h
      left
      have hv : upd a.wr v (some (b, stdLook)) v = some (c, L) := hv
      rw [upd_same] at hv; cases hv
      refine ⟨by rw [sw], by rw [sw], by simp [stdLook], ho, by rw [sw, hs']; exact Nat.lt_succ_self _, by rw [sw]; exact hfl, [], hb, ?_⟩
      intro m' u o x e1 _
      simp at e1
    · right
      have hv : upd a.wr w (some (b, stdLook)) v = some (c, L) := hv
      rw [upd_ne h] at hv
      exact ⟨hv, swn v h, fun h => h, rfl, by rw [hs']; exact Nat.le_succ _, by rw [sf], rfl⟩
  · have one : ∀ v, v ≠ w → upd a.wr w (some (b, stdLook)) v ≠ none → (s'.wr v).buf ≠ b ∧ (s'.wr v).file ≠ s.nfile := by
      intro v hv h
      rw [upd_ne hv] at h
      rw [swn v hv]
      cases h1 : a.wr v with
      | none => exact absurd h1 h
      | some x =>
        obtain ⟨c, L⟩ := x
        have h2 := r.wr v c L h1
        have h3 := h2.file
        exact ⟨by rw [h2.buf]; exact hw v c L h1, by omega⟩
    intro v v' hvv h1 h2
    by_cases hv : v = w
    · subst hv
      have := one v' (Ne.symm hvv) h2
      rw [sw]; exact ⟨this.1.symm, this.2.symm⟩
    · by_cases hv' : v' = w
      · subst hv'
        have := one v hv h1
        rw [sw]; exact this
      · have h1 : upd a.wr w (some (b, stdLook)) v ≠ none := h1
        have h2 : upd a.wr w (some (b, stdLook)) v' ≠ none := h2
        rw [upd_ne hv] at h1; rw [upd_ne hv'] at h2
        rw [swn v hv, swn v' hv']; exact r.wdis v v' hvv h1 h2
  · intro i d hi
    exact .inr ⟨hi, by rw [hs'], fun h => h⟩

/-- The look of a writer changes. -/
theorem look_rel (r : Rel s a fx R) {b w : Nat} {L L' : Look} (hw : a.wr w = some (b, L)) (hl : L'.fnt ≠ none) :
    Rel { s with wr := upd s.wr w { s.wr w with look := L' } } { a with wr := upd a.wr w (some (b, L')) } fx R := by
  obtain ⟨s', hs'⟩ : ∃ s' : St, s' = { s with wr := upd s.wr w { s.wr w with look := L' } } := ⟨_, rfl⟩
  rw [← hs']
  have sh : s'.h = s.h := by rw [hs']
  have sf : s'.files = s.files := by rw [hs']
  have sw : s'.wr w = { s.wr w with look := L' } := by rw [hs']; exact upd_same _ _ _
  have swn : ∀ v, v ≠ w → s'.wr v = s.wr v := fun v hv => by rw [hs']; exact upd_ne hv
  have hf : Frame s s' fx fx R R [] (fun _ => False) :=
    ⟨by rw [sh]; exact Agree.refl _ _, by rw [sf]; exact Grows.refl _, fun _ h => h, fun u _ => ⟨rfl, by rw [hs']⟩, fun u _ => ⟨rfl, by rw [hs']⟩, fun c hc => by cases hc⟩
  have hg : Good s' fx R := hf.good r.good (fun _ _ h => h.elim) (fun _ _ h => h.elim) (fun _ _ h => h.elim) (fun _ _ _ _ h => h.elim)
  refine hf.rel r hg (fun _ h => h.elim) (fun _ _ => rfl) (fun _ h => h.elim) (fun _ _ => rfl) ?_ ?_ ?_ ?_ ?_ ?_ ?_ ?_ ?_
  · rw [hs']; exact r.nbuf
  · rw [hs']; exact r.del
  · rw [hs']; exact r.fresh
  · rw [hs']; exact r.nofile
  · rw [sf]; exact r.fxok
  · rw [hs']; exact r.fxlt
  · intro v c K hv
    by_cases h : v = w
    · subst h
      left
      have hv : upd a.wr v (some (b, L')) v = some (c, K) := hv
      rw [upd_same] at hv; cases hv
      have h8 := r.wr v _ L hw
      refine ⟨by rw [sw]; exact h8.buf, by rw [sw], hl, h8.own, by rw [sw, hs']; exact h8.file, by rw [sw]; exact h8.fx, ?_⟩
      rw [sw, sh, sf]; exact h8.last
    · right
      have hv : upd a.wr w (some (b, L')) v = some (c, K) := hv
      rw [upd_ne h] at hv
      exact ⟨hv, swn v h, fun h => h, rfl, by rw [hs'], by rw [sf], rfl⟩
  · intro v v' hvv h1 h2
    have h1 : upd a.wr w (some (b, L')) v ≠ none := h1
    have h2 : upd a.wr w (some (b, L')) v' ≠ none := h2
    have key : ∀ v, upd a.wr w (some (b, L')) v ≠ none → a.wr v ≠ none ∧ (s'.wr v).buf = (s.wr v).buf ∧ (s'.wr v).file = (s.wr v).file := by
      intro v hv
      by_cases h : v = w
      · subst h; exact ⟨by rw [hw]; simp, by rw [sw], by rw [sw]⟩
      · rw [upd_ne h] at hv; exact ⟨hv, by rw [swn v h], by rw [swn v h]⟩
    obtain ⟨k1, k2, k3⟩ := key v h1
    obtain ⟨j1, j2, j3⟩ := key v' h2
    rw [k2, k3, j2, j3]; exact r.wdis v v' hvv k1 j1
  · intro i d hi
    exact .inr ⟨hi, by rw [hs'], fun h => h⟩

/-- A reader changes. -/
theorem reader_rel (r : Rel s a fx R) {i : Nat} {R' : Reader} {d' : Option Rd}
    (h : ∀ d, d' = some d → ∃ l, R (.inl d.t) = some l ∧ RdOk s.h (s.txt d.t).head l R' d) :
    Rel { s with rd := upd s.rd i R' } { a with rd := upd a.rd i d' } fx R := by
  refine ⟨⟨r.good.txt, r.good.buf, r.good.dis⟩, r.txt, r.buf, r.nbuf, r.del, r.fresh, r.nofile, r.fxok, r.fxlt,
    fun w b L hw => let h8 := r.wr w b L hw; ⟨h8.buf, h8.look, h8.fnt, h8.own, h8.file, h8.fx, h8.last⟩, r.wdis, fun j d hj => ?_⟩
  have hj : upd a.rd i d' j = some d := hj
  show ∃ l, R (.inl d.t) = some l ∧ RdOk s.h (s.txt d.t).head l (upd s.rd i R' j) d
  by_cases hij : j = i
  · subst hij
    rw [upd_same] at hj ⊢
    exact h d hj
  · rw [upd_ne hij] at hj ⊢
    exact r.rd j d hj

/-- `Open`. -/
theorem open_rel (r : Rel s a fx R) {t : Nat} {bytes : List Nat} (hb : noCRLF bytes = true) :
    ∃ fx' R', Rel { s with h := (openText s.h s.nfile bytes.length).1, txt := upd s.txt t (openText s.h s.nfile bytes.length).2, files := upd s.files s.nfile bytes, nfile := s.nfile + 1 }
      (a.setTxt t (bytes.map fileItem)) fx' R' := by
  obtain ⟨h', T, l, o1, o2, o3, o4, o5, o6⟩ := openText_spec (fs := s.files) (fx := fx) s.h t s.nfile bytes (r.nofile _ le_rfl)
  rw [o1]
  refine ⟨upd fx s.nfile true, updK R (.inl t) (some l), ?_⟩
  obtain ⟨s', hs'⟩ : ∃ s' : St, s' = { s with h := h', txt := upd s.txt t T, files := upd s.files s.nfile bytes, nfile := s.nfile + 1 } := ⟨_, rfl⟩
  obtain ⟨R', hR'⟩ : ∃ R', R' = updK R (.inl t) (some l) := ⟨_, rfl⟩
  show Rel { s with h := h', txt := upd s.txt t T, files := upd s.files s.nfile bytes, nfile := s.nfile + 1 } _ _ _
  rw [← hs', ← hR']
  have rt : R' (.inl t) = some l := by rw [hR', updK_same]
  have st : s'.txt t = T := by rw [hs']; exact upd_same _ _ _
  have sh : s'.h = h' := by rw [hs']
  have sf : s'.files = upd s.files s.nfile bytes := by rw [hs']
  have hdt : hdOf s' (.inl t) = T.head := by show (s'.txt t).head = _; rw [st]
  have hgr : Grows s.files (upd s.files s.nfile bytes) := by
    have := grows_upd (fs := s.files) (f := s.nfile) bytes
    rwa [r.nofile _ le_rfl, List.nil_append] at this
  have hf : Frame s s' fx (upd fx s.nfile true) R R' [] (fun k => k = .inl t) := by
    refine ⟨by rw [sh]; exact o5, by rw [sf]; exact hgr, fun f h => ?_, fun u hu => ?_, fun u hu => ?_, fun c hc => by cases hc⟩
    · by_cases e : f = s.nfile
      · rw [e, upd_same]
      · rw [upd_ne e]; exact h
    · have : u ≠ t := by rintro rfl; exact hu rfl
      exact ⟨by rw [hR', updK_ne (by simpa using this)], by rw [hs']; exact upd_ne this⟩
    · exact ⟨by rw [hR', updK_ne (by simp)], by rw [hs']⟩
  have hg : Good s' (upd fx s.nfile true) R' := by
    refine hf.good r.good ?_ (fun u k h1 => by cases h1) ?_ ?_
    · rintro u k h1 h2
      cases h1
      rw [rt] at h2; cases h2
      rw [st, sh, sf]
      exact ⟨o2, o6⟩
    · rintro k x rfl h2 c h3
      rw [rt] at h2; cases h2
      rw [hdt] at h3
      exact .inl (o4 c h3)
    · rintro j k x y rfl rfl hjk
      exact absurd rfl hjk
  refine hf.rel r hg ?_ ?_ (fun u h1 => by cases h1) (fun _ _ => rfl) ?_ ?_ ?_ ?_ ?_ ?_ ?_ ?_ ?_
  · rintro u h1
    cases h1
    rw [rt, Option.map_some, sh, sf, o3]
    exact upd_same _ _ _
  · intro u hu
    have : u ≠ t := by rintro rfl; exact hu rfl
    exact upd_ne this
  · rw [hs']; exact r.nbuf
  · rw [hs']; exact r.del
  · intro u hu
    rw [hs'] at hu
    rw [(hf.keepB u (by intro h; cases h)).1]; exact r.fresh u hu
  · intro f h
    rw [hs'] at h
    have h : s.nfile + 1 ≤ f := h
    rw [sf, upd_ne (by omega)]; exact r.nofile f (by omega)
  · intro f h
    rw [sf]
    by_cases e : f = s.nfile
    · rw [e, upd_same]; exact hb
    · rw [upd_ne e] at h ⊢; exact r.fxok f h
  · intro f h
    rw [hs']
    show f < s.nfile + 1
    by_cases e : f = s.nfile
    · omega
    · rw [upd_ne e] at h; have := r.fxlt f h; omega
  · intro w c L hw
    have h9 := (r.wr w c L hw).file
    exact .inr ⟨hw, by rw [hs'], (by intro h; cases h), rfl, by rw [hs']; exact Nat.le_succ _, by rw [sf, upd_ne (by omega)], upd_ne (by omega)⟩
  · rw [hs']; exact r.wdis
  · intro i d hi
    obtain ⟨h1, h2⟩ := setTxt_rd (a := a) (t := t) (x := bytes.map fileItem) hi
    exact .inr ⟨h1, by rw [hs'], by intro h; cases h; exact h2 rfl⟩

/-- `Delete`. -/
theorem delete_rel (r : Rel s a fx R) {t : Nat} {l l' j : List Nat} {h' : Hp} {T' : Text} {B : Buf} {y z : List Item} (hl : R (.inl t) = some l)
    (e1 : T'.head = (s.txt t).head) (e2 : TOk h' s.files fx t T' l') (e3 : BOk h' s.files fx B j)
    (e4 : items h' s.files l' = z) (e5 : items h' s.files j = y) (e6 : ∀ c ∈ l' ++ B.head :: j, c ∈ l ∨ s.h.free ≤ c)
    (e7 : ∀ c ∈ (s.txt t).head :: l', c ∉ B.head :: j)
    (e8 : Agree s.h h' ((s.txt t).head :: l)) (e9 : h'.run (s.txt t).head = s.h.run (s.txt t).head) :
    Rel { s with h := h', txt := upd s.txt t T', buf := upd s.buf s.nbuf B, nbuf := s.nbuf + 1, del := some s.nbuf }
      { (a.setTxt t z).newBuf y false with del := some a.nbuf } fx (updK (updK R (.inl t) (some l')) (.inr s.nbuf) (some j)) := by
  obtain ⟨s', hs'⟩ : ∃ s' : St, s' = { s with h := h', txt := upd s.txt t T', buf := upd s.buf s.nbuf B, nbuf := s.nbuf + 1, del := some s.nbuf } := ⟨_, rfl⟩
  obtain ⟨R', hR'⟩ : ∃ R', R' = updK (updK R (.inl t) (some l')) (.inr s.nbuf) (some j) := ⟨_, rfl⟩
  rw [← hs', ← hR']
  have rt : R' (.inl t) = some l' := by rw [hR', updK_ne (by simp), updK_same]
  have rb : R' (.inr s.nbuf) = some j := by rw [hR', updK_same]
  have st : s'.txt t = T' := by rw [hs']; exact upd_same _ _ _
  have sb : s'.buf s.nbuf = B := by rw [hs']; exact upd_same _ _ _
  have sh : s'.h = h' := by rw [hs']
  have sf : s'.files = s.files := by rw [hs']
  have hdt : hdOf s' (.inl t) = (s.txt t).head := by show (s'.txt t).head = _; rw [st, e1]
  have hdb : hdOf s' (.inr s.nbuf) = B.head := by show (s'.buf s.nbuf).head = _; rw [sb]
  have hnone : R (.inr s.nbuf) = none := r.fresh _ le_rfl
  have hf : Frame s s' fx fx R R' ((s.txt t).head :: l) (fun k => k = .inl t ∨ k = .inr s.nbuf) := by
    refine ⟨by rw [sh]; exact e8, by rw [sf]; exact Grows.refl _, fun _ h => h, fun u hu => ?_, fun u hu => ?_, fun c hc => ⟨_, l, .inl rfl, hl, hc⟩⟩
    · have : u ≠ t := by rintro rfl; exact hu (.inl rfl)
      exact ⟨by rw [hR', updK_ne (by simp), updK_ne (by simpa using this)], by rw [hs']; exact upd_ne this⟩
    · have : u ≠ s.nbuf := by rintro rfl; exact hu (.inr rfl)
      exact ⟨by rw [hR', updK_ne (by simpa using this), updK_ne (by simp)], by rw [hs']; exact upd_ne this⟩
  have nb : ∀ c ∈ hdOf s' (.inl t) :: l', c ∉ hdOf s' (.inr s.nbuf) :: j := by rw [hdt, hdb]; exact e7
  have mem : ∀ c ∈ l' ++ B.head :: j, s.h.free ≤ c ∨ ∃ j m, (j = .inl t ∨ j = .inr s.nbuf) ∧ R j = some m ∧ c ∈ hdOf s j :: m := by
    intro c hc
    rcases e6 c hc with h | h
    · exact .inr ⟨_, l, .inl rfl, hl, List.mem_cons_of_mem _ h⟩
    · exact .inl h
  have hg : Good s' fx R' := by
    refine hf.good r.good ?_ ?_ ?_ ?_
    · rintro u k (h1 | h1) h2
      · cases h1
        rw [rt] at h2; cases h2
        rw [st, sh, sf, e1, e9]
        exact ⟨e2, (r.good.txt t l hl).2⟩
      · cases h1
    · rintro u k (h1 | h1) h2
      · cases h1
      · cases h1
        rw [rb] at h2; cases h2
        rw [sb, sh, sf]; exact e3
    · rintro k x (rfl | rfl) h2 c h3
      · rw [rt] at h2; cases h2
        rw [hdt] at h3
        rcases List.mem_cons.mp h3 with h3 | h3
        · exact .inr ⟨_, l, .inl rfl, hl, by rw [h3]; exact List.mem_cons_self ..⟩
        · exact mem c (List.mem_append_left _ h3)
      · rw [rb] at h2; cases h2
        rw [hdb] at h3
        exact mem c (List.mem_append_right _ h3)
    · rintro i k x y (rfl | rfl) (rfl | rfl) hjk h1 h2
      · exact absurd rfl hjk
      · rw [rt] at h1; rw [rb] at h2; cases h1; cases h2; exact nb
      · rw [rb] at h1; rw [rt] at h2; cases h1; cases h2; exact fun c h3 h4 => nb c h4 h3
      · exact absurd rfl hjk
  refine hf.rel r hg ?_ ?_ ?_ ?_ ?_ ?_ ?_ ?_ ?_ ?_ ?_ ?_ ?_
  · rintro u (h1 | h1)
    · cases h1
      rw [rt, Option.map_some, sh, sf, e4]
      exact upd_same _ _ _
    · cases h1
  · intro u hu
    have : u ≠ t := by rintro rfl; exact hu (.inl rfl)
    exact upd_ne this
  · rintro u (h1 | h1)
    · cases h1
    · cases h1
      rw [rb, Option.map_some, sh, sf, e5, r.nbuf]; exact upd_same _ _ _
  · intro u hu
    have : u ≠ a.nbuf := by rintro rfl; exact hu (.inr (by rw [r.nbuf]))
    exact upd_ne this
  · rw [hs']; show s.nbuf + 1 = a.nbuf + 1; rw [r.nbuf]
  · rw [hs']; show some s.nbuf = some a.nbuf; rw [r.nbuf]
  · intro u hu
    rw [hs'] at hu
    have hu : s.nbuf + 1 ≤ u := hu
    rw [(hf.keepB u (by rintro (h | h) <;> cases h; omega)).1]; exact r.fresh u (by omega)
  · rw [hs']; exact r.nofile
  · rw [sf]; exact r.fxok
  · rw [hs']; exact r.fxlt
  · intro w c L hw
    have hc : c ≠ s.nbuf := by
      rintro rfl
      obtain ⟨m, h1, -⟩ := (r.wr w _ L hw).last
      rw [hnone] at h1; cases h1
    exact .inr ⟨hw, by rw [hs'], by rintro (h | h) <;> cases h; exact hc rfl, by rw [r.nbuf] at hc; exact upd_ne hc, by rw [hs'], by rw [sf], rfl⟩
  · rw [hs']; exact r.wdis
  · intro i d hi
    obtain ⟨h1, h2⟩ := setTxt_rd (a := a) (t := t) (x := z) hi
    exact .inr ⟨h1, by rw [hs'], by rintro (h | h) <;> cases h; exact h2 rfl⟩

end Verif.Texts
