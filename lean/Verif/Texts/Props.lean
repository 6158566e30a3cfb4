import Verif.Common
import Verif.Texts.Sim

/-!
# C28: texts are sequences of characters

`Spec.lean` says what each call does to the lists of characters and elements; here every sequence of calls that stays within that
contract behaves so, however the pieces are split, merged and shared.
-/
namespace Verif.Texts

variable {s : St} {a : Abs} {fx : Nat → Bool} {R : Key → Option (List Nat)}

theorem Rel.item_len (r : Rel s a fx R) {t : Nat} {l : List Nat} (hl : R (.inl t) = some l) : (items s.h s.files l).length = (s.txt t).len := by
  have h := (r.good.txt t l hl).1
  rw [items_length h.ring.ok, h.len]

theorem Rel.buf_len (r : Rel s a fx R) {b : Nat} {l : List Nat} (hl : R (.inr b) = some l) : (items s.h s.files l).length = (s.buf b).len := by
  have h := r.good.buf b l hl
  rw [items_length h.ring.ok, h.len]

theorem step_sim (r : Rel s a fx R) {o : Op} {a' : Abs} {out : Out} (ha : astep a o = some (a', out)) : Sim s o a' out := by
  cases o with
  | open_ t bytes =>
    simp only [astep] at ha
    split_ifs at ha with hb
    cases ha
    obtain ⟨fx', R', h⟩ := open_rel (t := t) r hb
    exact ⟨_, fx', R', rfl, h⟩
  | newBuf =>
    cases ha
    refine ⟨_, fx, _, ?_, newBuf_rel r false⟩
    simp only [step, r.nbuf]
  | openWriter w =>
    cases ha
    have h := newBuf_rel r true
    have hnone : R (.inr s.nbuf) = none := r.fresh _ le_rfl
    refine ⟨_, fx, _, ?_, writer_rel (w := w) (b := a.nbuf) h (by rw [← r.nbuf]; exact updK_same _ _ _) (upd_same _ _ _) ?_⟩
    · simp only [step, r.nbuf]
    · rintro v c L hv rfl
      obtain ⟨m, h1, -⟩ := (r.wr v _ L hv).last
      rw [← r.nbuf, hnone] at h1; cases h1
  | setLook w l =>
    simp only [astep] at ha
    obtain ⟨W, hW, ha⟩ := Option.bind_eq_some_iff.mp ha
    split_ifs at ha with hf
    cases ha
    exact ⟨_, fx, R, rfl, look_rel (b := W.1) (L := W.2) r hW (by intro h; rw [h] at hf; cases hf)⟩
  | write w ch =>
    simp only [astep] at ha
    obtain ⟨⟨b, L⟩, hW, ha⟩ := Option.bind_eq_some_iff.mp ha
    obtain ⟨x, hx, ha⟩ := Option.map_eq_some_iff.mp ha
    cases ha
    have h8 := r.wr w b L hW
    obtain ⟨m, hm, hlast⟩ := h8.last
    have hx' : items s.h s.files m = x := by
      obtain ⟨m', h1, h2⟩ := r.buf_some hx
      rw [hm] at h1; cases h1; exact h2
    obtain ⟨h', m', w1, w2, w3, w4, w5, w6⟩ := write_spec (ch := ch) (W := s.wr w) (r.good.buf b m hm) (by rw [h8.look]; exact h8.fnt) hlast
    have hq := buf_rel (z := x ++ [.ch ch L]) (B' := ⟨(s.buf b).len + 1, (s.buf b).head⟩) r hm rfl w2 (by rw [w3, hx', h8.look]) w5 w6 (grows_upd _) ?_ ?_ ?_ ?_
    · refine ⟨_, fx, _, ?_, hq⟩
      simp only [step, h8.buf, w1, Option.map_some]
    · intro f hf
      have := h8.file
      rw [upd_ne (by omega)]; exact r.nofile f hf
    · intro f hf
      refine upd_ne ?_
      rintro rfl
      rw [h8.fx] at hf; cases hf
    · intro v L' hv
      by_cases hvw : v = w
      · rw [hvw]; exact w4
      · exact absurd (((r.wr v b L' hv).buf).trans h8.buf.symm) (r.wdis v w hvw (by rw [hv]; simp) (by rw [hW]; simp)).1
    · intro v c L' hv hc
      refine upd_ne ?_
      have hvw : v ≠ w := by rintro rfl; rw [hW] at hv; cases hv; exact hc rfl
      exact (r.wdis v w hvw (by rw [hv]; simp) (by rw [hW]; simp)).2
  | writeElem w g =>
    simp only [astep] at ha
    obtain ⟨⟨b, L⟩, hW, ha⟩ := Option.bind_eq_some_iff.mp ha
    obtain ⟨x, hx, ha⟩ := Option.map_eq_some_iff.mp ha
    cases ha
    have h8 := r.wr w b L hW
    obtain ⟨m, hm, hlast⟩ := h8.last
    have hx' : items s.h s.files m = x := by
      obtain ⟨m', h1, h2⟩ := r.buf_some hx
      rw [hm] at h1; cases h1; exact h2
    obtain ⟨h', m', w1, w2, w3, w4, w5, w6⟩ := writeElem_spec (g := g) (W := s.wr w) (r.good.buf b m hm) (by rw [h8.look]; exact h8.fnt)
    have hq := buf_rel (z := x ++ [.el g L]) (B' := ⟨(s.buf b).len + 1, (s.buf b).head⟩) r hm rfl w2 (by rw [w3, hx', h8.look]) w5 w6 (Grows.refl _) r.nofile (fun _ _ => rfl) ?_ (fun _ _ _ _ _ => rfl)
    · refine ⟨_, fx, _, ?_, hq⟩
      simp only [step, h8.buf, w1]
    · intro v L' hv
      by_cases hvw : v = w
      · rw [hvw]; exact w4
      · exact absurd (((r.wr v b L' hv).buf).trans h8.buf.symm) (r.wdis v w hvw (by rw [hv]; simp) (by rw [hW]; simp)).1
  | insert t pos b =>
    simp only [astep] at ha
    obtain ⟨x, hx, ha⟩ := Option.bind_eq_some_iff.mp ha
    obtain ⟨y, hy, ha⟩ := Option.map_eq_some_iff.mp ha
    cases ha
    obtain ⟨l, hl, rfl⟩ := r.txt_some hx
    obtain ⟨m, hm, rfl⟩ := r.buf_some hy
    obtain ⟨h', T', l', i1, i2, i3, i4, i5, i6, i7, i8, i9⟩ := insert_spec pos (r.good.txt t l hl).1 (r.good.buf b m hm) (r.good.dis _ _ l m (by simp) hl hm)
    rw [r.item_len hl, r.buf_len hm]
    refine ⟨_, fx, _, ?_, move_rel r hl hm i2 i3 i4 i5 i6 i7 i8 i9⟩
    simp only [step, i1, Option.map_some]
  | append t b =>
    simp only [astep] at ha
    obtain ⟨x, hx, ha⟩ := Option.bind_eq_some_iff.mp ha
    obtain ⟨y, hy, ha⟩ := Option.map_eq_some_iff.mp ha
    cases ha
    obtain ⟨l, hl, rfl⟩ := r.txt_some hx
    obtain ⟨m, hm, rfl⟩ := r.buf_some hy
    obtain ⟨h', T', l', i1, i2, i3, i4, i5, i6, i7, i8, i9⟩ := append_spec (r.good.txt t l hl).1 (r.good.buf b m hm) (r.good.dis _ _ l m (by simp) hl hm)
    rw [r.item_len hl, r.buf_len hm]
    refine ⟨_, fx, _, ?_, move_rel r hl hm i2 i3 i4 i5 i6 i7 i8 i9⟩
    simp only [step, i1, Option.map_some]
  | delete t beg end_ =>
    simp only [astep] at ha
    obtain ⟨x, hx, ha⟩ := Option.bind_eq_some_iff.mp ha
    split_ifs at ha with hbe
    cases ha
    obtain ⟨l, hl, rfl⟩ := r.txt_some hx
    obtain ⟨h', T', B, l', j, i1, i2, i3, i4, i5, i6, i7, i8, i9, i10⟩ := delete_spec (r.good.txt t l hl).1 hbe
    rw [r.item_len hl]
    refine ⟨_, fx, _, ?_, delete_rel r hl i2 i3 i4 i5 i6 i7 i8 i9 i10⟩
    simp only [step, i1, Option.map_some]
  | changeLooks t beg end_ sel n =>
    simp only [astep] at ha
    obtain ⟨x, hx, ha⟩ := Option.bind_eq_some_iff.mp ha
    split_ifs at ha with hbe
    cases ha
    obtain ⟨l, hl, rfl⟩ := r.txt_some hx
    obtain ⟨h', T', l', i1, i2, i3, i4, i5, i6, i7⟩ := changeLooks_spec sel n (r.good.txt t l hl).1 hbe
    rw [r.item_len hl]
    refine ⟨_, fx, _, ?_, text_rel r hl i2 i3 i4 i5 i6 i7⟩
    simp only [step, i1, Option.map_some]
  | save t beg end_ b =>
    simp only [astep] at ha
    obtain ⟨x, hx, ha⟩ := Option.bind_eq_some_iff.mp ha
    obtain ⟨y, hy, ha⟩ := Option.bind_eq_some_iff.mp ha
    split_ifs at ha with hbe
    cases ha
    obtain ⟨l, hl, rfl⟩ := r.txt_some hx
    obtain ⟨m, hm, rfl⟩ := r.buf_some hy
    have hdj := r.good.dis _ _ l m (by simp) hl hm
    rw [r.item_len hl] at hbe
    obtain ⟨h', T', B', d', i1, i2, i3, i4, i5, i6, i7, i8, i9⟩ := save_spec (r.good.txt t l hl).1 (r.good.buf b m hm) hdj hbe.1
    have hc : CacheIn s.h T' (s.txt t).head l := i5.congr fun c hc => by
      have h1 : c ∈ hdOf s (.inl t) :: l := List.mem_cons_of_mem _ hc
      exact (i9.run c (r.good.hd_lt hl c h1) (hdj c h1)).symm
    have hr := cache_rel r hl i3 i4 hc
    have hown : ∀ w c L, a.wr w = some (c, L) → c ≠ b := by
      rintro w c L hw rfl
      have := (r.wr w c L hw).own
      rw [hbe.2] at this; cases this
    have hq := buf_rel hr hm i2 i6 i7 i8 i9 (Grows.refl _) r.nofile (fun _ _ => rfl) (fun w L hw => absurd rfl (hown w b L hw)) (fun _ _ _ _ _ => rfl)
    refine ⟨_, fx, _, ?_, hq⟩
    simp only [step, i1, Option.map_some]
  | copy sb db =>
    simp only [astep] at ha
    obtain ⟨x, hx, ha⟩ := Option.bind_eq_some_iff.mp ha
    obtain ⟨y, hy, ha⟩ := Option.bind_eq_some_iff.mp ha
    split_ifs at ha with hbe
    cases ha
    obtain ⟨l, hl, rfl⟩ := r.buf_some hx
    obtain ⟨m, hm, rfl⟩ := r.buf_some hy
    have hdj := r.good.dis _ _ l m (by simpa using hbe.1) hl hm
    obtain ⟨h', d', i1, i2, i3, i4, i5⟩ := copy_spec (r.good.buf sb l hl) (r.good.buf db m hm) hdj
    have hown : ∀ w c L, a.wr w = some (c, L) → c ≠ db := by
      rintro w c L hw rfl
      have := (r.wr w c L hw).own
      rw [hbe.2] at this; cases this
    have hq := buf_rel (B' := ⟨(s.buf db).len + (s.buf sb).len, (s.buf db).head⟩) r hm rfl i2 i3 i4 i5 (Grows.refl _) r.nofile (fun _ _ => rfl) (fun w L hw => absurd rfl (hown w db L hw)) (fun _ _ _ _ _ => rfl)
    refine ⟨_, fx, _, ?_, hq⟩
    simp only [step, i1, Option.map_some]
  | recall =>
    cases ha
    refine ⟨_, fx, R, by simp only [step, r.del]; rfl, ?_⟩
    exact ⟨⟨r.good.txt, r.good.buf, r.good.dis⟩, r.txt, r.buf, r.nbuf, rfl, r.fresh, r.nofile, r.fxok, r.fxlt,
      fun w b L hw => let h8 := r.wr w b L hw; ⟨h8.buf, h8.look, h8.fnt, h8.own, h8.file, h8.fx, h8.last⟩, r.wdis, r.rd⟩
  | len t =>
    simp only [astep] at ha
    obtain ⟨x, hx, ha⟩ := Option.map_eq_some_iff.mp ha
    cases ha
    obtain ⟨l, hl, rfl⟩ := r.txt_some hx
    exact ⟨s, fx, R, by simp only [step, r.item_len hl], r⟩
  | bufLen b =>
    simp only [astep] at ha
    obtain ⟨x, hx, ha⟩ := Option.map_eq_some_iff.mp ha
    cases ha
    obtain ⟨l, hl, rfl⟩ := r.buf_some hx
    exact ⟨s, fx, R, by simp only [step, r.buf_len hl], r⟩
  | openReader i t pos =>
    simp only [astep] at ha
    obtain ⟨x, hx, ha⟩ := Option.map_eq_some_iff.mp ha
    cases ha
    obtain ⟨l, hl, rfl⟩ := r.txt_some hx
    obtain ⟨R', T', i1, i2, i3, i4, i5⟩ := openReader_spec (t := t) (s.rd i) pos (r.good.txt t l hl).1
    have hr := cache_rel r hl i2 i3 i4
    rw [r.item_len hl]
    have hq := reader_rel (i := i) (R' := R') (d' := some ⟨t, min pos (s.txt t).len, false, none⟩) hr ?_
    · refine ⟨_, fx, R, ?_, hq⟩
      simp only [step, i1, Option.map_some]
    · intro d hd
      cases hd
      refine ⟨l, hl, ?_⟩
      show RdOk s.h (upd s.txt t T' t).head l R' _
      rw [upd_same, i2]; exact i5
  | read i =>
    simp only [astep] at ha
    obtain ⟨d, hd, ha⟩ := Option.bind_eq_some_iff.mp ha
    obtain ⟨x, hx, ha⟩ := Option.bind_eq_some_iff.mp ha
    obtain ⟨l, hl, hro⟩ := r.rd i d hd
    have hxl : items s.h s.files l = x := by
      obtain ⟨m, h1, h2⟩ := r.txt_some hx
      rw [hl] at h1; cases h1; exact h2
    obtain ⟨g1, g2⟩ := r.good.txt d.t l hl
    rcases read_spec g1.ring r.fxok g2 hro with ⟨c, L, k1, k2, k3, k4, k5, k6, k7⟩ | ⟨g, L, k1, k2, k3, k4, k5, k6, k7⟩ | ⟨k1, k2, k3, k4⟩
    · rw [hxl] at k1
      simp only [k1] at ha
      cases ha
      refine ⟨_, fx, R, ?_, reader_rel r fun e he => by cases he; exact ⟨l, hl, k7⟩⟩
      simp only [step, k2, k3, if_neg k4, k5, k6, Option.bind_none]
    · rw [hxl] at k1
      simp only [k1] at ha
      cases ha
      refine ⟨_, fx, R, ?_, reader_rel r fun e he => by cases he; exact ⟨l, hl, k7⟩⟩
      simp only [step, k2, k3, if_neg k4, k5, k6]
    · rw [hxl] at k1 k4
      simp only [k1] at ha
      split_ifs at ha with hlim
      cases ha
      obtain ⟨k5, k6, k7⟩ := k4 hlim
      refine ⟨_, fx, R, ?_, reader_rel r fun e he => by cases he; exact ⟨l, hl, k7⟩⟩
      simp only [step, k3, if_pos k2, k5, k6, Option.bind_none]
  | readElem i =>
    simp only [astep] at ha
    obtain ⟨d, hd, ha⟩ := Option.bind_eq_some_iff.mp ha
    obtain ⟨x, hx, ha⟩ := Option.map_eq_some_iff.mp ha
    obtain ⟨l, hl, hro⟩ := r.rd i d hd
    have hxl : items s.h s.files l = x := by
      obtain ⟨m, h1, h2⟩ := r.txt_some hx
      rw [hl] at h1; cases h1; exact h2
    obtain ⟨g1, g2⟩ := r.good.txt d.t l hl
    rcases readElem_spec g1.ring hro with ⟨R', k1, k2, k3⟩ | ⟨R', j, g, L, k1, k2, k3, k4⟩
    · rw [hxl] at k2
      simp only [k2] at ha
      cases ha
      refine ⟨_, fx, R, ?_, reader_rel (R' := R') r fun e he => by cases he⟩
      simp only [step, k1, Option.map_some, k3]
    · rw [hxl] at k2
      simp only [k2] at ha
      cases ha
      refine ⟨_, fx, R, ?_, reader_rel r fun e he => by cases he; exact ⟨l, hl, k4⟩⟩
      simp only [step, k1, Option.map_some, k3]
  | readPrevElem i =>
    simp only [astep] at ha
    obtain ⟨d, hd, ha⟩ := Option.bind_eq_some_iff.mp ha
    obtain ⟨x, hx, ha⟩ := Option.map_eq_some_iff.mp ha
    obtain ⟨l, hl, hro⟩ := r.rd i d hd
    have hxl : items s.h s.files l = x := by
      obtain ⟨m, h1, h2⟩ := r.txt_some hx
      rw [hl] at h1; cases h1; exact h2
    obtain ⟨g1, g2⟩ := r.good.txt d.t l hl
    rcases readPrevElem_spec g1.ring hro with ⟨R', k1, k2, k3⟩ | ⟨R', j, g, L, k1, k2, k3, k4⟩
    · rw [hxl] at k2
      simp only [k2] at ha
      cases ha
      refine ⟨_, fx, R, ?_, reader_rel (R' := R') r fun e he => by cases he⟩
      simp only [step, k1, Option.map_some, k3]
    · rw [hxl] at k2
      simp only [k2] at ha
      cases ha
      refine ⟨_, fx, R, ?_, reader_rel r fun e he => by cases he; exact ⟨l, hl, k4⟩⟩
      simp only [step, k1, Option.map_some, k3]
  | pos i =>
    simp only [astep] at ha
    obtain ⟨d, hd, ha⟩ := Option.map_eq_some_iff.mp ha
    cases ha
    obtain ⟨l, hl, hro⟩ := r.rd i d hd
    have hp : (s.rd i).org + (s.rd i).off = d.pos := by
      rcases hro.at_ with ⟨l1, u, l2, -, -, h2, -, -, h5⟩ | ⟨-, h2, -, h4⟩
      · omega
      · omega
    exact ⟨s, fx, R, by simp only [step, hp], r⟩
  | elemPos i =>
    simp only [astep] at ha
    obtain ⟨d, hd, ha⟩ := Option.bind_eq_some_iff.mp ha
    obtain ⟨j, hj, ha⟩ := Option.map_eq_some_iff.mp ha
    cases ha
    obtain ⟨l, hl, hro⟩ := r.rd i d hd
    obtain ⟨g1, g2⟩ := r.good.txt d.t l hl
    obtain ⟨l1, u, l2, g, b, rfl, e1, e2, e3⟩ := hro.last j hj
    have hb : b = some d.t := ((g1.ring.ok u (by simp)).elem g b e3).2
    subst hb
    have hn : s.h.nxt (s.txt d.t).head = fst (l1 ++ u :: l2) (s.txt d.t).head := (ring_first g1.ring.linked).1
    have hnd := (List.nodup_cons.mp g1.ring.nodup).2
    have hlen := g1.ring.length
    have he := elemPos_spec (h := s.h) (hd := (s.txt d.t).head) (e := u) (l1 := l1) (l2 := l2) (f := s.h.free + 1) (p := 0)
      (linked_right (l1 := [(s.txt d.t).head]) (by simpa using g1.ring.linked))
      (fun h => (List.nodup_append.mp hnd).2.2 u h u (by simp) rfl) (by simp at hlen; omega)
    refine ⟨s, fx, R, ?_, r⟩
    simp only [step, e1, Option.bind_some, e3, hn, he, Option.map_some, Nat.zero_add, e2]

theorem runs_sim : ∀ {ops : List Op} {s : St} {a a' : Abs} {fx : Nat → Bool} {R : Key → Option (List Nat)} {outs : List Out}, Rel s a fx R →
    aruns a ops = some (a', outs) → ∃ s' fx' R', runs s ops = some (s', outs) ∧ Rel s' a' fx' R'
  | [], s, a, a', fx, R, outs, r, h => by cases h; exact ⟨s, fx, R, rfl, r⟩
  | o :: ops, s, a, a', fx, R, outs, r, h => by
    rw [aruns] at h
    obtain ⟨⟨a1, o1⟩, h1, h2⟩ := Option.bind_eq_some_iff.mp h
    obtain ⟨⟨a2, os⟩, h3, h4⟩ := Option.map_eq_some_iff.mp h2
    cases h4
    obtain ⟨s1, fx1, R1, h5, h6⟩ := step_sim r h1
    obtain ⟨s2, fx2, R2, h7, h8⟩ := runs_sim h6 h3
    refine ⟨s2, fx2, R2, ?_, h8⟩
    rw [runs, h5, Option.bind_some]
    simp only [h7, Option.map_some]

theorem init_rel : Rel init Abs.init (fun _ => false) (fun _ => none) :=
  ⟨⟨fun _ _ h => (by cases h), fun _ _ h => (by cases h), fun _ _ _ _ _ h => (by cases h)⟩, fun _ => rfl, fun _ => rfl, rfl, rfl, fun _ _ => rfl,
    fun _ _ => rfl, fun _ h => (by cases h), fun _ h => (by cases h), fun _ _ _ h => (by cases h), fun _ _ _ h => absurd rfl h, fun _ _ h => (by cases h)⟩

/-- Any sequence of calls within the contract succeeds, and every call delivers what it delivers on lists of characters: the
characters, looks and elements read, lengths, positions, the arguments of the notifier.  Not covered: texts from files in the format
of `Store`, and what is outside the contract (see below). -/
theorem C28_texts_partial (ops : List Op) (a : Abs) (outs : List Out) (h : aruns Abs.init ops = some (a, outs)) :
    ∃ s, runs init ops = some (s, outs) := by
  obtain ⟨s, -, -, h1, -⟩ := runs_sim init_rel h
  exact ⟨s, h1⟩

/-- What is seen in a sequence of calls. -/
def seen (ops : List Op) : Option (List Out) := (runs init ops).map Prod.snd

/-- What the contract says. -/
def said (ops : List Op) : Option (List Out) := (aruns Abs.init ops).map Prod.snd

/-- An example: write "ab" and an element in red, insert it in the middle of a file, change the look of a part, copy a part, delete another, read. -/
def exOps : List Op :=
  let red : Look := ⟨some 3, 1, 2⟩
  [.open_ 0 [65, 66, 10, 68], .openWriter 0, .setLook 0 red, .write 0 97, .write 0 98, .writeElem 0 7, .bufLen 0, .insert 0 2 0, .len 0, .bufLen 0,
    .changeLooks 0 1 3 (fun i => i == 1) ⟨none, 5, 9⟩, .newBuf, .save 0 1 6 1, .delete 0 0 1, .recall, .append 0 2, .append 0 1, .len 0,
    .openReader 0 0 0, .read 0, .read 0, .read 0, .read 0, .elemPos 0, .read 0, .pos 0, .readElem 0, .elemPos 0, .readPrevElem 0, .elemPos 0,
    .openReader 0 0 12, .read 0, .read 0]

example : said exOps = some [.none, .buf (some 0), .none, .none, .none, .none, .num 3, .notify 1 2 5, .num 7, .num 0,
    .notify 0 1 3, .buf (some 1), .none, .notify 2 0 1, .buf (some 2), .notify 1 6 7, .notify 1 7 12, .num 12,
    .none, .read 66 (some ⟨some 0, 5, 0⟩) none false, .read 97 (some ⟨some 3, 5, 2⟩) none false, .read 98 (some ⟨some 3, 1, 2⟩) none false,
    .read 28 (some ⟨some 3, 1, 2⟩) (some 7) false, .elemAt (some 0) 3, .read 13 (some stdLook) none false, .num 5,
    .elem (some (7, ⟨some 3, 1, 2⟩)), .elemAt (some 0) 10, .elem (some (7, ⟨some 3, 1, 2⟩)), .elemAt (some 0) 10,
    .none, .read 0 none none true, .read 0 none none true] := by decide +kernel

example : seen exOps = said exOps := by decide +kernel

/-- `Save` of an empty stretch within a piece puts a piece of length zero into the buffer.  A reader that gets there does not leave
it: after the only character of the text it delivers characters from elsewhere, and never the end. -/
theorem C28_empty_save : seen [.open_ 0 [65, 66, 67], .newBuf, .save 0 1 1 0, .bufLen 0, .open_ 1 [88], .append 1 0, .len 1, .openReader 0 1 0,
      .read 0, .read 0, .read 0, .read 0] =
    some [.none, .buf (some 0), .none, .num 0, .none, .notify 1 1 1, .num 1, .none, .read 88 (some stdLook) none false,
      .read 66 (some stdLook) none false, .read 67 (some stdLook) none false, .read 0 (some stdLook) none false] := by decide +kernel

/-- A line end CR LF counts as two characters; when an insertion comes between them, readers miss what was inserted and the end. -/
theorem C28_crlf : seen [.open_ 0 [65, 13, 10], .openWriter 0, .write 0 88, .insert 0 2 0, .len 0, .openReader 0 0 0,
      .read 0, .read 0, .read 0, .read 0] =
    some [.none, .buf (some 0), .none, .notify 1 2 3, .num 4, .none, .read 65 (some stdLook) none false, .read 13 (some stdLook) none false,
      .read 0 (some stdLook) none false, .read 0 (some stdLook) none false] := by decide +kernel

/-- `Write` extends the last piece of the buffer if it is in the file of the writer, wherever in the file it is: after saving the
first character of a text into the buffer of the writer, writing "Z" appends the second character of that text. -/
theorem C28_writer_buffer : seen [.open_ 0 [], .openWriter 0, .write 0 65, .write 0 66, .append 0 0, .save 0 0 1 0, .write 0 90, .append 0 0,
      .openReader 0 0 2, .read 0, .read 0] =
    some [.none, .buf (some 0), .none, .none, .notify 1 0 2, .none, .none, .notify 1 2 4, .none, .read 65 (some stdLook) none false,
      .read 66 (some stdLook) none false] := by decide +kernel

/-- When there is no element, `ReadElem` leaves the reader at a position behind the end of the text. -/
theorem C28_pos_after_readElem : seen [.open_ 0 [65, 66], .openReader 0 0 1, .readElem 0, .pos 0, .len 0] =
    some [.none, .none, .elem none, .num 3, .num 2] := by decide +kernel

/-- `Copy` of a buffer of one run to itself does not end, after however many rounds: each copy becomes the next run to be copied. -/
theorem C28_copy_self : ∀ (rounds : Nat) (h : Hp) (B u : Nat), u ≠ B → B < h.free → copyLoop h B rounds u u = none
  | 0, _, _, _, _, _ => rfl
  | n + 1, h, B, u, h1, h2 => by
    rw [copyLoop, if_neg h1]
    have e : (((h.new.setRun h.free (clone (h.run u))).setNxt u h.free).setPrv h.free u).nxt u = h.free := upd_same _ _ _
    simp only [e]
    exact C28_copy_self n _ B h.free (by omega) (by show B < h.free + 1; omega)

example : seen [.openWriter 0, .write 0 65, .copy 0 0] = none := by decide +kernel

/-- A run without a font (`NIL`) makes `Merge` and `Write` fail. -/
theorem C28_no_font : seen [.openWriter 0, .setLook 0 ⟨none, 0, 0⟩, .write 0 65, .write 0 66] = none := by decide +kernel

end Verif.Texts
