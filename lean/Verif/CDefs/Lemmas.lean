import Verif.CDefs.Model
import Verif.Common

/-! # The order of definitions in C: lemmas -/
namespace Verif.CDefs

/-- With enough depth the result is this. -/
def Evals {α : Type} (f : Nat → Option α) (a : α) : Prop := ∃ n0, ∀ n, n0 ≤ n → f n = some a

theorem Evals.pure {α : Type} (a : α) : Evals (fun _ => some a) a := ⟨0, fun _ _ => rfl⟩

theorem Evals.step {α : Type} {f g : Nat → Option α} {a : α} (h : ∀ n, f (n + 1) = g n) (hg : Evals g a) : Evals f a := by
  obtain ⟨n0, hn⟩ := hg
  refine ⟨n0 + 1, fun n hle => ?_⟩
  obtain ⟨m, rfl⟩ : ∃ m, n = m + 1 := ⟨n - 1, by omega⟩
  rw [h, hn m (by omega)]

theorem Evals.bind {α β : Type} {f : Nat → Option α} {g : α → Nat → Option β} {a : α} {b : β} (hf : Evals f a) (hg : Evals (g a) b) :
    Evals (fun n => f n >>= fun x => g x n) b := by
  obtain ⟨n0, hn⟩ := hf
  obtain ⟨n1, hm⟩ := hg
  refine ⟨max n0 n1, fun n hle => ?_⟩
  have h1 := hn n (by omega)
  have h2 := hm n (by omega)
  show (f n).bind (fun x => g x n) = _
  rw [h1]; exact h2

/-! ### Texts -/

theorem Defined.mono {a b : List Item} {t : Nat} (h : Defined a t) : Defined (a ++ b) t := by
  obtain ⟨ms, h⟩ := h; exact ⟨ms, List.mem_append_left _ h⟩

theorem Complete.mono {a b : List Item} {t : Nat} (h : Complete a t) : Complete (a ++ b) t := by
  obtain ⟨it, h, hm⟩ := h; exact ⟨it, List.mem_append_left _ h, hm⟩

theorem ordered_snoc (it : Item) : ∀ (l pre : List Item), Ordered pre l → (∀ m ∈ it.mentions, MentionOk (pre ++ l) m) → (bodies it.mentions).Nodup →
    (∀ t ms, it = .typedef t ms → ¬ Defined (pre ++ l) t) → Ordered pre (l ++ [it])
  | [], pre, _, h1, h2, h3 => by
    rw [List.append_nil] at h1 h3
    exact ⟨h1, h2, h3, trivial⟩
  | a :: l, pre, h, h1, h2, h3 => by
    have e : pre ++ a :: l = (pre ++ [a]) ++ l := by simp
    rw [e] at h1 h3
    exact ⟨h.1, h.2.1, h.2.2.1, ordered_snoc it l (pre ++ [a]) h.2.2.2 h1 h2 h3⟩

theorem bodies_append (a b : List Mention) : bodies (a ++ b) = bodies a ++ bodies b := by
  induction a with
  | nil => rfl
  | cons m a ih => cases m <;> simp [bodies, ih]

theorem mem_bodies {ms : List Mention} {t : Nat} (h : Mention.body t ∈ ms) : t ∈ bodies ms := by
  induction ms with
  | nil => cases h
  | cons m ms ih =>
    rcases List.mem_cons.1 h with rfl | h'
    · exact List.mem_cons_self ..
    · have := ih h'
      cases m <;> simp [bodies, this]

/-! ### Readiness -/

/-- All that is needed for the type is defined. -/
inductive Ready (T : Tab) (mk : Nat → Mark) : Nat → Prop
  | basic {i} (h : T.node i = .basic) : Ready T mk i
  | done {i} (hn : T.named i = true) (h : mk i = .done) : Ready T mk i
  | anon {i} (hn : T.named i = false) (h : ∀ j ∈ needs T i, Ready T mk j) : Ready T mk i

theorem Ready.mono {T : Tab} {mk mk' : Nat → Mark} (hm : ∀ i, mk i = .done → mk' i = .done) {i : Nat} (h : Ready T mk i) : Ready T mk' i := by
  induction h with
  | basic h => exact .basic h
  | done hn h => exact .done hn (hm _ h)
  | anon hn _ ih => exact .anon hn ih

/-- What is known of marks and text where something is declared. -/
structure Base (T : Tab) (mk : Nat → Mark) (out : List Item) : Prop where
  nopre : ∀ i, mk i ≠ .predef
  text : ∀ i, mk i = .done → Defined out i
  named : ∀ i, mk i = .done → T.named i = true ∧ T.node i ≠ .basic
  closed : ∀ i, mk i = .done → ∀ j ∈ needs T i, Ready T mk j

theorem Base.needs {T : Tab} {mk : Nat → Mark} {out : List Item} (hb : Base T mk out) {i : Nat} (h : Ready T mk i) : ∀ j ∈ needs T i, Ready T mk j := by
  cases h with
  | basic h => intro j hj; simp [CDefs.needs, h] at hj
  | done hn h => exact hb.closed _ h
  | anon hn h => exact h

/-- The mentions are all in order, and no structure is defined in them. -/
def Fine (out : List Item) (ms : List Mention) : Prop := (∀ m ∈ ms, MentionOk out m) ∧ bodies ms = []

theorem Fine.nil (out : List Item) : Fine out [] := ⟨by simp, rfl⟩

theorem Fine.append {out : List Item} {a b : List Mention} (ha : Fine out a) (hb : Fine out b) : Fine out (a ++ b) := by
  refine ⟨fun m hm => ?_, by rw [bodies_append, ha.2, hb.2]; rfl⟩
  rcases List.mem_append.1 hm with h | h
  · exact ha.1 m h
  · exact hb.1 m h

theorem collect_run {f : Nat → Nat → Option (List Mention)} {out : List Item} : ∀ (ts : List Nat), (∀ t ∈ ts, ∃ ms, Evals (fun n => f n t) ms ∧ Fine out ms) →
    ∃ ms, Evals (fun n => collect (f n) ts) ms ∧ Fine out ms
  | [], _ => ⟨[], Evals.pure _, Fine.nil _⟩
  | t :: ts, h => by
    obtain ⟨a, ha, hfa⟩ := h t (List.mem_cons_self ..)
    obtain ⟨b, hb, hfb⟩ := collect_run ts (fun x hx => h x (List.mem_cons_of_mem _ hx))
    exact ⟨a ++ b, Evals.bind ha (Evals.bind hb (Evals.pure _)), hfa.append hfb⟩

/-- The last part of `uses`. -/
def usesNode (T : Tab) (mk : Nat → Mark) (n : Nat) (p : Bool) (t : Nat) : Option (List Mention) :=
  match T.node t with
  | .basic => some []
  | .pointer b => if (T.node b).isOpen then do let e ← elemOf T n b; uses T mk n false e else uses T mk n true b
  | .array b => uses T mk n false b
  | .openArr b => uses T mk n false b
  | .record _ _ _ => if p then some [.tag t] else if T.named t then bodyOf T mk n t else some [.whole t]
  | .proc res ps => collect (uses T mk n false) (res.toList ++ ps)

theorem uses_succ (T : Tab) (mk : Nat → Mark) (n : Nat) (p : Bool) (t : Nat) : uses T mk (n + 1) p t =
    if T.node t = .basic then some [] else if T.named t && defined T mk t && !(T.node t).isOpen then some [.name t] else usesNode T mk n p t := by
  rw [uses]; rfl

variable {T : Tab} {r : Nat → Nat} (hr : ∀ i j, Needs T i j → r j < r i)

include hr in
theorem elem_run {mk : Nat → Mark} {out : List Item} (hb : Base T mk out) : ∀ (k t : Nat), r t < k → Ready T mk t →
    ∃ e, Evals (fun n => elemOf T n t) e ∧ Ready T mk e ∧ (t = e ∨ Needs T t e)
  | 0, _, h, _ => absurd h (by omega)
  | k + 1, t, hk, ht => by
    cases hn : T.node t with
    | openArr b =>
      have hm : b ∈ CDefs.needs T t := by simp [CDefs.needs, hn]
      have hlt := hr t b (.direct hm)
      obtain ⟨e, h1, h2, h3⟩ := elem_run hb k b (by omega) (hb.needs ht b hm)
      refine ⟨e, Evals.step (fun n => (by rw [elemOf, hn])) h1, h2, Or.inr ?_⟩
      rcases h3 with rfl | h3
      · exact .direct hm
      · exact .trans (.direct hm) h3
    | _ => exact ⟨t, Evals.step (fun n => (by rw [elemOf, hn])) (Evals.pure _), ht, Or.inl rfl⟩

/-- A pointer to a record. -/
theorem tag_run {mk : Nat → Mark} {out : List Item} (hb : Base T mk out) (t : Nat) (ht : (T.node t).isRecord = true) :
    ∃ ms, Evals (fun n => uses T mk n true t) ms ∧ Fine out ms := by
  cases hn : T.node t with
  | record base fs ms =>
    by_cases hd : (T.named t && defined T mk t && !(T.node t).isOpen) = true
    · refine ⟨[.name t], Evals.step (fun n => (by rw [uses_succ, if_neg (by simp [hn]), if_pos hd])) (Evals.pure _), ?_, rfl⟩
      intro m hm
      rw [List.mem_singleton.1 hm]
      simp only [defined, hn, Bool.and_eq_true, Bool.or_eq_true, decide_eq_true_eq] at hd
      rcases hd.1.2 with (h | h) | h
      · cases h
      · exact hb.text t h
      · exact absurd h (hb.nopre t)
    · refine ⟨[.tag t], Evals.step (fun n => (by rw [uses_succ, if_neg (by simp [hn]), if_neg hd, usesNode, hn]; rfl)) (Evals.pure _), ?_, rfl⟩
      intro m hm
      rw [List.mem_singleton.1 hm]; trivial
  | _ => rw [hn] at ht; simp [Node.isRecord] at ht

include hr in
theorem uses_run {mk : Nat → Mark} {out : List Item} (hb : Base T mk out) : ∀ (k t : Nat), r t < k →
    ((∀ j ∈ CDefs.needs T t, Ready T mk j) → (∀ j, Needs T t j → Anon T j → Complete out j) → (T.node t).isRecord = false →
      ∀ p, ∃ ms, Evals (fun n => usesNode T mk n p t) ms ∧ Fine out ms) ∧
    (Ready T mk t → (∀ j, (t = j ∨ Needs T t j) → Anon T j → Complete out j) → ∀ p, ∃ ms, Evals (fun n => uses T mk n p t) ms ∧ Fine out ms)
  | 0, _, h => absurd h (by omega)
  | k + 1, t, hk => by
    have sub : ∀ j, Needs T t j → Ready T mk j → (∀ j, Needs T t j → Anon T j → Complete out j) → ∀ p, ∃ ms, Evals (fun n => uses T mk n p j) ms ∧ Fine out ms := by
      intro j hj hrd ha p
      have hlt := hr t j hj
      refine (uses_run hb k j (by omega)).2 hrd (fun i hi => ?_) p
      rcases hi with rfl | hi
      · exact ha _ hj
      · exact ha _ (.trans hj hi)
    have first : (∀ j ∈ CDefs.needs T t, Ready T mk j) → (∀ j, Needs T t j → Anon T j → Complete out j) → (T.node t).isRecord = false →
        ∀ p, ∃ ms, Evals (fun n => usesNode T mk n p t) ms ∧ Fine out ms := by
      intro hrd ha hrec p
      have direct : ∀ j ∈ CDefs.needs T t, ∀ p, ∃ ms, Evals (fun n => uses T mk n p j) ms ∧ Fine out ms := fun j hj => sub j (.direct hj) (hrd j hj) ha
      unfold usesNode
      cases hn : T.node t with
      | basic => exact ⟨[], Evals.pure _, Fine.nil _⟩
      | array b => exact direct b (by simp [CDefs.needs, hn]) false
      | openArr b => exact direct b (by simp [CDefs.needs, hn]) false
      | record base fs ms => rw [hn] at hrec; simp [Node.isRecord] at hrec
      | proc res ps =>
        exact collect_run _ (fun j hj => direct j (by simpa [CDefs.needs, hn] using hj) false)
      | pointer b =>
        by_cases ho : (T.node b).isOpen = true
        · simp only [ho, if_true]
          have hbr : (T.node b).isRecord = false := by cases h : T.node b <;> simp_all [Node.isOpen, Node.isRecord]
          have hm : b ∈ CDefs.needs T t := by simp [CDefs.needs, hn, hbr]
          obtain ⟨e, he, hre, hne⟩ := elem_run hr hb (r b + 1) b (by omega) (hrd b hm)
          have hte : Needs T t e := by
            rcases hne with rfl | hne
            · exact .direct hm
            · exact .trans (.direct hm) hne
          obtain ⟨ms, h1, h2⟩ := sub e hte hre ha false
          exact ⟨ms, Evals.bind he h1, h2⟩
        · simp only [ho]
          by_cases hbr : (T.node b).isRecord = true
          · exact tag_run hb b hbr
          · exact direct b (by simp [CDefs.needs, hn, hbr]) true
    refine ⟨first, fun hrd ha p => ?_⟩
    by_cases hbas : T.node t = .basic
    · exact ⟨[], Evals.step (fun n => (by rw [uses_succ, if_pos hbas])) (Evals.pure _), Fine.nil _⟩
    by_cases hd : (T.named t && defined T mk t && !(T.node t).isOpen) = true
    · refine ⟨[.name t], Evals.step (fun n => (by rw [uses_succ, if_neg hbas, if_pos hd])) (Evals.pure _), ?_, rfl⟩
      intro m hm
      rw [List.mem_singleton.1 hm]
      simp only [defined, hbas, Bool.and_eq_true, Bool.or_eq_true, decide_eq_true_eq] at hd
      rcases hd.1.2 with (h | h) | h
      · exact absurd h (by simp)
      · exact hb.text t h
      · exact absurd h (hb.nopre t)
    · have hst : ∀ n, uses T mk (n + 1) p t = usesNode T mk n p t := fun n => by rw [uses_succ, if_neg hbas, if_neg hd]
      by_cases hrec : (T.node t).isRecord = true
      · have hun : T.named t = false := by
          cases hrd with
          | basic h => exact absurd h hbas
          | anon hn _ => exact hn
          | done hn h =>
            exfalso; apply hd
            have : (T.node t).isOpen = false := by cases h : T.node t <;> simp_all [Node.isOpen, Node.isRecord]
            simp [hn, defined, h, this]
        cases hn : T.node t with
        | record base fs ms =>
          cases p
          · refine ⟨[.whole t], Evals.step hst (g := fun n => usesNode T mk n false t) ?_, ?_, rfl⟩
            · unfold usesNode; simp only [hn, hun]; exact Evals.pure _
            · intro m hm
              rw [List.mem_singleton.1 hm]
              exact ha t (Or.inl rfl) ⟨hun, hrec⟩
          · refine ⟨[.tag t], Evals.step hst (g := fun n => usesNode T mk n true t) ?_, ?_, rfl⟩
            · unfold usesNode; simp only [hn]; exact Evals.pure _
            · intro m hm
              rw [List.mem_singleton.1 hm]; trivial
        | _ => rw [hn] at hrec; simp [Node.isRecord] at hrec
      · obtain ⟨ms, h1, h2⟩ := first (hb.needs hrd) (fun j hj => ha j (Or.inr hj)) (by simpa using hrec) p
        exact ⟨ms, Evals.step hst h1, h2⟩

include hr in
theorem fields_run {mk : Nat → Mark} {out : List Item} (hb : Base T mk out) : ∀ (k t : Nat), r t < k → (∀ j ∈ CDefs.needs T t, Ready T mk j) →
    (∀ j, Needs T t j → Anon T j → Complete out j) → ∃ ms, Evals (fun n => fieldsOf T mk n t) ms ∧ Fine out ms
  | 0, _, h, _, _ => absurd h (by omega)
  | k + 1, t, hk, hrd, ha => by
    cases hn : T.node t with
    | record base fs ps =>
      have hl : ∃ ms, Evals (fun n => collect (uses T mk n false) fs) ms ∧ Fine out ms := by
        refine collect_run _ (fun j hj => ?_)
        have hm : j ∈ CDefs.needs T t := by simp [CDefs.needs, hn, hj]
        refine (uses_run hr hb (r j + 1) j (by omega)).2 (hrd j hm) (fun i hi => ?_) false
        rcases hi with rfl | hi
        · exact ha _ (.direct hm)
        · exact ha _ (.trans (.direct hm) hi)
      obtain ⟨l, hl, hfl⟩ := hl
      have hbs : ∃ ms, Evals (fun n => (match base with | none => some [] | some b => fieldsOf T mk n b)) ms ∧ Fine out ms := by
        cases base with
        | none => exact ⟨[], Evals.pure _, Fine.nil _⟩
        | some b =>
          have hm : b ∈ CDefs.needs T t := by simp [CDefs.needs, hn]
          have hlt := hr t b (.direct hm)
          exact fields_run hb k b (by omega) (hb.needs (hrd b hm)) (fun j hj => ha j (.trans (.direct hm) hj))
      obtain ⟨b, hbs, hfb⟩ := hbs
      have hall : Evals (fun n => do
          let b ← (match base with | none => some [] | some b => fieldsOf T mk n b)
          let l ← collect (uses T mk n false) fs
          some (b ++ l)) (b ++ l) := Evals.bind hbs (Evals.bind hl (Evals.pure _))
      refine ⟨b ++ l, Evals.step (fun n => ?_) hall, hfb.append hfl⟩
      rw [fieldsOf, hn]
      cases base <;> rfl
    | _ => exact ⟨[], Evals.step (fun n => (by rw [fieldsOf, hn])) (Evals.pure _), Fine.nil _⟩

include hr in
theorem body_run {mk : Nat → Mark} {out : List Item} (hb : Base T mk out) (t : Nat) (hrd : ∀ j ∈ CDefs.needs T t, Ready T mk j)
    (ha : ∀ j, Needs T t j → Anon T j → Complete out j) : ∃ ms, Evals (fun n => bodyOf T mk n t) (.body t :: ms) ∧ Fine out ms := by
  obtain ⟨ms, h1, h2⟩ := fields_run hr hb (r t + 1) t (by omega) hrd ha
  exact ⟨ms, Evals.step (fun n => (by rw [bodyOf])) (Evals.bind h1 (Evals.pure _)), h2⟩

end Verif.CDefs
