import Verif.Common
import Verif.Cmdline.Model
import Mathlib.Data.List.Forall2

/-!
# C70: the command line
-/
namespace Verif.Cmdline

/-! ### One argument -/

/-- What an item does. -/
def applyItem (s : Settings) : Item → Settings
  | .flag c => scanFlag c s
  | .model c => { s with model := c }
  | .machine a b => { s with address := (a.toNat : Int) - 48, alignment := (b.toNat : Int) - 48 }
  | .bareO => s
  | .bareA => s

theorem texts_cons (i : Item) (l : List Item) : texts (i :: l) = i.text ++ texts l := rfl

theorem scanFrom_texts (l : List Item) (h : Fits l) (s : Settings) : scanFrom s (texts l) = l.foldl applyItem s := by
  induction l generalizing s with
  | nil => rfl
  | cons i l ih =>
    cases i with
    | flag c =>
      obtain ⟨h1, h2, h3⟩ := h
      rw [texts_cons, List.foldl_cons, ← ih h3]
      show scanFrom s (c :: texts l) = _
      rw [scanFrom.eq_6]
      · rfl
      · intro h _; exact h1 h
      · intro c' cs h _; exact h1 h
      · intro a b cs h _; exact h2 h
      · exact h2
    | model c => exact ih h _
    | machine a b => exact ih h _
    | bareO => rw [show l = [] from h]; rfl
    | bareA =>
      obtain ⟨h1, h2⟩ := h
      rw [texts_cons, List.foldl_cons]
      show scanFrom s ('A' :: texts l) = l.foldl applyItem s
      rw [← ih h2]
      generalize texts l = t at h1
      match t, h1 with
      | [], _ => rfl
      | [c], _ => rfl

theorem flag_bit (c : Char) (s : Settings) (o : Opt) :
    (scanFlag c s).options.testBit o.bit = ((s.options.testBit o.bit) ^^ (c = o.letter)) := by
  have key : ∀ o' : Opt, (toggle o' s).options.testBit o.bit = ((s.options.testBit o.bit) ^^ decide (o'.bit = o.bit)) := by
    intro o'
    simp only [toggle, Nat.testBit_xor, Nat.testBit_two_pow]
  unfold scanFlag
  split
  case h_15 =>
    have : decide (c = o.letter) = false := by
      rw [decide_eq_false_iff_not]
      rintro rfl
      cases o <;> simp_all [Opt.letter]
    rw [this, Bool.xor_false]
  all_goals rw [key]; cases o <;> rfl

theorem given_cons (o : Opt) (i : Item) (l : List Item) : given o (i :: l) = given o l + if i = .flag o.letter then 1 else 0 := by
  unfold given
  rw [List.count_cons]
  by_cases h : i = .flag o.letter
  · simp [h]
  · simp [h]

theorem xor_odd (b : Bool) (n : Nat) : ((b ^^ true) ^^ decide (n % 2 = 1)) = (b ^^ decide ((n + 1) % 2 = 1)) := by
  rcases Nat.mod_two_eq_zero_or_one n with h | h
  · have h' : (n + 1) % 2 = 1 := by omega
    rw [h, h']; cases b <;> rfl
  · have h' : (n + 1) % 2 = 0 := by omega
    rw [h, h']; cases b <;> rfl

theorem items_bit (l : List Item) (s : Settings) (o : Opt) :
    (l.foldl applyItem s).options.testBit o.bit = ((s.options.testBit o.bit) ^^ decide (given o l % 2 = 1)) := by
  induction l generalizing s with
  | nil => exact (Bool.xor_false _).symm
  | cons i l ih =>
    rw [List.foldl_cons, ih, given_cons]
    cases i with
    | flag c =>
      simp only [applyItem, flag_bit]
      by_cases hc : c = o.letter
      · rw [if_pos (by rw [hc]), decide_eq_true hc]
        exact xor_odd _ _
      · rw [if_neg (by simpa using hc), decide_eq_false hc, Bool.xor_false]
        rfl
    | _ => rw [if_neg (by simp)]; rfl

theorem items_model (l : List Item) (s : Settings) : (l.foldl applyItem s).model = lastModel l s.model := by
  induction l generalizing s with
  | nil => rfl
  | cons i l ih =>
    rw [List.foldl_cons, ih]
    cases i with
    | flag c =>
      have : (scanFlag c s).model = s.model := by unfold scanFlag; split <;> rfl
      simp only [applyItem, lastModel, this]
    | _ => rfl

theorem items_machine (l : List Item) (s : Settings) :
    ((l.foldl applyItem s).address, (l.foldl applyItem s).alignment) = lastMachine l (s.address, s.alignment) := by
  induction l generalizing s with
  | nil => rfl
  | cons i l ih =>
    rw [List.foldl_cons, ih]
    cases i with
    | flag c =>
      have : (scanFlag c s).address = s.address ∧ (scanFlag c s).alignment = s.alignment := by
        unfold scanFlag; split <;> exact ⟨rfl, rfl⟩
      simp only [applyItem, lastMachine, this]
    | _ => rfl

/-! ### The arguments -/

theorem scanArgs_items (ls : List (List Item)) (h : ∀ l ∈ ls, Fits l ∧ (texts l).length ≤ 254) (s : Settings) (rest : List (List Char))
    (hr : (getArg rest).head? ≠ some '-') :
    scanArgs s (ls.map (fun l => '-' :: texts l) ++ rest) = (ls.flatten.foldl applyItem s, rest) := by
  induction ls generalizing s with
  | nil =>
    cases rest with
    | nil => rfl
    | cons a rest =>
      simp only [List.map_nil, List.nil_append, List.flatten_nil, List.foldl_nil, scanArgs]
      rw [if_neg hr]
  | cons l ls ih =>
    obtain ⟨h1, h2⟩ := h l List.mem_cons_self
    have ht : ∀ r, getArg (('-' :: texts l) :: r) = '-' :: texts l := by
      intro r
      exact List.take_of_length_le (by simp only [List.length_cons]; omega)
    simp only [List.map_cons, List.cons_append, scanArgs, ht, List.head?_cons, if_true, List.flatten_cons, List.foldl_append]
    rw [ih (fun l hl => h l (List.mem_cons_of_mem _ hl))]
    congr 2
    exact scanFrom_texts l h1 s

/-! ### The specification of what is done -/

/-- The settings `s` are those the items `l` ask for. -/
structure Meets (host : Int × Int) (l : List Item) (s : Settings) : Prop where
  opts : ∀ o : Opt, o ≠ .mainprog → (s.options.testBit o.bit = true ↔ On o l)
  /-- `-M` implies `-m`. -/
  main : s.options.testBit Opt.mainprog.bit = true ↔ On .mainprog l ∨ On .mainlinkstat l
  model : s.model = lastModel l '2'
  machine : (s.address, s.alignment) = lastMachine l host

/-- What is done with a file, all going well. -/
inductive Done (host : Int × Int) (l : List Item) (name : List Char) : List Act → Prop
  | noC (s) : Meets host l s → On .dontasm l → Done host l name [.compile name s]
  | object (s) : Meets host l s → ¬On .dontasm l → (On .dontlink l ∨ ¬(On .mainprog l ∨ On .mainlinkstat l)) →
      Done host l name [.compile name s, .assemble name s]
  | program (s) (static : Bool) : Meets host l s → ¬On .dontasm l → ¬On .dontlink l → (On .mainprog l ∨ On .mainlinkstat l) →
      (static = true ↔ On .mainlinkstat l) → Done host l name [.compile name s, .link name s static]

theorem on_iff (host : Int × Int) (o : Opt) (l : List Item) : (l.foldl applyItem (initial host)).options.testBit o.bit = true ↔ On o l := by
  rw [items_bit]
  have hd : (initial host).options.testBit o.bit = o.default := by
    show Nat.testBit 169 o.bit = _
    cases o <;> decide
  rw [hd]
  unfold On
  cases o.default
  · simp
  · simp

/-- The settings for a file. -/
theorem init_meets (host : Int × Int) (l l' : List Item) (s : Settings)
    (hs : s = (l ++ l').foldl applyItem (initial host)) :
    Meets host (l ++ l') (if s.options.testBit 15 then { s with options := s.options ||| 2 ^ 10 } else s) := by
  have h15 : s.options.testBit 15 = true ↔ On .mainlinkstat (l ++ l') := by
    rw [hs]; exact on_iff host .mainlinkstat (l ++ l')
  have ho : ∀ o : Opt, s.options.testBit o.bit = true ↔ On o (l ++ l') := by
    intro o; rw [hs]; exact on_iff host o _
  have hm : s.model = lastModel (l ++ l') '2' := by rw [hs]; exact items_model _ _
  have ha : (s.address, s.alignment) = lastMachine (l ++ l') host := by rw [hs]; exact items_machine _ _
  by_cases h : s.options.testBit 15 = true
  · rw [if_pos h]
    refine ⟨?_, ?_, hm, ha⟩
    · intro o hno
      rw [← ho o]
      show (s.options ||| 2 ^ 10).testBit o.bit = true ↔ _
      rw [Nat.testBit_or, Nat.testBit_two_pow]
      have : decide (10 = o.bit) = false := by cases o <;> first | rfl | exact absurd rfl hno
      rw [this, Bool.or_false]
    · show (s.options ||| 2 ^ 10).testBit 10 = true ↔ _
      rw [Nat.testBit_or, Nat.testBit_two_pow]
      simp [h15.1 h]
  · rw [if_neg h]
    refine ⟨fun o _ => ho o, ?_, hm, ha⟩
    rw [ho .mainprog]
    exact ⟨.inl, fun h' => h'.elim id fun h' => absurd (h15.2 h') h⟩

theorem toC_done {host : Int × Int} {l : List Item} {name : List Char} {s : Settings} (h : Meets host l s) :
    Done host l name (.compile name s :: (toC name s).toList) ∧ ((toC name s).isSome = true ↔ ¬On .dontasm l) := by
  have h13 : s.options.testBit 13 = true ↔ _ := h.opts .dontasm (by decide)
  have h14 : s.options.testBit 14 = true ↔ _ := h.opts .dontlink (by decide)
  have h15 : s.options.testBit 15 = true ↔ _ := h.opts .mainlinkstat (by decide)
  have h10 : s.options.testBit 10 = true ↔ _ := h.main
  unfold toC
  cases e13 : s.options.testBit 13 with
  | true => exact ⟨.noC s h (h13.1 e13), by simp [h13.1 e13]⟩
  | false =>
    have n13 : ¬On .dontasm l := fun hc => by rw [h13.2 hc] at e13; cases e13
    cases e14 : s.options.testBit 14 with
    | true => exact ⟨.object s h n13 (.inl (h14.1 e14)), by simp [n13]⟩
    | false =>
      have n14 : ¬On .dontlink l := fun hc => by rw [h14.2 hc] at e14; cases e14
      cases e10 : s.options.testBit 10 with
      | false => exact ⟨.object s h n13 (.inr fun hc => by rw [h10.2 hc] at e10; cases e10), by simp [n13]⟩
      | true => exact ⟨.program s _ h n13 n14 (h10.1 e10) h15, by simp [n13]⟩

/-! ### The C compiler -/

/-- **C70, the C compiler.**  When the C compiler fails, the exit status of `voc` is the exit status of the C compiler, or the signal that
ended it; when it succeeds, the next file is compiled. -/
theorem C70_cc (w code : Nat) (h : Ended w code) :
    (code = 0 → execute w = none) ∧ (code ≠ 0 → ∃ x, execute w = some x ∧ x % 256 = code) := by
  cases h with
  | exit c hc =>
    constructor
    · intro h0; subst h0; rfl
    · intro h0
      have hr : int16 (256 * code) = if code < 128 then 256 * (code : Int) else 256 * (code : Int) - 65536 := by
        unfold int16
        split <;> push_cast <;> omega
      unfold execute
      dsimp only
      rw [hr]
      refine ⟨_, if_pos (by split <;> omega), ?_⟩
      split
      · have e1 : (256 * (code : Int)) % 128 = 0 := by omega
        have e2 : (256 * (code : Int)) / 256 = code := by omega
        rw [e1, e2, if_neg (by simp), if_neg (by omega)]
        omega
      · have e1 : (256 * (code : Int) - 65536) % 128 = 0 := by omega
        have e2 : (256 * (code : Int) - 65536) / 256 = code - 256 := by omega
        rw [e1, e2, if_neg (by simp), if_neg (by omega)]
        omega
  | signal s h1 h2 =>
    refine ⟨fun h0 => by omega, fun _ => ?_⟩
    have hr : int16 w = (w : Int) := by unfold int16; omega
    unfold execute
    dsimp only
    rw [hr]
    refine ⟨_, if_pos (by omega), ?_⟩
    rw [if_pos (by omega)]
    omega
  | core s h1 h2 =>
    refine ⟨fun h0 => by omega, fun _ => ?_⟩
    have hr : int16 (code + 128) = (code : Int) + 128 := by unfold int16; push_cast; omega
    unfold execute
    dsimp only
    rw [hr]
    refine ⟨_, if_pos (by omega), ?_⟩
    rw [if_pos (by omega)]
    omega

/-! ### All files -/

/-- All goes well with file number `n`. -/
def Good (w : World) (c : Cmd) (n : Nat) (f : List Char × List (List Item)) : Prop :=
  w.found n = true ∧ w.compiled n = true ∧ (On .dontasm (c.items f) ∨ w.system n = 0)

/-- The arguments for some files. -/
def fileArgs (fs : List (List Char × List (List Item))) : List (List Char) :=
  (fs.map fun f => f.1 :: f.2.map fun l => '-' :: texts l).flatten

theorem fileArgs_head {c : Cmd} (hc : c.Ok) {fs : List (List Char × List (List Item))} (hf : ∀ f ∈ fs, f ∈ c.files) :
    (getArg (fileArgs fs)).head? ≠ some '-' := by
  cases fs with
  | nil => simp [fileArgs, getArg]
  | cons f fs =>
    have h1 := (hc.name f (hf f List.mem_cons_self)).1
    have e : getArg (fileArgs (f :: fs)) = f.1.take 255 := rfl
    rw [e]
    cases hn : f.1 with
    | nil => simp
    | cons x xs => rw [hn] at h1; simpa using h1

theorem translate_cons (w : World) (global : Settings) (fuel n : Nat) (a : List Char) (rest : List (List Char)) :
    translate w global (fuel + 1) n (a :: rest) =
      match round w global n (getArg (a :: rest)) rest with
      | (as, some e, _) => (as, e)
      | (as, none, rest) => (as ++ (translate w global fuel (n + 1) rest).1, (translate w global fuel (n + 1) rest).2) := rfl

/-- The result of `translate`, in terms of the files. -/
theorem translate_spec (w : World) (host : Int × Int) (c : Cmd) (hc : c.Ok) (fs : List (List Char × List (List Item)))
    (hf : ∀ f ∈ fs, f ∈ c.files) (fuel n : Nat) (hfu : fs.length ≤ fuel) :
    ∃ ss : List (List Act), List.Forall₂ (fun f as => Done host (c.items f) f.1 as) fs ss ∧
      (translate w (c.all.flatten.foldl applyItem (initial host)) fuel n (fileArgs fs)).1 <+: ss.flatten ∧
      ((∀ i (hi : i < fs.length), Good w c (n + i) fs[i]) →
        translate w (c.all.flatten.foldl applyItem (initial host)) fuel n (fileArgs fs) = (ss.flatten, 0)) ∧
      (∀ i (hi : i < fs.length), (∀ j (hj : j < i), Good w c (n + j) (fs[j]'(by omega))) → w.found (n + i) = false →
        translate w (c.all.flatten.foldl applyItem (initial host)) fuel n (fileArgs fs) = ((ss.take i).flatten, 0)) ∧
      (∀ i (hi : i < fs.length), (∀ j (hj : j < i), Good w c (n + j) (fs[j]'(by omega))) → w.found (n + i) = true →
        (w.compiled (n + i) = false →
          (translate w (c.all.flatten.foldl applyItem (initial host)) fuel n (fileArgs fs)).2 = 1) ∧
        (w.compiled (n + i) = true → ¬On .dontasm (c.items fs[i]) → ∀ x, execute (w.system (n + i)) = some x →
          (translate w (c.all.flatten.foldl applyItem (initial host)) fuel n (fileArgs fs)).2 = x % 256)) := by
  induction fs generalizing fuel n with
  | nil =>
    refine ⟨[], .nil, ?_, ?_, ?_, ?_⟩
    · cases fuel <;> exact List.prefix_refl _
    · intro _; cases fuel <;> rfl
    · intro i hi; exact absurd hi (by simp)
    · intro i hi; exact absurd hi (by simp)
  | cons f fs ih =>
    obtain ⟨fuel, rfl⟩ : ∃ k, fuel = k + 1 := ⟨fuel - 1, by simp only [List.length_cons] at hfu; omega⟩
    obtain ⟨ss, i1, i2, i3, i4, i5⟩ := ih (fun f hm => hf f (List.mem_cons_of_mem _ hm)) fuel (n + 1)
      (by simp only [List.length_cons] at hfu; omega)
    have hfm := hf f List.mem_cons_self
    have hname : getArg (fileArgs (f :: fs)) = f.1 := by
      show f.1.take 255 = f.1
      exact List.take_of_length_le (hc.name f hfm).2
    let s0 := (c.all.flatten ++ f.2.flatten).foldl applyItem (initial host)
    let s := if s0.options.testBit 15 then { s0 with options := s0.options ||| 2 ^ 10 } else s0
    have hscan : initOptions (c.all.flatten.foldl applyItem (initial host)) (f.2.map (fun l => '-' :: texts l) ++ fileArgs fs) =
        (s, fileArgs fs) := by
      unfold initOptions
      rw [scanArgs_items f.2 (hc.own f hfm) _ _ (fileArgs_head hc fun f hm => hf f (List.mem_cons_of_mem _ hm))]
      show (_, _) = (_, _)
      rw [← List.foldl_append]
    have hmeets : Meets host (c.items f) s := init_meets host c.all.flatten f.2.flatten s0 rfl
    clear_value s
    obtain ⟨hdone, hsome⟩ := toC_done (name := f.1) hmeets
    generalize hw : translate w (c.all.flatten.foldl applyItem (initial host)) fuel (n + 1) (fileArgs fs) = tail at i2 i3 i4 i5
    have e : translate w (c.all.flatten.foldl applyItem (initial host)) (fuel + 1) n (fileArgs (f :: fs)) =
        if !w.found n then ([], 0)
        else if !w.compiled n then ([.compile f.1 s], 1)
        else match toC f.1 s with
          | none => (.compile f.1 s :: tail.1, tail.2)
          | some act => match execute (w.system n) with
            | some code => ([.compile f.1 s, act], code % 256)
            | none => (.compile f.1 s :: act :: tail.1, tail.2) := by
      have ha : fileArgs (f :: fs) = f.1 :: (f.2.map (fun l => '-' :: texts l) ++ fileArgs fs) := rfl
      rw [ha] at hname ⊢
      rw [translate_cons, hname]
      unfold round
      rw [hscan]
      cases w.found n
      · rfl
      cases w.compiled n
      · rfl
      dsimp only [Bool.not_true]
      cases toC f.1 s with
      | none => simp [hw]
      | some act =>
        cases execute (w.system n) with
        | none => simp [hw]
        | some code => simp
    refine ⟨(.compile f.1 s :: (toC f.1 s).toList) :: ss, .cons hdone i1, ?_, ?_, ?_, ?_⟩
    · rw [e, List.flatten_cons]
      split
      · exact List.nil_prefix
      split
      · exact ⟨(toC f.1 s).toList ++ ss.flatten, rfl⟩
      cases ht : toC f.1 s with
      | none => simpa using i2
      | some act =>
        cases execute (w.system n) with
        | some code => exact ⟨ss.flatten, rfl⟩
        | none => simpa using i2
    · intro hg
      obtain ⟨g1, g2, g3⟩ := hg 0 (by simp)
      have i3' := i3 fun i hi => by
        have := hg (i + 1) (by simp only [List.length_cons]; omega)
        rw [show n + 1 + i = n + (i + 1) by omega]; exact this
      simp only [Nat.add_zero] at g1 g2 g3
      rw [e, g1, g2, i3']
      simp only [Bool.not_true, Bool.false_eq_true, if_false, List.flatten_cons]
      cases ht : toC f.1 s with
      | none => rfl
      | some act =>
        have : ¬On .dontasm (c.items f) := hsome.1 (by rw [ht]; rfl)
        rcases g3 with g3 | g3
        · exact absurd g3 this
        · rw [g3]; rfl
    · intro i hi hg hnf
      cases i with
      | zero =>
        rw [e]
        have : w.found n = false := hnf
        rw [this]; rfl
      | succ i =>
        obtain ⟨g1, g2, g3⟩ := hg 0 (by omega)
        have i4' := i4 i (by simp only [List.length_cons] at hi; omega) (fun j hj => by
          have := hg (j + 1) (by omega)
          rw [show n + 1 + j = n + (j + 1) by omega]; exact this) (by rw [show n + 1 + i = n + (i + 1) by omega]; exact hnf)
        simp only [Nat.add_zero] at g1 g2 g3
        rw [e, g1, g2, i4']
        simp only [Bool.not_true, Bool.false_eq_true, if_false, List.take_succ_cons, List.flatten_cons]
        cases ht : toC f.1 s with
        | none => rfl
        | some act =>
          have : ¬On .dontasm (c.items f) := hsome.1 (by rw [ht]; rfl)
          rcases g3 with g3 | g3
          · exact absurd g3 this
          · rw [g3]; rfl
    · intro i hi hg hfd
      cases i with
      | zero =>
        simp only [Nat.add_zero, List.getElem_cons_zero] at hfd ⊢
        rw [e, hfd]
        constructor
        · intro hcm; rw [hcm]; rfl
        · intro hcm hna x hx
          rw [hcm]
          simp only [Bool.not_true, Bool.false_eq_true, if_false]
          have := hsome.2 hna
          cases ht : toC f.1 s with
          | none => rw [ht] at this; cases this
          | some act => simp only [hx]
      | succ i =>
        obtain ⟨g1, g2, g3⟩ := hg 0 (by omega)
        have i5' := i5 i (by simp only [List.length_cons] at hi; omega) (fun j hj => by
          have := hg (j + 1) (by omega)
          rw [show n + 1 + j = n + (j + 1) by omega]; exact this) (by rw [show n + 1 + i = n + (i + 1) by omega]; exact hfd)
        simp only [Nat.add_zero] at g1 g2 g3
        rw [show n + 1 + i = n + (i + 1) by omega] at i5'
        have e' : (translate w (c.all.flatten.foldl applyItem (initial host)) (fuel + 1) n (fileArgs (f :: fs))).2 = tail.2 := by
          rw [e, g1, g2]
          simp only [Bool.not_true, Bool.false_eq_true, if_false]
          cases ht : toC f.1 s with
          | none => rfl
          | some act =>
            have : ¬On .dontasm (c.items f) := hsome.1 (by rw [ht]; rfl)
            rcases g3 with g3 | g3
            · exact absurd g3 this
            · rw [g3]; rfl
        rw [e']
        exact i5'

theorem length_flatten_ge (fs : List (List Char × List (List Item))) : fs.length ≤ (fileArgs fs).length := by
  induction fs with
  | nil => simp
  | cons f fs ih =>
    have : fileArgs (f :: fs) = f.1 :: (f.2.map (fun l => '-' :: texts l) ++ fileArgs fs) := rfl
    rw [this]; simp only [List.length_cons, List.length_append]; omega

theorem voc_eq (w : World) (host : Int × Int) (c : Cmd) (hc : c.Ok) :
    voc w host c.args = translate w (c.all.flatten.foldl applyItem (initial host)) c.args.length 0 (fileArgs c.files) := by
  have hargs : c.args = c.all.map (fun l => '-' :: texts l) ++ fileArgs c.files := rfl
  unfold voc
  split
  · next h =>
    rw [h]
    rw [hargs, List.append_eq_nil_iff] at h
    rw [h.2]; rfl
  · have : openPar host c.args = (c.all.flatten.foldl applyItem (initial host), fileArgs c.files) := by
      rw [hargs]
      exact scanArgs_items c.all hc.all _ _ (fileArgs_head hc fun f hm => hm)
    rw [this]

theorem voc_spec (w : World) (host : Int × Int) (c : Cmd) (hc : c.Ok) :
    ∃ ss : List (List Act), List.Forall₂ (fun f as => Done host (c.items f) f.1 as) c.files ss ∧
      (voc w host c.args).1 <+: ss.flatten ∧
      ((∀ i (hi : i < c.files.length), Good w c (0 + i) c.files[i]) →
        voc w host c.args = (ss.flatten, 0)) ∧
      (∀ i (hi : i < c.files.length), (∀ j (hj : j < i), Good w c (0 + j) (c.files[j]'(by omega))) → w.found (0 + i) = false →
        voc w host c.args = ((ss.take i).flatten, 0)) ∧
      (∀ i (hi : i < c.files.length), (∀ j (hj : j < i), Good w c (0 + j) (c.files[j]'(by omega))) → w.found (0 + i) = true →
        (w.compiled (0 + i) = false →
          (voc w host c.args).2 = 1) ∧
        (w.compiled (0 + i) = true → ¬On .dontasm (c.items c.files[i]) → ∀ x, execute (w.system (0 + i)) = some x →
          (voc w host c.args).2 = x % 256)) := by
  have := translate_spec w host c hc c.files (fun f hm => hm) c.args.length 0 (by
    have := length_flatten_ge c.files
    have hargs : c.args = c.all.map (fun l => '-' :: texts l) ++ fileArgs c.files := rfl
    rw [hargs, List.length_append]; omega)
  rw [← voc_eq w host c hc] at this
  exact this

/-! ### The theorems -/

/-- **C70, options.**  Whatever the command line, files are compiled in the order in which they are given, each with the settings that the
options for all files and its own ask for, and nothing else is done: options of other files have no effect.  If nothing fails, all
files are compiled, their C texts are compiled and linked as the options say, and the exit status is 0. -/
theorem C70_options (w : World) (host : Int × Int) (c : Cmd) (hc : c.Ok) :
    ∃ ss : List (List Act), List.Forall₂ (fun f as => Done host (c.items f) f.1 as) c.files ss ∧
      (voc w host c.args).1 <+: ss.flatten ∧
      ((∀ i (hi : i < c.files.length), Good w c i c.files[i]) → voc w host c.args = (ss.flatten, 0)) := by
  obtain ⟨ss, h1, h2, h3, -⟩ := voc_spec w host c hc
  exact ⟨ss, h1, h2, fun hg => h3 fun i hi => by rw [Nat.zero_add]; exact hg i hi⟩

/-- **C70, any argument.**  Every argument that begins with a hyphen is a list of items: so `C70_options` speaks of all command lines. -/
theorem C70_every_argument (cs : List Char) : ∃ l, Fits l ∧ texts l = cs := by
  have key : ∀ n (cs : List Char), cs.length ≤ n → ∃ l, Fits l ∧ texts l = cs := by
    intro n
    induction n with
    | zero => intro cs h; exact ⟨[], trivial, by rw [List.length_eq_zero_iff.1 (show cs.length = 0 by omega)]; rfl⟩
    | succ n ih =>
      intro cs h
      match cs, h with
      | [], _ => exact ⟨[], trivial, rfl⟩
      | c :: cs, h =>
        simp only [List.length_cons] at h
        by_cases hO : c = 'O'
        · subst hO
          match cs, h with
          | [], _ => exact ⟨[.bareO], rfl, rfl⟩
          | x :: cs, h =>
            simp only [List.length_cons] at h
            obtain ⟨l, h1, h2⟩ := ih cs (by omega)
            exact ⟨.model x :: l, h1, by rw [texts_cons, h2]; rfl⟩
        · by_cases hA : c = 'A'
          · subst hA
            match cs, h with
            | [], _ => exact ⟨[.bareA], ⟨by simp [texts], trivial⟩, rfl⟩
            | [x], h =>
              obtain ⟨l, h1, h2⟩ := ih [x] (by simpa using h)
              exact ⟨.bareA :: l, ⟨by rw [h2]; simp, h1⟩, by rw [texts_cons, h2]; rfl⟩
            | x :: y :: cs, h =>
              simp only [List.length_cons] at h
              obtain ⟨l, h1, h2⟩ := ih cs (by omega)
              exact ⟨.machine x y :: l, h1, by rw [texts_cons, h2]; rfl⟩
          · obtain ⟨l, h1, h2⟩ := ih cs (by omega)
            exact ⟨.flag c :: l, ⟨hO, hA, h1⟩, by rw [texts_cons, h2]; rfl⟩
  exact key cs.length cs le_rfl

/-- **C70, any command line.**  Lists of arguments are command lines. -/
theorem C70_every_command_line (args : List (List Char)) : ∃ c : Cmd, c.args = args ∧
    (∀ l ∈ c.all, Fits l) ∧ (∀ f ∈ c.files, f.1.head? ≠ some '-' ∧ ∀ l ∈ f.2, Fits l) := by
  induction args with
  | nil => exact ⟨⟨[], []⟩, rfl, by simp, by simp⟩
  | cons a args ih =>
    obtain ⟨c, rfl, h1, h2⟩ := ih
    by_cases ha : a.head? = some '-'
    · match a, ha with
      | x :: cs, ha =>
        simp only [List.head?_cons, Option.some.injEq] at ha
        subst ha
        obtain ⟨l, hl, rfl⟩ := C70_every_argument cs
        refine ⟨⟨l :: c.all, c.files⟩, rfl, ?_, h2⟩
        intro l' hl'
        rcases List.mem_cons.1 hl' with rfl | hl'
        · exact hl
        · exact h1 l' hl'
    · refine ⟨⟨[], (a, c.all) :: c.files⟩, rfl, by simp, ?_⟩
      intro f hf
      rcases List.mem_cons.1 hf with rfl | hf
      · exact ⟨ha, h1⟩
      · exact h2 f hf

/-- **C70, exit status.**  If all files are there, the exit status is 0 exactly if all of them have been compiled, with their C texts.

Partial: a file that is not there is not an error, see `C70_missing_file`. -/
theorem C70_exit_partial (w : World) (host : Int × Int) (c : Cmd) (hc : c.Ok) (hw : ∀ n, ∃ code, Ended (w.system n) code)
    (hfd : ∀ i, i < c.files.length → w.found i = true) :
    (voc w host c.args).2 = 0 ↔ ∀ i (hi : i < c.files.length), Good w c i c.files[i] := by
  obtain ⟨ss, h1, h2, h3, h4, h5⟩ := voc_spec w host c hc
  constructor
  · intro h
    by_contra hbad
    have hex : ∃ i, ∃ hi : i < c.files.length, ¬Good w c i c.files[i] := by
      by_contra hn
      exact hbad fun i hi => by
        by_contra hg
        exact hn ⟨i, hi, hg⟩
    classical
    let i := Nat.find hex
    obtain ⟨hi, hg⟩ := Nat.find_spec hex
    have hlt : ∀ j (hj : j < i), Good w c (0 + j) (c.files[j]'(by omega)) := by
      intro j hj
      have := Nat.find_min hex hj
      rw [Nat.zero_add]
      by_contra hb
      exact this ⟨by omega, hb⟩
    have := h5 i hi hlt (by rw [Nat.zero_add]; exact hfd i hi)
    rw [Nat.zero_add] at this
    cases hcm : w.compiled i with
    | false => rw [this.1 hcm] at h; cases h
    | true =>
      by_cases hd : On .dontasm (c.items c.files[i])
      · exact hg ⟨hfd i hi, hcm, .inl hd⟩
      · obtain ⟨code, hcode⟩ := hw i
        by_cases h0 : w.system i = 0
        · exact hg ⟨hfd i hi, hcm, .inr h0⟩
        · have hne : code ≠ 0 := by
            rintro rfl
            generalize w.system i = k at hcode h0
            cases hcode with
            | exit => exact h0 (by omega)
            | signal => omega
            | core => omega
          obtain ⟨x, hx, hx'⟩ := (C70_cc _ _ hcode).2 hne
          rw [this.2 hcm hd x hx, hx'] at h
          omega
  · intro hg
    rw [h3 fun i hi => by rw [Nat.zero_add]; exact hg i hi]

/-- **C70 fails: a file that is not there is no error.**  When a file is not found (or is empty), the compiler stops, the files that follow
are not compiled, and the exit status is 0. -/
theorem C70_missing_file (w : World) (host : Int × Int) (c : Cmd) (hc : c.Ok) (i : Nat) (hi : i < c.files.length)
    (hg : ∀ j (hj : j < i), Good w c j (c.files[j]'(by omega))) (hn : w.found i = false) :
    ∃ ss : List (List Act), List.Forall₂ (fun f as => Done host (c.items f) f.1 as) c.files ss ∧
      voc w host c.args = ((ss.take i).flatten, 0) := by
  obtain ⟨ss, h1, h2, h3, h4, h5⟩ := voc_spec w host c hc
  refine ⟨ss, h1, h4 i hi (fun j hj => ?_) (by rw [Nat.zero_add]; exact hn)⟩
  rw [Nat.zero_add]; exact hg j hj

/-- **C70, size models.**  The sizes (in bytes) of SHORTINT, INTEGER, LONGINT and SET are those of the usage text; for an unknown model
they are those of the default. -/
theorem C70_sizes (m : Char) : sizes m =
    if m = 'C' then (2, 4, 8, 4) else if m = 'V' then (1, 4, 8, 8) else (1, 2, 4, 4) := by
  unfold sizes; split <;> simp_all

/-! ### Concrete cases: `voc -OV -sx A.Mod -m B.Mod -Mx -A44` -/

def cmd1 : Cmd where
  all := [[.model 'V'], [.flag 's', .flag 'x']]
  files := [("A.Mod".toList, [[.flag 'm']]), ("B.Mod".toList, [[.flag 'M', .flag 'x'], [.machine '4' '4']])]

theorem cmd1_ok : cmd1.Ok where
  all := by simp [cmd1, Fits, texts, Item.text]
  own := by simp [cmd1, Fits, texts, Item.text]
  name := by simp [cmd1]

example : cmd1.args.map String.ofList = ["-OV", "-sx", "A.Mod", "-m", "B.Mod", "-Mx", "-A44"] := by decide +kernel

/-- All goes well. -/
def world1 : World := ⟨fun _ => true, fun _ => true, fun _ => 0⟩

example : voc world1 (8, 8) cmd1.args =
    ([.compile "A.Mod".toList ⟨2 ^ 3 + 2 ^ 5 + 2 ^ 7 + 2 ^ 4 + 2 ^ 10, 'V', 8, 8⟩,
      .link "A.Mod".toList ⟨2 ^ 3 + 2 ^ 5 + 2 ^ 7 + 2 ^ 4 + 2 ^ 10, 'V', 8, 8⟩ false,
      .compile "B.Mod".toList ⟨2 ^ 0 + 2 ^ 3 + 2 ^ 5 + 2 ^ 7 + 2 ^ 4 + 2 ^ 10 + 2 ^ 15, 'V', 4, 4⟩,
      .link "B.Mod".toList ⟨2 ^ 0 + 2 ^ 3 + 2 ^ 5 + 2 ^ 7 + 2 ^ 4 + 2 ^ 10 + 2 ^ 15, 'V', 4, 4⟩ true], 0) := by decide +kernel

-- index checks are off for A.Mod, and on again for B.Mod
example : ¬On .inxchk (cmd1.items cmd1.files[0]) ∧ On .inxchk (cmd1.items cmd1.files[1]) := by decide +kernel

-- the first file is not there: the second is not compiled either, and there is no error
example : voc ⟨fun n => n = 1, fun _ => true, fun _ => 0⟩ (8, 8) cmd1.args = ([], 0) := by decide +kernel
example := C70_missing_file ⟨fun n => n = 1, fun _ => true, fun _ => 0⟩ (8, 8) cmd1 cmd1_ok 0 (by decide) (by simp) (by decide)

-- the C compiler returns 1; it is not there (127); exit status 255; a segmentation fault
example : (voc ⟨fun _ => true, fun _ => true, fun _ => 256⟩ (8, 8) cmd1.args).2 = 1 := by decide +kernel
example : (voc ⟨fun _ => true, fun _ => true, fun _ => 127 * 256⟩ (8, 8) cmd1.args).2 = 127 := by decide +kernel
example : (voc ⟨fun _ => true, fun _ => true, fun _ => 255 * 256⟩ (8, 8) cmd1.args).2 = 255 := by decide +kernel
example : (voc ⟨fun _ => true, fun _ => true, fun _ => 139⟩ (8, 8) cmd1.args).2 = 11 := by decide +kernel

end Verif.Cmdline
