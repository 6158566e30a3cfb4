import Verif.Parse.SoundS

/-! # Without errors, what is read is a module -/
namespace Verif.Parse
open Verif.Scanner (Tok)

theorem cur_num {i : List T} (h : cur i = 35) : ∃ t b j, i = (t, b) :: j ∧ isNum t = true := by
  rcases i with _ | ⟨⟨t, b⟩, j⟩
  · simp [cur] at h
  · simp only [cur, List.head?_cons, Option.map_some, Option.getD_some] at h
    cases t with
    | sym m => simp only [code] at h; split at h <;> omega
    | ident _ => simp [code] at h
    | eof => simp [code] at h
    | string _ => simp [code] at h
    | _ => exact ⟨_, _, _, rfl, rfl⟩

theorem cur_str {i : List T} (h : cur i = 37) : ∃ t b j, i = (t, b) :: j ∧ isStr t = true := by
  rcases i with _ | ⟨⟨t, b⟩, j⟩
  · simp [cur] at h
  · simp only [cur, List.head?_cons, Option.map_some, Option.getD_some] at h
    cases t with
    | sym m => simp only [code] at h; split at h <;> omega
    | string _ => exact ⟨_, _, _, rfl, rfl⟩
    | _ => simp [code] at h

theorem consts_ok : ∀ f, Sound (consts f) (fun ds => (ds.map fun d => yDef d.1 ++ sm 9 :: yEx d.2 ++ [sm 39]).flatten)
    (fun ds => ∀ d ∈ ds, okDef d.1 ∧ okEx d.2)
  | 0 => fun i a k h => absurd h (by simp only [consts]; exact stop_ok)
  | f + 1 => fun i a k h => by
    rw [consts] at h
    stp at h
    spl at h
    · next hc =>
      obtain ⟨d, _, hd, h⟩ := bind_ok.mp h
      obtain ⟨hwd, hrd⟩ := defn_ok hc hd
      stp at h
      spl at h
      · next h9 =>
        obtain ⟨x, _, hx, h⟩ := bind_ok.mp h
        stp at h
        obtain ⟨h39, h⟩ := h
        obtain ⟨ds, _, hds, h⟩ := bind_ok.mp h
        stp at h
        obtain ⟨rfl, rfl⟩ := h
        obtain ⟨hw, hr⟩ := (soundE f).ex _ _ _ hx
        obtain ⟨hw', hr'⟩ := consts_ok f _ _ _ hds
        refine ⟨by simp only [List.mem_cons, forall_eq_or_imp]; exact ⟨⟨hwd, hw⟩, hw'⟩, ?_⟩
        simp only [List.map_cons, List.flatten_cons]
        exact ((hrd.app (Rd.cons (Rd.sym (by decide) h9) hr)).snoc (Rd.sym (by decide) h39)).app hr'
      spl at h
    · obtain ⟨rfl, rfl⟩ := h
      exact ⟨by simp, Rd.nil⟩

theorem types_ok : ∀ f, Sound (types f) (fun ds => (ds.map fun d => yDef d.1 ++ sm 9 :: yTy d.2 ++ [sm 39]).flatten)
    (fun ds => ∀ d ∈ ds, okDef d.1 ∧ okTy d.2)
  | 0 => fun i a k h => absurd h (by simp only [types]; exact stop_ok)
  | f + 1 => fun i a k h => by
    rw [types] at h
    stp at h
    spl at h
    · next hc =>
      obtain ⟨d, _, hd, h⟩ := bind_ok.mp h
      obtain ⟨hwd, hrd⟩ := defn_ok hc hd
      stp at h
      spl at h
      · next h9 =>
        obtain ⟨x, _, hx, h⟩ := bind_ok.mp h
        stp at h
        obtain ⟨h39, h⟩ := h
        obtain ⟨ds, _, hds, h⟩ := bind_ok.mp h
        stp at h
        obtain ⟨rfl, rfl⟩ := h
        obtain ⟨hw, hr⟩ := (soundT f).ty _ _ _ hx
        obtain ⟨hw', hr'⟩ := types_ok f _ _ _ hds
        refine ⟨by simp only [List.mem_cons, forall_eq_or_imp]; exact ⟨⟨hwd, hw⟩, hw'⟩, ?_⟩
        simp only [List.map_cons, List.flatten_cons]
        exact ((hrd.app (Rd.cons (Rd.sym (by decide) h9) hr)).snoc (Rd.sym (by decide) h39)).app hr'
      spl at h
    · obtain ⟨rfl, rfl⟩ := h
      exact ⟨by simp, Rd.nil⟩

theorem vars_ok : ∀ f, Sound (vars f)
    (fun ds => (ds.map fun d => sep (sm 19) (d.1.map yDef) ++ sm 20 :: yTy d.2 ++ [sm 39]).flatten)
    (fun ds => ∀ d ∈ ds, d.1 ≠ [] ∧ (∀ x ∈ d.1, okDef x) ∧ okTy d.2)
  | 0 => fun i a k h => absurd h (by simp only [vars]; exact stop_ok)
  | f + 1 => fun i a k h => by
    rw [vars] at h
    stp at h
    spl at h
    · obtain ⟨d, _, hd, h⟩ := bind_ok.mp h
      obtain ⟨h1, h2, h3⟩ := commas_ok defItem_ok _ _ _ _ hd
      stp at h
      obtain ⟨h20, h⟩ := h
      obtain ⟨x, _, hx, h⟩ := bind_ok.mp h
      stp at h
      obtain ⟨h39, h⟩ := h
      obtain ⟨ds, _, hds, h⟩ := bind_ok.mp h
      stp at h
      obtain ⟨rfl, rfl⟩ := h
      obtain ⟨hw, hr⟩ := (soundT f).ty _ _ _ hx
      obtain ⟨hw', hr'⟩ := vars_ok f _ _ _ hds
      refine ⟨by simp only [List.mem_cons, forall_eq_or_imp]; exact ⟨⟨h1, h2, hw⟩, hw'⟩, ?_⟩
      simp only [List.map_cons, List.flatten_cons]
      exact ((h3.app (Rd.cons (Rd.sym (by decide) h20) hr)).snoc (Rd.sym (by decide) h39)).app hr'
    · obtain ⟨rfl, rfl⟩ := h
      exact ⟨by simp, Rd.nil⟩

/-- An optional group of declarations. -/
theorem opt_ok {p : P (List α)} {n : Nat} {c : List α → Sect} (hn : plainSym n) {y : List α → List Y} {W : List α → Prop}
    (hp : Sound p y W) (hy : ∀ ds, ySect (c ds) = sm n :: y ds) (hW : ∀ ds, W ds → okSect (c ds)) :
    Sound (group n p c)
      (fun ss => (ss.map ySect).flatten) (fun ss => ∀ d ∈ ss, okSect d) := by
  intro i a k h
  rw [group] at h
  stp at h
  spl at h
  · next hc =>
    obtain ⟨ds, _, hds, h⟩ := bind_ok.mp h
    stp at h
    obtain ⟨rfl, rfl⟩ := h
    obtain ⟨hw, hr⟩ := hp _ _ _ hds
    refine ⟨by simpa using hW _ hw, ?_⟩
    simp only [List.map_cons, List.map_nil, List.flatten_cons, List.flatten_nil, List.append_nil, hy]
    exact Rd.cons (Rd.sym hn hc) hr
  · obtain ⟨rfl, rfl⟩ := h
    exact ⟨by simp, Rd.nil⟩

theorem sects_ok : ∀ f, Sound (sects f) (fun ds => (ds.map ySect).flatten) (fun ds => ∀ d ∈ ds, okSect d)
  | 0 => fun i a k h => absurd h (by simp only [sects]; exact stop_ok)
  | f + 1 => fun i a k h => by
    rw [sects] at h
    obtain ⟨c, _, hc, h⟩ := bind_ok.mp h
    obtain ⟨t, _, ht, h⟩ := bind_ok.mp h
    obtain ⟨v, _, hv, h⟩ := bind_ok.mp h
    obtain ⟨hwc, hrc⟩ := opt_ok (c := Sect.const) (by decide) (consts_ok f) (fun _ => rfl) (fun _ h => h) _ _ _ hc
    obtain ⟨hwt, hrt⟩ := opt_ok (c := Sect.type) (by decide) (types_ok f) (fun _ => rfl) (fun _ h => h) _ _ _ ht
    obtain ⟨hwv, hrv⟩ := opt_ok (c := Sect.var) (by decide) (vars_ok f) (fun _ => rfl) (fun _ h => h) _ _ _ hv
    have hr := (hrc.app hrt).app hrv
    stp at h
    spl at h
    · obtain ⟨rfl, rfl⟩ := h
      refine ⟨?_, by simpa using hr⟩
      intro d hd
      simp only [List.mem_append] at hd
      rcases hd with (hd | hd) | hd
      · exact hwc d hd
      · exact hwt d hd
      · exact hwv d hd
    · obtain ⟨ss, _, hs, h⟩ := bind_ok.mp h
      stp at h
      obtain ⟨rfl, rfl⟩ := h
      obtain ⟨hws, hrs⟩ := sects_ok f _ _ _ hs
      refine ⟨?_, by simpa using hr.app hrs⟩
      intro d hd
      simp only [List.mem_append] at hd
      rcases hd with ((hd | hd) | hd) | hd
      · exact hwc d hd
      · exact hwt d hd
      · exact hwv d hd
      · exact hws d hd

theorem receiver_ok {i k : List T} {r : Rcv} (hc : cur i = 30) (h : receiver i.tail = some (r, k, [])) :
    Rd (yRcv (some r)) i k := by
  rw [receiver, bind_ok] at h
  obtain ⟨v, j, hv', h⟩ := h
  have hv := (varMark_ok _ _ _ hv').2
  stp at h
  obtain ⟨h38, h20, h⟩ := h
  spl at h
  next ht =>
    obtain ⟨h22, rfl, rfl⟩ := h
    simp only [yRcv]
    exact (Rd.cons (Rd.sym (by decide) hc) hv).app (Rd.cons (Rd.idn h38) (Rd.cons (Rd.sym (by decide) h20)
      (Rd.cons (Rd.idn ht) (Rd.sym (by decide) h22))))

theorem codes_ok : ∀ f, Sound (codes f) (fun ns => sep (sm 19) (ns.map yNum)) (fun ns => ns ≠ [] ∧ ∀ t, some t ∈ ns → isNum t = true)
  | 0 => fun i a k h => absurd h (by simp only [codes]; exact stop_ok)
  | f + 1 => fun i a k h => by
    rw [codes] at h
    have key : ∀ (c : Option Tok) (j : List T), (∀ t, c = some t → isNum t = true) → Rd (yNum c) i j →
        (if cur j = 19 then get >>= fun _ => codes f >>= fun cs => pure (c :: cs)
          else if cur j = 35 then err 19 >>= fun _ => codes f >>= fun cs => pure (c :: cs)
          else pure [c] : P (List (Option Tok))) j = some (a, k, []) →
        (a ≠ [] ∧ ∀ t, some t ∈ a → isNum t = true) ∧ Rd (sep (sm 19) (a.map yNum)) i k := by
      intro c j hw hr h
      stp at h
      spl at h
      · next hc =>
        obtain ⟨cs, _, hcs, h⟩ := bind_ok.mp h
        stp at h
        obtain ⟨rfl, rfl⟩ := h
        obtain ⟨⟨hn, hw'⟩, hr'⟩ := codes_ok f _ _ _ hcs
        refine ⟨⟨by simp, ?_⟩, ?_⟩
        · intro t ht
          rcases List.mem_cons.mp ht with ht | ht
          · exact hw t ht.symm
          · exact hw' t ht
        · rw [List.map_cons, sep_cons (by simpa using hn)]
          exact hr.app (Rd.cons (Rd.sym (by decide) hc) hr')
      spl at h
      obtain ⟨rfl, rfl⟩ := h
      refine ⟨⟨by simp, ?_⟩, hr⟩
      intro t ht
      exact hw t (List.mem_singleton.mp ht).symm
    stp at h
    split at h
    · next h35 =>
      simp only [bind_b, tok_b, get_b, pure_b, sy_b] at h
      obtain ⟨t, b, j, rfl, ht⟩ := cur_num h35
      exact key (some t) _ (fun _ h => by cases h; exact ht) (Rd.one (fun _ h => by cases h)) h
    · simp only [pure_b, sy_b] at h
      exact key none _ (fun _ h => by cases h) Rd.nil h

theorem getCode_ok {f : Nat} {i k : List T} {b : Body} (h : getCode f i = some (b, k, [])) (n : Name) :
    okBody n b ∧ Rd (yBody b) i k ∧ ((∃ t, b = .text t) ∨ ∃ ns, b = .code ns) := by
  rw [getCode] at h
  stp at h
  spl at h
  · next hc =>
    obtain ⟨rfl, rfl⟩ := h
    obtain ⟨t, b, j, rfl, ht⟩ := cur_str hc
    exact ⟨by simp only [okBody]; exact ht, by simp only [yBody]; exact Rd.one (fun _ h => by cases h), .inl ⟨_, rfl⟩⟩
  · obtain ⟨cs, _, hcs, h⟩ := bind_ok.mp h
    stp at h
    obtain ⟨rfl, rfl⟩ := h
    obtain ⟨hw, hr⟩ := codes_ok f _ _ _ hcs
    exact ⟨by simp only [okBody]; exact hw, by simp only [yBody]; exact hr, .inr ⟨_, rfl⟩⟩

theorem getParams_ok (f : Nat) : Sound (getParams f) yParsO okParsO := by
  intro i a k h
  rw [getParams] at h
  stp at h
  spl at h
  · next hc =>
    obtain ⟨p, _, hp, h⟩ := bind_ok.mp h
    stp at h
    obtain ⟨rfl, rfl⟩ := h
    exact (soundT f).pa _ _ _ hp _ hc rfl
  · obtain ⟨rfl, rfl⟩ := h
    exact ⟨trivial, Rd.nil⟩

theorem procMark_ok {i k : List T} {m : Option Nat} (h : procMark i = some (m, k, [])) :
    (m = none ∨ m = some 1 ∨ m = some 6 ∨ m = some 7 ∨ m = some 17) ∧ Rd (yMark m) i k := by
  rw [procMark] at h
  stp at h
  spl at h
  · obtain ⟨rfl, rfl⟩ := h
    exact ⟨.inl rfl, Rd.nil⟩
  spl at h
  next hc =>
    obtain ⟨rfl, rfl⟩ := h
    refine ⟨?_, Rd.sym (by unfold plainSym; omega) rfl⟩
    simp only [Option.some.injEq]
    omega

structure SB (f : Nat) : Prop where
  bl : Sound (block f) yBlock okBlock
  ps : Sound (procs f) (fun ps => (yProcs ps).flatten) okProcs
  pr : ∀ i a k, proc f i = some (a, k, []) → ∀ h, cur h = 61 → h.tail = i → cur k = 39 → okProc a ∧ Rd (yProc a) h k.tail
  bo : ∀ n i a k, body f n i = some (a, k, []) → okBody n a ∧ Rd (yBody a) i k ∧ ∃ b x, a = .block b x

theorem soundB : ∀ f, SB f
  | 0 => by
    refine ⟨?_, ?_, ?_, ?_⟩
    · intro i a k h; simp only [block] at h; exact absurd h stop_ok
    · intro i a k h; simp only [procs] at h; exact absurd h stop_ok
    · intro i a k h; simp only [proc] at h; exact absurd h stop_ok
    · intro n i a k h; simp only [body] at h; exact absurd h stop_ok
  | f + 1 => by
    obtain ⟨bl, ps, pr, bo⟩ := soundB f
    refine ⟨?_, ?_, ?_, ?_⟩
    · -- block
      intro i a k h
      rw [block, bind_ok] at h
      obtain ⟨ds, _, hds, h⟩ := h
      obtain ⟨qs, _, hqs, h⟩ := bind_ok.mp h
      obtain ⟨hwd, hrd⟩ := sects_ok f _ _ _ hds
      obtain ⟨hwq, hrq⟩ := ps _ _ _ hqs
      stp at h
      spl at h
      · next hc =>
        obtain ⟨b, _, hb, h⟩ := bind_ok.mp h
        stp at h
        obtain ⟨h41, rfl, rfl⟩ := h
        obtain ⟨hwb, hrb⟩ := (soundS f).ss _ _ _ hb
        refine ⟨by simp only [okBlock]; exact ⟨hwd, hwq, hwb⟩, ?_⟩
        simp only [yBlock, yBegin]
        exact ((hrd.app hrq).app (Rd.cons (Rd.sym (by decide) hc) hrb)).snoc (Rd.sym (by decide) h41)
      · obtain ⟨h41, rfl, rfl⟩ := h
        refine ⟨by simp only [okBlock]; exact ⟨hwd, hwq, trivial⟩, ?_⟩
        simp only [yBlock, yBegin]
        exact ((hrd.app hrq).app Rd.nil).snoc (Rd.sym (by decide) h41)
    · -- procs
      intro i a k h
      rw [procs] at h
      stp at h
      spl at h
      · next hc =>
        obtain ⟨p, _, hp, h⟩ := bind_ok.mp h
        stp at h
        obtain ⟨h39, h⟩ := h
        obtain ⟨qs, _, hqs, h⟩ := bind_ok.mp h
        stp at h
        obtain ⟨rfl, rfl⟩ := h
        obtain ⟨hwp, hrp⟩ := pr _ _ _ hp _ hc rfl h39
        obtain ⟨hwq, hrq⟩ := ps _ _ _ hqs
        refine ⟨by simp only [okProcs]; exact ⟨hwp, hwq⟩, ?_⟩
        simp only [yProcs, List.flatten_cons]
        exact hrp.app hrq
      · obtain ⟨rfl, rfl⟩ := h
        exact ⟨by simp only [okProcs], by simp only [yProcs, List.flatten_nil]; exact Rd.nil⟩
    · -- proc
      intro i a k h h0 hh hi h39
      subst hi
      rw [proc, bind_ok] at h
      obtain ⟨m, _, hm, h⟩ := h
      obtain ⟨hwm, hrm⟩ := procMark_ok hm
      have h0 := Rd.cons (Rd.sym (by decide) hh) hrm
      stp at h
      spl at h
      · next hc =>
        obtain ⟨r, _, hr, h⟩ := bind_ok.mp h
        have hrr := receiver_ok hc hr
        stp at h
        spl at h
        next hd =>
          obtain ⟨d, _, hd', h⟩ := bind_ok.mp h
          obtain ⟨p, _, hp, h⟩ := bind_ok.mp h
          obtain ⟨hwd, hrd⟩ := defn_ok hd hd'
          obtain ⟨hwp, hrp⟩ := getParams_ok f _ _ _ hp
          have h1 := ((h0.app hrr).app hrd).app hrp
          stp at h
          spl at h
          · next h17 =>
            obtain ⟨rfl, rfl⟩ := h
            refine ⟨by simp only [okProc, okBody, kindOk]; exact ⟨hwm, hwd, hwp, h17, trivial⟩, ?_⟩
            simp only [yProc, yBody]
            exact (h1.app Rd.nil).snoc (Rd.sym (by decide) h39)
          · next h17 =>
            obtain ⟨b, _, hb, h⟩ := bind_ok.mp h
            stp at h
            obtain ⟨rfl, rfl⟩ := h
            obtain ⟨hwb, hrb, bb, x, rfl⟩ := bo _ _ _ _ hb
            refine ⟨by simp only [okProc, kindOk]; exact ⟨hwm, hwd, hwp, ⟨h17, by simp⟩, hwb⟩, ?_⟩
            simp only [yProc]
            exact (h1.app hrb).snoc (Rd.sym (by decide) h39)
      spl at h
      next hd =>
        obtain ⟨d, _, hd', h⟩ := bind_ok.mp h
        obtain ⟨p, _, hp, h⟩ := bind_ok.mp h
        obtain ⟨hwd, hrd⟩ := defn_ok hd hd'
        obtain ⟨hwp, hrp⟩ := getParams_ok f _ _ _ hp
        have h1 := ((h0.app Rd.nil).app hrd).app hrp
        stp at h
        spl at h
        · next h7 =>
          obtain ⟨b, _, hb, h⟩ := bind_ok.mp h
          stp at h
          obtain ⟨rfl, rfl⟩ := h
          obtain ⟨hwb, hrb, hk⟩ := getCode_ok hb d.name
          refine ⟨?_, ?_⟩
          · simp only [okProc]
            refine ⟨hwm, hwd, hwp, ?_, hwb⟩
            rcases hk with ⟨t, rfl⟩ | ⟨ns, rfl⟩
            · simp only [kindOk]; exact ⟨h7, rfl⟩
            · simp only [kindOk]; exact ⟨h7, rfl⟩
          · simp only [yProc]
            exact (h1.app hrb).snoc (Rd.sym (by decide) h39)
        spl at h
        · next h17 =>
          obtain ⟨rfl, rfl⟩ := h
          refine ⟨by simp only [okProc, okBody, kindOk]; exact ⟨hwm, hwd, hwp, h17, trivial⟩, ?_⟩
          simp only [yProc, yBody]
          exact (h1.app Rd.nil).snoc (Rd.sym (by decide) h39)
        · next h7 h17 =>
          obtain ⟨b, _, hb, h⟩ := bind_ok.mp h
          stp at h
          obtain ⟨rfl, rfl⟩ := h
          obtain ⟨hwb, hrb, bb, x, rfl⟩ := bo _ _ _ _ hb
          refine ⟨by simp only [okProc, kindOk]; exact ⟨hwm, hwd, hwp, ⟨h17, fun h => h7 h.1⟩, hwb⟩, ?_⟩
          simp only [yProc]
          exact (h1.app hrb).snoc (Rd.sym (by decide) h39)
    · -- body
      intro n i a k h
      rw [body] at h
      stp at h
      obtain ⟨h39, h⟩ := h
      obtain ⟨b, _, hb, h⟩ := bind_ok.mp h
      obtain ⟨hwb, hrb⟩ := bl _ _ _ hb
      stp at h
      spl at h
      next hc =>
        obtain ⟨hn, rfl, rfl⟩ := h
        refine ⟨by simp only [okBody]; exact ⟨hwb, hn⟩, ?_, _, _, rfl⟩
        simp only [yBody]
        exact (Rd.cons (Rd.sym (by decide) h39) hrb).snoc (Rd.idn hc)

theorem importItem_ok : Sound importItem yImport (fun _ => True) := by
  intro i a k h
  rw [importItem] at h
  stp at h
  spl at h
  next hc =>
    spl at h
    · next h34 =>
      spl at h
      next hd =>
        obtain ⟨rfl, rfl⟩ := h
        exact ⟨trivial, Rd.cons (Rd.idn hc) (Rd.cons (Rd.sym (by decide) h34) (Rd.idn hd))⟩
    · obtain ⟨rfl, rfl⟩ := h
      exact ⟨trivial, Rd.idn hc⟩

theorem importList_ok (f : Nat) : Sound (importList f) yImports (fun _ => True) := by
  intro i a k h
  rw [importList] at h
  stp at h
  spl at h
  · next hc =>
    obtain ⟨is, _, his, h⟩ := bind_ok.mp h
    stp at h
    obtain ⟨h39, rfl, rfl⟩ := h
    obtain ⟨h1, h2, h3⟩ := commas_ok importItem_ok _ _ _ _ his
    refine ⟨trivial, ?_⟩
    rw [yImports, if_neg h1]
    exact (Rd.cons (Rd.sym (by decide) hc) h3).snoc (Rd.sym (by decide) h39)
  · obtain ⟨rfl, rfl⟩ := h
    exact ⟨trivial, by rw [yImports, if_pos rfl]; exact Rd.nil⟩

theorem header_ok {f : Nat} {i k : List T} {x : Name} {is : List (Name × Option Name)}
    (h : header f i = some (some (x, is), k, [])) : Rd ([sm 63, idn x, sm 39] ++ yImports is) i k := by
  rw [header] at h
  stp at h
  spl at h
  next hc =>
    spl at h
    · next hd =>
      obtain ⟨h39, h⟩ := h
      obtain ⟨is', _, his, h⟩ := bind_ok.mp h
      stp at h
      obtain ⟨h, rfl⟩ := h
      cases h
      exact (Rd.cons (Rd.sym (by decide) hc) (Rd.cons (Rd.idn hd) (Rd.sym (by decide) h39))).app (importList_ok f _ _ _ his).2

/-- What is read of a module; the final period remains. -/
theorem parse_ok {f : Nat} {i k : List T} {m : Mod} (h : parse f i = some (some m, k, [])) :
    okMod m ∧ cur k = 18 ∧ Rd (yMod m) i k.tail := by
  unfold parse at h
  rcases hh : header f i with _ | ⟨_ | ⟨x, is⟩, j, e⟩
  · rw [hh] at h; cases h
  · rw [hh] at h; cases h
  · rw [hh] at h
    simp only at h
    split at h
    · next he =>
      subst he
      have h0 := header_ok hh
      rw [rest, bind_ok] at h
      obtain ⟨b, _, hb, h⟩ := h
      obtain ⟨hwb, hrb⟩ := (soundB f).bl _ _ _ hb
      stp at h
      spl at h
      next hc =>
        obtain ⟨hn, h⟩ := h
        spl at h
        next h18 =>
          obtain ⟨h, rfl⟩ := h
          cases h
          refine ⟨⟨hwb, hn⟩, h18, ?_⟩
          simp only [yMod]
          exact (h0.app hrb).app (Rd.cons (Rd.idn hc) (Rd.sym (by decide) h18))
    · cases h

end Verif.Parse
