import Verif.Parse.Sound

/-! # Without errors, what is read is a type -/
namespace Verif.Parse
open Verif.Scanner (Tok)

theorem defn_ok {i k : List T} {d : Def} (hc : cur i = 38) (h : defn i = some (d, k, [])) : okDef d ∧ Rd (yDef d) i k := by
  rw [defn] at h
  stp at h
  spl at h
  · next hm =>
    obtain ⟨rfl, rfl⟩ := h
    refine ⟨?_, Rd.cons (Rd.idn hc) (Rd.sym (by unfold plainSym; omega) rfl)⟩
    rcases hm with hm | hm
    · exact .inr (.inl (by simp only [hm]))
    · exact .inr (.inr (by simp only [hm]))
  · obtain ⟨rfl, rfl⟩ := h
    exact ⟨.inl rfl, Rd.idn hc⟩

theorem sysFlag_ok {f : Nat} {i k : List T} {x : Option Ex} (h : sysFlag f i = some (x, k, [])) : okFlag x ∧ Rd (yFlag x) i k := by
  rw [sysFlag] at h
  stp at h
  spl at h
  · next hc =>
    obtain ⟨e, j, he, h⟩ := bind_ok.mp h
    stp at h
    obtain ⟨h23, rfl, rfl⟩ := h
    obtain ⟨hw, hr⟩ := (soundE f).ex _ _ _ he
    exact ⟨hw, (Rd.cons (Rd.sym (by decide) hc) hr).snoc (Rd.sym (by decide) h23)⟩
  · obtain ⟨rfl, rfl⟩ := h
    exact ⟨trivial, Rd.nil⟩

theorem defItem_ok : Sound defItem yDef okDef := by
  intro i a k h
  rw [defItem] at h
  stp at h
  spl at h
  next hc => exact defn_ok hc h

theorem nameItem_ok : Sound nameItem (fun x => [idn x]) (fun _ => True) := by
  intro i a k h
  rw [nameItem] at h
  stp at h
  spl at h
  next hc =>
    obtain ⟨rfl, rfl⟩ := h
    exact ⟨trivial, Rd.idn hc⟩

theorem parNames_ok : ∀ f, Sound (parNames f) (fun ns => sep (sm 19) (ns.map fun n => [idn n])) (· ≠ [])
  | 0 => fun i a k h => absurd h (by simp only [parNames]; exact stop_ok)
  | f + 1 => fun i a k h => by
    rw [parNames, bind_ok] at h
    obtain ⟨x, j, hx, h⟩ := h
    obtain ⟨-, hr⟩ := nameItem_ok _ _ _ hx
    stp at h
    spl at h
    · next hc =>
      obtain ⟨xs, _, hxs, h⟩ := bind_ok.mp h
      stp at h
      obtain ⟨rfl, rfl⟩ := h
      obtain ⟨hn, hr'⟩ := parNames_ok f _ _ _ hxs
      refine ⟨by simp, ?_⟩
      simp only [List.map_cons]
      rw [sep_cons (by simpa using hn)]
      exact hr.app (Rd.cons (Rd.sym (by decide) hc) hr')
    spl at h
    spl at h
    obtain ⟨rfl, rfl⟩ := h
    exact ⟨by simp, hr⟩

theorem resync_ok {f : Nat} {i k : List T} {u : Unit} (h : resync f i = some (u, k, [])) :
    k = i ∧ (39 ≤ cur i ∧ cur i ≤ 42 ∨ cur i = 22 ∨ cur i = 64) := by
  cases f with
  | zero => exact absurd h (by simp only [resync]; exact stop_ok)
  | succ f =>
    rw [resync] at h
    stp at h
    spl at h
    next hc => exact ⟨h.2, hc⟩

theorem result_ok : Sound result yRes (fun _ => True) := by
  intro i a k h
  rw [result] at h
  stp at h
  spl at h
  · next hc =>
    spl at h
    next hq =>
      obtain ⟨q, j, hq', h⟩ := bind_ok.mp h
      stp at h
      obtain ⟨rfl, rfl⟩ := h
      exact ⟨trivial, Rd.cons (Rd.sym (by decide) hc) (qualident_ok hq hq')⟩
  · obtain ⟨rfl, rfl⟩ := h
    exact ⟨trivial, Rd.nil⟩

theorem varMark_ok : Sound varMark (fun v => if v then [sm 60] else []) (fun _ => True) := by
  intro i a k h
  rw [varMark] at h
  stp at h
  spl at h
  · next hc =>
    obtain ⟨rfl, rfl⟩ := h
    exact ⟨trivial, Rd.sym (by decide) hc⟩
  · obtain ⟨rfl, rfl⟩ := h
    exact ⟨trivial, Rd.nil⟩

theorem yFls_map (es : List Fl) : yFls es = es.map yFl := by
  induction es with
  | nil => simp [yFls]
  | cons e es ih => simp [yFls, ih]

theorem ySecs_map (es : List Sec) : ySecs es = es.map ySec := by
  induction es with
  | nil => simp [ySecs]
  | cons e es ih => simp [ySecs, ih]

theorem okArr_dim {fl : Option Ex} {n : Ex} {a : Arr} (h : a.isOpen = false) (hf : okFlag fl) (hn : okEx n) (ha : okArr a) :
    okArr (.dim fl n a) := by
  cases a with
  | opn _ _ => cases h
  | bad => simp only [okArr] at ha
  | _ => simp only [okArr] at ha ⊢; exact ⟨hf, hn, ha⟩

theorem Rd.flag {i j k : List T} {n : Nat} {fl y : List Y} (hn : plainSym n) (h : cur i = n) (hf : Rd fl i.tail j)
    (hy : Rd y j k) : Rd (sm n :: fl ++ y) i k := (Rd.cons (Rd.sym hn h) hf).app hy

structure STy (f : Nat) : Prop where
  ty : Sound (type f) yTy okTy
  ar : ∀ i a k, array f i = some (a, k, []) → okArr a ∧ Rd (yArr a) i k ∨ cur k = 25
  re : ∀ i a k, record f i = some (a, k, []) → ∀ h, cur h = 55 → h.tail = i → cur k = 41 → okTy a ∧ Rd (yTy a) h k.tail
  fi : Sound (fields f) (fun fs => sep (sm 39) (yFls fs)) (fun fs => fs ≠ [] ∧ okFls fs)
  po : ∀ i a k, pointer f i = some (a, k, []) → ∀ h, cur h = 56 → h.tail = i → okTy a ∧ Rd (yTy a) h k
  pa : ∀ i a k, pars f i = some (a, k, []) → ∀ h, cur h = 30 → h.tail = i → okPars a ∧ Rd (yPars a) h k
  sc : Sound (secs f) (fun fs => sep (sm 39) (ySecs fs)) (fun fs => fs ≠ [] ∧ okSecs fs)

theorem soundT : ∀ f, STy f
  | 0 => by
    constructor <;>
      (intro i a k h
       simp only [type, array, record, fields, pointer, pars, secs] at h
       exact absurd h stop_ok)
  | f + 1 => by
    obtain ⟨ty, ar, re, fi, po, pa, sc⟩ := soundT f
    have ex := (soundE f).ex
    refine ⟨?_, ?_, ?_, ?_, ?_, ?_, ?_⟩
    · -- type
      intro i a k h
      rw [type] at h
      stp at h
      obtain ⟨h30, h⟩ := h
      spl at h
      · next hc =>
        obtain ⟨q, j, hq, h⟩ := bind_ok.mp h
        stp at h
        obtain ⟨u, j', hs, h⟩ := bind_ok.mp h
        stp at h
        obtain ⟨rfl, rfl⟩ := h
        obtain ⟨rfl, -⟩ := resync_ok hs
        exact ⟨by simp only [okTy], by simp only [yTy]; exact qualident_ok hc hq⟩
      spl at h
      · next hc =>
        obtain ⟨b, j, hb, h⟩ := bind_ok.mp h
        stp at h
        obtain ⟨u, j', hs, h⟩ := bind_ok.mp h
        stp at h
        obtain ⟨rfl, rfl⟩ := h
        obtain ⟨rfl, hf⟩ := resync_ok hs
        rcases ar _ _ _ hb with ⟨hw, hr⟩ | hk
        · exact ⟨by simp only [okTy]; exact hw, by simp only [yTy]; exact Rd.cons (Rd.sym (by decide) hc) hr⟩
        · omega
      spl at h
      · next hc =>
        obtain ⟨b, j, hb, h⟩ := bind_ok.mp h
        stp at h
        obtain ⟨h41, h⟩ := h
        obtain ⟨u, j', hs, h⟩ := bind_ok.mp h
        stp at h
        obtain ⟨rfl, rfl⟩ := h
        obtain ⟨rfl, hf⟩ := resync_ok hs
        exact re _ _ _ hb i hc rfl h41
      spl at h
      · next hc =>
        obtain ⟨b, j, hb, h⟩ := bind_ok.mp h
        obtain ⟨u, j', hs, h⟩ := bind_ok.mp h
        stp at h
        obtain ⟨rfl, rfl⟩ := h
        obtain ⟨rfl, hf⟩ := resync_ok hs
        exact po _ _ _ hb i hc rfl
      spl at h
      · next hc =>
        obtain ⟨fl, j, hfl, h⟩ := bind_ok.mp h
        obtain ⟨hwf, hrf⟩ := sysFlag_ok hfl
        stp at h
        spl at h
        · next hp =>
          obtain ⟨p, _, hp', h⟩ := bind_ok.mp h
          stp at h
          obtain ⟨u, j', hs, h⟩ := bind_ok.mp h
          stp at h
          obtain ⟨rfl, rfl⟩ := h
          obtain ⟨rfl, hf⟩ := resync_ok hs
          obtain ⟨hwp, hrp⟩ := pa _ _ _ hp' _ hp rfl
          exact ⟨by simp only [okTy]; exact ⟨hwf, hwp⟩, by simp only [yTy]; exact Rd.flag (by decide) hc hrf hrp⟩
        · obtain ⟨u, j', hs, h⟩ := bind_ok.mp h
          stp at h
          obtain ⟨rfl, rfl⟩ := h
          obtain ⟨rfl, hf⟩ := resync_ok hs
          exact ⟨by simp only [okTy]; exact hwf, by simp only [yTy]; exact Rd.cons (Rd.sym (by decide) hc) hrf⟩
    · -- array
      intro i a k h
      rw [array, bind_ok] at h
      obtain ⟨fl, j, hfl, h⟩ := h
      obtain ⟨hwf, hrf⟩ := sysFlag_ok hfl
      stp at h
      spl at h
      · next hc =>
        obtain ⟨t, j', ht, h⟩ := bind_ok.mp h
        stp at h
        obtain ⟨rfl, rfl⟩ := h
        obtain ⟨hw, hr⟩ := ty _ _ _ ht
        exact .inl ⟨by simp only [okArr]; exact ⟨hwf, hw⟩, by simp only [yArr]; exact hrf.app (Rd.cons (Rd.sym (by decide) hc) hr)⟩
      · obtain ⟨x, j', hx, h⟩ := bind_ok.mp h
        obtain ⟨hwx, hrx⟩ := ex _ _ _ hx
        stp at h
        spl at h
        · next hc =>
          obtain ⟨t, _, ht, h⟩ := bind_ok.mp h
          stp at h
          obtain ⟨rfl, rfl⟩ := h
          obtain ⟨hw, hr⟩ := ty _ _ _ ht
          exact .inl ⟨by simp only [okArr]; exact ⟨hwf, hwx, hw⟩, by
            simp only [yArr]; exact (hrf.app hrx).app (Rd.cons (Rd.sym (by decide) hc) hr)⟩
        spl at h
        next hc =>
          spl at h
          · next h25 =>
            obtain ⟨rfl, rfl⟩ := h
            exact .inr h25
          · obtain ⟨b, j2, hb, h⟩ := bind_ok.mp h
            stp at h
            spl at h
            next hop =>
              obtain ⟨rfl, rfl⟩ := h
              rcases ar _ _ _ hb with ⟨hw, hr⟩ | hk
              · exact .inl ⟨okArr_dim (by simpa using hop) hwf hwx hw, by
                  simp only [yArr]; exact (hrf.app hrx).app (Rd.cons (Rd.sym (by decide) hc) hr)⟩
              · exact .inr hk
    · -- record
      intro i a k h h0 hh hi h41
      rw [record, bind_ok] at h
      obtain ⟨fl, j, hfl, h⟩ := h
      obtain ⟨hwf, hrf⟩ := sysFlag_ok hfl
      subst hi
      stp at h
      spl at h
      · next hc =>
        spl at h
        next hq =>
          obtain ⟨q, j', hq', h⟩ := bind_ok.mp h
          stp at h
          obtain ⟨h22, h⟩ := h
          obtain ⟨fs, _, hfs, h⟩ := bind_ok.mp h
          stp at h
          obtain ⟨rfl, rfl⟩ := h
          obtain ⟨hw, hr⟩ := fi _ _ _ hfs
          refine ⟨by simp only [okTy]; exact ⟨hwf, hw⟩, ?_⟩
          simp only [yTy, yBase]
          exact ((Rd.flag (by decide) hh hrf ((Rd.cons (Rd.sym (by decide) hc) (qualident_ok hq hq')).snoc
            (Rd.sym (by decide) h22))).app hr).snoc (Rd.sym (by decide) h41)
      · obtain ⟨fs, _, hfs, h⟩ := bind_ok.mp h
        stp at h
        obtain ⟨rfl, rfl⟩ := h
        obtain ⟨hw, hr⟩ := fi _ _ _ hfs
        refine ⟨by simp only [okTy]; exact ⟨hwf, hw⟩, ?_⟩
        simp only [yTy, yBase]
        exact ((Rd.flag (by decide) hh hrf Rd.nil).app hr).snoc (Rd.sym (by decide) h41)
    · -- fields
      intro i a k h
      rw [fields] at h
      stp at h
      have key : ∀ (fl : Fl) (j : List T), okFl fl → Rd (yFl fl) i j →
          (if cur j = 39 then get >>= fun _ => fields f >>= fun fs => pure (fl :: fs)
            else if cur j = 38 then err 39 >>= fun _ => fields f >>= fun fs => pure (fl :: fs)
            else pure [fl] : P (List Fl)) j = some (a, k, []) → (a ≠ [] ∧ okFls a) ∧ Rd (sep (sm 39) (yFls a)) i k := by
        intro fl j hw hr h
        stp at h
        spl at h
        · next hc =>
          obtain ⟨fs, _, hfs, h⟩ := bind_ok.mp h
          stp at h
          obtain ⟨rfl, rfl⟩ := h
          obtain ⟨⟨hn, hw'⟩, hr'⟩ := fi _ _ _ hfs
          refine ⟨⟨by simp, by simp only [okFls]; exact ⟨hw, hw'⟩⟩, ?_⟩
          simp only [yFls]
          rw [sep_cons (by rw [yFls_map]; simpa using hn)]
          exact hr.app (Rd.cons (Rd.sym (by decide) hc) hr')
        spl at h
        obtain ⟨rfl, rfl⟩ := h
        exact ⟨⟨by simp, by simp only [okFls]; exact ⟨hw, trivial⟩⟩, by simp only [yFls, sep]; exact hr⟩
      split at h
      · obtain ⟨ds, j, hds, h⟩ := bind_ok.mp h
        simp only [bind_b, pure_b, checkSym_b] at h
        obtain ⟨h20, h⟩ := h
        obtain ⟨t, j', ht, h⟩ := bind_ok.mp h
        simp only [pure_b, sy_b] at h
        obtain ⟨h1, h2, h3⟩ := commas_ok defItem_ok _ _ _ _ hds
        obtain ⟨hw, hr⟩ := ty _ _ _ ht
        exact key _ _ (by simp only [okFl]; exact ⟨h1, h2, hw⟩)
          (by simp only [yFl]; exact h3.app (Rd.cons (Rd.sym (by decide) h20) hr)) h
      · simp only [pure_b, sy_b] at h
        exact key _ _ (by simp only [okFl]) (by simp only [yFl]; exact Rd.nil) h
    · -- pointer
      intro i a k h h0 hh hi
      subst hi
      rw [pointer, bind_ok] at h
      obtain ⟨fl, j, hfl, h⟩ := h
      obtain ⟨hwf, hrf⟩ := sysFlag_ok hfl
      stp at h
      obtain ⟨h28, h⟩ := h
      spl at h
      · next hc =>
        obtain ⟨q, j', hq', h⟩ := bind_ok.mp h
        stp at h
        obtain ⟨rfl, rfl⟩ := h
        refine ⟨by simp only [okTy]; exact ⟨hwf, trivial⟩, ?_⟩
        simp only [yTy]
        exact Rd.flag (by decide) hh hrf (Rd.cons (Rd.sym (by decide) h28) (qualident_ok hc hq'))
      · obtain ⟨t, j', ht, h⟩ := bind_ok.mp h
        stp at h
        obtain ⟨rfl, rfl⟩ := h
        obtain ⟨hw, hr⟩ := ty _ _ _ ht
        refine ⟨by simp only [okTy]; exact ⟨hwf, hw⟩, ?_⟩
        simp only [yTy]
        exact Rd.flag (by decide) hh hrf (Rd.cons (Rd.sym (by decide) h28) hr)
    · -- pars
      intro i a k h h0 hh hi
      subst hi
      rw [pars] at h
      stp at h
      spl at h
      · obtain ⟨ps, j, hps, h⟩ := bind_ok.mp h
        stp at h
        obtain ⟨h22, h⟩ := h
        obtain ⟨r, _, hr, h⟩ := bind_ok.mp h
        stp at h
        obtain ⟨rfl, rfl⟩ := h
        obtain ⟨⟨_, hw⟩, hrd⟩ := sc _ _ _ hps
        refine ⟨by simp only [okPars]; exact hw, ?_⟩
        simp only [yPars]
        exact Rd.flag (by decide) hh hrd (Rd.cons (Rd.sym (by decide) h22) (result_ok _ _ _ hr).2)
      · obtain ⟨h22, h⟩ := h
        obtain ⟨r, _, hr, h⟩ := bind_ok.mp h
        stp at h
        obtain ⟨rfl, rfl⟩ := h
        refine ⟨by simp only [okPars, okSecs], ?_⟩
        simp only [yPars, ySecs, sep]
        exact Rd.flag (by decide) hh Rd.nil (Rd.cons (Rd.sym (by decide) h22) (result_ok _ _ _ hr).2)
    · -- secs
      intro i a k h
      rw [secs, bind_ok] at h
      obtain ⟨v, j, hv', h⟩ := h
      have hv := (varMark_ok _ _ _ hv').2
      obtain ⟨ns, j1, hns, h⟩ := bind_ok.mp h
      obtain ⟨hnn, hrn⟩ := parNames_ok _ _ _ _ hns
      stp at h
      obtain ⟨h20, h⟩ := h
      obtain ⟨t, j2, ht, h⟩ := bind_ok.mp h
      obtain ⟨hwt, hrt⟩ := ty _ _ _ ht
      have hw : okSec (.mk v ns t) := by simp only [okSec]; exact ⟨hnn, hwt⟩
      have hr : Rd (ySec (.mk v ns t)) i j2 := by
        simp only [ySec]; exact (hv.app hrn).app (Rd.cons (Rd.sym (by decide) h20) hrt)
      stp at h
      spl at h
      · next hc =>
        obtain ⟨fs, _, hfs, h⟩ := bind_ok.mp h
        stp at h
        obtain ⟨rfl, rfl⟩ := h
        obtain ⟨⟨hn, hw'⟩, hr'⟩ := sc _ _ _ hfs
        refine ⟨⟨by simp, by simp only [okSecs]; exact ⟨hw, hw'⟩⟩, ?_⟩
        simp only [ySecs]
        rw [sep_cons (by rw [ySecs_map]; simpa using hn)]
        exact hr.app (Rd.cons (Rd.sym (by decide) hc) hr')
      spl at h
      obtain ⟨rfl, rfl⟩ := h
      exact ⟨⟨by simp, by simp only [okSecs]; exact ⟨hw, trivial⟩⟩, by simp only [ySecs, sep]; exact hr⟩

end Verif.Parse
