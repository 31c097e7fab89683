import Verif.PostUpdate.Model
import Verif.Periphery.Props

namespace Aihw.PostUpdate
open Aihw.Periphery

/-- Logical weights from the stored (combined) matrix. -/
theorem getWeights_combined {c t} (hc : c.Valid) (h : Good c t) :
    getWeights t true = .ok ((separateWeights c (scaleRows t.w (rowFactors t))).1,
      if c.digitalBias then some t.bias else (separateWeights c (scaleRows t.w (rowFactors t))).2) := by
  rw [getWeights_scaled hc h]
  have hrf : (rowFactors t).length = c.outSize := by simp [rowFactors, h.cfg]
  unfold storedWeights storedBias separateWeights
  rw [h.cfg]
  cases ha : c.analogBias with
  | false => cases hd : c.digitalBias <;> simp [hd]
  | true =>
    have hd : c.digitalBias = false := by
      cases hd : c.digitalBias with
      | false => rfl
      | true => exact (hc.bias_excl ⟨ha, hd⟩).elim
    simp only [if_true, hd, Bool.false_eq_true, if_false, Option.map_some]
    congr 2
    · unfold scaleRows
      rw [List.zipWith_map_left, List.map_zipWith]
      congr 1; funext r x; rw [List.map_dropLast]
    · congr 1
      unfold scaleRows
      rw [List.zipWith_map_left, List.map_zipWith]
      have hw := h.w
      simp only [ha, if_true] at hw
      apply List.ext_getElem (by simp)
      intro i h1 h2
      simp only [List.getElem_zipWith]
      have hi : i < t.w.length := by simp at h1; omega
      have hl := hw.2 _ (List.getElem_mem hi)
      generalize t.w[i] = r at *
      have hne : r ≠ [] := by intro e; rw [e] at hl; simp at hl
      rw [List.getLastD_eq_getLast?, List.getLastD_eq_getLast?, List.getLast?_map,
        List.getLast?_eq_getLast_of_ne_nil hne]
      simp [mul_comm]

theorem rowFactors_of {c t} {s : Vec} (hcfg : t.cfg = c) (hc : c.Valid)
    (hms : ∃ ms, t.mappingScales = some ms ∧ ∀ i < c.outSize, factor (some ms) i = factor (some s) i)
    (hl : ∃ l : Option Vec, t.learned = (l.map fun l => l.map fun _ => 1) ∧ ∀ v, l = some v → FitsOut c v) :
    rowFactors t = expand c.outSize (some s) := by
  obtain ⟨ms, h1, h2⟩ := hms
  obtain ⟨l, h3, h4⟩ := hl
  unfold rowFactors expand
  rw [hcfg]
  apply List.map_congr_left
  intro i hi
  have hi' : i < c.outSize := by simpa using hi
  rw [h1, h3, factor_learned_reset hc l h4 i hi', mul_one, h2 i hi']

theorem setScales_tensor_ok {c t m v} (hc : c.Valid) (h : Good c t) (hm : c.mapping = some m)
    (hv : FitsOut c v) (hpos : m.lrCompensation = false ∨ ∀ x ∈ v, 0 < x) :
    ∃ ms mls, setScales (.tensor v) t =
        (.ok (), { t with mappingScales := some ms, mappingLrScale := mls,
                          learned := t.learned.map fun l => l.map fun _ => 1 }) ∧
      ∀ i < c.outSize, factor (some ms) i = factor (some v) i := by
  rcases hpos with hl | hpos
  · have hm' : t.cfg.mapping = some m := by rw [h.cfg]; exact hm
    refine ⟨newScales t.mappingScales v, t.mappingLrScale, ?_, newScales_factor hc h.ms⟩
    unfold setScales
    simp only [bind, Op.bind, setMappingScales_tensor hm', hl, Bool.false_eq_true, if_false, setLearned_one]
  · obtain ⟨ms, mls, h1, _, h3, _, _⟩ := setScales_tensor_pos hc h hm hv hpos
    exact ⟨ms, mls, h1, h3⟩

/-- What a remapper has to do to one tile. -/
structure RemapOk (c : Cfg) (w : Mat) (s : Vec) (w' : Mat) (s' : Vec) : Prop where
  shape : Combined c w'
  fits : FitsOut c s'
  same : scaleRows w' (expand c.outSize (some s')) = scaleRows w (expand c.outSize (some s))

theorem postRemap_ok {c t m R s w' s'} (hc : c.Valid) (h : Good c t) (hm : c.mapping = some m)
    (hs : getScales t = .ok (some s)) (hR : R t.w s = .ok (w', s')) (hok : RemapOk c t.w s w' s')
    (hpos : m.lrCompensation = false ∨ ∀ x ∈ s', 0 < x) :
    (postRemap R t).1 = .ok () ∧ (postRemap R t).2.w = w' ∧
    getWeights (postRemap R t).2 true = getWeights t true ∧ Good c (postRemap R t).2 ∧
    rowFactors (postRemap R t).2 = expand c.outSize (some s') := by
  set t1 : Tile := { t with w := w' } with ht1
  have h1 : Good c t1 := ⟨h.cfg, hok.shape, h.bias, h.ms, h.ls, h.ir, h.lr, h.nomap, h.noLrComp⟩
  obtain ⟨ms, mls, he, hf⟩ := setScales_tensor_ok hc h1 hm hok.fits hpos
  have hrun : postRemap R t = setScales (.tensor s') t1 := by
    unfold postRemap
    simp only [Bind.bind, Op.bind, Op.get, Op.lift, hs, hR, Op.modify]
    rfl
  have hgood : Good c (setScales (.tensor s') t1).2 :=
    (setScales_keeps hc (.tensor s') (by rintro v ⟨⟩; exact hok.fits) t1 h1).1
  rw [hrun]
  rw [he] at hgood ⊢
  have hrf := rowFactors_of (s := s') hgood.cfg hc ⟨ms, rfl, hf⟩ ⟨t1.learned, rfl, h1.ls⟩
  refine ⟨rfl, rfl, ?_, hgood, hrf⟩
  obtain ⟨o, ho, hfit, hfac⟩ := getScales_good h
  rw [hs] at ho
  cases ho
  have hrf0 := rowFactors_eq h hfac
  rw [getWeights_combined hc hgood, getWeights_combined hc h, hrf, hrf0]
  show Except.ok ((separateWeights c (scaleRows w' _)).1, if c.digitalBias = true then some t.bias else
    (separateWeights c (scaleRows w' _)).2) = _
  rw [hok.same]

/-- A remap never leaves the invariant. -/
theorem postRemap_keeps {c R} (hc : c.Valid)
    (hR : ∀ w s w' s', Combined c w → FitsOut c s → R w s = .ok (w', s') → Combined c w' ∧ FitsOut c s') :
    Keeps c (postRemap R) (fun _ => True) := by
  unfold postRemap
  refine Keeps.get.bind fun t0 ht0 => ?_
  obtain ⟨o, ho, hfit, -⟩ := getScales_good ht0
  rw [ho]
  refine Keeps.bind (Q := fun x => x = o) (Keeps.lift (by intro a ha; cases ha; rfl)) fun x hx => ?_
  subst hx
  cases x with
  | none => exact Keeps.throw
  | some s =>
    refine Keeps.bind (Q := fun p => Combined c p.1 ∧ FitsOut c p.2) (Keeps.lift ?_) fun p hp => ?_
    · rintro ⟨w', s'⟩ h
      exact hR _ _ _ _ ht0.w (hfit s rfl) h
    · obtain ⟨w', s'⟩ := p
      refine Keeps.bind (Keeps.modify fun t ht =>
        ⟨ht.cfg, hp.1, ht.bias, ht.ms, ht.ls, ht.ir, ht.lr, ht.nomap, ht.noLrComp⟩) fun _ _ => ?_
      exact setScales_keeps hc _ (by rintro v ⟨⟩; exact hp.2)

end Aihw.PostUpdate
