import Verif.Linalg.Spec
import Verif.Periphery.Props3
import Verif.Periphery.Props5
import Verif.TileArray.Props

/-!
# Reachable tiles of an analog matrix
-/
namespace Aihw.Linalg
open Aihw.Periphery

/-- Calls that an analog matrix makes. -/
inductive Made : Call → Prop where
  | store (M : Mat) : Made (.setWeights M none true none)
  | lr (a : ℚ) : Made (.setLearningRate (some a))
  | upd (x d : Vec) : Made (.update x d)

theorem Made.valid {c k} (h : Made k) : k.Valid c := by cases h <;> trivial

/-- Configurations considered. -/
structure Plain (c : Cfg) : Prop where
  valid : c.Valid
  noA : c.analogBias = false
  noD : c.digitalBias = false
  noR : c.inputRange = none
  exact : Exact c

/-- What stays true of the tile of an analog matrix. -/
structure Inv (c : Cfg) (t : Tile) : Prop where
  good : Good c t
  nz : ∀ v, t.mappingScales = some v → ∀ a ∈ v, a ≠ 0
  lr : t.mappingScales = none → t.mappingLrScale = 1
  ones : ∀ v, t.learned = some v → ∀ a ∈ v, a = 1
  off : (∀ m, c.mapping = some m → ∀ o, m.omega = some o → o ≤ 0) → ∀ v, t.mappingScales = some v → ∀ a ∈ v, a = 1

theorem factor_one {s : Option Vec} {c : Cfg} (h : ∀ v, s = some v → ∀ a ∈ v, a = 1) (hf : ∀ v, s = some v → FitsOut c v)
    (hc : c.Valid) {i : Nat} (hi : i < c.outSize) : factor s i = 1 := by
  cases s with
  | none => rfl
  | some v =>
    have hl := hf v rfl
    have h1 := h v rfl
    unfold FitsOut at hl
    unfold factor
    have := hc.out_pos
    by_cases c1 : v.length = 1
    · simp only [c1, if_true]
      rw [List.getD_eq_getElem _ _ (by omega)]
      exact h1 _ (List.getElem_mem _)
    · simp only [c1, if_false]
      rw [List.getD_eq_getElem _ _ (by omega)]
      exact h1 _ (List.getElem_mem _)

theorem inv_init {c : Cfg} (hc : c.Valid) : Inv c (init c) := by
  have hg : Good c (init c) := run_good (calls := []) hc (by simp)
  refine ⟨hg, ?_, fun _ => rfl, ?_, ?_⟩
  · intro v hv a ha
    unfold init at hv
    simp only at hv
    split at hv
    · cases hv
    · split at hv
      · cases hv
      · split_ifs at hv
        cases hv
        simp at ha; subst ha; norm_num
  · intro v hv a ha
    unfold init at hv
    simp only at hv
    split at hv
    · cases hv
    · split_ifs at hv <;>
        (cases hv; exact List.eq_of_mem_replicate ha)
  · intro _ v hv a ha
    unfold init at hv
    simp only at hv
    split at hv
    · cases hv
    · split at hv
      · cases hv
      · split_ifs at hv
        cases hv
        simpa using ha

theorem mem_expand {n : Nat} {v : Vec} {a : ℚ} (hn : 0 < n) (hf : v.length = 1 ∨ v.length = n) (ha : a ∈ v) :
    a ∈ expand n (some v) := by
  obtain ⟨k, hk, rfl⟩ := List.getElem_of_mem ha
  rcases hf with hf | hf
  · have : k = 0 := by omega
    subst this
    have e : v[0] = (expand n (some v))[0]'(by rw [expand_length]; exact hn) := by
      rw [expand_getElem]; unfold factor
      simp only [hf, if_true]
      rw [List.getD_eq_getElem _ _ (by omega)]
    rw [e]; exact List.getElem_mem _
  · have e : v[k] = (expand n (some v))[k]'(by rw [expand_length]; omega) := by
      rw [expand_getElem]; unfold factor
      by_cases c1 : v.length = 1
      · simp only [c1, if_true]
        have : k = 0 := by omega
        subst this
        rw [List.getD_eq_getElem _ _ (by omega)]
      · simp only [c1, if_false]
        rw [List.getD_eq_getElem _ _ (by omega)]
    rw [e]; exact List.getElem_mem _

/-- Storing a matrix: succeeds, keeps the invariant and the matrix is what is read. -/
theorem store_spec {c : Cfg} (hp : Plain c) {t : Tile} (h : Inv c t) {M : Mat} (hM : IsMat c.outSize c.inSize M) :
    ∃ t', setWeights M none true none t = (.ok (), t') ∧ Inv c t' ∧ getWeights t' true = .ok (M, none) := by
  have hb : BiasOk c none := hp.noA
  have hstep : Good c (setWeights M none true none t).2 := step_good hp.valid h.good (k := .setWeights M none true none) trivial
  have hsb : ∀ t' : Tile, t'.cfg = c → (if c.analogBias then (none : Option Vec) else storedBias t') = none := by
    intro t' ht'
    simp [hp.noA, storedBias, ht', hp.noD]
  rcases hp.exact with ⟨m, o, hm, ho, hpos, hdev⟩ | ⟨hdev, hoff⟩
  · obtain ⟨ms, mls, he, hfit, hexp⟩ := setWeights_on (arg := none) hp.valid h.good hm (show effOmega m none = some o from ho) hpos hM hb
    refine ⟨_, he, ?_, ?_⟩
    · rw [he] at hstep
      refine ⟨hstep, ?_, ?_, ?_, ?_⟩
      · intro v hv a ha
        simp only at hv
        cases hv
        have := mem_expand hp.valid.out_pos hfit ha
        rw [hexp] at this
        exact (alphas_pos hpos a this).ne'
      · intro hv; cases hv
      · intro v hv a ha
        simp only [Option.map_eq_some_iff] at hv
        obtain ⟨l, _, rfl⟩ := hv
        obtain ⟨_, _, rfl⟩ := List.mem_map.1 ha
        rfl
      · intro hoff
        exact absurd (hoff m hm o ho) (not_le.2 hpos)
    · rw [he] at hstep
      rw [getWeights_via hp.valid hstep hM hb, hsb _ hstep.cfg]
      have hrf := rowFactors_after hp.valid hstep.cfg (ms := ms) (l := t.learned) rfl rfl h.good.ls
      rw [hrf, hexp]
      show scaleRows (devWrite c _) _ = _
      rw [devWrite_id hdev (divRows_alphas_le hpos)]
      exact scaleRows_divRows (alphas_length _ _ _).symm fun a ha => (alphas_pos hpos a ha).ne'
  · have he := setWeights_off (s := true) (arg := none) hp.valid h.good (Or.inr hoff) hM hb
    refine ⟨_, he, ?_, ?_⟩
    · rw [he] at hstep
      exact ⟨hstep, h.nz, h.lr, h.ones, h.off⟩
    · rw [he] at hstep
      rw [getWeights_via hp.valid hstep hM hb, hsb _ hstep.cfg]
      have hw : devWrite c (joined c M none) = joined c M none := by unfold devWrite; rw [hdev]
      simp only [hw]
      have hj : joined c M none = M := by unfold joined; rw [hp.noA]; rfl
      rw [hj]
      unfold scaleRows rowFactors
      have hcfg : t.cfg = c := h.good.cfg
      simp only [hcfg]
      apply List.ext_getElem
      · simp [hM.1]
      · intro i h1 h2
        have hi : i < c.outSize := by rw [← hM.1]; exact h2
        rw [List.getElem_zipWith, List.getElem_map, List.getElem_range]
        rw [factor_one (h.off hoff) h.good.ms hp.valid hi, factor_one h.ones h.good.ls hp.valid hi]
        simp

theorem noRange {c : Cfg} (hp : Plain c) {t : Tile} (h : Inv c t) : t.inputRange = none := by
  have := h.good.ir
  rw [hp.noR] at this
  cases hh : t.inputRange with
  | none => rfl
  | some _ => rw [hh] at this; cases this

theorem inv_lr {c : Cfg} {t : Tile} (h : Inv c t) (a : ℚ) : Inv c { t with devLr := a } :=
  ⟨⟨h.good.cfg, h.good.w, h.good.bias, h.good.ms, h.good.ls, h.good.ir, h.good.lr, h.good.nomap, h.good.noLrComp⟩,
    h.nz, h.lr, h.ones, h.off⟩

/-- The matrix a tile stands for. -/
theorem weights_inv {c : Cfg} (hp : Plain c) {t : Tile} (h : Inv c t) :
    ∃ W, getWeights t true = .ok (W, none) ∧ IsMat c.outSize c.inSize W ∧
      ∀ i < c.outSize, ∀ j < c.inSize, entry W i j = entry t.w i j * factor t.mappingScales i := by
  have hw := storedWeights_isMat h.good
  have hrl : (rowFactors t).length = c.outSize := by simp [rowFactors, h.good.cfg]
  refine ⟨scaleRows (storedWeights t) (rowFactors t), ?_, ?_, ?_⟩
  · rw [getWeights_scaled hp.valid h.good]
    simp [hp.noA, storedBias, h.good.cfg, hp.noD]
  · refine ⟨by simp [scaleRows, hw.1, hrl], ?_⟩
    intro r hr
    unfold scaleRows at hr
    obtain ⟨k, hk, rfl⟩ := List.getElem_of_mem hr
    rw [List.getElem_zipWith, List.length_map]
    exact hw.2 _ (List.getElem_mem _)
  · intro i hi j hj
    rw [scaleRows_entry hw hrl hi hj, storedWeights_entry h.good hj]
    have hrv : (rowFactors t).getD i 0 = factor t.mappingScales i * factor t.learned i := by
      rw [List.getD_eq_getElem _ _ (by rw [hrl]; exact hi)]; simp [rowFactors]
    rw [hrv, factor_one h.ones h.good.ls hp.valid hi]
    ring

theorem factor_nz {c : Cfg} {t : Tile} (h : Inv c t) (hc : c.Valid) {i : Nat} (hi : i < c.outSize) : factor t.mappingScales i ≠ 0 := by
  cases hm : t.mappingScales with
  | none => simp [factor]
  | some m =>
    have hfit := h.good.ms m hm
    have := hc.out_pos
    unfold factor
    simp only
    split_ifs with h1
    · rw [List.getD_eq_getElem _ _ (by omega)]
      exact h.nz m hm _ (List.getElem_mem _)
    · have : i < m.length := by rcases hfit with h | h <;> omega
      rw [List.getD_eq_getElem _ _ this]
      exact h.nz m hm _ (List.getElem_mem _)

/-- One sample of an update. -/
theorem update_spec {c : Cfg} (hp : Plain c) {t : Tile} (h : Inv c t) {x d : Vec} (hx : x.length = c.inSize) (hd : d.length = c.outSize)
    {a : ℚ} (ha : t.devLr = a * t.mappingLrScale) :
    ∃ t', update x d t = (.ok (), t') ∧ Inv c t' ∧ t'.devLr = a * t'.mappingLrScale ∧ t'.mappingScales = t.mappingScales ∧
      ∀ i < c.outSize, ∀ j < c.inSize, entry t'.w i j * factor t.mappingScales i =
        entry t.w i j * factor t.mappingScales i - a * d.getD i 0 * x.getD j 0 := by
  have hir := noRange hp h
  obtain ⟨x', d', hup, hxl, hdl, hxr, hdr⟩ := update_eq (x := x) (d := d) h.good hx hd (by rw [hir]; simp) h.nz
  have hg : Good c (update x d t).2 := step_good hp.valid h.good (k := .update x d) trivial
  rw [hup] at hg
  refine ⟨_, hup, ⟨hg, h.nz, h.lr, h.ones, h.off⟩, ha, rfl, ?_⟩
  intro i hi j hj
  simp only [hp.noA, Bool.false_eq_true, if_false]
  rw [hir] at hxr
  have hxj := hxr j hj
  simp only [clippedInput, Option.getD_none, div_one] at hxj
  have hw := h.good.w
  rw [hp.noA] at hw
  simp only [Bool.false_eq_true, if_false, Nat.add_zero] at hw
  have hil : i < t.w.length := by rw [hw.1]; exact hi
  have hrow : t.w[i].length = c.inSize := hw.2 _ (List.getElem_mem hil)
  have e : entry (outerUpdate t.w t.devLr d' x') i j = entry t.w i j - t.devLr * d'.getD i 0 * x'.getD j 0 := by
    unfold entry outerUpdate
    have hz : i < (List.zipWith (fun r di => List.zipWith (fun wij xj => wij - t.devLr * di * xj) r x') t.w d').length := by
      simp [hw.1, hdl]; exact hi
    rw [List.getD_eq_getElem _ [] hz, List.getElem_zipWith, List.getD_eq_getElem _ [] hil]
    rw [List.getD_eq_getElem _ 0 (by simp [hrow, hxl]; exact hj), List.getElem_zipWith, List.getD_eq_getElem _ 0 (by rw [hrow]; exact hj),
      List.getD_eq_getElem _ 0 (by rw [hdl]; exact hi), List.getD_eq_getElem _ 0 (by rw [hxl]; exact hj)]
  rw [e, hxj, hdr i hi, ha]
  cases hm : t.mappingScales with
  | none =>
    simp only [factor, h.lr hm]
    ring
  | some m =>
    have hf := factor_nz h hp.valid hi
    rw [hm] at hf
    have hl := h.good.lr
    simp only
    field_simp

end Aihw.Linalg
