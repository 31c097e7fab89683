import Verif.Periphery.Spec
import Mathlib.Data.List.GetD

namespace Aihw.Periphery

attribute [local simp] bind Op.bind Op.get Op.modify Op.throw Op.lift pure Op.pure

/-- Full factor vector of an optional scale tensor. -/
def expand (n : Nat) (s : Option Vec) : Vec := (List.range n).map (factor s)

theorem expand_length (n s) : (expand n s).length = n := by simp [expand]

theorem expand_getElem (n s i) (h : i < (expand n s).length) : (expand n s)[i] = factor s i := by
  simp [expand]

theorem scaleRows_length {w : Mat} {s : Vec} (h : w.length = s.length) :
    (scaleRows w s).length = w.length := by simp [scaleRows, h]

theorem expand_full {n : Nat} {v : Vec} (h : v.length = n) : expand n (some v) = v := by
  apply List.ext_getElem
  · simp [expand, h]
  · intro i h1 h2
    simp only [expand_getElem, factor]
    split_ifs with h3
    · have : i = 0 := by omega
      subst this
      rw [List.getD_eq_getElem _ _ h2]
    · rw [List.getD_eq_getElem _ _ h2]

theorem expand_single (n : Nat) (c : ℚ) : expand n (some [c]) = List.replicate n c := by
  apply List.ext_getElem
  · simp [expand]
  · intro i h1 h2
    simp [expand_getElem, factor]

theorem zipWith_replicate {α β γ : Type} (f : α → β → γ) (l : List α) (c : β) :
    List.zipWith f l (List.replicate l.length c) = l.map fun a => f a c := by
  induction l with
  | nil => rfl
  | cons a l ih => simp [List.replicate_succ, ih]

theorem rowScale_eq {c : Cfg} {w : Mat} {v : Vec} (hw : w.length = c.outSize) (hv : FitsOut c v) :
    rowScale w v = .ok (scaleRows w (expand c.outSize (some v))) := by
  unfold rowScale scaleRows
  split_ifs with h
  · rw [expand_full (by omega)]
    simp only [mul_comm]
  · rcases hv with hv | hv
    · obtain ⟨c', rfl⟩ := List.length_eq_one_iff.1 hv
      simp only [expand_single, ← hw, zipWith_replicate, mul_comm]
    · omega

theorem bmul_eq {n : Nat} {a v : Vec} (ha : a.length = n) (hv : v.length = 1 ∨ v.length = n) :
    bmul a v = .ok (List.zipWith (· * ·) a (expand n (some v))) := by
  unfold bmul
  split_ifs with h
  · rw [expand_full (by omega)]
  · rcases hv with hv | hv
    · obtain ⟨c', rfl⟩ := List.length_eq_one_iff.1 hv
      simp only [expand_single, ← ha, zipWith_replicate]
    · omega

theorem getD_zero_eq (v : Vec) : v.headD 0 = v.getD 0 0 := by cases v <;> rfl

theorem bmul_fits {n : Nat} {a v : Vec} (ha : a.length = 1 ∨ a.length = n) (hv : v.length = 1 ∨ v.length = n) :
    ∃ r, bmul a v = .ok r ∧ (r.length = 1 ∨ r.length = n) ∧
      ∀ i < n, factor (some r) i = factor (some a) i * factor (some v) i := by
  unfold bmul
  split_ifs with h
  · refine ⟨_, rfl, ?_, ?_⟩
    · simp [h]; exact hv
    · intro i hi
      have hl : (List.zipWith (· * ·) a v).length = v.length := by simp [h]
      simp only [factor, hl, h]
      split_ifs with h1
      · obtain ⟨x, rfl⟩ := List.length_eq_one_iff.1 h1
        obtain ⟨y, rfl⟩ := List.length_eq_one_iff.1 (h.trans h1)
        simp
      · have hn : v.length = n := by omega
        have hv' : i < v.length := by omega
        have ha' : i < a.length := by omega
        have hz : i < (List.zipWith (· * ·) a v).length := by omega
        rw [List.getD_eq_getElem _ _ hz, List.getD_eq_getElem _ _ ha', List.getD_eq_getElem _ _ hv']
        simp
  · by_cases hv1 : v.length = 1
    · obtain ⟨x, rfl⟩ := List.length_eq_one_iff.1 hv1
      refine ⟨_, rfl, by simpa using ha, ?_⟩
      intro i hi
      simp only [factor, List.length_map]
      have : a.length ≠ 1 := by simpa using h
      have ha' : i < a.length := by omega
      rw [if_neg this, if_neg this, List.getD_eq_getElem _ _ (by simpa using ha'),
        List.getD_eq_getElem _ _ ha']
      simp
    · have hn : v.length = n := by omega
      have ha1 : a.length = 1 := by omega
      obtain ⟨x, rfl⟩ := List.length_eq_one_iff.1 ha1
      cases v with
      | nil =>
        refine ⟨[], by simp, by simp at hn ⊢; exact hn, ?_⟩
        intro i hi; simp at hn; omega
      | cons y v =>
        cases v with
        | nil => simp at hv1
        | cons z v =>
          refine ⟨_, rfl, by right; simpa using hn, ?_⟩
          intro i hi
          have hi' : i < (y :: z :: v).length := by omega
          simp only [factor, List.length_map]
          rw [if_neg hv1, if_neg hv1, List.getD_eq_getElem _ _ (by simpa using hi'),
            List.getD_eq_getElem _ _ hi', List.getElem_map]
          simp

/-- The invariant every reachable tile satisfies. -/
structure Good (c : Cfg) (t : Tile) : Prop where
  cfg : t.cfg = c
  w : IsMat c.outSize (c.inSize + if c.analogBias then 1 else 0) t.w
  bias : c.digitalBias = true → t.bias.length = c.outSize
  ms : ∀ v, t.mappingScales = some v → FitsOut c v
  ls : ∀ v, t.learned = some v → FitsOut c v
  ir : t.inputRange.isSome = c.inputRange.isSome
  lr : t.mappingLrScale ≠ 0
  nomap : c.mapping = none → t.mappingScales = none
  noLrComp : (∀ m, c.mapping = some m → m.lrCompensation = false) → t.mappingLrScale = 1

theorem getScales_good {c t} (h : Good c t) :
    ∃ o, getScales t = .ok o ∧ (∀ v, o = some v → FitsOut c v) ∧
      ∀ i < c.outSize, factor o i = factor t.mappingScales i * factor t.learned i := by
  unfold getScales
  cases hm : t.mappingScales with
  | none =>
    cases hl : t.learned with
    | none => exact ⟨none, rfl, by simp, by simp [factor]⟩
    | some l => exact ⟨some l, rfl, by rintro v ⟨⟩; exact h.ls _ hl, by simp [factor]⟩
  | some m =>
    cases hl : t.learned with
    | none => exact ⟨some m, rfl, by rintro v ⟨⟩; exact h.ms _ hm, by simp [factor]⟩
    | some l =>
      obtain ⟨r, hr, hlen, hf⟩ := bmul_fits (h.ms _ hm) (h.ls _ hl)
      exact ⟨some r, by simp [hr, Except.map], by rintro v ⟨⟩; exact hlen, hf⟩

theorem getScales_none {t : Tile} : getScales t = .ok none ↔ t.mappingScales = none ∧ t.learned = none := by
  unfold getScales
  cases t.mappingScales <;> cases t.learned <;> simp [Except.map]
  split <;> simp

theorem storedWeights_isMat {c t} (h : Good c t) : IsMat c.outSize c.inSize (storedWeights t) := by
  obtain ⟨h1, h2⟩ := h.w
  unfold storedWeights
  rw [h.cfg]
  cases hb : c.analogBias with
  | false => simp [hb] at h2; exact ⟨by simpa using h1, by simpa using h2⟩
  | true =>
    simp [hb] at h2
    refine ⟨by simpa using h1, ?_⟩
    simp only [if_true, List.mem_map]
    rintro r ⟨r', hr', rfl⟩
    simp [h2 r' hr']

/-- The bias part of a tile as stored (analog: last column; digital: the vector). -/
def storedBias (t : Tile) : Option Vec :=
  if t.cfg.digitalBias then some t.bias
  else if t.cfg.analogBias then some (t.w.map fun r => r.getLastD 0) else none

theorem getWeights_raw (t : Tile) : getWeights t false = .ok (storedWeights t, storedBias t) := by
  unfold getWeights storedWeights storedBias separateWeights
  cases t.cfg.analogBias <;> cases t.cfg.digitalBias <;> simp [Except.pure]

theorem mul_one_rows {w : Mat} {n : Nat} (h : w.length = n) :
    scaleRows w (List.replicate n 1) = w := by
  subst h
  simp [scaleRows, zipWith_replicate]

theorem rowFactors_eq {c t o} (h : Good c t)
    (ho : ∀ i < c.outSize, factor o i = factor t.mappingScales i * factor t.learned i) :
    rowFactors t = expand c.outSize o := by
  unfold rowFactors expand
  rw [h.cfg]
  apply List.map_congr_left
  intro i hi
  rw [ho i (by simpa using hi)]

theorem expand_none (n : Nat) : expand n none = List.replicate n 1 := by
  apply List.ext_getElem
  · simp [expand]
  · intro i h1 h2; simp [expand_getElem, factor]

theorem zipWith_mul_ones {b : Vec} {n : Nat} (h : b.length = n) :
    List.zipWith (· * ·) b (List.replicate n 1) = b := by
  subst h; simp [zipWith_replicate]

theorem storedBias_length {c t} (h : Good c t) : ∀ b, storedBias t = some b → b.length = c.outSize := by
  intro b hb
  unfold storedBias at hb
  rw [h.cfg] at hb
  split_ifs at hb with h1 h2
  · cases hb; exact h.bias h1
  · cases hb; simpa using h.w.1

/-- Scaled read of a reachable tile. -/
theorem getWeights_scaled {c t} (hc : c.Valid) (h : Good c t) :
    getWeights t true = .ok (scaleRows (storedWeights t) (rowFactors t),
      if c.analogBias then (storedBias t).map fun b => List.zipWith (· * ·) b (rowFactors t)
      else storedBias t) := by
  obtain ⟨o, ho, hfit, hfac⟩ := getScales_good h
  rw [rowFactors_eq h hfac]
  have hw := storedWeights_isMat h
  have hsep : separateWeights t.cfg t.w =
      (storedWeights t, if c.analogBias then some (t.w.map fun r => r.getLastD 0) else none) := by
    unfold separateWeights storedWeights
    rw [h.cfg]; cases c.analogBias <;> rfl
  have hb : (if t.cfg.digitalBias = true then some t.bias else
      if c.analogBias = true then some (t.w.map fun r => r.getLastD 0) else none) = storedBias t := by
    unfold storedBias; rw [h.cfg]
  unfold getWeights
  rw [hsep]
  simp only [Bool.not_true, Bool.false_eq_true, if_false, ho, hb, h.cfg]
  rw [h.cfg] at hb
  cases o with
  | none =>
    simp only [expand_none, mul_one_rows hw.1, bind, Except.bind, pure, Except.pure]
    rw [hb]
    congr 2
    by_cases ha : c.analogBias = true
    · rw [if_pos ha]
      cases hsb : storedBias t with
      | none => rfl
      | some b => simp [zipWith_mul_ones (storedBias_length h b hsb)]
    · rw [if_neg ha]
  | some v =>
    simp only [bind, Except.bind, pure, Except.pure]
    rw [rowScale_eq hw.1 (hfit v rfl), hb]
    simp only
    split_ifs with ha
    · cases hsb : storedBias t with
      | none => simp
      | some b =>
        simp only [bmul_eq (storedBias_length h b hsb) (hfit v rfl), Option.map]
    · rfl

end Aihw.Periphery
