import Verif.Periphery.Invariant

namespace Aihw.Periphery

/-- Weights and (analog) bias as written into the crossbar. -/
def joined (c : Cfg) (w : Mat) (b : Option Vec) : Mat :=
  if c.analogBias then List.zipWith (fun r x => r ++ [x]) w (b.getD []) else w

theorem joined_combined {c : Cfg} {w b} (hw : IsMat c.outSize c.inSize w) (hb : BiasOk c b) :
    Combined c (joined c w b) := by
  unfold Combined joined
  cases ha : c.analogBias with
  | false => simpa using hw
  | true =>
    cases b with
    | none => simp [BiasOk, ha] at hb
    | some v =>
      have : v.length = c.outSize := hb (Or.inl ha)
      simpa using zip_append_isMat hw (by rw [this, hw.1])

theorem combineWeights_joined {c : Cfg} {w b} (hw : IsMat c.outSize c.inSize w) (hb : BiasOk c b) :
    combineWeights c w b = .ok (joined c w b) := by
  unfold combineWeights joined
  rw [reshape_ok.2 ⟨rfl, hw⟩]
  simp only [Bind.bind, Except.bind]
  cases ha : c.analogBias with
  | false => rfl
  | true =>
    cases b with
    | none => simp [BiasOk, ha] at hb
    | some v =>
      have : v.length = c.outSize := hb (Or.inl ha)
      simp [this, hw.1]

/-- Digital bias after a write. -/
def newBias (c : Cfg) (old : Vec) (b : Option Vec) : Vec := if c.digitalBias then b.getD old else old

theorem joined_none {c : Cfg} {w b} (h : c.analogBias = false) : joined c w b = joined c w none := by
  simp [joined, h]

/-- `set_weights` on valid arguments, before scaling. -/
theorem setWeights_eq {c t w b s arg} (hc : c.Valid) (ht : Good c t)
    (hw : IsMat c.outSize c.inSize w) (hb : BiasOk c b) :
    setWeights w b s arg t =
      (let t1 := { t with reference := none, bias := newBias c t.bias b }
       Op.bind (if s then applyWeightScaling (joined c w b) arg else Pure.pure (joined c w b))
        (fun cw => Op.modify fun t => { t with w := devWrite t.cfg cw }) t1) := by
  have hcfg := ht.cfg
  unfold setWeights
  simp only [Bind.bind, Op.bind, Op.modify, Op.get]
  cases b with
  | none =>
    have hna : c.analogBias = false := hb
    have hnb : newBias c t.bias none = t.bias := by unfold newBias; split_ifs <;> rfl
    simp only [Pure.pure, Op.pure, Op.lift, hcfg, combineWeights_joined hw hb, hnb]
  | some v =>
    cases hd : c.digitalBias with
    | true =>
      have hl : v.length = c.outSize := hb (Or.inr hd)
      have hna : c.analogBias = false := by
        cases ha : c.analogBias with
        | false => rfl
        | true => exact (hc.bias_excl ⟨ha, hd⟩).elim
      simp only [hcfg, hd, hl, if_true, Op.bind, Op.modify, Pure.pure, Op.pure, Op.lift,
        combineWeights_joined hw (b := none) hna, newBias, Option.getD_some]
      rw [joined_none (b := some v) hna]
    | false =>
      simp only [hcfg, hd, Bool.false_eq_true, if_false, Pure.pure, Op.pure, Op.lift,
        combineWeights_joined hw hb, newBias]

theorem setWeights_on {c t m w b arg o} (hc : c.Valid) (ht : Good c t) (hm : c.mapping = some m)
    (ho : effOmega m arg = some o) (hpos : 0 < o)
    (hw : IsMat c.outSize c.inSize w) (hb : BiasOk c b) :
    ∃ ms mls, setWeights w b true arg t =
      (.ok (), { t with
        reference := none, bias := newBias c t.bias b, mappingScales := some ms, mappingLrScale := mls,
        learned := t.learned.map fun l => l.map fun _ => 1,
        w := devWrite c (divRows (joined c w b) (alphas m.columnwise o (joined c w b))) }) ∧
      FitsOut c ms ∧ expand c.outSize (some ms) = alphas m.columnwise o (joined c w b) := by
  have hg : Good c { t with reference := none, bias := newBias c t.bias b } := by
    refine ⟨ht.cfg, ht.w, ?_, ht.ms, ht.ls, ht.ir, ht.lr, ht.nomap, ht.noLrComp⟩
    intro hd
    simp only [newBias, hd, if_true]
    cases b with
    | none => exact ht.bias hd
    | some v => exact hb (Or.inr hd)
  obtain ⟨ms, mls, he, hfit, hexp, _, _⟩ := applyWeightScaling_on hc hg hm ho hpos (joined_combined hw hb).1
  refine ⟨ms, mls, ?_, hfit, hexp⟩
  rw [setWeights_eq hc ht hw hb]
  simp only [if_true, Op.bind, he, Op.modify]
  simp only [ht.cfg]

theorem setWeights_off {c t w b s arg} (hc : c.Valid) (ht : Good c t)
    (hoff : s = false ∨ ∀ m, c.mapping = some m → ∀ o, effOmega m arg = some o → o ≤ 0)
    (hw : IsMat c.outSize c.inSize w) (hb : BiasOk c b) :
    setWeights w b s arg t =
      (.ok (), { t with reference := none, bias := newBias c t.bias b,
                        w := devWrite c (joined c w b) }) := by
  rw [setWeights_eq hc ht hw hb]
  have hcfg := ht.cfg
  cases s with
  | false => simp only [Bool.false_eq_true, if_false, Op.bind, Pure.pure, Op.pure, Op.modify, hcfg]
  | true =>
    have hoff' := hoff.resolve_left (by simp)
    simp only [if_true, Op.bind]
    rw [applyWeightScaling_off (by simp only [hcfg]; exact hoff')]
    simp only [Op.modify, hcfg]

theorem joined_split {c : Cfg} {w b} (hw : IsMat c.outSize c.inSize w) (hb : BiasOk c b) (t : Tile)
    (hcfg : t.cfg = c) (htw : t.w = joined c w b) :
    storedWeights t = w ∧ (c.analogBias = true → some (t.w.map fun r => r.getLastD 0) = b) := by
  unfold storedWeights
  rw [htw, hcfg]
  unfold joined
  cases ha : c.analogBias with
  | false => simp
  | true =>
    cases b with
    | none => simp [BiasOk, ha] at hb
    | some v =>
      have hl : w.length = v.length := by rw [hb (Or.inl ha), hw.1]
      simp only [if_true, Option.getD_some, forall_const, Option.some.injEq]
      constructor
      · apply List.ext_getElem
        · simp [hl]
        · intro i h1 h2; simp
      · apply List.ext_getElem
        · simp [hl]
        · intro i h1 h2; simp [List.getLastD_eq_getLast?]

theorem scaleRows_map_dropLast (w : Mat) (s : Vec) :
    scaleRows (w.map List.dropLast) s = (scaleRows w s).map List.dropLast := by
  unfold scaleRows
  rw [List.zipWith_map_left, List.map_zipWith]
  congr 1
  funext r c
  rw [List.map_dropLast]

theorem scaleRows_last {o i : Nat} {w : Mat} {s : Vec} (hw : IsMat o (i + 1) w) (hs : s.length = o) :
    List.zipWith (· * ·) (w.map fun r => r.getLastD 0) s = (scaleRows w s).map fun r => r.getLastD 0 := by
  unfold scaleRows
  rw [List.zipWith_map_left, List.map_zipWith]
  apply List.ext_getElem
  · simp
  · intro k h1 h2
    have hk : k < w.length := by simp at h1; omega
    have hne : w[k] ≠ [] := by
      have := hw.2 _ (List.getElem_mem hk)
      intro h; rw [h] at this; simp at this
    simp only [List.getElem_zipWith]
    rw [List.getLastD_eq_getLast?, List.getLastD_eq_getLast?, List.getLast?_map,
      List.getLast?_eq_some_getLast hne]
    simp [mul_comm]

/-- A scaled read in terms of the scaled full matrix. -/
theorem getWeights_via {c t} {w : Mat} {b : Option Vec} (hc : c.Valid) (ht : Good c t)
    (hw : IsMat c.outSize c.inSize w) (hb : BiasOk c b)
    (h : scaleRows t.w (rowFactors t) = joined c w b) :
    getWeights t true = .ok (w, if c.analogBias then b else storedBias t) := by
  have hrf : (rowFactors t).length = c.outSize := by simp [rowFactors, ht.cfg]
  rw [getWeights_scaled hc ht]
  have hj := joined_split (c := c) (b := b) hw hb { t with w := joined c w b } ht.cfg rfl
  congr 2
  · rw [← hj.1]
    unfold storedWeights
    simp only [ht.cfg]
    cases ha : c.analogBias with
    | false => simp [h]
    | true => simp [scaleRows_map_dropLast, h]
  · cases ha : c.analogBias with
    | false => simp
    | true =>
      have hd : c.digitalBias = false := by
        cases hd : c.digitalBias with
        | false => rfl
        | true => exact (hc.bias_excl ⟨ha, hd⟩).elim
      simp only [if_true]
      have := hj.2 ha
      simp only [storedBias, ht.cfg, hd, ha, Bool.false_eq_true, if_false, if_true, Option.map_some]
      have hw' := ht.w
      rw [ha] at hw'
      rw [scaleRows_last (by simpa using hw') hrf, h]
      exact this

end Aihw.Periphery
