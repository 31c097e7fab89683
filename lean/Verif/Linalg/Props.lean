import Verif.Linalg.Lemmas

/-!
# C72: the analog matrix is the matrix
-/
namespace Aihw.Linalg
open Aihw.Periphery

/-- Reachable with valid calls. -/
def Reach (c : Cfg) (t : Tile) : Prop := ∃ calls : List Call, (∀ k ∈ calls, k.Valid c) ∧ t = run c calls

theorem Reach.step {c : Cfg} {t : Tile} (h : Reach c t) (k : Call) (hk : k.Valid c) : Reach c (Periphery.step t k) := by
  obtain ⟨calls, h1, rfl⟩ := h
  refine ⟨calls ++ [k], ?_, ?_⟩
  · intro a ha
    rcases List.mem_append.1 ha with ha | ha
    · exact h1 a ha
    · rw [List.mem_singleton.1 ha]; exact hk
  · unfold run; rw [List.foldl_append]; rfl

theorem reach_init (c : Cfg) : Reach c (init c) := ⟨[], by simp, rfl⟩

theorem forward_state {t : Tile} (h : t.inputRange = none) (x : Vec) (std : ℚ) (b : Bool) : (forward x std b t).2 = t := by
  have hp : preForward x std b t = (.ok x, t) := by
    unfold preForward
    simp only [Bind.bind, Op.bind, Op.get, h]
    rfl
  have hj : (jointForward x std b t).2 = t := by
    unfold jointForward
    simp only [Bind.bind, Op.bind, hp, Op.get, Op.lift]
    cases devForward t x with
    | error e => rfl
    | ok y => rfl
  unfold forward
  simp only [Bind.bind, Op.bind]
  cases hh : jointForward x std b t with
  | mk r t' =>
    rw [hh] at hj
    simp only at hj
    subst hj
    cases r with
    | error e => rfl
    | ok y =>
      simp only [Op.get, Op.lift]
      cases applyOutScaling t' y with
      | error e => rfl
      | ok z => rfl

/-- A product with a tile of the analog matrix. -/
theorem forward_spec {c : Cfg} (hp : Plain c) {t : Tile} (h : Inv c t) (hr : Reach c t) {x : Vec} (hx : x.length = c.inSize) (std : ℚ)
    (b : Bool) {W : Mat} (hW : getWeights t true = .ok (W, none)) (hm : IsMat c.outSize c.inSize W) :
    forward x std b t = (.ok (matVec W x), t) := by
  have hst := forward_state (noRange hp h) x std b
  obtain ⟨calls, h1, h2⟩ := hr
  obtain ⟨-, h3, -⟩ := C14_forward c hp.valid calls h1 x hx std b
  rw [← h2] at h3
  rw [hst, noRange hp h] at h3
  obtain ⟨W', b', y, hg, hy, hyl, hye⟩ := h3 (by simp)
  rw [hW] at hg
  injection hg with hg
  injection hg with e1 e2
  subst e1
  apply Prod.ext
  · rw [hy]
    simp only
    congr 1
    apply List.ext_getElem
    · rw [hyl]; unfold matVec; rw [List.length_map, hm.1]
    · intro i i1 i2
      have hi : i < c.outSize := by rw [← hyl]; exact i1
      have := hye i hi
      rw [List.getD_eq_getElem _ _ i1] at this
      have hil : i < W.length := by rw [hm.1]; exact hi
      have e3 : (matVec W x)[i] = dot W[i] x := List.getElem_map _
      rw [this, ← e2, e3, List.getD_eq_getElem _ _ hil]
      simp [clippedInput]
  · exact hst

/-- The transposed product. -/
theorem backward_spec {c : Cfg} (hp : Plain c) {t : Tile} (h : Inv c t) {d : Vec} (hd : d.length = c.outSize) :
    ∃ g, backward t d = .ok g ∧ g.length = c.inSize ∧ ∀ j < c.inSize, g.getD j 0 =
      ((List.range c.outSize).map fun i => entry t.w i j * factor t.mappingScales i * d.getD i 0).sum := by
  obtain ⟨d2, h2, l2, r2⟩ := scaled_col hd (s := t.mappingScales) (fun v hv => h.good.ms v hv)
  refine ⟨devBackward t d2, ?_, by simp [devBackward, h.good.cfg], ?_⟩
  · unfold backward
    unfold scaleBy at h2
    cases hm : t.mappingScales with
    | none => rw [hm] at h2; simp only at h2 ⊢; cases h2; rfl
    | some m => rw [hm] at h2; simp only [bind, Except.bind] at h2 ⊢; rw [h2]; rfl
  · intro j hj
    unfold devBackward
    rw [List.getD_eq_getElem _ _ (by simp [h.good.cfg]; exact hj)]
    simp only [List.getElem_map, List.getElem_range]
    rw [dot_eq_sum (n := c.outSize) (by simp [col, h.good.w.1]) l2]
    congr 1
    apply List.map_congr_left
    intro i hi
    rw [List.mem_range] at hi
    rw [col_getD, r2 i hi]
    ring

/-- A batch of updates. -/
theorem updateAll_spec {c : Cfg} (hp : Plain c) (a : ℚ) (batch : List (Vec × Vec)) :
    ∀ (t : Tile), Inv c t → Reach c t → t.devLr = a * t.mappingLrScale →
      (∀ p ∈ batch, p.1.length = c.inSize ∧ p.2.length = c.outSize) →
      ∃ t', updateAll batch t = (.ok (), t') ∧ Inv c t' ∧ Reach c t' ∧ t'.mappingScales = t.mappingScales ∧
        ∀ i < c.outSize, ∀ j < c.inSize, entry t'.w i j * factor t.mappingScales i =
          entry t.w i j * factor t.mappingScales i - a * (batch.map fun p => p.2.getD i 0 * p.1.getD j 0).sum := by
  induction batch with
  | nil =>
    intro t h hr _ _
    exact ⟨t, rfl, h, hr, rfl, fun i _ j _ => by simp⟩
  | cons p ps ih =>
    intro t h hr ha hb
    obtain ⟨hx, hd⟩ := hb p List.mem_cons_self
    obtain ⟨t1, e1, i1, a1, m1, w1⟩ := update_spec hp h hx hd ha
    have hr1 : Reach c t1 := by
      have := hr.step (.update p.1 p.2) trivial
      unfold Periphery.step at this
      simp only [e1] at this
      exact this
    obtain ⟨t2, e2, i2, r2, m2, w2⟩ := ih t1 i1 hr1 a1 (fun q hq => hb q (List.mem_cons_of_mem _ hq))
    refine ⟨t2, ?_, i2, r2, m2.trans m1, ?_⟩
    · show Op.bind (update p.1 p.2) (fun _ => updateAll ps) t = _
      unfold Op.bind
      rw [e1]
      exact e2
    · intro i hi j hj
      have k2 := w2 i hi j hj
      rw [m1] at k2
      rw [k2, w1 i hi j hj, List.map_cons, List.sum_cons]
      ring

theorem getD_neg (d : Vec) (i : Nat) : (d.map (- ·)).getD i 0 = - d.getD i 0 := by
  by_cases h : i < d.length
  · rw [List.getD_eq_getElem _ _ (by simpa using h), List.getD_eq_getElem _ _ h, List.getElem_map]
  · rw [List.getD_eq_default _ _ (by simpa using h), List.getD_eq_default _ _ (by omega), neg_zero]

/-- State of a single-tile analog matrix whose value is `V`. -/
def Holds (c : Cfg) (V : Nat → Nat → ℚ) (A : AMat) : Prop :=
  ∃ t, A = .single t ∧ Inv c t ∧ Reach c t ∧ ∀ i < c.outSize, ∀ j < c.inSize, entry t.w i j * factor t.mappingScales i = V i j

theorem ger_spec {c : Cfg} (hp : Plain c) {V : Nat → Nat → ℚ} {A : AMat} (h : Holds c V A) (a : ℚ) (batch : List (Vec × Vec))
    (hb : ∀ p ∈ batch, p.1.length = c.inSize ∧ p.2.length = c.outSize) :
    (A.ger a batch).1 = .ok () ∧ Holds c (fun i j => V i j + (Act.ger a batch).adds i j) (A.ger a batch).2 := by
  obtain ⟨t, rfl, hi, hr, hv⟩ := h
  have e1 : (Periphery.setLearningRate (some a) t).2 = { t with devLr := a * t.mappingLrScale } := rfl
  have hr1 : Reach c { t with devLr := a * t.mappingLrScale } := hr.step (.setLearningRate (some a)) trivial
  have hb' : ∀ p ∈ batch.map (fun p : Vec × Vec => (p.1, p.2.map (- ·))), p.1.length = c.inSize ∧ p.2.length = c.outSize := by
    intro p hpm
    obtain ⟨q, hq, rfl⟩ := List.mem_map.1 hpm
    simpa using hb q hq
  obtain ⟨t', e2, i2, r2, m2, w2⟩ := updateAll_spec hp a _ _ (inv_lr hi (a * t.mappingLrScale)) hr1 rfl hb'
  have hall : (batch.all fun p => p.1.length == t.cfg.inSize && p.2.length == t.cfg.outSize) = true := by
    rw [List.all_eq_true]
    intro p hpm
    rw [hi.good.cfg]
    simpa using hb p hpm
  unfold AMat.ger
  simp only [hall, if_true, e1, e2]
  refine ⟨trivial, t', rfl, i2, r2, ?_⟩
  intro i hi' j hj'
  have := w2 i hi' j hj'
  simp only at this m2
  rw [m2, this, hv i hi' j hj']
  unfold Act.adds
  simp only [List.map_map]
  have : (fun p : Vec × Vec => p.2.getD i 0 * p.1.getD j 0) ∘ (fun p : Vec × Vec => (p.1, p.2.map (- ·))) =
      fun p : Vec × Vec => (-1) * (p.2.getD i 0 * p.1.getD j 0) := by
    funext p
    simp only [Function.comp_apply, getD_neg]
    ring
  rw [this, sum_map_mul_left']
  ring

theorem steps_spec {c : Cfg} (hp : Plain c) (acts : List Act) :
    ∀ (V : Nat → Nat → ℚ) (A : AMat), Holds c V A → (∀ k ∈ acts, k.Fits c.outSize c.inSize) →
      Holds c (fun i j => V i j + (acts.map (Act.adds i j)).sum) (acts.foldl step A) := by
  induction acts with
  | nil => intro V A h _; simpa using h
  | cons k ks ih =>
    intro V A h hf
    have h1 : Holds c (fun i j => V i j + k.adds i j) (step A k) := by
      cases k with
      | mul n x s =>
        obtain ⟨t, rfl, hi, hr, hv⟩ := h
        refine ⟨t, ?_, hi, hr, fun i hi' j hj' => by rw [hv i hi' j hj']; simp [Act.adds]⟩
        show AMat.single (forward x s false t).2 = _
        rw [forward_state (noRange hp hi)]
      | rmul d =>
        obtain ⟨t, rfl, hi, hr, hv⟩ := h
        exact ⟨t, rfl, hi, hr, fun i hi' j hj' => by rw [hv i hi' j hj']; simp [Act.adds]⟩
      | ger a b => exact (ger_spec hp h a b (hf _ List.mem_cons_self)).2
    have := ih _ _ h1 (fun q hq => hf q (List.mem_cons_of_mem _ hq))
    simp only [List.foldl_cons, List.map_cons, List.sum_cons]
    convert this using 3
    ring

theorem conf_plain {c : Conf} (hc : c.Plain) {o i : Nat} (ho : 0 < o) (hi : 0 < i) : Plain (c.tile o i) := by
  obtain ⟨s1, s2⟩ := hc.sizes o i
  exact ⟨⟨by rw [s1]; exact ho, by rw [s2]; exact hi, fun h => by rw [(hc.bias o i).1] at h; cases h.1⟩,
    (hc.bias o i).1, (hc.bias o i).2, hc.range o i, hc.exact o i⟩

theorem shape_of_isMat {M : Mat} {o i : Nat} (h : IsMat o i M) (ho : 0 < o) : M.length = o ∧ (M.headD []).length = i := by
  refine ⟨h.1, ?_⟩
  cases M with
  | nil => exact absurd h.1 (by simp; omega)
  | cons r M => exact h.2 r List.mem_cons_self

theorem new_single {c : Conf} (hc : c.Plain) {M : Mat} {o i : Nat} (ho : 0 < o) (hi : 0 < i) (hM : IsMat o i M)
    (hs : useArray c o i = false) :
    ∃ A, AMat.new c M = .ok A ∧ Holds (c.tile o i) (fun p q => (M.getD p []).getD q 0) A := by
  have hp := conf_plain hc ho hi
  obtain ⟨s1, s2⟩ := hc.sizes o i
  have hM' : IsMat (c.tile o i).outSize (c.tile o i).inSize M := by rw [s1, s2]; exact hM
  obtain ⟨e1, e2⟩ := shape_of_isMat hM ho
  obtain ⟨t, ht, hinv, hgw⟩ := store_spec hp (inv_init hp.valid) hM'
  have hr : Reach (c.tile o i) t := by
    have := (reach_init (c.tile o i)).step (.setWeights M none true none) trivial
    unfold Periphery.step at this
    simp only [ht] at this
    exact this
  refine ⟨.single t, ?_, t, rfl, hinv, hr, ?_⟩
  · unfold AMat.new
    simp only [e1, e2, hs, ht, Bool.false_eq_true, if_false]
    rfl
  · obtain ⟨W, w1, -, w3⟩ := weights_inv hp hinv
    rw [hgw] at w1
    injection w1 with w1
    injection w1 with w1 _
    intro p hp' q hq'
    rw [← w3 p hp' q hq', ← w1]
    rfl

theorem dot_row {W : Mat} {x : Vec} {o n : Nat} (hW : IsMat o n W) (hx : x.length = n) {i : Nat} (hi : i < o) :
    (matVec W x).getD i 0 = ((List.range n).map fun j => entry W i j * x.getD j 0).sum := by
  have hil : i < W.length := by rw [hW.1]; exact hi
  unfold matVec
  rw [List.getD_eq_getElem _ _ (by simpa using hil), List.getElem_map, dot_eq_sum (hW.2 _ (List.getElem_mem hil)) hx]
  congr 1
  apply List.map_congr_left
  intro j _
  unfold entry
  rw [List.getD_eq_getElem _ [] hil]

theorem holds_products {c : Cfg} (hp : Plain c) {V : Nat → Nat → ℚ} {A : AMat} (h : Holds c V A) :
    A.shape = (c.outSize, c.inSize) ∧
    (∀ x : Vec, x.length = c.inSize → ∀ numpy std, ∃ y, A.matmul numpy x std = (.ok y, A) ∧ y.length = c.outSize ∧
      ∀ i < c.outSize, y.getD i 0 = ((List.range c.inSize).map fun j => V i j * x.getD j 0).sum) ∧
    (∀ d : Vec, d.length = c.outSize → ∃ g, A.rmatmul d = .ok g ∧ g.length = c.inSize ∧
      ∀ j < c.inSize, g.getD j 0 = ((List.range c.outSize).map fun i => V i j * d.getD i 0).sum) := by
  obtain ⟨t, rfl, hi, hr, hv⟩ := h
  obtain ⟨W, w1, w2, w3⟩ := weights_inv hp hi
  refine ⟨by show (t.cfg.outSize, t.cfg.inSize) = _; rw [hi.good.cfg], ?_, ?_⟩
  · intro x hx numpy std
    have hf := forward_spec hp hi hr hx std false w1 w2
    refine ⟨matVec W x, ?_, by unfold matVec; rw [List.length_map, w2.1], ?_⟩
    · unfold AMat.matmul; simp only [hf]
    · intro i hi'
      rw [dot_row w2 hx hi']
      congr 1
      apply List.map_congr_left
      intro j hj
      rw [w3 i hi' j (List.mem_range.1 hj), hv i hi' j (List.mem_range.1 hj)]
  · intro d hd
    obtain ⟨g, g1, g2, g3⟩ := backward_spec hp hi hd
    refine ⟨g, ?_, g2, ?_⟩
    · unfold AMat.rmatmul; simp only [hi.good.cfg, hd, if_true]; exact g1
    · intro j hj
      rw [g3 j hj]
      congr 1
      apply List.map_congr_left
      intro i hi'
      rw [hv i (List.mem_range.1 hi') j hj]

/-- **C72** A matrix that fits one tile, after any history of products and rank updates: it has its shape, `A @ x` is the product
with, and `d @ A` the product with the transpose of, the matrix that was stored plus `alpha d xᵀ` for every `ger(x, d, alpha)`; neither
product changes it. -/
theorem C72_history (c : Conf) (hc : c.Plain) (M : Mat) {o i : Nat} (ho : 0 < o) (hi : 0 < i) (hM : IsMat o i M)
    (hs : useArray c o i = false) (acts : List Act) (hf : ∀ k ∈ acts, k.Fits o i) :
    ∃ A₀, AMat.new c M = .ok A₀ ∧
      (acts.foldl step A₀).shape = (o, i) ∧
      (∀ x : Vec, x.length = i → ∀ numpy std, ∃ y, (acts.foldl step A₀).matmul numpy x std = (.ok y, acts.foldl step A₀) ∧
        y.length = o ∧ ∀ p < o, y.getD p 0 = ((List.range i).map fun q => expected M acts p q * x.getD q 0).sum) ∧
      (∀ d : Vec, d.length = o → ∃ g, (acts.foldl step A₀).rmatmul d = .ok g ∧ g.length = i ∧
        ∀ q < i, g.getD q 0 = ((List.range o).map fun p => expected M acts p q * d.getD p 0).sum) := by
  have hp := conf_plain hc ho hi
  obtain ⟨s1, s2⟩ := hc.sizes o i
  obtain ⟨A₀, e0, h0⟩ := new_single hc ho hi hM hs
  have h1 := steps_spec hp acts _ A₀ h0 (by rw [s1, s2]; exact hf)
  have := holds_products hp h1
  rw [s1, s2] at this
  exact ⟨A₀, e0, this⟩

/-- **C72** (rank update) `ger` with operands of the right sizes succeeds after every history. -/
theorem C72_ger (c : Conf) (hc : c.Plain) (M : Mat) {o i : Nat} (ho : 0 < o) (hi : 0 < i) (hM : IsMat o i M)
    (hs : useArray c o i = false) (acts : List Act) (hf : ∀ k ∈ acts, k.Fits o i) (alpha : ℚ) (batch : List (Vec × Vec))
    (hb : ∀ p ∈ batch, p.1.length = i ∧ p.2.length = o) :
    ∃ A₀, AMat.new c M = .ok A₀ ∧ ((acts.foldl step A₀).ger alpha batch).1 = .ok () := by
  have hp := conf_plain hc ho hi
  obtain ⟨s1, s2⟩ := hc.sizes o i
  obtain ⟨A₀, e0, h0⟩ := new_single hc ho hi hM hs
  have h1 := steps_spec hp acts _ A₀ h0 (by rw [s1, s2]; exact hf)
  exact ⟨A₀, e0, (ger_spec hp h1 alpha batch (by rw [s1, s2]; exact hb)).1⟩

/-- **C72** (adjoint) `⟨d, A @ x⟩ = ⟨d @ A, x⟩` after every history. -/
theorem C72_adjoint (c : Conf) (hc : c.Plain) (M : Mat) {o i : Nat} (ho : 0 < o) (hi : 0 < i) (hM : IsMat o i M)
    (hs : useArray c o i = false) (acts : List Act) (hf : ∀ k ∈ acts, k.Fits o i) (x d : Vec) (hx : x.length = i) (hd : d.length = o) :
    ∃ A₀ y g, AMat.new c M = .ok A₀ ∧ ((acts.foldl step A₀).matmul false x 0).1 = .ok y ∧ (acts.foldl step A₀).rmatmul d = .ok g ∧
      ((List.range o).map fun p => d.getD p 0 * y.getD p 0).sum = ((List.range i).map fun q => g.getD q 0 * x.getD q 0).sum := by
  obtain ⟨A₀, e0, -, h1, h2⟩ := C72_history c hc M ho hi hM hs acts hf
  obtain ⟨y, y1, -, y2⟩ := h1 x hx false 0
  obtain ⟨g, g1, -, g2⟩ := h2 d hd
  refine ⟨A₀, y, g, e0, by rw [y1], g1, ?_⟩
  have l : ((List.range o).map fun p => d.getD p 0 * y.getD p 0) =
      (List.range o).map fun p => ((List.range i).map fun q => d.getD p 0 * (expected M acts p q * x.getD q 0)).sum := by
    apply List.map_congr_left
    intro p hp
    rw [y2 p (List.mem_range.1 hp), sum_map_mul_left']
  have r : ((List.range i).map fun q => g.getD q 0 * x.getD q 0) =
      (List.range i).map fun q => ((List.range o).map fun p => d.getD p 0 * (expected M acts p q * x.getD q 0)).sum := by
    apply List.map_congr_left
    intro q hq
    rw [g2 q (List.mem_range.1 hq), mul_comm, ← sum_map_mul_left']
    congr 1
    apply List.map_congr_left
    intro p _
    ring
  rw [l, r, sum_comm]

/-- **C72** (wrong sizes) Products with operands of a wrong size raise and leave the matrix alone. -/
theorem C72_wrong_size (c : Conf) (hc : c.Plain) (M : Mat) {o i : Nat} (ho : 0 < o) (hi : 0 < i) (hM : IsMat o i M)
    (hs : useArray c o i = false) (acts : List Act) (hf : ∀ k ∈ acts, k.Fits o i) (x d : Vec) (hx : x.length ≠ i) (hd : d.length ≠ o)
    (numpy : Bool) (std : ℚ) :
    ∃ A₀, AMat.new c M = .ok A₀ ∧ (acts.foldl step A₀).matmul numpy x std = (.error .runtimeError, acts.foldl step A₀) ∧
      (acts.foldl step A₀).rmatmul d = .error .runtimeError := by
  have hp := conf_plain hc ho hi
  obtain ⟨s1, s2⟩ := hc.sizes o i
  obtain ⟨A₀, e0, h0⟩ := new_single hc ho hi hM hs
  obtain ⟨t, ht, hinv, -, -⟩ := steps_spec hp acts _ A₀ h0 (by rw [s1, s2]; exact hf)
  refine ⟨A₀, e0, ?_, ?_⟩
  · rw [ht]
    have hst := forward_state (noRange hp hinv) x std false
    have : (forward x std false t).1 = .error .runtimeError := by
      have hpre : preForward x std false t = (.ok x, t) := by
        unfold preForward
        simp only [Bind.bind, Op.bind, Op.get, noRange hp hinv]
        rfl
      have hdev : devForward t x = .error .runtimeError := by
        unfold devForward
        rw [if_neg (by rw [hinv.good.cfg, s2]; exact hx)]
      unfold forward jointForward
      simp only [Bind.bind, Op.bind, hpre, Op.get, Op.lift, hdev]
    unfold AMat.matmul
    simp only [hst, this]
  · rw [ht]
    unfold AMat.rmatmul
    simp only
    rw [if_neg (by rw [hinv.good.cfg, s1]; exact hd)]

end Aihw.Linalg
