import Verif.TileArray.Lemmas

/-!
# Properties C01–C04 of tile arrays
-/
namespace Aihw.TileArray

/-! ## C01: split sizes -/

/-- **C01** -/
theorem C01_split_sizes (size m : Nat) (hs : 1 ≤ size) (hm : 1 ≤ m) :
    ∃ l, getSplitSizes size (m : Int) = .ok l ∧ GoodSplit size m l := by
  have hm' : ¬ ((m : Int) ≤ 0) := by omega
  set n := (size + m - 1) / m with hn
  have hn1 : 1 ≤ n := by rw [hn, Nat.le_div_iff_mul_le (by omega)]; omega
  have hnm : size ≤ n * m := by
    have h1 := Nat.div_add_mod (size + m - 1) m
    have h2 := Nat.mod_lt (size + m - 1) (show m > 0 by omega)
    rw [← hn] at h1
    rw [Nat.mul_comm] at h1
    omega
  have hns : n ≤ size := by
    rw [hn]
    have h : size + m - 1 < (size + 1) * m := by
      have : size * 1 ≤ size * m := Nat.mul_le_mul_left _ hm
      rw [Nat.add_mul]; omega
    exact Nat.lt_succ_iff.1 ((Nat.div_lt_iff_lt_mul (by omega)).2 h)
  have hn0 : ¬ n = 0 := by omega
  refine ⟨(List.range n).map fun i => size / n + (if i < size % n then 1 else 0), ?_, ?_⟩
  · simp only [getSplitSizes, hm', if_false, Int.toNat_natCast, ← hn, hn0]
  · have hdm := Nat.div_add_mod size n
    refine ⟨?_, ?_, ?_, ?_⟩
    · rw [sum_map_range_extra _ _ _ (Nat.mod_lt _ (by omega)).le]; exact hdm
    · intro s hs'
      obtain ⟨i, _, rfl⟩ := List.mem_map.1 hs'
      have h1 : 1 ≤ size / n := (Nat.one_le_div_iff (by omega)).2 hns
      have h2 : size / n ≤ m := Nat.div_le_of_le_mul hnm
      refine ⟨by omega, ?_⟩
      split_ifs with hlt
      · have : size / n < m := by
          by_contra hc
          have : size / n = m := by omega
          rw [this] at hdm
          omega
        omega
      · omega
    · rw [List.pairwise_map]
      refine List.pairwise_lt_range.imp ?_
      intro a b hab
      constructor <;> split_ifs <;> omega
    · intro l' hl' hb
      rw [List.length_map, List.length_range]
      have := sum_le_length_mul l' hb
      rw [hl'] at this
      rw [hn]
      apply Nat.le_of_lt_succ
      rw [Nat.div_lt_iff_lt_mul (by omega), Nat.succ_mul]
      omega

example : (1 ≤ 10 ∧ 1 ≤ 4) ∧ getSplitSizes 10 4 = .ok [4, 3, 3] := by
  refine ⟨by omega, ?_⟩; rfl

/-- **C01**, unlimited dimension: a non-positive limit gives one tile. -/
theorem C01_split_sizes_unlimited (size : Nat) (m : Int) (hm : m ≤ 0) :
    getSplitSizes size m = .ok [size] := by
  simp [getSplitSizes, hm]

example : getSplitSizes 7 0 = .ok [7] := rfl

/-- **C01**, degenerate dimension: `ZeroDivisionError` exactly for an empty dimension under a
positive limit. -/
theorem C01_split_sizes_error_iff (size : Nat) (m : Int) (e : PyErr) :
    getSplitSizes size m = .error e ↔ size = 0 ∧ 0 < m ∧ e = .zeroDivision := by
  by_cases hm : m ≤ 0
  · simp [getSplitSizes, hm]
  · by_cases hs : size = 0
    · subst hs
      have hk : (0 + m.toNat - 1) / m.toNat = 0 := Nat.div_eq_of_lt (by omega)
      simp only [getSplitSizes, hm, if_false, hk, if_true]
      constructor
      · intro h; cases h; exact ⟨trivial, by omega, rfl⟩
      · rintro ⟨_, _, rfl⟩; rfl
    · obtain ⟨l, hl, _⟩ := C01_split_sizes size m.toNat (by omega) (by omega)
      rw [show ((m.toNat : Nat) : Int) = m by omega] at hl
      rw [hl]
      simp [hs]

/-! ## Assumptions on the tiles (specification) -/

/-- The constructor produces well-formed arrays. -/
theorem init_wf {T : Type} {P : Nat → Nat → T → Prop} {mk : Nat → Nat → T}
    (hmk : ∀ m n, P m n (mk m n)) {o i : Nat} {mo mi : Int} {bias : Bool} {a : TArray T}
    (h : TArray.init mk o i mo mi bias = .ok a) :
    WF P a ∧ a.outSize = o ∧ a.inSize = i ∧ (a.bias.isSome = bias) := by
  unfold TArray.init at h
  cases hi : getSplitSizes i mi with
  | error e => simp [hi, bind, Except.bind] at h
  | ok li =>
    cases ho : getSplitSizes o mo with
    | error e => simp [hi, ho, bind, Except.bind] at h
    | ok lo =>
      simp only [hi, ho, bind, Except.bind, pure, Except.pure] at h
      cases h
      refine ⟨⟨getSplitSizes_sum hi, getSplitSizes_sum ho, getSplitSizes_ne_nil hi,
        getSplitSizes_ne_nil ho, ?_, ?_⟩, rfl, rfl, ?_⟩
      · exact forall₂_map_right_self _ fun n _ => forall₂_map_right_self _ fun m _ => hmk m n
      · intro b hb
        simp only at hb
        split_ifs at hb
        cases hb; simp
      · cases bias <;> simp

/-! ## C02 -/

section
variable {T : Type} {ops : TileOps T} {P : Nat → Nat → T → Prop}

/-- **C02** Writing any `out × in` matrix (given as a tensor of any shape with the right number of
elements, here its row-major data `W.flatten`) and a bias to a reachable array succeeds and reading
returns exactly them. Without a bias parameter the given bias is ignored; without a given bias the
old one is kept. -/
theorem C02_set_get_roundtrip (hst : StoringTile ops P) {a : TArray T} (ha : WF P a)
    {W : Mat} (hW : IsMat a.outSize a.inSize W) (b : Option Vec)
    (hb : ∀ v, b = some v → v.length = a.outSize) :
    ∃ a', setWeights ops a W.flatten b = .ok a' ∧ WF P a' ∧
      a'.outSize = a.outSize ∧ a'.inSize = a.inSize ∧
      getWeights ops a' = .ok (W, a.bias.map fun old => b.getD old) := by
  obtain ⟨rows', h1, h2, h3⟩ :=
    setOuter_spec hst hW a.outSizes ha.outSum 0 a.inSizes a.tiles ha.tiles (by simp [ha.inSum])
  have hg := getRows (ops := ops) W hW a.outSizes ha.outSum ha.outNe 0 a.inSizes rows' h2.length_eq.symm h3
  have hc : cat1 (colBlocks W 0 a.inSizes) = .ok W := by
    rw [cat1_colBlocks _ _ _ ha.inNe, ha.inSum, cols_full hW]
  have hget : ∀ bb, getWeights ops { a with tiles := rows', bias := bb } = .ok (W, bb) := by
    intro bb
    simp only [getWeights]
    simp only [bind, Except.bind] at hg
    simp only [bind, Except.bind, hg, hc, pure, Except.pure]
  refine ⟨{ a with tiles := rows', bias := a.bias.map fun old => b.getD old }, ?_, ?_, rfl, rfl,
    hget _⟩
  · simp only [setWeights, reshape_flatten hW, bind, Except.bind, h1]
    cases hab : a.bias with
    | none => rfl
    | some old =>
      cases b with
      | none => rfl
      | some v =>
        have : v.length = old.length := by rw [hb v rfl, ha.bias old hab]
        simp [this, pure, Except.pure]
  · refine ⟨ha.inSum, ha.outSum, ha.inNe, ha.outNe, h2, ?_⟩
    intro v hv
    cases hab : a.bias with
    | none => simp [hab] at hv
    | some old =>
      cases b with
      | none => simp [hab] at hv; subst hv; exact ha.bias _ hab
      | some u => simp [hab] at hv; subst hv; exact hb _ rfl

/-- **C02**, placement: after the write, tile `(k, l)` (input split `k`, output split `l`) holds at
`(p, q)` exactly the entry of the logical matrix at row offset `p + Σ earlier output splits` and column
offset `q + Σ earlier input splits`. -/
theorem C02_block_placement (hst : StoringTile ops P) {a : TArray T} (ha : WF P a)
    {W : Mat} (hW : IsMat a.outSize a.inSize W) (b : Option Vec) {a' : TArray T}
    (hset : setWeights ops a W.flatten b = .ok a')
    {k l : Nat} (hk : k < a.inSizes.length) (hl : l < a.outSizes.length) :
    ∃ tile blk, (a'.tiles[k]?).bind (·[l]?) = some tile ∧ ops.getW tile = .ok blk ∧
      IsMat (a.outSizes.getD l 0) (a.inSizes.getD k 0) blk ∧
      ∀ p q, p < a.outSizes.getD l 0 → q < a.inSizes.getD k 0 →
        entry blk p q = entry W ((a.outSizes.take l).sum + p) ((a.inSizes.take k).sum + q) := by
  obtain ⟨rows', h1, h2, h3⟩ :=
    setOuter_spec hst hW a.outSizes ha.outSum 0 a.inSizes a.tiles ha.tiles (by simp [ha.inSum])
  have ht : a'.tiles = rows' := by
    simp only [setWeights, reshape_flatten hW, bind, Except.bind, h1] at hset
    cases hab : a.bias with
    | none => simp [hab, pure, Except.pure] at hset; subst hset; rfl
    | some old =>
      cases b with
      | none => simp [hab, pure, Except.pure] at hset; subst hset; rfl
      | some v =>
        simp only [hab] at hset
        split_ifs at hset
        simp [pure, Except.pure] at hset; subst hset; rfl
  obtain ⟨row, e1, e2⟩ := h3 k hk
  have hb := rowBlocks_getElem? W (0 + (a.inSizes.take k).sum) (a.inSizes.getD k 0) 0 a.outSizes l hl
  have hlen : l < (rowBlocks W (0 + (a.inSizes.take k).sum) (a.inSizes.getD k 0) 0 a.outSizes).length := by
    by_contra hc
    rw [List.getElem?_eq_none (by omega)] at hb
    simp at hb
  have hlr : l < row.length := by rw [e2.length_eq]; exact hlen
  have hget := (List.forall₂_iff_get.1 e2).2 l hlr hlen
  have hblk := (List.getElem?_eq_some_iff.1 hb).2
  simp only [List.get_eq_getElem] at hget
  rw [hblk] at hget
  have hsumTake : ∀ (sz : List Nat) (k : Nat), k < sz.length →
      (sz.take k).sum + sz.getD k 0 ≤ sz.sum := by
    intro sz
    induction sz with
    | nil => intro k hk; simp at hk
    | cons s sz ih =>
      intro k hk
      cases k with
      | zero => simp
      | succ k => have := ih k (by simpa using hk); simp at this ⊢; omega
  refine ⟨row[l], _, ?_, hget, ?_, ?_⟩
  · rw [ht, e1]; simp [hlr]
  · refine cols_isMat hW ?_ ?_
    · rw [Nat.zero_add, ← ha.outSum]; exact hsumTake _ _ hl
    · rw [Nat.zero_add, ← ha.inSum]; exact hsumTake _ _ hk
  · intro p q hp hq
    simp only [entry, cols, List.getElem?_map, List.getElem?_take, List.getElem?_drop, hp, if_true,
      Nat.zero_add]
    cases W[(List.take l a.outSizes).sum + p]? with
    | none => rfl
    | some r =>
      simp only [Option.map_some, Option.bind_some, List.getElem?_take, List.getElem?_drop, hq, if_true]

/-- **C02**, exactly one place: every index of a split dimension lies in exactly one part. -/
theorem C02_unique_part (sizes : List Nat) (i : Nat) (h : i < sizes.sum) :
    ∃! kp : Nat × Nat, kp.1 < sizes.length ∧ kp.2 < sizes.getD kp.1 0 ∧
      i = (sizes.take kp.1).sum + kp.2 := by
  induction sizes generalizing i with
  | nil => simp at h
  | cons s ss ih =>
    rw [List.sum_cons] at h
    by_cases hi : i < s
    · refine ⟨(0, i), by simpa using hi, ?_⟩
      rintro ⟨k, p⟩ ⟨h1, h2, h3⟩
      cases k with
      | zero => simp at h3; simp [h3]
      | succ k => simp at h3; omega
    · obtain ⟨⟨k, p⟩, ⟨h1, h2, h3⟩, hu⟩ := ih (i - s) (by omega)
      refine ⟨(k + 1, p), ⟨by simpa using h1, by simpa using h2, ?_⟩, ?_⟩
      · simp at h3 ⊢; omega
      · rintro ⟨k', p'⟩ ⟨g1, g2, g3⟩
        cases k' with
        | zero => simp at g2 g3; omega
        | succ k' =>
          have := hu (k', p') ⟨by simpa using g1, by simpa using g2, by simp at g3 ⊢; omega⟩
          simp at this ⊢; exact this

/-! ## C03 -/

/-- **C03** In any reachable state, the forward pass of the array is the product with the weights that
`get_weights` reports, plus the digital bias once. -/
theorem C03_forward_eq_matVec (hlin : LinearTile ops P) {a : TArray T} (ha : WF P a)
    {W : Mat} {b : Option Vec} (hget : getWeights ops a = .ok (W, b))
    {x : Vec} (hx : x.length = a.inSize) :
    forward ops a x = .ok (b.elim (matVec W x) fun b => vadd (matVec W x) b) := by
  simp only [getWeights] at hget
  cases hB : (a.tiles.mapM fun row => do let l ← row.mapM ops.getW; cat0 l) with
  | error e =>
    simp only [bind, Except.bind] at hB
    simp [hB, bind, Except.bind] at hget
  | ok Bs =>
    have hBs := mapM_ok_forall₂ hB
    simp only [bind, Except.bind] at hB hget
    rw [hB] at hget
    simp only at hget
    cases hc : cat1 Bs with
    | error e => simp [hc] at hget
    | ok W' =>
      simp only [hc, pure, Except.pure, Except.ok.injEq, Prod.mk.injEq] at hget
      obtain ⟨rfl, rfl⟩ := hget
      -- the accumulated result
      have hres : forwardNoBias ops a x = .ok (matVec W' x) ∧ W'.length = a.outSize := by
        have htiles := ha.tiles
        have hinNe := ha.inNe
        have hinSum := ha.inSum
        cases hin : a.inSizes with
        | nil => exact absurd hin hinNe
        | cons n ns =>
          rw [hin] at htiles hinSum
          cases htl : a.tiles with
          | nil => rw [htl] at htiles; cases htiles
          | cons row rows =>
            rw [htl] at htiles hBs
            cases htiles with
            | cons hrow hrows =>
            cases hBs with
            | @cons _ B _ Bs' hB1 hBs' =>
              rw [List.sum_cons] at hinSum
              by_cases hcount : a.tileCount = 1
              · have h1 : ns = [] ∧ a.outSizes.length = 1 := by
                  rw [TArray.tileCount, hin, nat_mul_eq_one] at hcount
                  refine ⟨?_, hcount.2⟩
                  have := hcount.1
                  simpa using this
                obtain ⟨hns, hol⟩ := h1
                subst hns
                cases hrows
                cases hBs'
                simp only [List.sum_nil, Nat.add_zero] at hinSum
                obtain ⟨hf, hsh⟩ := rowForward_eq hlin ha.outNe hrow hB1 (x := x) (by omega)
                have hWB : W' = B := by simpa [cat1] using hc.symm
                subst hWB
                obtain ⟨t, rfl⟩ := List.length_eq_one_iff.1 (hrow.length_eq ▸ hol)
                refine ⟨?_, by rw [hsh.1, ha.outSum]⟩
                simp only [forwardNoBias, hcount, if_true, htl]
                simp only [rowForward, List.mapM_cons, List.mapM_nil, bind, Except.bind, pure,
                  Except.pure] at hf
                cases hft : ops.fwd t x with
                | error e => simp [hft] at hf
                | ok y => simpa [hft, catVec] using hf
              · have htl' : (x.take n).length = n := by simp; omega
                obtain ⟨hf, hsh⟩ := rowForward_eq hlin ha.outNe hrow hB1 (x := x.take n) htl'
                have hac := accum_eq hlin ha.outNe hrows hBs' (x := x.drop n) (by simp; omega)
                  (matVec B (x.take n)) (by rw [matVec_length, hsh.1])
                have hsplit : splitVec a.inSizes x = .ok (splitVec.go a.inSizes x) := by
                  rw [splitVec, if_pos (by rw [ha.inSum, hx])]
                have hfw : forwardNoBias ops a x
                    = accum ops (matVec B (x.take n)) (splitVec.go ns (x.drop n)) rows := by
                  rw [hin, splitVec.go] at hsplit
                  simp only [forwardNoBias, hcount, if_false, hin, hsplit, bind, Except.bind, htl, hf]
                rw [hfw, hac]
                cases Bs' with
                | nil =>
                  cases hBs'; cases hrows
                  have hWB : W' = B := by simpa [cat1] using hc.symm
                  subst hWB
                  refine ⟨?_, by rw [hsh.1, ha.outSum]⟩
                  simp only [List.sum_nil, Nat.add_zero] at hinSum
                  rw [List.take_of_length_le (by omega), if_pos rfl]
                | cons B' Bs' =>
                  rw [cat1_cons_cons] at hc
                  cases hc2 : cat1 (B' :: Bs') with
                  | error e => simp [hc2, bind, Except.bind] at hc
                  | ok W2 =>
                    simp only [hc2, bind, Except.bind] at hc
                    split_ifs at hc with hl
                    simp only [pure, Except.pure, Except.ok.injEq] at hc
                    subst hc
                    have := matVec_zipWith_append B W2 (x.take n) (x.drop n) hl
                      (fun r hr => by rw [htl']; exact hsh.2 r hr)
                    rw [List.take_append_drop] at this
                    refine ⟨by simp only [Except.map, List.cons_ne_nil, if_false]; rw [this], ?_⟩
                    simp [← hl, hsh.1, ha.outSum]
      obtain ⟨hr, hWl⟩ := hres
      simp only [forward, hr, bind, Except.bind]
      cases hb : a.bias with
      | none => rfl
      | some b =>
        have := ha.bias b hb
        simp [addVec, this, hWl]

/-- **C03 (wrong input length).**  An array of several tiles raises for every input whose length is not
the input size of the layer, whatever the tiles are. -/
theorem C03_wrong_length_raises {a : TArray T} (ha : WF P a) (h1 : a.tileCount ≠ 1) {x : Vec}
    (hx : x.length ≠ a.inSize) : forward ops a x = .error .runtimeError := by
  unfold forward forwardNoBias splitVec
  rw [if_neg h1, if_neg (fun h => hx (by rw [← h, ha.inSum]))]
  rfl

/-- **C02 + C03** End to end, for every history of writes: whatever was written before, after the last
`set_weights(W, b)` the forward pass is `W x + b`. -/
theorem C03_last_write_wins (hst : StoringTile ops P) (hlin : LinearTile ops P)
    {a : TArray T} (ha : WF P a) (hist : List (Mat × Vec)) (W : Mat) (b : Vec)
    (hshape : ∀ wb ∈ hist ++ [(W, b)], IsMat a.outSize a.inSize wb.1 ∧ wb.2.length = a.outSize)
    (hbias : a.bias.isSome) {x : Vec} (hx : x.length = a.inSize) :
    ∃ a', (hist ++ [(W, b)]).foldlM (fun s wb => setWeights ops s wb.1.flatten (some wb.2)) a
        = .ok a' ∧ forward ops a' x = .ok (vadd (matVec W x) b) := by
  induction hist generalizing a with
  | nil =>
    have hs := hshape (W, b) (by simp)
    obtain ⟨a', h1, h2, h3, h4, h5⟩ := C02_set_get_roundtrip hst ha hs.1 (some b)
      (by rintro v ⟨⟩; exact hs.2)
    refine ⟨a', by simp only [List.nil_append, List.foldlM_cons, List.foldlM_nil, h1]; rfl, ?_⟩
    obtain ⟨old, hold⟩ := Option.isSome_iff_exists.1 hbias
    have := C03_forward_eq_matVec hlin h2 h5 (x := x) (by omega)
    rw [hold] at this
    simpa using this
  | cons wb hist ih =>
    have hs := hshape wb (by simp)
    obtain ⟨a1, h1, h2, h3, h4, h5⟩ := C02_set_get_roundtrip hst ha hs.1 (some wb.2)
      (by rintro v ⟨⟩; exact hs.2)
    have hb1 : a1.bias.isSome := by
      have : getWeights ops a1 = .ok (wb.1, a.bias.map fun old => (some wb.2).getD old) := h5
      unfold getWeights at this
      simp only [bind, Except.bind] at this
      split at this
      · simp at this
      · split at this
        · simp at this
        · simp [pure, Except.pure] at this
          rw [this.2]; simpa using hbias
    obtain ⟨a', g1, g2⟩ := ih h2 (by
      intro wb' hwb'; rw [h3, h4]; exact hshape wb' (by simp only [List.cons_append, List.mem_cons]; exact .inr hwb')) hb1
      (by omega)
    refine ⟨a', ?_, g2⟩
    rw [List.cons_append, List.foldlM_cons, h1]
    exact g1

end

/-! ### Non-vacuity: a concrete tile (an ideal in-memory matrix) and a concrete 2×2 array -/

/-- The ideal tile: the matrix itself. -/
def idealOps : TileOps Mat where
  setW := fun _ w => .ok w
  getW := fun t => .ok t
  fwd := fun t x => .ok (matVec t x)

theorem ideal_storing : StoringTile idealOps IsMat where
  set_get := fun _ _ _ w _ hw => ⟨w, rfl, hw, rfl⟩

theorem ideal_linear : LinearTile idealOps IsMat where
  shape := fun _ _ _ _ h e => by cases e; exact h
  fwd := fun _ _ _ _ _ _ e _ => by cases e; rfl

example : ∃ a, TArray.init (fun m n => List.replicate m (List.replicate n (0 : ℚ))) 3 5 2 2 true = .ok a
    ∧ a.tileCount = 6 ∧ WF IsMat a ∧ a.bias.isSome := by
  obtain ⟨a, ha⟩ : ∃ a, TArray.init (fun m n => List.replicate m (List.replicate n (0 : ℚ)))
    3 5 2 2 true = .ok a := ⟨_, rfl⟩
  have h := init_wf (P := IsMat)
    (by intro m n; exact ⟨by simp, by intro r hr; rw [List.eq_of_mem_replicate hr]; simp⟩) ha
  refine ⟨a, ha, ?_, h.1, h.2.2.2⟩
  cases ha; rfl

/-! ## C04 -/

/-- **C04** A quantized array consisting of a single tile raises on every forward call (the inner
computation having succeeded, the error is an `AttributeError`). -/
theorem C04_single_tile_forward_raises {T : Type} (ops : TileOps T) (mk : Nat → Nat → T)
    (o i : Nat) (mo mi : Int) (bias : Bool) (aq bq : Option (Vec → Vec)) (learn : Bool) (q : QArray T)
    (hq : QArray.init mk o i mo mi bias aq bq learn = .ok q) (h1 : q.base.tileCount = 1)
    (q' : QArray T) (hq' : q'.outQuantizer = q.outQuantizer) (x : Vec) :
    (∀ y, QArray.forward ops q' x ≠ .ok y) := by
  have hnone : q.outQuantizer = none := by
    unfold QArray.init at hq
    cases hb : TArray.init mk o i mo mi bias with
    | error e => simp [hb, bind, Except.bind] at hq
    | ok b =>
      simp only [hb, bind, Except.bind] at hq
      split at hq
      · cases hq
      injection hq with hq
      subst hq
      simp only at h1
      simp [h1]
  rw [hnone] at hq'
  intro y hy
  unfold QArray.forward at hy
  rw [hq'] at hy
  simp only [bind, Except.bind] at hy
  split at hy
  · cases hy
  · split at hy
    · cases hy
    · split at hy
      · cases hy
      · split at hy <;> cases hy
      · split at hy <;> cases hy

/-- **C04** with an ideal tile the raised error is `AttributeError`. -/
theorem C04_single_tile_attributeError (o i : Nat) (mo mi : Int) (bias : Bool)
    (aq bq : Option (Vec → Vec)) (learn : Bool) (q : QArray Mat)
    (hq : QArray.init (fun m n => List.replicate m (List.replicate n (0 : ℚ))) o i mo mi bias aq bq learn
      = .ok q) (h1 : q.base.tileCount = 1) (hbq : ∀ f, bq = some f → ∀ v, (f v).length = v.length)
    (x : Vec) :
    QArray.forward idealOps q x = .error .attributeError := by
  unfold QArray.init at hq
  cases hb : TArray.init (fun m n => List.replicate m (List.replicate n (0 : ℚ))) o i mo mi bias with
  | error e => simp [hb, bind, Except.bind] at hq
  | ok b =>
    simp only [hb, bind, Except.bind] at hq
    split at hq
    · cases hq
    injection hq with hq
    obtain ⟨hwf, ho, hi, hbs⟩ := init_wf (P := IsMat)
      (by intro m n; exact ⟨by simp, by intro r hr; rw [List.eq_of_mem_replicate hr]; simp⟩) hb
    subst hq
    simp only at h1
    have hno : ∃ r, forwardNoBias idealOps b x = .ok r ∧ r.length = o := by
      have ht := hwf.tiles
      have hos := hwf.outSum
      rw [TArray.tileCount, nat_mul_eq_one] at h1
      obtain ⟨n, hn⟩ := List.length_eq_one_iff.1 h1.1
      obtain ⟨m, hm⟩ := List.length_eq_one_iff.1 h1.2
      rw [hn, hm] at ht
      rw [hm] at hos
      cases htl : b.tiles with
      | nil => rw [htl] at ht; cases ht
      | cons row rows =>
        rw [htl] at ht
        cases ht with
        | cons hr hrest =>
          cases hr with
          | @cons _ t _ _ hp _ =>
            refine ⟨matVec t x, ?_, ?_⟩
            · simp [forwardNoBias, TArray.tileCount, hn, hm, htl, idealOps]
            · rw [matVec_length, hp.1, ← ho, ← hos]; simp
    obtain ⟨r, hr, hrl⟩ := hno
    unfold QArray.forward
    simp only [hr, bind, Except.bind, h1]
    cases hbias : b.bias with
    | none => simp [throw, throwThe, MonadExceptOf.throw, pure, Except.pure]
    | some bv =>
      have hbl := hwf.bias bv hbias
      rw [hbias] at hbs
      simp at hbs
      subst hbs
      cases bq with
      | none => simp [addVec, hrl, hbl, ho, throw, throwThe, MonadExceptOf.throw]
      | some f =>
        simp [addVec, hrl, hbq f rfl, hbl, ho, throw, throwThe, MonadExceptOf.throw]

example : ∃ q : QArray Mat, QArray.init (fun m n => List.replicate m (List.replicate n (0 : ℚ)))
    3 4 512 512 true none none true = .ok q ∧ q.base.tileCount = 1 := ⟨_, rfl, rfl⟩

/-- **C04** With more than one tile the forward pass adds the (quantized) bias once and then applies
the output quantizer, if configured. -/
theorem C04_multi_tile_forward {T : Type} (ops : TileOps T) (mk : Nat → Nat → T)
    (o i : Nat) (mo mi : Int) (bias : Bool) (aq bq : Option (Vec → Vec)) (learn : Bool) (q : QArray T)
    (hq : QArray.init mk o i mo mi bias aq bq learn = .ok q) (h1 : 1 < q.base.tileCount)
    (hbq : ∀ f, bq = some f → ∀ v, (f v).length = v.length)
    (x r : Vec) (hr : forwardNoBias ops q.base x = .ok r) (hrl : r.length = o) :
    (bias = false → QArray.forward ops q x = .ok (aq.getD id r)) ∧
    (bias = true → ∀ b, q.base.bias = some b → b.length = o →
      QArray.forward ops q x = .ok (aq.getD id (vadd r (bq.getD id b)))) := by
  unfold QArray.init at hq
  cases hb : TArray.init mk o i mo mi bias with
  | error e => simp [hb, bind, Except.bind] at hq
  | ok b =>
    simp only [hb, bind, Except.bind] at hq
    split at hq
    · cases hq
    injection hq with hq
    have hbs : b.bias.isSome = bias :=
      (init_wf (P := fun _ _ _ => True) (fun _ _ => trivial) hb).2.2.2
    subst hq
    simp only at h1 hr
    constructor
    · rintro rfl
      have hbn : b.bias = none := by simpa using hbs
      simp only [QArray.forward, hr, bind, Except.bind, hbn, pure, Except.pure, h1, if_true]
      cases aq <;> rfl
    · rintro rfl bv hbv hbvl
      simp only at hbv
      simp only [QArray.forward, hr, bind, Except.bind, hbv, if_true, pure, Except.pure, h1]
      cases bq with
      | none => cases aq <;> simp [addVec, hrl, hbvl]
      | some f => cases aq <;> simp [addVec, hrl, hbq f rfl, hbvl]

example : ∃ q : QArray Mat, QArray.init (fun m n => List.replicate m (List.replicate n (0 : ℚ)))
    3 4 2 2 true (some id) none true = .ok q ∧ 1 < q.base.tileCount ∧
    forwardNoBias idealOps q.base [1, 2, 3, 4] = .ok [0, 0, 0] :=
  ⟨_, rfl, by decide, by decide +kernel⟩

/-- **C04** (learned bias quantization) A quantized array with a quantized bias whose quantization parameters are learned cannot be
created, whatever the sizes: the constructor raises, `AttributeError` whenever the plain array can be created.  In all other cases
it is created exactly if the plain array is. -/
theorem C04_learned_bias_quant_raises {T : Type} (mk : Nat → Nat → T) (o i : Nat) (mo mi : Int) (bias : Bool)
    (aq bq : Option (Vec → Vec)) (learn : Bool) :
    (bias = true → (∃ f, bq = some f) → learn = true → (∀ q, QArray.init mk o i mo mi bias aq bq learn ≠ .ok q) ∧
      ((∃ a, TArray.init mk o i mo mi bias = .ok a) → QArray.init mk o i mo mi bias aq bq learn = .error .attributeError)) ∧
    (¬ (bias = true ∧ (∃ f, bq = some f) ∧ learn = true) →
      ((∃ q, QArray.init mk o i mo mi bias aq bq learn = .ok q) ↔ ∃ a, TArray.init mk o i mo mi bias = .ok a)) := by
  unfold QArray.init
  cases hb : TArray.init mk o i mo mi bias with
  | error e =>
    refine ⟨fun _ _ _ => ⟨fun q h => ?_, fun ⟨a, ha⟩ => ?_⟩, fun _ => ⟨fun ⟨q, h⟩ => ?_, fun ⟨a, ha⟩ => ?_⟩⟩
    · cases h
    · cases ha
    · cases h
    · cases ha
  | ok b =>
    simp only [bind, Except.bind]
    constructor
    · rintro rfl ⟨f, rfl⟩ rfl
      refine ⟨fun q h => ?_, fun _ => rfl⟩
      cases h
    · intro hn
      rw [if_neg]
      · exact ⟨fun _ => ⟨b, rfl⟩, fun _ => ⟨_, rfl⟩⟩
      · intro h
        simp only [Bool.and_eq_true, Option.isSome_iff_exists] at h
        exact hn ⟨h.1.1, h.1.2, h.2⟩

example : QArray.init (fun m n => List.replicate m (List.replicate n (0 : ℚ))) 3 4 2 2 true none (some id) true
    = .error .attributeError := rfl

end Aihw.TileArray
