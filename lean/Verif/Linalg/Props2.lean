import Verif.Linalg.Props

/-!
# C72: matrices as operands, large matrices
-/
namespace Aihw.Linalg
open Aihw.Periphery

theorem mapM_ok_of {α β : Type} (f : α → Except PyErr β) (g : α → β) (l : List α) (h : ∀ a ∈ l, f a = .ok (g a)) :
    l.mapM f = .ok (l.map g) := by
  induction l with
  | nil => rfl
  | cons a l ih =>
    rw [List.mapM_cons, h a List.mem_cons_self, ih (fun b hb => h b (List.mem_cons_of_mem _ hb))]
    rfl

theorem mapM_error_of {α β : Type} (f : α → Except PyErr β) (e : PyErr) (l : List α) (hl : l ≠ []) (h : ∀ a ∈ l, f a = .error e) :
    l.mapM f = .error e := by
  cases l with
  | nil => exact absurd rfl hl
  | cons a l => rw [List.mapM_cons, h a List.mem_cons_self]; rfl

/-- **C72** (matrix operand) For an operand with `k` rows, each as long as `A` has columns, the result has `k` rows and row `r` is the
product of `A` with row `r` of the operand: the rows are samples. -/
theorem C72_rows (c : Conf) (hc : c.Plain) (M : Mat) {o i k : Nat} (ho : 0 < o) (hi : 0 < i) (hM : IsMat o i M)
    (hs : useArray c o i = false) (acts : List Act) (hf : ∀ a ∈ acts, a.Fits o i) (X : Mat) (hX : IsMat k i X) (numpy : Bool) :
    ∃ A₀ Y, AMat.new c M = .ok A₀ ∧ (acts.foldl step A₀).matmulRows numpy X = .ok Y ∧ IsMat k o Y ∧
      ∀ r < k, ∀ p < o, (Y.getD r []).getD p 0 =
        ((List.range i).map fun q => expected M acts p q * (X.getD r []).getD q 0).sum := by
  obtain ⟨A₀, e0, -, h1, -⟩ := C72_history c hc M ho hi hM hs acts hf
  have h2 : ∀ x : Vec, ∃ y, x.length = i → ((acts.foldl step A₀).matmul numpy x 0).1 = .ok y ∧ y.length = o ∧
      ∀ p < o, y.getD p 0 = ((List.range i).map fun q => expected M acts p q * x.getD q 0).sum := by
    intro x
    by_cases hx : x.length = i
    · obtain ⟨y, a, b, d⟩ := h1 x hx numpy 0
      exact ⟨y, fun _ => ⟨by rw [a], b, d⟩⟩
    · exact ⟨[], fun h => absurd h hx⟩
  choose f hfx using h2
  refine ⟨A₀, X.map f, e0, ?_, ?_, ?_⟩
  · exact mapM_ok_of _ f X (fun x hx => (hfx x (hX.2 x hx)).1)
  · refine ⟨by rw [List.length_map, hX.1], ?_⟩
    intro y hy
    obtain ⟨x, hx, rfl⟩ := List.mem_map.1 hy
    exact (hfx x (hX.2 x hx)).2.1
  · intro r hr p hp
    have hrl : r < X.length := by rw [hX.1]; exact hr
    rw [List.getD_eq_getElem _ [] (by simpa using hrl), List.getElem_map, List.getD_eq_getElem _ [] hrl]
    exact (hfx X[r] (hX.2 _ (List.getElem_mem hrl))).2.2 p hp

/-- **C72** (`matmat`) A matrix with as many rows as `A` has columns, the operand of a matrix product: unless it is square, the call
raises. -/
theorem C72_matmat_raises (c : Conf) (hc : c.Plain) (M : Mat) {o i k : Nat} (ho : 0 < o) (hi : 0 < i) (hM : IsMat o i M)
    (hs : useArray c o i = false) (acts : List Act) (hf : ∀ a ∈ acts, a.Fits o i) (X : Mat) (hX : IsMat i k X) (hk : k ≠ i) (numpy : Bool) :
    ∃ A₀, AMat.new c M = .ok A₀ ∧ (acts.foldl step A₀).matmat numpy X = .error .runtimeError := by
  obtain ⟨A₀, e0, h0, -, -⟩ := C72_history c hc M ho hi hM hs acts hf
  refine ⟨A₀, e0, ?_⟩
  unfold AMat.matmat
  rw [h0, if_pos hX.1]
  apply mapM_error_of
  · intro h
    have := hX.1
    rw [h] at this
    simp at this; omega
  · intro x hx
    obtain ⟨A₁, e1, h1, -⟩ := C72_wrong_size c hc M ho hi hM hs acts hf x [] (by rw [hX.2 x hx]; exact hk) (by simp; omega) numpy 0
    rw [e0] at e1
    injection e1 with e1
    subst e1
    rw [h1]

/-- **C72** (column vector) `matvec` with a column raises unless the matrix has one column. -/
theorem C72_column_raises (c : Conf) (hc : c.Plain) (M : Mat) {o i : Nat} (ho : 0 < o) (hi : 0 < i) (hM : IsMat o i M)
    (hs : useArray c o i = false) (acts : List Act) (hf : ∀ a ∈ acts, a.Fits o i) (x : Vec) (hx : x.length = i) (h1 : i ≠ 1) (numpy : Bool) :
    ∃ A₀, AMat.new c M = .ok A₀ ∧ (acts.foldl step A₀).matvecColumn numpy x = .error .runtimeError := by
  apply C72_matmat_raises c hc M ho hi hM hs acts hf (x.map fun a => [a]) (k := 1)
  · refine ⟨by rw [List.length_map, hx], ?_⟩
    intro r hr
    obtain ⟨a, _, rfl⟩ := List.mem_map.1 hr
    rfl
  · exact fun h => h1 h.symm

/-- **C72** (square operand) For a square operand `matmat` returns `X Aᵀ`. -/
theorem C72_matmat_square (c : Conf) (hc : c.Plain) (M : Mat) {o i : Nat} (ho : 0 < o) (hi : 0 < i) (hM : IsMat o i M)
    (hs : useArray c o i = false) (acts : List Act) (hf : ∀ a ∈ acts, a.Fits o i) (X : Mat) (hX : IsMat i i X) (numpy : Bool) :
    ∃ A₀ Y, AMat.new c M = .ok A₀ ∧ (acts.foldl step A₀).matmat numpy X = .ok Y ∧ IsMat i o Y ∧
      ∀ r < i, ∀ p < o, (Y.getD r []).getD p 0 =
        ((List.range i).map fun q => (X.getD r []).getD q 0 * expected M acts p q).sum := by
  obtain ⟨A₀, e0, h0, -, -⟩ := C72_history c hc M ho hi hM hs acts hf
  obtain ⟨A₁, Y, e1, h1, h2, h3⟩ := C72_rows c hc M ho hi hM hs acts hf X hX numpy
  rw [e0] at e1
  injection e1 with e1
  subst e1
  refine ⟨A₀, Y, e0, ?_, h2, ?_⟩
  · unfold AMat.matmat
    rw [h0, if_pos hX.1]; exact h1
  · intro r hr p hp
    rw [h3 r hr p hp]
    congr 1
    apply List.map_congr_left
    intro q _
    ring

/-! ## Large matrices -/

/-- A tile of an array of periphery tiles. -/
def TileOk (c : Conf) (m n : Nat) (t : Tile) : Prop := 0 < m ∧ 0 < n ∧ Inv (c.tile m n) t ∧ Reach (c.tile m n) t

theorem tileOk_store {c : Conf} (hc : c.Plain) {m n : Nat} {t : Tile} (h : TileOk c m n t) {w : Mat} (hw : IsMat m n w) :
    ∃ t', tileOps.setW t w = .ok t' ∧ TileOk c m n t' ∧ tileOps.getW t' = .ok w := by
  obtain ⟨hm, hn, hi, hr⟩ := h
  have hp := conf_plain hc hm hn
  obtain ⟨s1, s2⟩ := hc.sizes m n
  obtain ⟨t', e1, i1, g1⟩ := store_spec hp hi (M := w) (by rw [s1, s2]; exact hw)
  have hr' : Reach (c.tile m n) t' := by
    have := hr.step (.setWeights w none true none) trivial
    unfold Periphery.step at this
    simp only [e1] at this
    exact this
  refine ⟨t', ?_, ⟨hm, hn, i1, hr'⟩, ?_⟩
  · show (setWeights w none true none t).1.map _ = _
    rw [e1]; rfl
  · show (getWeights t' true).map _ = _
    rw [g1]; rfl

theorem storing {c : Conf} (hc : c.Plain) : TileArray.StoringTile tileOps (TileOk c) :=
  ⟨fun _ _ _ _ h hw => tileOk_store hc h hw⟩

theorem linear {c : Conf} (hc : c.Plain) : TileArray.LinearTile tileOps (TileOk c) := by
  have key : ∀ m n t w, TileOk c m n t → tileOps.getW t = .ok w → getWeights t true = .ok (w, none) ∧ IsMat m n w := by
    rintro m n t w ⟨hm, hn, hi, hr⟩ hw
    have hp := conf_plain hc hm hn
    obtain ⟨s1, s2⟩ := hc.sizes m n
    obtain ⟨W, w1, w2, -⟩ := weights_inv hp hi
    have hw' : (getWeights t true).map (·.1) = .ok w := hw
    rw [w1] at hw'
    injection hw' with hw'
    subst hw'
    rw [s1, s2] at w2
    exact ⟨w1, w2⟩
  refine ⟨fun m n t w h hw => (key m n t w h hw).2, ?_⟩
  intro m n t w x h hw hx
  obtain ⟨k1, k2⟩ := key m n t w h hw
  obtain ⟨hm, hn, hi, hr⟩ := h
  have hp := conf_plain hc hm hn
  obtain ⟨s1, s2⟩ := hc.sizes m n
  show (forward x 0 false t).1 = _
  rw [forward_spec hp hi hr (by rw [s2]; exact hx) 0 false k1 (by rw [s1, s2]; exact k2)]

theorem split_pos {size : Nat} {m : Int} {l : List Nat} (hs : 0 < size) (h : TileArray.getSplitSizes size m = .ok l) :
    ∀ s ∈ l, 0 < s := by
  by_cases hm : m ≤ 0
  · rw [TileArray.C01_split_sizes_unlimited size m hm] at h
    injection h with h
    intro s hsl
    rw [← h] at hsl
    rw [List.mem_singleton.1 hsl]; exact hs
  · obtain ⟨l', e, g⟩ := TileArray.C01_split_sizes size m.toNat hs (by omega)
    rw [Int.toNat_of_nonneg (by omega), h] at e
    injection e with e
    subst e
    intro s hsl
    exact (g.bounds s hsl).1

theorem init_ok (c : Conf) (hc : c.Plain) {o i : Nat} (ho : 0 < o) (hi : 0 < i) :
    ∃ a, TileArray.TArray.init (fun o i => init (c.tile o i)) o i c.maxOut c.maxIn false = .ok a ∧ TileArray.WF (TileOk c) a ∧
      a.outSize = o ∧ a.inSize = i ∧ a.bias = none := by
  have hok : ∀ (size : Nat) (m : Int), 0 < size → ∃ l, TileArray.getSplitSizes size m = .ok l := by
    intro size m hs
    cases h : TileArray.getSplitSizes size m with
    | ok l => exact ⟨l, rfl⟩
    | error e =>
      have := (TileArray.C01_split_sizes_error_iff size m e).1 h
      omega
  obtain ⟨li, hli⟩ := hok i c.maxIn hi
  obtain ⟨lo, hlo⟩ := hok o c.maxOut ho
  unfold TileArray.TArray.init
  simp only [hli, hlo, bind, Except.bind, pure, Except.pure]
  refine ⟨_, rfl, ⟨TileArray.getSplitSizes_sum hli, TileArray.getSplitSizes_sum hlo, TileArray.getSplitSizes_ne_nil hli,
    TileArray.getSplitSizes_ne_nil hlo, ?_, ?_⟩, rfl, rfl, rfl⟩
  · apply TileArray.forall₂_map_right_self
    intro n hn
    apply TileArray.forall₂_map_right_self
    intro m hm
    have h1 := split_pos hi hli n hn
    have h2 := split_pos ho hlo m hm
    exact ⟨h2, h1, inv_init (conf_plain hc h2 h1).valid, reach_init _⟩
  · intro b hb
    simp at hb

/-- **C72** (large matrices) A matrix that exceeds the mapping limits is stored on an array of tiles: the product with a torch vector is
still exact; the product with a numpy vector, the transposed product and `ger` raise `AttributeError`. -/
theorem C72_large (c : Conf) (hc : c.Plain) (M : Mat) {o i : Nat} (ho : 0 < o) (hi : 0 < i) (hM : IsMat o i M)
    (hs : useArray c o i = true) :
    ∃ A, AMat.new c M = .ok A ∧ A.shape = (o, i) ∧
      (∀ x : Vec, x.length = i → ∀ std, ∃ y, A.matmul false x std = (.ok y, A) ∧ y.length = o ∧
        ∀ p < o, y.getD p 0 = ((List.range i).map fun q => (M.getD p []).getD q 0 * x.getD q 0).sum) ∧
      (∀ x std, A.matmul true x std = (.error .attributeError, A)) ∧
      (∀ d, A.rmatmul d = .error .attributeError) ∧
      (∀ alpha batch, A.ger alpha batch = (.error .attributeError, A)) := by
  obtain ⟨e1, e2⟩ := shape_of_isMat hM ho
  obtain ⟨a, ha, hwf, a1, a2, a3⟩ := init_ok c hc ho hi
  obtain ⟨a', h1, h2, h3, h4, h5⟩ := TileArray.C02_set_get_roundtrip (storing hc) hwf (W := M) (by rw [a1, a2]; exact hM) none (by simp)
  refine ⟨.array a', ?_, ?_, ?_, fun _ _ => rfl, fun _ => rfl, fun _ _ => rfl⟩
  · unfold AMat.new
    simp only [e1, e2, hs, if_true, ha, Except.bind, h1]
    rfl
  · show (a'.outSize, a'.inSize) = _
    rw [h3, h4, a1, a2]
  · intro x hx std
    have hfw := TileArray.C03_forward_eq_matVec (linear hc) h2 h5 (x := x) (by rw [h4, a2]; exact hx)
    rw [a3] at hfw
    refine ⟨matVec M x, ?_, by unfold matVec; rw [List.length_map, e1], ?_⟩
    · show (TileArray.forward tileOps a' x, AMat.array a') = _
      rw [hfw]; rfl
    · intro p hp
      exact dot_row hM hx hp

/-- **C72** (which class) The array is used exactly if the configuration has an array class, some limit is not zero, and a dimension
exceeds its limit. -/
theorem C72_array_iff (c : Conf) (o i : Nat) :
    useArray c o i = true ↔ c.hasArray = true ∧ (c.maxIn ≠ 0 ∨ c.maxOut ≠ 0) ∧ (c.maxIn < i ∨ c.maxOut < o) := by
  unfold useArray
  split_ifs with h
  · constructor
    · intro h'; cases h'
    · rintro ⟨h1, h2, -⟩
      rcases h with h | ⟨h3, h4⟩
      · rw [h1] at h; cases h
      · rcases h2 with h2 | h2
        · exact absurd h3 h2
        · exact absurd h4 h2
  · rw [decide_eq_true_eq]
    constructor
    · intro h'
      push Not at h
      refine ⟨by simpa using h.1, ?_, h'⟩
      by_cases h0 : c.maxIn = 0
      · exact Or.inr (h.2 h0)
      · exact Or.inl h0
    · exact fun h' => h'.2.2

end Aihw.Linalg
