import Verif.Conv.Props4

/-!
# C56, continued: backward pass and update in reachable states
-/
namespace Aihw.Conv

theorem indexes_congr (l : Layer) (x y : Img) (hC : x.C = y.C) (hs : x.sizes = y.sizes) :
    l.indexes x = l.indexes y := by
  unfold Layer.indexes
  rw [hC, hs]

theorem fwd_some (l : Layer) (mv : Nat → List ℚ → Nat → ℚ) (st : LSt) (x : Img) (hN : 0 < x.N)
    (hv : (l.dims x.sizes).all Dim.valid = true) : (l.forwardI mv st x).1.idx ≠ none := by
  have hi : ∃ i, l.indexes x = .ok i := by
    unfold Layer.indexes
    simp only
    rw [if_pos hv]
    exact ⟨_, rfl⟩
  obtain ⟨i, hi⟩ := hi
  have hr : ∃ r, l.refresh st x = .ok r := by
    unfold Layer.refresh
    cases st.idx with
    | none => simp only; rw [hi]; exact ⟨_, rfl⟩
    | some r =>
      simp only
      split_ifs
      · exact ⟨_, rfl⟩
      · rw [hi]; exact ⟨_, rfl⟩
  obtain ⟨r, hr⟩ := hr
  unfold Layer.forwardI
  rw [if_neg (by omega), hr]
  simp

/-- A layer that was used with one image shape only holds the indices for this shape. -/
theorem run_same (l : Layer) (hist : List ((Nat → List ℚ → Nat → ℚ) × Img)) (hne : hist ≠ []) (ss : List Nat)
    (hw : ∀ y ∈ hist, WF l y.2 ∧ y.2.sizes = ss) (hv : (l.dims ss).all Dim.valid = true) :
    ∃ ind, (l.run ⟨none⟩ hist).idx = some (l.C * ss.prod, ind, (l.dims ss).map Dim.out) ∧
      l.indexes ⟨1, l.C, ss, []⟩ = .ok ind := by
  have hsome : (l.run ⟨none⟩ hist).idx ≠ none := by
    obtain ⟨pre, q, rfl⟩ : ∃ pre q, hist = pre ++ [q] := ⟨_, _, (List.dropLast_append_getLast hne).symm⟩
    have hq := hw q (by simp)
    unfold Layer.run
    rw [List.foldl_append, List.foldl_cons, List.foldl_nil]
    exact fwd_some l q.1 _ q.2 hq.1.1 (by rw [hq.2]; exact hv)
  cases hi : (l.run ⟨none⟩ hist).idx with
  | none => exact absurd hi hsome
  | some r =>
    obtain ⟨y, hy, h1, h2, h3, h4⟩ := run_inv l hist r hi
    obtain ⟨q, hq, rfl⟩ := List.mem_map.1 hy
    obtain ⟨⟨w1, w2, w3, w4⟩, w5⟩ := hw q hq
    refine ⟨r.2.1, ?_, ?_⟩
    · have : r.1 = l.C * ss.prod := by rw [h2, w4, Nat.mul_div_cancel_left _ w1, w2, w5]
      rw [← this, ← w5, ← h4]
    · rw [← h3]
      exact indexes_congr l _ _ w2.symm w5.symm

theorem bwd_same (l : Layer) (mvT : Nat → List ℚ → Nat → ℚ) (hC : 0 < l.C) (hO : 0 < l.O)
    (hist : List ((Nat → List ℚ → Nat → ℚ) × Img)) (hne : hist ≠ []) (ss : List Nat)
    (hr : ss.length = l.ks.length)
    (hw : ∀ y ∈ hist, WF l y.2 ∧ y.2.sizes = ss) (hv : (l.dims ss).all Dim.valid = true) (N : Nat) (hN : 0 < N)
    (d : List ℚ) (hd : d.length = N * l.O * outs (l.dims ss)) :
    ∃ g, l.backwardI mvT (l.run ⟨none⟩ hist) N d = .ok g ∧ g.length = N * (l.C * ss.prod) ∧
      ∀ n c f, n < N → c < l.C → f < ss.prod →
        g.getD ((n * l.C + c) * ss.prod + f) 0 =
          ∑ a ∈ Finset.range (kernels (l.dims ss)), ∑ w ∈ Finset.range (outs (l.dims ss)),
            if src (l.dims ss) a w = some f then
              mvT (n * outs (l.dims ss) + w) (dcol d l.O (outs (l.dims ss)) n w) (c * kernels (l.dims ss) + a)
            else 0 := by
  obtain ⟨ind, h1, h2⟩ := run_same l hist hne ss hw hv
  obtain ⟨g, g1, g2, g3⟩ := bwd_core l mvT ⟨1, l.C, ss, []⟩ rfl hr ind h2 (fun _ => hC) N hN d
  simp only at g1 g2 g3
  rw [pixels_dims l ss hr] at g1 g2 g3
  refine ⟨g, ?_, g2, g3⟩
  unfold Layer.backwardI
  rw [h1]
  simp only
  have : d.length / N / l.O = outs (l.dims ss) := by
    rw [hd, Nat.mul_assoc, Nat.mul_div_cancel_left _ hN, Nat.mul_div_cancel_left _ hO]
  rw [this, g1]

theorem upd_same (l : Layer) (hC : 0 < l.C) (hO : 0 < l.O)
    (hist : List ((Nat → List ℚ → Nat → ℚ) × Img)) (hne : hist ≠ []) (ss : List Nat)
    (hr : ss.length = l.ks.length)
    (hw : ∀ y ∈ hist, WF l y.2 ∧ y.2.sizes = ss) (hv : (l.dims ss).all Dim.valid = true) (N : Nat) (hN : 0 < N)
    (x d : List ℚ) (hx : x.length = N * (l.C * ss.prod)) (hd : d.length = N * l.O * outs (l.dims ss)) :
    ∃ ps, l.updateI (l.run ⟨none⟩ hist) N x d = .ok ps ∧ ps.length = N * outs (l.dims ss) ∧
      ∀ n w, n < N → w < outs (l.dims ss) →
        ps[n * outs (l.dims ss) + w]? = some (patchOf (l.dims ss) l.C l.C 1 l.abias x n w,
          dcol d l.O (outs (l.dims ss)) n w) := by
  obtain ⟨ind, h1, h2⟩ := run_same l hist hne ss hw hv
  rw [← pixels_dims l ss hr] at hx
  obtain ⟨b, hb, hcol⟩ := columns l ⟨1, l.C, ss, []⟩ 1 (chan_one l _ rfl) hr ind h2 (fun _ => hC) N hN x hx
  simp only at hb hcol
  have e : d.length / (N * l.O) = outs (l.dims ss) := by
    rw [hd, Nat.mul_div_cancel_left _ (Nat.mul_pos hN hO)]
  unfold Layer.updateI
  rw [h1]
  simp only
  unfold updateIndexed
  rw [e, hb]
  simp only
  refine ⟨_, rfl, by simp [Nat.mul_comm], ?_⟩
  intro n w hn hww
  have hj : n * outs (l.dims ss) + w < outs (l.dims ss) * N := by
    rw [Nat.mul_comm (outs (l.dims ss))]; exact flat_lt hn hww
  rw [List.getElem?_map, List.getElem?_range hj]
  simp only [Option.map_some]
  rw [hcol n w hn hww, (dt_col d l.O _ N n w hn hww).2]

theorem src1_iff (q : KDim) (H a w h : Nat) (hh : h < H) : src [⟨H, q⟩] a w = some h ↔ q.coord w a = h := by
  rw [src1]
  split_ifs with hc
  · rw [Option.some.injEq]
    omega
  · simp only [reduceCtorEq, false_iff]
    omega

theorem src2_iff (q0 q1 : KDim) (H W a0 a1 w0 w1 h w : Nat) (ha : a1 < q1.k) (hw1 : w1 < q1.outSize W)
    (hh : h < H) (hw : w < W) :
    src [⟨H, q0⟩, ⟨W, q1⟩] (a0 * q1.k + a1) (w0 * q1.outSize W + w1) = some (h * W + w) ↔
      q0.coord w0 a0 = h ∧ q1.coord w1 a1 = w := by
  have hk : kernels [⟨W, q1⟩] = q1.k := by simp [kernels]
  have ho : outs [⟨W, q1⟩] = q1.outSize W := by simp [outs, out_eq]
  have hp : pixels [⟨W, q1⟩] = W := by simp [pixels]
  have h1 := src_cons q0 H [⟨W, q1⟩] a0 a1 w0 w1 (by rw [hk]; exact ha) (by rw [ho]; exact hw1)
  rw [hk, ho, hp] at h1
  rw [h1]
  split_ifs with hc
  · rw [Option.map_eq_some_iff]
    constructor
    · rintro ⟨r, hr, he⟩
      have hrl : r < W := by
        have := src_lt _ _ _ _ hr
        rwa [hp] at this
      obtain ⟨e1, e2⟩ := flat_inj hrl hw he
      subst e2
      rw [src1_iff q1 W a1 w1 r hrl] at hr
      exact ⟨by omega, hr⟩
    · rintro ⟨e1, e2⟩
      refine ⟨w, (src1_iff q1 W a1 w1 w hw).2 e2, ?_⟩
      rw [e1]; simp
  · simp only [reduceCtorEq, false_iff]
    rintro ⟨e1, -⟩
    omega

theorem src3_iff (q0 q1 q2 : KDim) (D H W a0 a1 a2 w0 w1 w2 z h w : Nat) (ha1 : a1 < q1.k) (ha2 : a2 < q2.k)
    (hw1 : w1 < q1.outSize H) (hw2 : w2 < q2.outSize W) (hz : z < D) (hh : h < H) (hw : w < W) :
    src [⟨D, q0⟩, ⟨H, q1⟩, ⟨W, q2⟩] ((a0 * q1.k + a1) * q2.k + a2)
        ((w0 * q1.outSize H + w1) * q2.outSize W + w2) = some ((z * H + h) * W + w) ↔
      q0.coord w0 a0 = z ∧ q1.coord w1 a1 = h ∧ q2.coord w2 a2 = w := by
  have hk2 : kernels [⟨H, q1⟩, ⟨W, q2⟩] = q1.k * q2.k := by simp [kernels]
  have ho2 : outs [⟨H, q1⟩, ⟨W, q2⟩] = q1.outSize H * q2.outSize W := by simp [outs, out_eq]
  have hp2 : pixels [⟨H, q1⟩, ⟨W, q2⟩] = H * W := by simp [pixels]
  have h' := src_cons q0 D [⟨H, q1⟩, ⟨W, q2⟩] a0 (a1 * q2.k + a2) w0 (w1 * q2.outSize W + w2)
    (by rw [hk2]; exact flat_lt ha1 ha2) (by rw [ho2]; exact flat_lt hw1 hw2)
  rw [hk2, ho2, hp2] at h'
  have e1 : (a0 * q1.k + a1) * q2.k + a2 = a0 * (q1.k * q2.k) + (a1 * q2.k + a2) := by ring
  have e2 : (w0 * q1.outSize H + w1) * q2.outSize W + w2 =
      w0 * (q1.outSize H * q2.outSize W) + (w1 * q2.outSize W + w2) := by ring
  have e3 : (z * H + h) * W + w = z * (H * W) + (h * W + w) := by ring
  rw [e1, e2, e3, h']
  split_ifs with hc
  · rw [Option.map_eq_some_iff]
    constructor
    · rintro ⟨r, hr, he⟩
      have hrl : r < H * W := by
        have := src_lt _ _ _ _ hr
        rwa [hp2] at this
      obtain ⟨k1, k2⟩ := flat_inj hrl (flat_lt hh hw) he
      rw [k2] at hr
      have := (src2_iff q1 q2 H W a1 a2 w1 w2 h w ha2 hw2 hh hw).1 hr
      exact ⟨by omega, this⟩
    · rintro ⟨k1, k2⟩
      refine ⟨h * W + w, (src2_iff q1 q2 H W a1 a2 w1 w2 h w ha2 hw2 hh hw).2 k2, ?_⟩
      rw [k1]; simp
  · simp only [reduceCtorEq, false_iff]
    rintro ⟨k1, -⟩
    omega

/-- **C56 (backward pass, 1-d).**  A layer used with one input length (any number of forward passes and
batch sizes): the gradient of pixel `h` of channel `c` collects, from every window and kernel element
that looked at this pixel, what the tile returns for that input row. -/
theorem C56_backward1d (C O : Nat) (q : KDim) (ab two : Bool) (hC : 0 < C) (hO : 0 < O)
    (hist : List ((Nat → List ℚ → Nat → ℚ) × Img)) (hne : hist ≠ []) (H : Nat)
    (hw : ∀ y ∈ hist, WF ⟨C, O, [q], ab, two⟩ y.2 ∧ y.2.sizes = [H]) (hf : q.Fits H)
    (mvT : Nat → List ℚ → Nat → ℚ) (N : Nat) (hN : 0 < N) (d : List ℚ)
    (hd : d.length = N * O * q.outSize H) :
    ∃ g, Layer.backwardI ⟨C, O, [q], ab, two⟩ mvT (Layer.run ⟨C, O, [q], ab, two⟩ ⟨none⟩ hist) N d = .ok g ∧
      g.length = N * (C * H) ∧
      ∀ n c h, n < N → c < C → h < H →
        g.getD ((n * C + c) * H + h) 0 =
          ∑ a ∈ Finset.range q.k, ∑ w ∈ Finset.range (q.outSize H),
            if q.coord w a = h then
              mvT (n * q.outSize H + w) ((List.range O).map fun o => d.getD ((n * O + o) * q.outSize H + w) 0)
                (c * q.k + a)
            else 0 := by
  have ho : outs [⟨H, q⟩] = q.outSize H := by simp [outs, out_eq]
  have hk : kernels [⟨H, q⟩] = q.k := by simp [kernels]
  obtain ⟨g, g1, g2, g3⟩ := bwd_same ⟨C, O, [q], ab, two⟩ mvT hC hO hist hne [H] rfl hw
    (by simp [Layer.dims, valid_of_fits q H hf]) N hN d (by
      show d.length = N * O * outs [⟨H, q⟩]
      rw [ho]; exact hd)
  refine ⟨g, g1, by rw [g2]; simp, fun n c h hn hc hh => ?_⟩
  have g4 := g3 n c h hn hc (by simpa using hh)
  simp only [List.prod_cons, List.prod_nil, Nat.mul_one] at g4
  rw [g4]
  have hdm : Layer.dims ⟨C, O, [q], ab, two⟩ [H] = [⟨H, q⟩] := rfl
  rw [hdm, hk, ho]
  apply Finset.sum_congr rfl
  intro a _
  apply Finset.sum_congr rfl
  intro w _
  simp only [src1_iff q H a w h hh]
  rfl

/-- **C56 (backward pass, 2-d).** -/
theorem C56_backward2d (C O : Nat) (q0 q1 : KDim) (ab two : Bool) (hC : 0 < C) (hO : 0 < O)
    (hist : List ((Nat → List ℚ → Nat → ℚ) × Img)) (hne : hist ≠ []) (H W : Nat)
    (hw : ∀ y ∈ hist, WF ⟨C, O, [q0, q1], ab, two⟩ y.2 ∧ y.2.sizes = [H, W]) (hf : q0.Fits H ∧ q1.Fits W)
    (mvT : Nat → List ℚ → Nat → ℚ) (N : Nat) (hN : 0 < N) (d : List ℚ)
    (hd : d.length = N * O * (q0.outSize H * q1.outSize W)) :
    ∃ g, Layer.backwardI ⟨C, O, [q0, q1], ab, two⟩ mvT (Layer.run ⟨C, O, [q0, q1], ab, two⟩ ⟨none⟩ hist) N d =
        .ok g ∧ g.length = N * (C * (H * W)) ∧
      ∀ n c i j, n < N → c < C → i < H → j < W →
        g.getD (((n * C + c) * H + i) * W + j) 0 =
          ∑ a ∈ Finset.range q0.k, ∑ b ∈ Finset.range q1.k,
          ∑ u ∈ Finset.range (q0.outSize H), ∑ v ∈ Finset.range (q1.outSize W),
            if q0.coord u a = i ∧ q1.coord v b = j then
              mvT ((n * q0.outSize H + u) * q1.outSize W + v)
                ((List.range O).map fun o => d.getD (((n * O + o) * q0.outSize H + u) * q1.outSize W + v) 0)
                ((c * q0.k + a) * q1.k + b)
            else 0 := by
  have ho : outs [⟨H, q0⟩, ⟨W, q1⟩] = q0.outSize H * q1.outSize W := by simp [outs, out_eq]
  have hk : kernels [⟨H, q0⟩, ⟨W, q1⟩] = q0.k * q1.k := by simp [kernels]
  have hdm : Layer.dims ⟨C, O, [q0, q1], ab, two⟩ [H, W] = [⟨H, q0⟩, ⟨W, q1⟩] := rfl
  obtain ⟨g, g1, g2, g3⟩ := bwd_same ⟨C, O, [q0, q1], ab, two⟩ mvT hC hO hist hne [H, W] rfl hw
    (by simp [Layer.dims, valid_of_fits q0 H hf.1, valid_of_fits q1 W hf.2]) N hN d (by
      rw [hdm, ho]; exact hd)
  refine ⟨g, g1, by rw [g2]; simp, fun n c i j hn hc hi hj => ?_⟩
  have g4 := g3 n c (i * W + j) hn hc (by simpa using flat_lt hi hj)
  simp only [List.prod_cons, List.prod_nil, Nat.mul_one] at g4
  have e1 : ((n * C + c) * H + i) * W + j = (n * C + c) * (H * W) + (i * W + j) := by ring
  rw [e1, g4, hdm, hk, ho, sum_mul]
  apply Finset.sum_congr rfl
  intro a _
  apply Finset.sum_congr rfl
  intro b hb
  rw [sum_mul]
  apply Finset.sum_congr rfl
  intro u _
  apply Finset.sum_congr rfl
  intro v hv
  simp only [src2_iff q0 q1 H W a b u v i j (Finset.mem_range.1 hb) (Finset.mem_range.1 hv) hi hj]
  have e2 : (n * q0.outSize H + u) * q1.outSize W + v =
      n * (q0.outSize H * q1.outSize W) + (u * q1.outSize W + v) := by ring
  have e3 : (c * q0.k + a) * q1.k + b = c * (q0.k * q1.k) + (a * q1.k + b) := by ring
  have e4 : dcol d O (q0.outSize H * q1.outSize W) n (u * q1.outSize W + v) =
      (List.range O).map fun o => d.getD (((n * O + o) * q0.outSize H + u) * q1.outSize W + v) 0 := by
    unfold dcol
    apply List.map_congr_left
    intro o _
    congr 1
    ring
  rw [e2, e3, ← e4]

/-- **C56 (backward pass, 3-d).** -/
theorem C56_backward3d (C O : Nat) (q0 q1 q2 : KDim) (ab two : Bool) (hC : 0 < C) (hO : 0 < O)
    (hist : List ((Nat → List ℚ → Nat → ℚ) × Img)) (hne : hist ≠ []) (D H W : Nat)
    (hw : ∀ y ∈ hist, WF ⟨C, O, [q0, q1, q2], ab, two⟩ y.2 ∧ y.2.sizes = [D, H, W])
    (hf : q0.Fits D ∧ q1.Fits H ∧ q2.Fits W)
    (mvT : Nat → List ℚ → Nat → ℚ) (N : Nat) (hN : 0 < N) (d : List ℚ)
    (hd : d.length = N * O * (q0.outSize D * q1.outSize H * q2.outSize W)) :
    ∃ g, Layer.backwardI ⟨C, O, [q0, q1, q2], ab, two⟩ mvT
        (Layer.run ⟨C, O, [q0, q1, q2], ab, two⟩ ⟨none⟩ hist) N d =
        .ok g ∧ g.length = N * (C * (D * H * W)) ∧
      ∀ n c z i j, n < N → c < C → z < D → i < H → j < W →
        g.getD ((((n * C + c) * D + z) * H + i) * W + j) 0 =
          ∑ e ∈ Finset.range q0.k, ∑ a ∈ Finset.range q1.k, ∑ b ∈ Finset.range q2.k,
          ∑ t ∈ Finset.range (q0.outSize D), ∑ u ∈ Finset.range (q1.outSize H), ∑ v ∈ Finset.range (q2.outSize W),
            if q0.coord t e = z ∧ q1.coord u a = i ∧ q2.coord v b = j then
              mvT (((n * q0.outSize D + t) * q1.outSize H + u) * q2.outSize W + v)
                ((List.range O).map fun o =>
                  d.getD ((((n * O + o) * q0.outSize D + t) * q1.outSize H + u) * q2.outSize W + v) 0)
                (((c * q0.k + e) * q1.k + a) * q2.k + b)
            else 0 := by
  have ho : outs [⟨D, q0⟩, ⟨H, q1⟩, ⟨W, q2⟩] = q0.outSize D * (q1.outSize H * q2.outSize W) := by
    simp [outs, out_eq]
  have hk : kernels [⟨D, q0⟩, ⟨H, q1⟩, ⟨W, q2⟩] = q0.k * (q1.k * q2.k) := by simp [kernels]
  have hdm : Layer.dims ⟨C, O, [q0, q1, q2], ab, two⟩ [D, H, W] = [⟨D, q0⟩, ⟨H, q1⟩, ⟨W, q2⟩] := rfl
  obtain ⟨g, g1, g2, g3⟩ := bwd_same ⟨C, O, [q0, q1, q2], ab, two⟩ mvT hC hO hist hne [D, H, W] rfl hw
    (by simp [Layer.dims, valid_of_fits q0 D hf.1, valid_of_fits q1 H hf.2.1, valid_of_fits q2 W hf.2.2])
    N hN d (by rw [hdm, ho, ← Nat.mul_assoc (q0.outSize D)]; exact hd)
  refine ⟨g, g1, by rw [g2]; simp [Nat.mul_assoc], fun n c z i j hn hc hz hi hj => ?_⟩
  have g4 := g3 n c ((z * H + i) * W + j) hn hc (by
    have := flat_lt (flat_lt hz hi) hj
    simpa [Nat.mul_assoc] using this)
  simp only [List.prod_cons, List.prod_nil, Nat.mul_one] at g4
  have e1 : (((n * C + c) * D + z) * H + i) * W + j = (n * C + c) * (D * (H * W)) + ((z * H + i) * W + j) := by ring
  rw [e1, g4, hdm, hk, ho, sum_mul]
  apply Finset.sum_congr rfl
  intro e _
  rw [sum_mul]
  apply Finset.sum_congr rfl
  intro a ha
  apply Finset.sum_congr rfl
  intro b hb
  rw [sum_mul]
  apply Finset.sum_congr rfl
  intro t _
  rw [sum_mul]
  apply Finset.sum_congr rfl
  intro u hu
  apply Finset.sum_congr rfl
  intro v hv
  have f1 : e * (q1.k * q2.k) + (a * q2.k + b) = (e * q1.k + a) * q2.k + b := by ring
  have f2 : t * (q1.outSize H * q2.outSize W) + (u * q2.outSize W + v) =
      (t * q1.outSize H + u) * q2.outSize W + v := by ring
  rw [f1, f2]
  simp only [src3_iff q0 q1 q2 D H W e a b t u v z i j (Finset.mem_range.1 ha) (Finset.mem_range.1 hb)
    (Finset.mem_range.1 hu) (Finset.mem_range.1 hv) hz hi hj]
  have e2 : ((n * q0.outSize D + t) * q1.outSize H + u) * q2.outSize W + v =
      n * (q0.outSize D * (q1.outSize H * q2.outSize W)) + ((t * q1.outSize H + u) * q2.outSize W + v) := by ring
  have e3 : ((c * q0.k + e) * q1.k + a) * q2.k + b =
      c * (q0.k * (q1.k * q2.k)) + ((e * q1.k + a) * q2.k + b) := by ring
  have e4 : dcol d O (q0.outSize D * (q1.outSize H * q2.outSize W)) n ((t * q1.outSize H + u) * q2.outSize W + v) =
      (List.range O).map fun o =>
        d.getD ((((n * O + o) * q0.outSize D + t) * q1.outSize H + u) * q2.outSize W + v) 0 := by
    unfold dcol
    apply List.map_congr_left
    intro o _
    congr 1
    ring
  rw [e2, e3, ← e4]

end Aihw.Conv
