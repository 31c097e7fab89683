import Verif.Conv.MappedProps

/-!
# C57, continued
-/
namespace Aihw.Conv

/-- Specification: bias of an output channel, zero without bias. -/
def biasAt (bias : Option (List ℚ)) (o : Nat) : ℚ := (bias.map fun b => b.getD o 0).getD 0

theorem biasOf_eq (l : MLayer) (bias : Option (List ℚ)) (h : l.bias = bias) (o : Nat) :
    l.biasOf o = biasAt bias o := by
  unfold MLayer.biasOf biasAt
  rw [h]
  cases bias <;> rfl

/-- **C57 (mapped 1-d convolution, any tiles).**  For every constructed layer and every history of well-formed
inputs, the next forward pass gives tile `[i, j]` the zero-padded windows of the channels of part `i`; output
channel `o` of part `j` is the sum over the parts of what tiles `[i, j]` return, plus the bias. -/
theorem C57_mapped1d (C O : Nat) (q : KDim) (two : Bool) (maxIn maxOut : Int) (digital : Bool)
    (bias : Option (List ℚ)) (l : MLayer) (hl : MLayer.make C O [q] two maxIn maxOut digital bias = .ok l)
    (hC : 0 < C) (hist : List ((Nat → Nat → Nat → List ℚ → Nat → ℚ) × Img))
    (hw : ∀ y ∈ hist, MWF l y.2 ∧ ∀ H, y.2.sizes = [H] → q.Fits H)
    (x : Img) (hx : MWF l x) (H : Nat) (hs : x.sizes = [H]) (hf : q.Fits H)
    (T : Nat → Nat → Nat → List ℚ → Nat → ℚ) :
    ∃ out, (l.forwardI T (l.run ⟨0, none⟩ hist) x).2 = .ok ([x.N, O, q.outSize H], out) ∧
      out.length = x.N * O * q.outSize H ∧
      ∀ n j o w, n < x.N → j < l.outs.length → o < l.outs.getD j 0 → w < q.outSize H →
        out.getD ((n * O + ((l.outs.take j).sum + o)) * q.outSize H + w) 0 =
          ∑ i ∈ Finset.range l.ins.length, T i j (n * q.outSize H + w)
            ((List.range (l.ins.getD i 0)).flatMap fun c => (List.range q.k).map fun a =>
              at1 x.data C H n ((l.ins.take i).sum + c) (q.coord w a)) o +
          biasAt bias ((l.outs.take j).sum + o) := by
  obtain ⟨e1, e2, e3, e4, e5, hsp⟩ := make_splits C O [q] two maxIn maxOut digital bias l hl
  have hd : l.dims x.sizes = [⟨H, q⟩] := by unfold MLayer.dims; rw [e3, hs]; rfl
  have ho : outs [⟨H, q⟩] = q.outSize H := by simp [outs, out_eq]
  have hk : kernels [⟨H, q⟩] = q.k := by simp [kernels]
  have hone : ∀ y : Img, MWF l y → ∃ h, y.sizes = [h] := by
    intro y hy
    have hr := hy.2.2.1
    rw [e3] at hr
    exact List.length_eq_one_iff.1 hr
  obtain ⟨out, h1, h2, h3⟩ := mforward l hsp T hist (by
      intro y hy
      obtain ⟨a1, a2⟩ := hw y hy
      obtain ⟨h', hh⟩ := hone y.2 a1
      refine ⟨a1, ?_⟩
      unfold MLayer.dims
      rw [e3, hh]
      simp [valid_of_fits q h' (a2 h' hh)]) x hx (by rw [e1]; exact hC)
    (by rw [hd]; simp [valid_of_fits q H hf]) (by
      intro y hy hp
      obtain ⟨h', hh⟩ := hone y.2 (hw y hy).1
      rw [hh, hs] at hp ⊢
      simpa using hp)
  rw [hd, e1, e2] at h3
  rw [hd, e2] at h1 h2
  rw [ho] at h2 h3
  refine ⟨out, h1, h2, fun n j o w hn hj ho' hw' => ?_⟩
  have := h3 n j o w hn hj ho' hw'
  rw [biasOf_eq l bias e5] at this
  unfold off at this
  rw [this]
  simp only [hk, pix1]

/-- **C57 (mapped 2-d convolution, any tiles).** -/
theorem C57_mapped2d (C O : Nat) (q0 q1 : KDim) (two : Bool) (maxIn maxOut : Int) (digital : Bool)
    (bias : Option (List ℚ)) (l : MLayer) (hl : MLayer.make C O [q0, q1] two maxIn maxOut digital bias = .ok l)
    (hC : 0 < C) (hist : List ((Nat → Nat → Nat → List ℚ → Nat → ℚ) × Img))
    (hw : ∀ y ∈ hist, MWF l y.2 ∧ ∀ H W, y.2.sizes = [H, W] → q0.Fits H ∧ q1.Fits W)
    (x : Img) (hx : MWF l x) (H W : Nat) (hs : x.sizes = [H, W]) (hf : q0.Fits H ∧ q1.Fits W)
    (hsame : ∀ y ∈ hist, ∀ H' W', y.2.sizes = [H', W'] → H' * W' = H * W → H' = H ∧ W' = W)
    (T : Nat → Nat → Nat → List ℚ → Nat → ℚ) :
    ∃ out, (l.forwardI T (l.run ⟨0, none⟩ hist) x).2 = .ok ([x.N, O, q0.outSize H, q1.outSize W], out) ∧
      out.length = x.N * O * (q0.outSize H * q1.outSize W) ∧
      ∀ n j o u v, n < x.N → j < l.outs.length → o < l.outs.getD j 0 → u < q0.outSize H → v < q1.outSize W →
        out.getD (((n * O + ((l.outs.take j).sum + o)) * q0.outSize H + u) * q1.outSize W + v) 0 =
          ∑ i ∈ Finset.range l.ins.length, T i j ((n * q0.outSize H + u) * q1.outSize W + v)
            ((List.range (l.ins.getD i 0)).flatMap fun c => (List.range q0.k).flatMap fun a =>
              (List.range q1.k).map fun b =>
                at2 x.data C H W n ((l.ins.take i).sum + c) (q0.coord u a) (q1.coord v b)) o +
          biasAt bias ((l.outs.take j).sum + o) := by
  obtain ⟨e1, e2, e3, e4, e5, hsp⟩ := make_splits C O [q0, q1] two maxIn maxOut digital bias l hl
  have hd : l.dims x.sizes = [⟨H, q0⟩, ⟨W, q1⟩] := by unfold MLayer.dims; rw [e3, hs]; rfl
  have ho : outs [⟨H, q0⟩, ⟨W, q1⟩] = q0.outSize H * q1.outSize W := by simp [outs, out_eq]
  have hk : kernels [⟨H, q0⟩, ⟨W, q1⟩] = q0.k * q1.k := by simp [kernels]
  have htwo : ∀ y : Img, MWF l y → ∃ h w, y.sizes = [h, w] := by
    intro y hy
    have hr := hy.2.2.1
    rw [e3] at hr
    exact List.length_eq_two.1 hr
  obtain ⟨out, h1, h2, h3⟩ := mforward l hsp T hist (by
      intro y hy
      obtain ⟨a1, a2⟩ := hw y hy
      obtain ⟨h', w', hh⟩ := htwo y.2 a1
      refine ⟨a1, ?_⟩
      unfold MLayer.dims
      rw [e3, hh]
      simp [valid_of_fits q0 h' (a2 h' w' hh).1, valid_of_fits q1 w' (a2 h' w' hh).2]) x hx (by rw [e1]; exact hC)
    (by rw [hd]; simp [valid_of_fits q0 H hf.1, valid_of_fits q1 W hf.2]) (by
      intro y hy hp
      obtain ⟨h', w', hh⟩ := htwo y.2 (hw y hy).1
      rw [hh, hs] at hp ⊢
      obtain ⟨k1, k2⟩ := hsame y hy h' w' hh (by simpa using hp)
      rw [k1, k2])
  rw [hd, e1, e2] at h3
  rw [hd, e2] at h1 h2
  rw [ho] at h2 h3
  refine ⟨out, h1, h2, fun n j o u v hn hj ho' hu hv => ?_⟩
  have := h3 n j o (u * q1.outSize W + v) hn hj ho' (flat_lt hu hv)
  rw [biasOf_eq l bias e5] at this
  unfold off at this
  have f1 : ((n * O + ((l.outs.take j).sum + o)) * q0.outSize H + u) * q1.outSize W + v =
      (n * O + ((l.outs.take j).sum + o)) * (q0.outSize H * q1.outSize W) + (u * q1.outSize W + v) := by ring
  have f2 : (n * q0.outSize H + u) * q1.outSize W + v =
      n * (q0.outSize H * q1.outSize W) + (u * q1.outSize W + v) := by ring
  rw [f1, f2, this]
  congr 1
  apply Finset.sum_congr rfl
  intro i _
  congr 1
  simp only [hk, range_mul]
  apply congrArg (fun f => (List.range (l.ins.getD i 0)).flatMap f)
  funext c
  apply congrArg (fun f => (List.range q0.k).flatMap f)
  funext a
  apply List.map_congr_left
  intro b hb
  exact pix2 q0 q1 H W C x.data n _ a b u v (List.mem_range.1 hb) hv

/-- **C57 (mapped 3-d convolution, any tiles).** -/
theorem C57_mapped3d (C O : Nat) (q0 q1 q2 : KDim) (two : Bool) (maxIn maxOut : Int) (digital : Bool)
    (bias : Option (List ℚ)) (l : MLayer) (hl : MLayer.make C O [q0, q1, q2] two maxIn maxOut digital bias = .ok l)
    (hC : 0 < C) (hist : List ((Nat → Nat → Nat → List ℚ → Nat → ℚ) × Img))
    (hw : ∀ y ∈ hist, MWF l y.2 ∧ ∀ D H W, y.2.sizes = [D, H, W] → q0.Fits D ∧ q1.Fits H ∧ q2.Fits W)
    (x : Img) (hx : MWF l x) (D H W : Nat) (hs : x.sizes = [D, H, W])
    (hf : q0.Fits D ∧ q1.Fits H ∧ q2.Fits W)
    (hsame : ∀ y ∈ hist, ∀ D' H' W', y.2.sizes = [D', H', W'] → D' * H' * W' = D * H * W →
      D' = D ∧ H' = H ∧ W' = W)
    (T : Nat → Nat → Nat → List ℚ → Nat → ℚ) :
    ∃ out, (l.forwardI T (l.run ⟨0, none⟩ hist) x).2 =
        .ok ([x.N, O, q0.outSize D, q1.outSize H, q2.outSize W], out) ∧
      out.length = x.N * O * (q0.outSize D * q1.outSize H * q2.outSize W) ∧
      ∀ n j o t u v, n < x.N → j < l.outs.length → o < l.outs.getD j 0 → t < q0.outSize D → u < q1.outSize H →
        v < q2.outSize W →
        out.getD ((((n * O + ((l.outs.take j).sum + o)) * q0.outSize D + t) * q1.outSize H + u) * q2.outSize W + v) 0 =
          ∑ i ∈ Finset.range l.ins.length, T i j (((n * q0.outSize D + t) * q1.outSize H + u) * q2.outSize W + v)
            ((List.range (l.ins.getD i 0)).flatMap fun c => (List.range q0.k).flatMap fun e =>
              (List.range q1.k).flatMap fun a => (List.range q2.k).map fun b =>
                at3 x.data C D H W n ((l.ins.take i).sum + c) (q0.coord t e) (q1.coord u a) (q2.coord v b)) o +
          biasAt bias ((l.outs.take j).sum + o) := by
  obtain ⟨e1, e2, e3, e4, e5, hsp⟩ := make_splits C O [q0, q1, q2] two maxIn maxOut digital bias l hl
  have hd : l.dims x.sizes = [⟨D, q0⟩, ⟨H, q1⟩, ⟨W, q2⟩] := by unfold MLayer.dims; rw [e3, hs]; rfl
  have ho : outs [⟨D, q0⟩, ⟨H, q1⟩, ⟨W, q2⟩] = q0.outSize D * (q1.outSize H * q2.outSize W) := by
    simp [outs, out_eq]
  have hk : kernels [⟨D, q0⟩, ⟨H, q1⟩, ⟨W, q2⟩] = q0.k * (q1.k * q2.k) := by simp [kernels]
  have hthree : ∀ y : Img, MWF l y → ∃ d h w, y.sizes = [d, h, w] := by
    intro y hy
    have hr := hy.2.2.1
    rw [e3] at hr
    exact List.length_eq_three.1 hr
  obtain ⟨out, h1, h2, h3⟩ := mforward l hsp T hist (by
      intro y hy
      obtain ⟨a1, a2⟩ := hw y hy
      obtain ⟨d', h', w', hh⟩ := hthree y.2 a1
      refine ⟨a1, ?_⟩
      unfold MLayer.dims
      rw [e3, hh]
      obtain ⟨b1, b2, b3⟩ := a2 d' h' w' hh
      simp [valid_of_fits q0 d' b1, valid_of_fits q1 h' b2, valid_of_fits q2 w' b3]) x hx (by rw [e1]; exact hC)
    (by rw [hd]; simp [valid_of_fits q0 D hf.1, valid_of_fits q1 H hf.2.1, valid_of_fits q2 W hf.2.2]) (by
      intro y hy hp
      obtain ⟨d', h', w', hh⟩ := hthree y.2 (hw y hy).1
      rw [hh, hs] at hp ⊢
      obtain ⟨k1, k2, k3⟩ := hsame y hy d' h' w' hh (by simpa [Nat.mul_assoc] using hp)
      rw [k1, k2, k3])
  rw [hd, e1, e2] at h3
  rw [hd, e2] at h1 h2
  rw [ho] at h2 h3
  refine ⟨out, h1, by rw [h2, Nat.mul_assoc (q0.outSize D)], fun n j o t u v hn hj ho' ht hu hv => ?_⟩
  have hlt : (t * q1.outSize H + u) * q2.outSize W + v < q0.outSize D * (q1.outSize H * q2.outSize W) := by
    rw [← Nat.mul_assoc]; exact flat_lt (flat_lt ht hu) hv
  have := h3 n j o _ hn hj ho' hlt
  rw [biasOf_eq l bias e5] at this
  unfold off at this
  have f1 : (((n * O + ((l.outs.take j).sum + o)) * q0.outSize D + t) * q1.outSize H + u) * q2.outSize W + v =
      (n * O + ((l.outs.take j).sum + o)) * (q0.outSize D * (q1.outSize H * q2.outSize W)) +
        ((t * q1.outSize H + u) * q2.outSize W + v) := by ring
  have f2 : ((n * q0.outSize D + t) * q1.outSize H + u) * q2.outSize W + v =
      n * (q0.outSize D * (q1.outSize H * q2.outSize W)) + ((t * q1.outSize H + u) * q2.outSize W + v) := by ring
  rw [f1, f2, this]
  congr 1
  apply Finset.sum_congr rfl
  intro i _
  congr 1
  simp only [hk, range_mul]
  apply congrArg (fun f => (List.range (l.ins.getD i 0)).flatMap f)
  funext c
  apply congrArg (fun f => (List.range q0.k).flatMap f)
  funext e
  rw [List.flatMap_def, List.flatMap_def]
  congr 1
  apply List.map_congr_left
  intro a ha
  apply List.map_congr_left
  intro b hb
  have g1 : e * (q1.k * q2.k) + (a * q2.k + b) = (e * q1.k + a) * q2.k + b := by ring
  rw [g1]
  exact pix3 q0 q1 q2 D H W C x.data n _ e a b t u v (List.mem_range.1 ha) (List.mem_range.1 hb) hu hv

/-! ## Weights -/

theorem tileWeight_get (l : MLayer) (W : Mat) (i j o p : Nat) (hj : off l.outs j + o < W.length)
    (ho : o < l.outs.getD j 0) (hp : p < l.ins.getD i 0 * l.K) :
    ((l.tileWeight W i j).getD o []).getD p 0 =
      (W.getD (off l.outs j + o) []).getD (off l.ins i * l.K + p) 0 := by
  unfold MLayer.tileWeight
  simp only [List.getD_eq_getElem?_getD, List.getElem?_take, List.getElem?_drop, List.getElem?_map]
  rw [if_pos (by simpa [List.getD_eq_getElem?_getD] using ho)]
  rw [List.getElem?_eq_getElem hj]
  simp only [Option.map_some, Option.getD_some, List.getElem?_take, List.getElem?_drop]
  rw [if_pos (by simpa [List.getD_eq_getElem?_getD] using hp)]

/-- **C57 (exact tiles compute the unmapped convolution).**  If `set_weights` has written `W` (rows of
`C * K` entries) to exact tiles, the mapped layer computes, for every history, exactly what the unmapped
layer with weight `W` computes, plus the digital bias; by `C56_exact1d`, `C56_exact2d`, `C56_exact3d` this is the
convolution. -/
theorem C57_exact (C O : Nat) (ks : List KDim) (two : Bool) (maxIn maxOut : Int) (digital : Bool)
    (bias : Option (List ℚ)) (l : MLayer) (hl : MLayer.make C O ks two maxIn maxOut digital bias = .ok l)
    (hC : 0 < C) (hist : List ((Nat → Nat → Nat → List ℚ → Nat → ℚ) × Img))
    (hw : ∀ y ∈ hist, MWF l y.2 ∧ (List.zipWith Dim.mk y.2.sizes ks).all Dim.valid = true)
    (x : Img) (hx : MWF l x) (hv : (List.zipWith Dim.mk x.sizes ks).all Dim.valid = true)
    (hsame : ∀ y ∈ hist, y.2.sizes.prod = x.sizes.prod → y.2.sizes = x.sizes)
    (W : Mat) (hW : W.length = O) :
    ∃ shape out out0,
      (l.forwardI (fun i j => exact fun o p => ((l.tileWeight W i j).getD o []).getD p 0)
        (l.run ⟨0, none⟩ hist) x).2 = .ok (shape, out) ∧
      (Layer.forwardI ⟨C, O, ks, false, two⟩ (exact fun o p => (W.getD o []).getD p 0) ⟨none⟩ x).2 = .ok (shape, out0) ∧
      out.length = out0.length ∧ out.length = shape.prod ∧
      ∀ n o w, n < x.N → o < O → w < (shape.drop 2).prod →
        out.getD ((n * O + o) * (shape.drop 2).prod + w) 0 = out0.getD ((n * O + o) * (shape.drop 2).prod + w) 0 +
          biasAt bias o := by
  obtain ⟨e1, e2, e3, e4, e5, hsp⟩ := make_splits C O ks two maxIn maxOut digital bias l hl
  have hdm : ∀ s, l.dims s = List.zipWith Dim.mk s ks := by intro s; unfold MLayer.dims; rw [e3]
  obtain ⟨out, h1, h2, h3⟩ := mforward l hsp
    (fun i j => exact fun o p => ((l.tileWeight W i j).getD o []).getD p 0) hist
    (fun y hy => ⟨(hw y hy).1, by rw [hdm]; exact (hw y hy).2⟩) x hx (by rw [e1]; exact hC)
    (by rw [hdm]; exact hv) hsame
  obtain ⟨hN, hxC, hxr, hxd⟩ := hx
  obtain ⟨out0, k1, k2, k3⟩ := forward_fresh ⟨C, O, ks, false, two⟩ (exact fun o p => (W.getD o []).getD p 0) x 1
    (chan_one _ _ (by rw [hxC, e1])) hN (by rw [hxr, e3]) hxd (fun h => (by cases h)) hv
  have hd0 : Layer.dims ⟨C, O, ks, false, two⟩ x.sizes = l.dims x.sizes := (hdm _).symm
  rw [hd0] at k1 k2 k3
  simp only at k1 k2 k3
  rw [e2] at h1 h2 h3
  have hprod : ((x.N :: O :: (l.dims x.sizes).map Dim.out).drop 2).prod = outs (l.dims x.sizes) := rfl
  refine ⟨_, out, out0, h1, k1, by rw [h2, k2], ?_, ?_⟩
  · rw [h2, List.prod_cons, List.prod_cons, Nat.mul_assoc]
    rfl
  · intro n o w hn ho hww
    rw [hprod] at hww ⊢
    obtain ⟨j, o', hj, ho', rfl⟩ := locate l.outs o (by rw [hsp.2.1, e2]; exact ho)
    rw [h3 n j o' w hn hj ho' hww, k3 n _ w hn ho hww]
    rw [biasOf_eq l bias e5]
    congr 1
    unfold patchOf
    rw [exact_patch]
    have hz : (if false = true then ((W.getD (off l.outs j + o') []).getD (C * kernels (l.dims x.sizes)) 0) else 0)
        = (0 : ℚ) := rfl
    rw [hz, add_zero]
    have hCs : C = l.ins.sum := by rw [hsp.1, e1]
    conv_rhs => rw [hCs, sum_parts]
    apply Finset.sum_congr rfl
    intro i hi
    have hK : kernels (l.dims x.sizes) = l.K := by
      unfold MLayer.K
      exact dims_kernels (l.sub 0 0) x.sizes hxr
    have hp := exact_patch (fun o p => ((l.tileWeight W i j).getD o []).getD p 0)
      (n * outs (l.dims x.sizes) + w) o' (l.ins.getD i 0) (kernels (l.dims x.sizes)) false
      (fun c a => pix (l.dims x.sizes) l.C x.data n (off l.ins i + c) a w)
    simp only [Bool.false_eq_true, if_false, List.append_nil, add_zero] at hp
    rw [hp]
    apply Finset.sum_congr rfl
    intro c hc
    apply Finset.sum_congr rfl
    intro a ha
    have hlt : c * kernels (l.dims x.sizes) + a < l.ins.getD i 0 * l.K := by
      rw [← hK]
      exact flat_lt (Finset.mem_range.1 hc) (Finset.mem_range.1 ha)
    rw [tileWeight_get l W i j o' _ (by rw [hW]; exact ho) ho' hlt]
    rw [Nat.one_mul, hK, hxC]
    congr 2
    ring

/-- **C57 (weights round trip).**  `get_weights` after `set_weights` returns the weight. -/
theorem C57_roundtrip (C O : Nat) (ks : List KDim) (two : Bool) (maxIn maxOut : Int) (digital : Bool)
    (bias : Option (List ℚ)) (l : MLayer) (hl : MLayer.make C O ks two maxIn maxOut digital bias = .ok l)
    (W : Mat) (hW : W.length = O) (hr : ∀ row ∈ W, row.length = C * (ks.map (·.k)).prod) :
    l.getWeight (l.tileWeight W) = W := by
  obtain ⟨e1, e2, e3, e4, e5, hsp⟩ := make_splits C O ks two maxIn maxOut digital bias l hl
  have hK : l.K = (ks.map (·.k)).prod := by unfold MLayer.K; rw [e3]
  -- joining rows
  have hrows : ∀ (M : Mat) (ss : List Nat), M.length = ss.sum →
      ((List.range ss.length).flatMap fun j => (M.drop (off ss j)).take (ss.getD j 0)) = M := by
    intro M ss
    induction ss generalizing M with
    | nil => intro h; simp at h; simp [h]
    | cons s ss ih =>
      intro h
      rw [List.sum_cons] at h
      rw [List.length_cons, List.range_succ_eq_map, List.flatMap_cons, List.flatMap_map]
      have := ih (M.drop s) (by rw [List.length_drop]; omega)
      have e : ∀ j, off (s :: ss) (j + 1) = s + off ss j := by intro j; simp [off]
      simp only [Nat.succ_eq_add_one, e, List.getD_cons_succ]
      simp only [List.drop_drop] at this
      rw [this]
      simp [off]
  -- joining columns
  have hcols : ∀ (v : List ℚ) (K : Nat) (ss : List Nat), v.length = ss.sum * K →
      ((List.range ss.length).flatMap fun i => (v.drop (off ss i * K)).take (ss.getD i 0 * K)) = v := by
    intro v K ss
    induction ss generalizing v with
    | nil => intro h; simp at h; simp [h]
    | cons s ss ih =>
      intro h
      rw [List.sum_cons, Nat.add_mul] at h
      rw [List.length_cons, List.range_succ_eq_map, List.flatMap_cons, List.flatMap_map]
      have := ih (v.drop (s * K)) (by rw [List.length_drop]; omega)
      have e : ∀ j, off (s :: ss) (j + 1) = s + off ss j := by intro j; simp [off]
      simp only [Nat.succ_eq_add_one, e, List.getD_cons_succ, Nat.add_mul]
      simp only [List.drop_drop] at this
      rw [this]
      simp [off]
  unfold MLayer.getWeight
  apply List.ext_getElem
  · simp [hW, e2]
  · intro o h1 h2
    simp only [List.getElem_map, List.getElem_range]
    have hcol : ∀ i, ((List.range l.outs.length).flatMap fun j => l.tileWeight W i j) =
        W.map fun row => (row.drop (off l.ins i * l.K)).take (l.ins.getD i 0 * l.K) := by
      intro i
      unfold MLayer.tileWeight
      exact hrows _ l.outs (by rw [List.length_map, hW, hsp.2.1, e2])
    simp only [hcol]
    have hg : ∀ i, (W.map fun row => (row.drop (off l.ins i * l.K)).take (l.ins.getD i 0 * l.K)).getD o [] =
        (W[o].drop (off l.ins i * l.K)).take (l.ins.getD i 0 * l.K) := by
      intro i
      rw [List.getD_eq_getElem?_getD, List.getElem?_map, List.getElem?_eq_getElem h2]
      rfl
    simp only [hg]
    apply hcols
    rw [hr _ (List.getElem_mem h2), hsp.1, e1, hK]

/-- A split of `n` units of `k` cells each onto tiles of at most `limit` cells (no limit unless positive). -/
structure FitsLimit (l : List Nat) (n k : Nat) (limit : Int) : Prop where
  sum : l.sum = n
  one : limit ≤ 0 → l = [n]
  fits : 0 < limit → ∀ s ∈ l, 1 ≤ s ∧ ((s * k : Nat) : Int) ≤ limit
  balanced : l.Pairwise fun a b => b ≤ a ∧ a ≤ b + 1
  minimal : 0 < limit → ∀ l' : List Nat, l'.sum = n → (∀ s ∈ l', ((s * k : Nat) : Int) ≤ limit) → l.length ≤ l'.length

theorem split_fits (n k : Nat) (limit : Int) (hn : 1 ≤ n) (hk : 1 ≤ k) (hm : limit ≤ 0 ∨ (k : Int) ≤ limit) :
    ∃ l, splitGroups (n * k) limit k = .ok l ∧ FitsLimit l n k limit := by
  by_cases h : limit ≤ 0
  · refine ⟨[n], (C57_split_cases n k limit hk).1 h, ⟨by simp, fun _ => rfl, ?_, by simp, ?_⟩⟩
    · intro h'; omega
    · intro h'; omega
  · obtain ⟨m, rfl⟩ := Int.eq_ofNat_of_zero_le (show 0 ≤ limit by omega)
    obtain ⟨l, h1, h2, h3, h4, h5⟩ := C57_split n k m hn hk (by omega)
    refine ⟨l, h1, ⟨h2, fun h' => absurd h' h, ?_, h4, ?_⟩⟩
    · intro _ s hs
      obtain ⟨a, b⟩ := h3 s hs
      exact ⟨a, by exact_mod_cast b⟩
    · intro _ l' h6 h7
      exact h5 l' h6 fun s hs => by exact_mod_cast h7 s hs

/-- **C57 (construction).**  With a kernel that fits the tiles and a bias that is digital (or absent), the constructor
succeeds; the input channels are split respecting the maximal input size and the output channels respecting the
maximal output size. -/
theorem C57_construct (C O : Nat) (ks : List KDim) (two : Bool) (maxIn maxOut : Int) (digital : Bool)
    (bias : Option (List ℚ)) (hb : bias = none ∨ digital = true) (hC : 1 ≤ C) (hO : 1 ≤ O)
    (hK : 1 ≤ (ks.map (·.k)).prod) (hin : maxIn ≤ 0 ∨ (((ks.map (·.k)).prod : Nat) : Int) ≤ maxIn) :
    ∃ l, MLayer.make C O ks two maxIn maxOut digital bias = .ok l ∧
      FitsLimit l.ins C (ks.map (·.k)).prod maxIn ∧ FitsLimit l.outs O 1 maxOut := by
  obtain ⟨a, a1, a2⟩ := split_fits C (ks.map (·.k)).prod maxIn hC hK hin
  obtain ⟨b, b1, b2⟩ := split_fits O 1 maxOut hO (Nat.le_refl _) (by omega)
  rw [Nat.mul_one] at b1
  refine ⟨⟨C, O, ks, two, a, b, bias⟩, ?_, a2, b2⟩
  unfold MLayer.make
  rw [if_neg (by rcases hb with h | h <;> simp [h]), if_neg (by omega), Nat.mul_div_cancel_left _ (by omega), a1]
  simp only
  rw [b1]

/-- **C57 (analog bias rejected).** -/
theorem C57_analog_bias (C O : Nat) (ks : List KDim) (two : Bool) (maxIn maxOut : Int) (b : List ℚ) :
    MLayer.make C O ks two maxIn maxOut false (some b) = .error .analogBias := rfl

/-- **C57 (finding: a failed forward pass is remembered).**  After an input `x` with a new number of elements
was rejected, every following input with that number of elements, however often, is evaluated with the indices
of the last accepted input `y`: if this succeeds at all, the output has the image size that belongs to `y`. -/
theorem C57_failed_finding (l : MLayer) (T T' : Nat → Nat → Nat → List ℚ → Nat → ℚ) (st : MSt) (x z : Img)
    (r : List (List Nat) × List Nat) (e : PyErr) (hidx : st.idx = some r) (hx : 0 < x.N) (hz : 0 < z.N)
    (hf : (l.refresh st x).2 = .error e)
    (hsz : z.data.length / z.N = x.data.length / x.N) (shape : List Nat) (out : List ℚ)
    (hok : (l.forwardI T' (l.forwardI T st x).1 z).2 = .ok (shape, out)) : shape = z.N :: l.O :: r.2 := by
  have hst : (l.forwardI T st x).1 = ⟨x.data.length / x.N, some r⟩ := by
    rw [forwardI_state l T st x hx]
    unfold MLayer.refresh at hf ⊢
    rw [hidx] at hf ⊢
    simp only at hf ⊢
    by_cases hc : st.size = x.data.length / x.N
    · rw [if_pos hc] at hf; cases hf
    · rw [if_neg hc] at hf ⊢
      by_cases hC : l.ins.sum = x.C
      · rw [if_pos hC] at hf ⊢
        cases hm : (List.range l.ins.length).mapM fun i => (l.sub i 0).indexes (l.part x i) with
        | error e => rfl
        | ok f => rw [hm] at hf; cases hf
      · rw [if_neg hC]
  rw [hst] at hok
  have hr : l.refresh ⟨x.data.length / x.N, some r⟩ z = (⟨x.data.length / x.N, some r⟩, .ok r) := by
    unfold MLayer.refresh
    simp only
    rw [if_pos hsz.symm]
  unfold MLayer.forwardI at hok
  rw [if_neg (by omega), hr] at hok
  simp only at hok
  split_ifs at hok
  · simp only at hok
    cases h : forwardIndexed (T' 0 0) (r.1.getD 0 []) z.data (l.sub 0 0).xs l.O r.2.prod z.N with
    | error e => rw [h] at hok; cases hok
    | ok y => rw [h] at hok; simp only [Except.map, Except.ok.injEq, Prod.mk.injEq] at hok; exact hok.1.symm
  · simp only at hok
    cases h : l.tiles T' r.1 r.2.prod z with
    | error e => rw [h] at hok; cases hok
    | ok y => rw [h] at hok; simp only [Except.map, Except.ok.injEq, Prod.mk.injEq] at hok; exact hok.1.symm

end Aihw.Conv
