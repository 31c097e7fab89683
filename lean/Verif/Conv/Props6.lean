import Verif.Conv.Props5

/-!
# C56, continued: update
-/
namespace Aihw.Conv

/-- **C56 (update, 1-d).**  A layer used with one input length: the update of the tile receives, for every
sample and window, the zero-padded window of the stored input (with a one for an analog bias) together with
the stored output gradient of that window, in this order. -/
theorem C56_update1d (C O : Nat) (q : KDim) (ab two : Bool) (hC : 0 < C) (hO : 0 < O)
    (hist : List ((Nat → List ℚ → Nat → ℚ) × Img)) (hne : hist ≠ []) (H : Nat)
    (hw : ∀ y ∈ hist, WF ⟨C, O, [q], ab, two⟩ y.2 ∧ y.2.sizes = [H]) (hf : q.Fits H)
    (N : Nat) (hN : 0 < N) (x d : List ℚ) (hx : x.length = N * (C * H)) (hd : d.length = N * O * q.outSize H) :
    ∃ ps, Layer.updateI ⟨C, O, [q], ab, two⟩ (Layer.run ⟨C, O, [q], ab, two⟩ ⟨none⟩ hist) N x d = .ok ps ∧
      ps.length = N * q.outSize H ∧
      ∀ n w, n < N → w < q.outSize H →
        ps[n * q.outSize H + w]? = some
          (((List.range C).flatMap fun c => (List.range q.k).map fun a => at1 x C H n c (q.coord w a)) ++
            (if ab then [1] else []),
          (List.range O).map fun o => d.getD ((n * O + o) * q.outSize H + w) 0) := by
  have ho : outs [⟨H, q⟩] = q.outSize H := by simp [outs, out_eq]
  have hk : kernels [⟨H, q⟩] = q.k := by simp [kernels]
  have hdm : Layer.dims ⟨C, O, [q], ab, two⟩ [H] = [⟨H, q⟩] := rfl
  obtain ⟨ps, h1, h2, h3⟩ := upd_same ⟨C, O, [q], ab, two⟩ hC hO hist hne [H] rfl hw
    (by simp [Layer.dims, valid_of_fits q H hf]) N hN x d (by simpa using hx) (by rw [hdm, ho]; exact hd)
  rw [hdm, ho] at h2 h3
  refine ⟨ps, h1, h2, fun n w hn hw' => ?_⟩
  rw [h3 n w hn hw']
  unfold patchOf dcol
  simp only [hk, Nat.one_mul, pix1]

/-- **C56 (update, 2-d).** -/
theorem C56_update2d (C O : Nat) (q0 q1 : KDim) (ab two : Bool) (hC : 0 < C) (hO : 0 < O)
    (hist : List ((Nat → List ℚ → Nat → ℚ) × Img)) (hne : hist ≠ []) (H W : Nat)
    (hw : ∀ y ∈ hist, WF ⟨C, O, [q0, q1], ab, two⟩ y.2 ∧ y.2.sizes = [H, W]) (hf : q0.Fits H ∧ q1.Fits W)
    (N : Nat) (hN : 0 < N) (x d : List ℚ) (hx : x.length = N * (C * (H * W)))
    (hd : d.length = N * O * (q0.outSize H * q1.outSize W)) :
    ∃ ps, Layer.updateI ⟨C, O, [q0, q1], ab, two⟩ (Layer.run ⟨C, O, [q0, q1], ab, two⟩ ⟨none⟩ hist) N x d = .ok ps ∧
      ps.length = N * (q0.outSize H * q1.outSize W) ∧
      ∀ n i j, n < N → i < q0.outSize H → j < q1.outSize W →
        ps[(n * q0.outSize H + i) * q1.outSize W + j]? = some
          (((List.range C).flatMap fun c => (List.range q0.k).flatMap fun a => (List.range q1.k).map fun b =>
              at2 x C H W n c (q0.coord i a) (q1.coord j b)) ++ (if ab then [1] else []),
          (List.range O).map fun o => d.getD (((n * O + o) * q0.outSize H + i) * q1.outSize W + j) 0) := by
  have ho : outs [⟨H, q0⟩, ⟨W, q1⟩] = q0.outSize H * q1.outSize W := by simp [outs, out_eq]
  have hk : kernels [⟨H, q0⟩, ⟨W, q1⟩] = q0.k * q1.k := by simp [kernels]
  have hdm : Layer.dims ⟨C, O, [q0, q1], ab, two⟩ [H, W] = [⟨H, q0⟩, ⟨W, q1⟩] := rfl
  obtain ⟨ps, h1, h2, h3⟩ := upd_same ⟨C, O, [q0, q1], ab, two⟩ hC hO hist hne [H, W] rfl hw
    (by simp [Layer.dims, valid_of_fits q0 H hf.1, valid_of_fits q1 W hf.2]) N hN x d (by simpa using hx)
    (by rw [hdm, ho]; exact hd)
  rw [hdm, ho] at h2 h3
  refine ⟨ps, h1, h2, fun n i j hn hi hj => ?_⟩
  have e2 : (n * q0.outSize H + i) * q1.outSize W + j =
      n * (q0.outSize H * q1.outSize W) + (i * q1.outSize W + j) := by ring
  rw [e2, h3 n _ hn (flat_lt hi hj)]
  unfold patchOf dcol
  simp only [hk, Nat.one_mul, range_mul]
  congr 2
  · congr 1
    apply congrArg (fun f => (List.range C).flatMap f)
    funext c
    apply congrArg (fun f => (List.range q0.k).flatMap f)
    funext a
    apply List.map_congr_left
    intro b hb
    exact pix2 q0 q1 H W C x n c a b i j (List.mem_range.1 hb) hj
  · apply List.map_congr_left
    intro o _
    congr 1
    ring

/-- **C56 (update, 3-d).** -/
theorem C56_update3d (C O : Nat) (q0 q1 q2 : KDim) (ab two : Bool) (hC : 0 < C) (hO : 0 < O)
    (hist : List ((Nat → List ℚ → Nat → ℚ) × Img)) (hne : hist ≠ []) (D H W : Nat)
    (hw : ∀ y ∈ hist, WF ⟨C, O, [q0, q1, q2], ab, two⟩ y.2 ∧ y.2.sizes = [D, H, W])
    (hf : q0.Fits D ∧ q1.Fits H ∧ q2.Fits W)
    (N : Nat) (hN : 0 < N) (x d : List ℚ) (hx : x.length = N * (C * (D * H * W)))
    (hd : d.length = N * O * (q0.outSize D * q1.outSize H * q2.outSize W)) :
    ∃ ps, Layer.updateI ⟨C, O, [q0, q1, q2], ab, two⟩
        (Layer.run ⟨C, O, [q0, q1, q2], ab, two⟩ ⟨none⟩ hist) N x d = .ok ps ∧
      ps.length = N * (q0.outSize D * q1.outSize H * q2.outSize W) ∧
      ∀ n t u v, n < N → t < q0.outSize D → u < q1.outSize H → v < q2.outSize W →
        ps[((n * q0.outSize D + t) * q1.outSize H + u) * q2.outSize W + v]? = some
          (((List.range C).flatMap fun c => (List.range q0.k).flatMap fun e => (List.range q1.k).flatMap fun a =>
              (List.range q2.k).map fun b =>
                at3 x C D H W n c (q0.coord t e) (q1.coord u a) (q2.coord v b)) ++ (if ab then [1] else []),
          (List.range O).map fun o =>
            d.getD ((((n * O + o) * q0.outSize D + t) * q1.outSize H + u) * q2.outSize W + v) 0) := by
  have ho : outs [⟨D, q0⟩, ⟨H, q1⟩, ⟨W, q2⟩] = q0.outSize D * (q1.outSize H * q2.outSize W) := by
    simp [outs, out_eq]
  have hk : kernels [⟨D, q0⟩, ⟨H, q1⟩, ⟨W, q2⟩] = q0.k * (q1.k * q2.k) := by simp [kernels]
  have hdm : Layer.dims ⟨C, O, [q0, q1, q2], ab, two⟩ [D, H, W] = [⟨D, q0⟩, ⟨H, q1⟩, ⟨W, q2⟩] := rfl
  obtain ⟨ps, h1, h2, h3⟩ := upd_same ⟨C, O, [q0, q1, q2], ab, two⟩ hC hO hist hne [D, H, W] rfl hw
    (by simp [Layer.dims, valid_of_fits q0 D hf.1, valid_of_fits q1 H hf.2.1, valid_of_fits q2 W hf.2.2])
    N hN x d (by simpa [Nat.mul_assoc] using hx) (by rw [hdm, ho, ← Nat.mul_assoc (q0.outSize D)]; exact hd)
  rw [hdm, ho] at h2 h3
  refine ⟨ps, h1, by rw [h2, Nat.mul_assoc (q0.outSize D)], fun n t u v hn ht hu hv => ?_⟩
  have e2 : ((n * q0.outSize D + t) * q1.outSize H + u) * q2.outSize W + v =
      n * (q0.outSize D * (q1.outSize H * q2.outSize W)) + ((t * q1.outSize H + u) * q2.outSize W + v) := by ring
  have hlt : (t * q1.outSize H + u) * q2.outSize W + v < q0.outSize D * (q1.outSize H * q2.outSize W) := by
    rw [← Nat.mul_assoc]; exact flat_lt (flat_lt ht hu) hv
  rw [e2, h3 n _ hn hlt]
  unfold patchOf dcol
  simp only [hk, Nat.one_mul, range_mul]
  congr 2
  · congr 1
    apply congrArg (fun f => (List.range C).flatMap f)
    funext c
    apply congrArg (fun f => (List.range q0.k).flatMap f)
    funext e
    rw [List.flatMap_def, List.flatMap_def]
    congr 1
    apply List.map_congr_left
    intro a ha
    apply List.map_congr_left
    intro b hb
    have f1 : e * (q1.k * q2.k) + (a * q2.k + b) = (e * q1.k + a) * q2.k + b := by ring
    rw [f1]
    exact pix3 q0 q1 q2 D H W C x n c e a b t u v (List.mem_range.1 ha) (List.mem_range.1 hb) hu hv
  · apply List.map_congr_left
    intro o _
    congr 1
    ring

/-- **C56 (finding: backward pass and update use the indices of the latest forward pass).**  Whatever
inputs a 1-d layer has seen before, after a forward pass with an input `y` its backward pass and its
update, also those that belong to an earlier input of another length, are computed as if the layer had only
ever seen `y`. -/
theorem C56_latest_finding (C O : Nat) (q : KDim) (ab two : Bool) (hC : 0 < C)
    (hist : List ((Nat → List ℚ → Nat → ℚ) × Img)) (hw : ∀ z ∈ hist, WF ⟨C, O, [q], ab, two⟩ z.2)
    (mv : Nat → List ℚ → Nat → ℚ) (y : Img) (hy : WF ⟨C, O, [q], ab, two⟩ y) (H : Nat) (hs : y.sizes = [H])
    (hf : q.Fits H) (mvT : Nat → List ℚ → Nat → ℚ) (N : Nat) (x d : List ℚ) :
    Layer.backwardI ⟨C, O, [q], ab, two⟩ mvT (Layer.run ⟨C, O, [q], ab, two⟩ ⟨none⟩ (hist ++ [(mv, y)])) N d =
      Layer.backwardI ⟨C, O, [q], ab, two⟩ mvT (Layer.run ⟨C, O, [q], ab, two⟩ ⟨none⟩ [(mv, y)]) N d ∧
    Layer.updateI ⟨C, O, [q], ab, two⟩ (Layer.run ⟨C, O, [q], ab, two⟩ ⟨none⟩ (hist ++ [(mv, y)])) N x d =
      Layer.updateI ⟨C, O, [q], ab, two⟩ (Layer.run ⟨C, O, [q], ab, two⟩ ⟨none⟩ [(mv, y)]) N x d := by
  have key : (Layer.run ⟨C, O, [q], ab, two⟩ ⟨none⟩ (hist ++ [(mv, y)])) =
      (Layer.run ⟨C, O, [q], ab, two⟩ ⟨none⟩ [(mv, y)]) := by
    have hyN : ¬ y.N = 0 := by have := hy.1; omega
    have hid : ∃ i, Layer.indexes ⟨C, O, [q], ab, two⟩ y = .ok i := by
      unfold Layer.indexes
      simp only
      rw [if_pos (by rw [hs]; simp [Layer.dims, valid_of_fits q H hf])]
      exact ⟨_, rfl⟩
    obtain ⟨i, hid⟩ := hid
    have hsz : ∀ z : Img, WF ⟨C, O, [q], ab, two⟩ z → z.data.length / z.N = C * z.sizes.prod := by
      rintro z ⟨a1, a2, a3, a4⟩
      rw [a4, Nat.mul_div_cancel_left _ a1, a2]
    have hgo : ∀ st : LSt, Inv ⟨C, O, [q], ab, two⟩ (hist.map (·.2)) st →
        (Layer.forwardI ⟨C, O, [q], ab, two⟩ mv st y).1 =
          ⟨some (y.data.length / y.N, i, (Layer.dims ⟨C, O, [q], ab, two⟩ y.sizes).map Dim.out)⟩ := by
      intro st hi
      have hr : Layer.refresh ⟨C, O, [q], ab, two⟩ st y = .ok (y.data.length / y.N, i,
          (Layer.dims ⟨C, O, [q], ab, two⟩ y.sizes).map Dim.out) := by
        unfold Layer.refresh
        cases hst : st.idx with
        | none => simp only; rw [hid]; rfl
        | some r =>
          simp only
          by_cases hc : r.1 = y.data.length / y.N
          · rw [if_pos hc]
            obtain ⟨z, hz, b1, b2, b3, b4⟩ := hi r hst
            obtain ⟨p, hp, rfl⟩ := List.mem_map.1 hz
            have hwz := hw p hp
            have hzs : p.2.sizes = y.sizes := by
              have e : C * p.2.sizes.prod = C * y.sizes.prod := by
                rw [← hsz p.2 hwz, ← hsz y hy, ← b2, hc]
              have e' := Nat.eq_of_mul_eq_mul_left hC e
              have hl := hwz.2.2.1
              simp only [List.length_cons, List.length_nil] at hl
              obtain ⟨h', hh⟩ := List.length_eq_one_iff.1 hl
              rw [hh, hs] at e' ⊢
              simpa using e'
            have hix : r.2.1 = i := by
              have := indexes_congr ⟨C, O, [q], ab, two⟩ p.2 y (by rw [hwz.2.1, hy.2.1]) hzs
              rw [b3, hid] at this
              injection this
            congr 1
            rw [← hc, ← hix, ← hzs, ← b4]
          · rw [if_neg hc, hid]; rfl
      unfold Layer.forwardI
      rw [if_neg hyN, hr]
    have h1 := hgo _ (run_inv ⟨C, O, [q], ab, two⟩ hist)
    have h2 := hgo ⟨none⟩ (by intro r hr; cases hr)
    unfold Layer.run at h1 ⊢
    rw [List.foldl_append, List.foldl_cons, List.foldl_nil, List.foldl_cons, List.foldl_nil, h1, h2]
  rw [key]
  exact ⟨rfl, rfl⟩

end Aihw.Conv
