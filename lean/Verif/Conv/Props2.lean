import Verif.Conv.Props

/-!
# C56, continued: forward pass
-/
namespace Aihw.Conv

/-- Result in a reachable state, if inputs with equally many elements have equal image sizes. -/
theorem forward_same (l : Layer) (mv : Nat → List ℚ → Nat → ℚ) (hist : List ((Nat → List ℚ → Nat → ℚ) × Img))
    (hw : ∀ y ∈ hist, WF l y.2) (x : Img) (hx : WF l x) (hC : 0 < l.C)
    (hv : (l.dims x.sizes).all Dim.valid = true)
    (hsame : ∀ y ∈ hist, y.2.sizes.prod = x.sizes.prod → y.2.sizes = x.sizes) :
    ∃ out, (l.forwardI mv (l.run ⟨none⟩ hist) x).2 = .ok (x.N :: l.O :: (l.dims x.sizes).map Dim.out, out) ∧
      out.length = x.N * l.O * outs (l.dims x.sizes) ∧
      ∀ n o w, n < x.N → o < l.O → w < outs (l.dims x.sizes) →
        out.getD ((n * l.O + o) * outs (l.dims x.sizes) + w) 0 =
          mv (n * outs (l.dims x.sizes) + w) (patchOf (l.dims x.sizes) l.C l.C 1 l.abias x.data n w) o := by
  have hw' : ∀ y ∈ hist.map (·.2), WF l y := by
    intro y hy
    obtain ⟨q, hq, rfl⟩ := List.mem_map.1 hy
    exact hw q hq
  obtain ⟨y, hy, -, out, h1, h2, h3⟩ :=
    forward_any l mv _ _ (run_inv l hist) hw' x hx (fun _ => hC) hv
  have hs : y.sizes = x.sizes := by
    rcases hy with rfl | ⟨hy, hp⟩
    · rfl
    · obtain ⟨q, hq, rfl⟩ := List.mem_map.1 hy
      exact hsame q hq (Nat.eq_of_mul_eq_mul_right hC hp)
  rw [hs] at h1 h2 h3
  exact ⟨out, h1, h2, h3⟩

/-- **C56 (1-d convolution, any tile).**  For every history of inputs of any lengths and batch sizes, the
next forward pass gives the tile, for each sample and window, exactly the zero-padded window of the
input (channel by channel, then a one for an analog bias), and its outputs are placed at
`[sample, channel, window]`. -/
theorem C56_conv1d (C O : Nat) (q : KDim) (ab two : Bool) (hC : 0 < C)
    (hist : List ((Nat → List ℚ → Nat → ℚ) × Img)) (hw : ∀ y ∈ hist, WF ⟨C, O, [q], ab, two⟩ y.2)
    (x : Img) (hx : WF ⟨C, O, [q], ab, two⟩ x) (H : Nat) (hs : x.sizes = [H]) (hf : q.Fits H)
    (mv : Nat → List ℚ → Nat → ℚ) :
    ∃ out, (Layer.forwardI ⟨C, O, [q], ab, two⟩ mv (Layer.run ⟨C, O, [q], ab, two⟩ ⟨none⟩ hist) x).2 =
        .ok ([x.N, O, q.outSize H], out) ∧
      out.length = x.N * O * q.outSize H ∧
      ∀ n o w, n < x.N → o < O → w < q.outSize H →
        out.getD ((n * O + o) * q.outSize H + w) 0 = mv (n * q.outSize H + w)
          (((List.range C).flatMap fun c => (List.range q.k).map fun a => at1 x.data C H n c (q.coord w a)) ++
            (if ab then [1] else [])) o := by
  have hd : Layer.dims ⟨C, O, [q], ab, two⟩ x.sizes = [⟨H, q⟩] := by rw [hs]; rfl
  have ho : outs [⟨H, q⟩] = q.outSize H := by simp [outs, out_eq]
  have hv : (Layer.dims ⟨C, O, [q], ab, two⟩ x.sizes).all Dim.valid = true := by
    rw [hd]; simp [valid_of_fits q H hf]
  obtain ⟨out, h1, h2, h3⟩ := forward_same ⟨C, O, [q], ab, two⟩ mv hist hw x hx hC hv (by
    intro y hy hp
    have hr := (hw y hy).2.2.1
    rw [hs] at hp ⊢
    simp only [List.length_cons, List.length_nil] at hr
    obtain ⟨h', hh⟩ := List.length_eq_one_iff.1 hr
    rw [hh] at hp ⊢
    simpa using hp)
  rw [hd] at h1 h2 h3
  rw [ho] at h2 h3
  refine ⟨out, h1, h2, fun n o w hn ho' hw' => ?_⟩
  rw [h3 n o w hn ho' hw']
  congr 1
  unfold patchOf
  have hk : kernels [⟨H, q⟩] = q.k := by simp [kernels]
  simp only [hk, Nat.one_mul, pix1]

/-- **C56 (2-d convolution, any tile).**  As `C56_conv1d`, for every history in which inputs with the
same number of pixels have the same shape. -/
theorem C56_conv2d (C O : Nat) (q0 q1 : KDim) (ab two : Bool) (hC : 0 < C)
    (hist : List ((Nat → List ℚ → Nat → ℚ) × Img)) (hw : ∀ y ∈ hist, WF ⟨C, O, [q0, q1], ab, two⟩ y.2)
    (x : Img) (hx : WF ⟨C, O, [q0, q1], ab, two⟩ x) (H W : Nat) (hs : x.sizes = [H, W])
    (hf : q0.Fits H ∧ q1.Fits W)
    (hsame : ∀ y ∈ hist, ∀ H' W', y.2.sizes = [H', W'] → H' * W' = H * W → H' = H ∧ W' = W)
    (mv : Nat → List ℚ → Nat → ℚ) :
    ∃ out, (Layer.forwardI ⟨C, O, [q0, q1], ab, two⟩ mv
        (Layer.run ⟨C, O, [q0, q1], ab, two⟩ ⟨none⟩ hist) x).2 =
        .ok ([x.N, O, q0.outSize H, q1.outSize W], out) ∧
      out.length = x.N * O * (q0.outSize H * q1.outSize W) ∧
      ∀ n o i j, n < x.N → o < O → i < q0.outSize H → j < q1.outSize W →
        out.getD (((n * O + o) * q0.outSize H + i) * q1.outSize W + j) 0 =
          mv ((n * q0.outSize H + i) * q1.outSize W + j)
          (((List.range C).flatMap fun c => (List.range q0.k).flatMap fun a => (List.range q1.k).map fun b =>
              at2 x.data C H W n c (q0.coord i a) (q1.coord j b)) ++ (if ab then [1] else [])) o := by
  have hd : Layer.dims ⟨C, O, [q0, q1], ab, two⟩ x.sizes = [⟨H, q0⟩, ⟨W, q1⟩] := by rw [hs]; rfl
  have ho : outs [⟨H, q0⟩, ⟨W, q1⟩] = q0.outSize H * q1.outSize W := by simp [outs, out_eq]
  have hv : (Layer.dims ⟨C, O, [q0, q1], ab, two⟩ x.sizes).all Dim.valid = true := by
    rw [hd]; simp [valid_of_fits q0 H hf.1, valid_of_fits q1 W hf.2]
  obtain ⟨out, h1, h2, h3⟩ := forward_same ⟨C, O, [q0, q1], ab, two⟩ mv hist hw x hx hC hv (by
    intro y hy hp
    have hr := (hw y hy).2.2.1
    rw [hs] at hp ⊢
    simp only [List.length_cons, List.length_nil] at hr
    obtain ⟨H', W', hh⟩ := List.length_eq_two.1 hr
    rw [hh] at hp ⊢
    obtain ⟨e1, e2⟩ := hsame y hy H' W' hh (by simpa using hp)
    rw [e1, e2])
  rw [hd] at h1 h2 h3
  rw [ho] at h2 h3
  refine ⟨out, h1, h2, fun n o i j hn ho' hi hj => ?_⟩
  have e1 : ((n * O + o) * q0.outSize H + i) * q1.outSize W + j =
      (n * O + o) * (q0.outSize H * q1.outSize W) + (i * q1.outSize W + j) := by ring
  have e2 : (n * q0.outSize H + i) * q1.outSize W + j =
      n * (q0.outSize H * q1.outSize W) + (i * q1.outSize W + j) := by ring
  rw [e1, e2, h3 n o _ hn ho' (flat_lt hi hj)]
  congr 1
  unfold patchOf
  have hk : kernels [⟨H, q0⟩, ⟨W, q1⟩] = q0.k * q1.k := by simp [kernels]
  simp only [hk, Nat.one_mul, range_mul]
  congr 1
  apply congrArg (fun f => (List.range C).flatMap f)
  funext c
  apply congrArg (fun f => (List.range q0.k).flatMap f)
  funext a
  apply List.map_congr_left
  intro b hb
  exact pix2 q0 q1 H W C x.data n c a b i j (List.mem_range.1 hb) hj

/-- **C56 (3-d convolution, any tile).** -/
theorem C56_conv3d (C O : Nat) (q0 q1 q2 : KDim) (ab two : Bool) (hC : 0 < C)
    (hist : List ((Nat → List ℚ → Nat → ℚ) × Img)) (hw : ∀ y ∈ hist, WF ⟨C, O, [q0, q1, q2], ab, two⟩ y.2)
    (x : Img) (hx : WF ⟨C, O, [q0, q1, q2], ab, two⟩ x) (D H W : Nat) (hs : x.sizes = [D, H, W])
    (hf : q0.Fits D ∧ q1.Fits H ∧ q2.Fits W)
    (hsame : ∀ y ∈ hist, ∀ D' H' W', y.2.sizes = [D', H', W'] → D' * H' * W' = D * H * W →
      D' = D ∧ H' = H ∧ W' = W)
    (mv : Nat → List ℚ → Nat → ℚ) :
    ∃ out, (Layer.forwardI ⟨C, O, [q0, q1, q2], ab, two⟩ mv
        (Layer.run ⟨C, O, [q0, q1, q2], ab, two⟩ ⟨none⟩ hist) x).2 =
        .ok ([x.N, O, q0.outSize D, q1.outSize H, q2.outSize W], out) ∧
      out.length = x.N * O * (q0.outSize D * q1.outSize H * q2.outSize W) ∧
      ∀ n o g i j, n < x.N → o < O → g < q0.outSize D → i < q1.outSize H → j < q2.outSize W →
        out.getD ((((n * O + o) * q0.outSize D + g) * q1.outSize H + i) * q2.outSize W + j) 0 =
          mv (((n * q0.outSize D + g) * q1.outSize H + i) * q2.outSize W + j)
          (((List.range C).flatMap fun c => (List.range q0.k).flatMap fun e => (List.range q1.k).flatMap fun a =>
              (List.range q2.k).map fun b =>
              at3 x.data C D H W n c (q0.coord g e) (q1.coord i a) (q2.coord j b)) ++
            (if ab then [1] else [])) o := by
  have hd : Layer.dims ⟨C, O, [q0, q1, q2], ab, two⟩ x.sizes = [⟨D, q0⟩, ⟨H, q1⟩, ⟨W, q2⟩] := by rw [hs]; rfl
  have ho : outs [⟨D, q0⟩, ⟨H, q1⟩, ⟨W, q2⟩] = q0.outSize D * q1.outSize H * q2.outSize W := by
    simp [outs, out_eq, Nat.mul_assoc]
  have hv : (Layer.dims ⟨C, O, [q0, q1, q2], ab, two⟩ x.sizes).all Dim.valid = true := by
    rw [hd]; simp [valid_of_fits q0 D hf.1, valid_of_fits q1 H hf.2.1, valid_of_fits q2 W hf.2.2]
  obtain ⟨out, h1, h2, h3⟩ := forward_same ⟨C, O, [q0, q1, q2], ab, two⟩ mv hist hw x hx hC hv (by
    intro y hy hp
    have hr := (hw y hy).2.2.1
    rw [hs] at hp ⊢
    simp only [List.length_cons, List.length_nil] at hr
    obtain ⟨D', H', W', hh⟩ := List.length_eq_three.1 hr
    rw [hh] at hp ⊢
    obtain ⟨e1, e2, e3⟩ := hsame y hy D' H' W' hh (by simpa [Nat.mul_assoc] using hp)
    rw [e1, e2, e3])
  rw [hd] at h1 h2 h3
  rw [ho] at h2 h3
  refine ⟨out, h1, h2, fun n o g i j hn ho' hg hi hj => ?_⟩
  have e1 : (((n * O + o) * q0.outSize D + g) * q1.outSize H + i) * q2.outSize W + j =
      (n * O + o) * (q0.outSize D * q1.outSize H * q2.outSize W) +
        ((g * q1.outSize H + i) * q2.outSize W + j) := by ring
  have e2 : ((n * q0.outSize D + g) * q1.outSize H + i) * q2.outSize W + j =
      n * (q0.outSize D * q1.outSize H * q2.outSize W) + ((g * q1.outSize H + i) * q2.outSize W + j) := by ring
  rw [e1, e2, h3 n o _ hn ho' (flat_lt (flat_lt hg hi) hj)]
  congr 1
  unfold patchOf
  have hk : kernels [⟨D, q0⟩, ⟨H, q1⟩, ⟨W, q2⟩] = q0.k * (q1.k * q2.k) := by simp [kernels]
  simp only [hk, Nat.one_mul, range_mul]
  congr 1
  apply congrArg (fun f => (List.range C).flatMap f)
  funext c
  apply congrArg (fun f => (List.range q0.k).flatMap f)
  funext e
  rw [List.flatMap_def, List.flatMap_def]
  congr 1
  apply List.map_congr_left
  intro a ha
  apply List.map_congr_left
  intro b hb
  have e3 : e * (q1.k * q2.k) + (a * q2.k + b) = (e * q1.k + a) * q2.k + b := by ring
  rw [e3]
  exact pix3 q0 q1 q2 D H W C x.data n c e a b g i j (List.mem_range.1 ha) (List.mem_range.1 hb) hi hj

/-! ## Exact tiles -/

theorem exact_append (W : Nat → Nat → ℚ) (j o : Nat) (v b : List ℚ) :
    exact W j (v ++ b) o = exact W j v o + ∑ i ∈ Finset.range b.length, W o (v.length + i) * b.getD i 0 := by
  unfold exact
  rw [List.length_append, Finset.sum_range_add]
  congr 1
  · apply Finset.sum_congr rfl
    intro i hi
    rw [List.getD_append _ _ _ _ (Finset.mem_range.1 hi)]
  · apply Finset.sum_congr rfl
    intro i hi
    rw [List.getD_append_right _ _ _ _ (by omega)]
    congr 2
    omega

theorem exact_range (W : Nat → Nat → ℚ) (j o n : Nat) (g : Nat → ℚ) :
    exact W j ((List.range n).map g) o = ∑ i ∈ Finset.range n, W o i * g i := by
  unfold exact
  rw [List.length_map, List.length_range]
  apply Finset.sum_congr rfl
  intro i hi
  rw [List.getD_eq_getElem?_getD, List.getElem?_map, List.getElem?_range (Finset.mem_range.1 hi)]
  rfl

theorem exact_patch (W : Nat → Nat → ℚ) (j o C K : Nat) (ab : Bool) (g : Nat → Nat → ℚ) :
    exact W j (((List.range C).flatMap fun c => (List.range K).map (g c)) ++ (if ab then [1] else [])) o =
      (∑ c ∈ Finset.range C, ∑ a ∈ Finset.range K, W o (c * K + a) * g c a) +
        (if ab then W o (C * K) else 0) := by
  have e : ((List.range C).flatMap fun c => (List.range K).map (g c)) =
      (List.range (C * K)).map fun i => g (i / K) (i % K) := by
    rw [range_mul]
    rw [List.flatMap_def, List.flatMap_def]
    congr 1
    apply List.map_congr_left
    intro c _
    apply List.map_congr_left
    intro a ha
    rw [flat_div (List.mem_range.1 ha), flat_mod (List.mem_range.1 ha)]
  rw [e, exact_append, exact_range, sum_mul]
  congr 1
  · apply Finset.sum_congr rfl
    intro c _
    apply Finset.sum_congr rfl
    intro a ha
    rw [flat_div (Finset.mem_range.1 ha), flat_mod (Finset.mem_range.1 ha)]
  · cases ab <;> simp

/-- **C56 (an exact tile computes the convolution, 1-d).**  `W o (c * k + a)` is `weight[o, c, a]`; with
an analog bias the last entry of a row is the bias. -/
theorem C56_exact1d (C O : Nat) (q : KDim) (ab two : Bool) (hC : 0 < C)
    (hist : List ((Nat → List ℚ → Nat → ℚ) × Img)) (hw : ∀ y ∈ hist, WF ⟨C, O, [q], ab, two⟩ y.2)
    (x : Img) (hx : WF ⟨C, O, [q], ab, two⟩ x) (H : Nat) (hs : x.sizes = [H]) (hf : q.Fits H)
    (W : Nat → Nat → ℚ) :
    ∃ out, (Layer.forwardI ⟨C, O, [q], ab, two⟩ (exact W) (Layer.run ⟨C, O, [q], ab, two⟩ ⟨none⟩ hist) x).2 =
        .ok ([x.N, O, q.outSize H], out) ∧
      ∀ n o w, n < x.N → o < O → w < q.outSize H →
        out.getD ((n * O + o) * q.outSize H + w) 0 =
          (∑ c ∈ Finset.range C, ∑ a ∈ Finset.range q.k,
            W o (c * q.k + a) * at1 x.data C H n c (w * q.s + a * q.d - q.p)) +
          (if ab then W o (C * q.k) else 0) := by
  obtain ⟨out, h1, -, h3⟩ := C56_conv1d C O q ab two hC hist hw x hx H hs hf (exact W)
  refine ⟨out, h1, fun n o w hn ho hw' => ?_⟩
  rw [h3 n o w hn ho hw', exact_patch]
  rfl

/-- **C56 (an exact tile computes the convolution, 2-d).** -/
theorem C56_exact2d (C O : Nat) (q0 q1 : KDim) (ab two : Bool) (hC : 0 < C)
    (hist : List ((Nat → List ℚ → Nat → ℚ) × Img)) (hw : ∀ y ∈ hist, WF ⟨C, O, [q0, q1], ab, two⟩ y.2)
    (x : Img) (hx : WF ⟨C, O, [q0, q1], ab, two⟩ x) (H V : Nat) (hs : x.sizes = [H, V])
    (hf : q0.Fits H ∧ q1.Fits V)
    (hsame : ∀ y ∈ hist, ∀ H' W', y.2.sizes = [H', W'] → H' * W' = H * V → H' = H ∧ W' = V)
    (W : Nat → Nat → ℚ) :
    ∃ out, (Layer.forwardI ⟨C, O, [q0, q1], ab, two⟩ (exact W)
        (Layer.run ⟨C, O, [q0, q1], ab, two⟩ ⟨none⟩ hist) x).2 =
        .ok ([x.N, O, q0.outSize H, q1.outSize V], out) ∧
      ∀ n o i j, n < x.N → o < O → i < q0.outSize H → j < q1.outSize V →
        out.getD (((n * O + o) * q0.outSize H + i) * q1.outSize V + j) 0 =
          (∑ c ∈ Finset.range C, ∑ a ∈ Finset.range q0.k, ∑ b ∈ Finset.range q1.k,
            W o ((c * q0.k + a) * q1.k + b) *
              at2 x.data C H V n c (i * q0.s + a * q0.d - q0.p) (j * q1.s + b * q1.d - q1.p)) +
          (if ab then W o (C * q0.k * q1.k) else 0) := by
  obtain ⟨out, h1, -, h3⟩ := C56_conv2d C O q0 q1 ab two hC hist hw x hx H V hs hf hsame (exact W)
  refine ⟨out, h1, fun n o i j hn ho hi hj => ?_⟩
  have e : ∀ g : Nat → Nat → Nat → ℚ, ((List.range C).flatMap fun c => (List.range q0.k).flatMap fun a =>
      (List.range q1.k).map fun b => g c a b) =
      (List.range C).flatMap fun c => (List.range (q0.k * q1.k)).map fun i => g c (i / q1.k) (i % q1.k) := by
    intro g
    congr 1
    funext c
    rw [range_mul, List.flatMap_def, List.flatMap_def]
    congr 1
    apply List.map_congr_left
    intro a _
    apply List.map_congr_left
    intro b hb
    rw [flat_div (List.mem_range.1 hb), flat_mod (List.mem_range.1 hb)]
  rw [h3 n o i j hn ho hi hj, e, exact_patch]
  congr 1
  · apply Finset.sum_congr rfl
    intro c _
    rw [sum_mul]
    apply Finset.sum_congr rfl
    intro a _
    apply Finset.sum_congr rfl
    intro b hb
    rw [flat_div (Finset.mem_range.1 hb), flat_mod (Finset.mem_range.1 hb)]
    have : c * (q0.k * q1.k) + (a * q1.k + b) = (c * q0.k + a) * q1.k + b := by ring
    rw [this]
    rfl
  · rw [Nat.mul_assoc]

/-- **C56 (an exact tile computes the convolution, 3-d).** -/
theorem C56_exact3d (C O : Nat) (q0 q1 q2 : KDim) (ab two : Bool) (hC : 0 < C)
    (hist : List ((Nat → List ℚ → Nat → ℚ) × Img)) (hw : ∀ y ∈ hist, WF ⟨C, O, [q0, q1, q2], ab, two⟩ y.2)
    (x : Img) (hx : WF ⟨C, O, [q0, q1, q2], ab, two⟩ x) (D H V : Nat) (hs : x.sizes = [D, H, V])
    (hf : q0.Fits D ∧ q1.Fits H ∧ q2.Fits V)
    (hsame : ∀ y ∈ hist, ∀ D' H' W', y.2.sizes = [D', H', W'] → D' * H' * W' = D * H * V →
      D' = D ∧ H' = H ∧ W' = V)
    (W : Nat → Nat → ℚ) :
    ∃ out, (Layer.forwardI ⟨C, O, [q0, q1, q2], ab, two⟩ (exact W)
        (Layer.run ⟨C, O, [q0, q1, q2], ab, two⟩ ⟨none⟩ hist) x).2 =
        .ok ([x.N, O, q0.outSize D, q1.outSize H, q2.outSize V], out) ∧
      ∀ n o g i j, n < x.N → o < O → g < q0.outSize D → i < q1.outSize H → j < q2.outSize V →
        out.getD ((((n * O + o) * q0.outSize D + g) * q1.outSize H + i) * q2.outSize V + j) 0 =
          (∑ c ∈ Finset.range C, ∑ e ∈ Finset.range q0.k, ∑ a ∈ Finset.range q1.k, ∑ b ∈ Finset.range q2.k,
            W o (((c * q0.k + e) * q1.k + a) * q2.k + b) *
              at3 x.data C D H V n c (g * q0.s + e * q0.d - q0.p) (i * q1.s + a * q1.d - q1.p)
                (j * q2.s + b * q2.d - q2.p)) +
          (if ab then W o (C * q0.k * q1.k * q2.k) else 0) := by
  obtain ⟨out, h1, -, h3⟩ := C56_conv3d C O q0 q1 q2 ab two hC hist hw x hx D H V hs hf hsame (exact W)
  refine ⟨out, h1, fun n o g i j hn ho hg hi hj => ?_⟩
  have e : ∀ f : Nat → Nat → Nat → Nat → ℚ, ((List.range C).flatMap fun c => (List.range q0.k).flatMap fun z =>
      (List.range q1.k).flatMap fun a => (List.range q2.k).map fun b => f c z a b) =
      (List.range C).flatMap fun c => (List.range (q0.k * (q1.k * q2.k))).map fun i =>
        f c (i / (q1.k * q2.k)) (i % (q1.k * q2.k) / q2.k) (i % (q1.k * q2.k) % q2.k) := by
    intro f
    congr 1
    funext c
    rw [range_mul, List.flatMap_def, List.flatMap_def]
    congr 1
    apply List.map_congr_left
    intro z _
    rw [range_mul, List.flatMap_def, List.flatMap_def]
    congr 1
    apply List.map_congr_left
    intro a ha
    apply List.map_congr_left
    intro b hb
    have hlt : a * q2.k + b < q1.k * q2.k := flat_lt (List.mem_range.1 ha) (List.mem_range.1 hb)
    rw [flat_div hlt, flat_mod hlt, flat_div (List.mem_range.1 hb), flat_mod (List.mem_range.1 hb)]
  rw [h3 n o g i j hn ho hg hi hj, e, exact_patch]
  congr 1
  · apply Finset.sum_congr rfl
    intro c _
    rw [sum_mul]
    apply Finset.sum_congr rfl
    intro z _
    rw [sum_mul]
    apply Finset.sum_congr rfl
    intro a ha
    apply Finset.sum_congr rfl
    intro b hb
    have hlt : a * q2.k + b < q1.k * q2.k := flat_lt (Finset.mem_range.1 ha) (Finset.mem_range.1 hb)
    rw [flat_div hlt, flat_mod hlt, flat_div (Finset.mem_range.1 hb), flat_mod (Finset.mem_range.1 hb)]
    have : c * (q0.k * (q1.k * q2.k)) + (z * (q1.k * q2.k) + (a * q2.k + b)) =
        ((c * q0.k + z) * q1.k + a) * q2.k + b := by ring
    rw [this]
    rfl
  · have : C * (q0.k * (q1.k * q2.k)) = C * q0.k * q1.k * q2.k := by ring
    rw [this]

/-- **C56 (output size).**  The number of outputs per dimension is the number of positions of the kernel
inside the padded image: the last one fits, the next one would not. -/
theorem C56_out_size (q : KDim) (n : Nat) (hf : q.Fits n) :
    (q.outSize n - 1) * q.s + (q.k - 1) * q.d < n + 2 * q.p ∧
    n + 2 * q.p ≤ q.outSize n * q.s + (q.k - 1) * q.d := by
  obtain ⟨h1, h2, h3, h4⟩ := hf
  unfold KDim.outSize
  rw [Nat.mul_comm q.d] at *
  generalize (q.k - 1) * q.d = S at *
  have hdm := Nat.div_add_mod (n + 2 * q.p - (S + 1)) q.s
  have hlt := Nat.mod_lt (n + 2 * q.p - (S + 1)) h2
  rw [Nat.mul_comm] at hdm
  generalize hqq : (n + 2 * q.p - (S + 1)) / q.s = Q at *
  have e : (Q + 1) * q.s = Q * q.s + q.s := by ring
  rw [e, Nat.add_sub_cancel]
  omega

end Aihw.Conv
