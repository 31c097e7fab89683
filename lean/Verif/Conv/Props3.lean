import Verif.Conv.Props2

/-!
# C56, continued: explicit unfolding, changed shapes, wrong channels
-/
namespace Aihw.Conv

/-- Result for a new layer or changed size, channel ratio `r`. -/
theorem forward_fresh (l : Layer) (mv : Nat → List ℚ → Nat → ℚ) (x : Img) (r : Nat) (hC : Chan l x r)
    (hN : 0 < x.N) (hr : x.sizes.length = l.ks.length) (hd : x.data.length = x.N * (x.C * x.sizes.prod))
    (hC0 : l.abias = true → 0 < l.C) (hv : (l.dims x.sizes).all Dim.valid = true) :
    ∃ out, (l.forwardI mv ⟨none⟩ x).2 = .ok (x.N :: l.O :: (l.dims x.sizes).map Dim.out, out) ∧
      out.length = x.N * l.O * outs (l.dims x.sizes) ∧
      ∀ n o w, n < x.N → o < l.O → w < outs (l.dims x.sizes) →
        out.getD ((n * l.O + o) * outs (l.dims x.sizes) + w) 0 =
          mv (n * outs (l.dims x.sizes) + w) (patchOf (l.dims x.sizes) l.C x.C r l.abias x.data n w) o := by
  have hi : ∃ i, l.indexes x = .ok i := by
    unfold Layer.indexes
    simp only
    rw [if_pos hv]
    exact ⟨_, rfl⟩
  obtain ⟨i, hi⟩ := hi
  rw [← pixels_dims l x.sizes hr] at hd
  obtain ⟨out, ho, hol, hov⟩ := fwd_core l mv x r hC hr i hi hC0 x.N hN x.data hd
  refine ⟨out, ?_, hol, hov⟩
  have hf : l.refresh ⟨none⟩ x = .ok (x.data.length / x.N, i, (l.dims x.sizes).map Dim.out) := by
    unfold Layer.refresh
    simp only
    rw [hi]
    rfl
  unfold Layer.forwardI
  rw [if_neg (by omega), hf]
  simp only
  have e : ((l.dims x.sizes).map Dim.out).prod = outs (l.dims x.sizes) := rfl
  rw [e, ho]
  rfl

theorem chan_one (l : Layer) (x : Img) (h : x.C = l.C) : Chan l x 1 := by
  refine ⟨by omega, ?_, fun _ => h⟩
  cases h2 : l.two with
  | true => exact Or.inl ⟨rfl, rfl, by omega⟩
  | false => exact Or.inr ⟨rfl, by omega⟩

/-- **C56 (implicit indexing and explicit unfolding agree).**  For every layer, every well-formed input
(also one the kernel does not fit in) and every tile, noisy or not, with the same draws per column, both
ways of evaluating the layer give the same result or the same error. -/
theorem C56_unfold (l : Layer) (mv : Nat → List ℚ → Nat → ℚ) (x : Img) (hx : WF l x)
    (hC0 : l.abias = true → 0 < l.C) : l.forwardU mv x = (l.forwardI mv ⟨none⟩ x).2 := by
  obtain ⟨hN, hC, hr, hd⟩ := hx
  unfold Layer.forwardU
  simp only
  by_cases hv : (l.dims x.sizes).all Dim.valid = true
  · obtain ⟨out, h1, h2, h3⟩ := forward_fresh l mv x 1 (chan_one l x hC) hN hr hd hC0 hv
    rw [if_pos hv, if_pos hC, h1]
    generalize hds : l.dims x.sizes = ds at *
    congr 2
    apply List.ext_getElem
    · rw [h2]; simp
    · intro e he1 he2
      have he : e < x.N * outs ds * l.O := by
        rw [h2] at he2
        calc e < x.N * l.O * outs ds := he2
          _ = x.N * outs ds * l.O := by ring
      obtain ⟨n, o, w, hn, ho, hw, rfl⟩ := pos_split he
      have e1 : n * (outs ds * l.O) + (o * outs ds + w) = (n * l.O + o) * outs ds + w := by ring
      have h4 := h3 n o w hn ho hw
      rw [← e1, List.getD_eq_getElem _ _ he2] at h4
      rw [h4]
      simp only [List.getElem_map, List.getElem_range]
      have hlt : o * outs ds + w < l.O * outs ds := flat_lt ho hw
      have e2 : (n * (outs ds * l.O) + (o * outs ds + w)) / (l.O * outs ds) = n := by
        rw [Nat.mul_comm (outs ds)]; exact flat_div hlt
      have e3 : (n * (outs ds * l.O) + (o * outs ds + w)) % outs ds = w := by rw [e1]; exact flat_mod hw
      have e4 : (n * (outs ds * l.O) + (o * outs ds + w)) / outs ds % l.O = o := by
        rw [e1, flat_div hw]; exact flat_mod ho
      rw [e2, e3, e4]
      congr 1
      unfold patchOf
      congr 1
      rw [← hC, range_mul, List.flatMap_def, List.flatMap_def]
      congr 1
      apply List.map_congr_left
      intro c hc
      apply List.map_congr_left
      intro a ha
      have ha' := List.mem_range.1 ha
      have hlt2 : c * kernels ds + a < x.C * kernels ds := flat_lt (List.mem_range.1 hc) ha'
      unfold unfolded pix
      simp only
      have f1 : ((n * outs ds + w) * (x.C * kernels ds) + (c * kernels ds + a)) / (outs ds * (x.C * kernels ds)) =
          n := by
        rw [Nat.mul_comm (outs ds), ← Nat.div_div_eq_div_mul, flat_div hlt2, flat_div hw]
      have f2 : ((n * outs ds + w) * (x.C * kernels ds) + (c * kernels ds + a)) / (x.C * kernels ds) % outs ds =
          w := by
        rw [flat_div hlt2, flat_mod hw]
      have f3 : ((n * outs ds + w) * (x.C * kernels ds) + (c * kernels ds + a)) % (x.C * kernels ds) =
          c * kernels ds + a := flat_mod hlt2
      rw [f1, f2, f3, flat_div ha', flat_mod ha', Nat.one_mul]
      rfl
  · rw [if_neg hv]
    unfold Layer.forwardI Layer.refresh Layer.indexes
    simp only
    rw [if_neg hv, if_neg (by omega)]
    rfl

/-- **C56 (finding: a changed shape with equally many elements is not noticed).**  After an input of
shape `[H', W']`, an input of another shape `[H, W]` with the same number of pixels is evaluated with the
indices of the former: the output has the size that belongs to `[H', W']`, and its values are the
convolution of the data viewed as an image of that shape. -/
theorem C56_stale_finding (C O : Nat) (q0 q1 : KDim) (ab two : Bool) (hC : 0 < C)
    (mv0 mv : Nat → List ℚ → Nat → ℚ) (y x : Img) (hy : WF ⟨C, O, [q0, q1], ab, two⟩ y)
    (hx : WF ⟨C, O, [q0, q1], ab, two⟩ x) (H' W' H W : Nat) (hsy : y.sizes = [H', W']) (hsx : x.sizes = [H, W])
    (hf : q0.Fits H' ∧ q1.Fits W') (hp : H' * W' = H * W) :
    ∃ out, (Layer.forwardI ⟨C, O, [q0, q1], ab, two⟩ mv
        (Layer.run ⟨C, O, [q0, q1], ab, two⟩ ⟨none⟩ [(mv0, y)]) x).2 =
        .ok ([x.N, O, q0.outSize H', q1.outSize W'], out) ∧
      ∀ n o i j, n < x.N → o < O → i < q0.outSize H' → j < q1.outSize W' →
        out.getD (((n * O + o) * q0.outSize H' + i) * q1.outSize W' + j) 0 =
          mv ((n * q0.outSize H' + i) * q1.outSize W' + j)
          (((List.range C).flatMap fun c => (List.range q0.k).flatMap fun a => (List.range q1.k).map fun b =>
              at2 x.data C H' W' n c (q0.coord i a) (q1.coord j b)) ++ (if ab then [1] else [])) o := by
  -- the same data as an image of the old shape
  have hx' : WF ⟨C, O, [q0, q1], ab, two⟩ ⟨x.N, x.C, [H', W'], x.data⟩ := by
    obtain ⟨h1, h2, h3, h4⟩ := hx
    refine ⟨h1, h2, rfl, ?_⟩
    rw [h4, hsx]
    simp [hp]
  have hyw : ∀ z ∈ [(mv0, y)], WF ⟨C, O, [q0, q1], ab, two⟩ z.2 := by
    intro z hz
    rw [List.mem_singleton] at hz
    rw [hz]; exact hy
  obtain ⟨out, h1, -, h3⟩ := C56_conv2d C O q0 q1 ab two hC [(mv0, y)] hyw
    ⟨x.N, x.C, [H', W'], x.data⟩ hx' H' W' rfl hf (by
      intro z hz a b hz1 hz2
      rw [List.mem_singleton] at hz
      rw [hz] at hz1
      simp only at hz1
      rw [hsy] at hz1
      injection hz1 with e1 e2
      injection e2 with e2 e3
      exact ⟨e1.symm, e2.symm⟩) mv
  refine ⟨out, ?_, h3⟩
  rw [← h1]
  -- the state after `y` remembers the size
  have hid : ∃ i, Layer.indexes ⟨C, O, [q0, q1], ab, two⟩ y = .ok i := by
    unfold Layer.indexes
    simp only
    rw [if_pos (by rw [hsy]; simp [Layer.dims, valid_of_fits q0 H' hf.1, valid_of_fits q1 W' hf.2])]
    exact ⟨_, rfl⟩
  obtain ⟨i, hid⟩ := hid
  have hst : Layer.run ⟨C, O, [q0, q1], ab, two⟩ ⟨none⟩ [(mv0, y)] =
      ⟨some (y.data.length / y.N, i, (Layer.dims ⟨C, O, [q0, q1], ab, two⟩ y.sizes).map Dim.out)⟩ := by
    unfold Layer.run
    rw [List.foldl_cons, List.foldl_nil]
    have hyN : ¬ y.N = 0 := by have := hy.1; omega
    have hf' : Layer.refresh ⟨C, O, [q0, q1], ab, two⟩ ⟨none⟩ y = .ok (y.data.length / y.N, i,
        (Layer.dims ⟨C, O, [q0, q1], ab, two⟩ y.sizes).map Dim.out) := by
      unfold Layer.refresh
      simp only
      rw [hid]
      rfl
    unfold Layer.forwardI
    rw [if_neg hyN, hf']
  rw [hst]
  have hnum : y.data.length / y.N = x.data.length / x.N := by
    obtain ⟨a1, a2, -, a4⟩ := hy
    obtain ⟨b1, b2, -, b4⟩ := hx
    rw [a4, b4, Nat.mul_div_cancel_left _ a1, Nat.mul_div_cancel_left _ b1, hsy, hsx, a2, b2]
    simp [hp]
  unfold Layer.forwardI Layer.refresh
  simp only
  rw [if_pos hnum, if_pos hnum]

/-- **C56 (finding: the number of channels is not checked, 1-d).**  An input with `r` times as many
channels as the layer has is accepted: channel `c` of the layer reads channel `r * c` of the input, the
other channels are ignored. -/
theorem C56_channels1d (C O r : Nat) (q : KDim) (hr : 0 < r) (x : Img) (hN : 0 < x.N) (hC : x.C = r * C)
    (H : Nat) (hs : x.sizes = [H]) (hd : x.data.length = x.N * (x.C * H)) (hf : q.Fits H)
    (mv : Nat → List ℚ → Nat → ℚ) :
    ∃ out, (Layer.forwardI ⟨C, O, [q], false, false⟩ mv ⟨none⟩ x).2 = .ok ([x.N, O, q.outSize H], out) ∧
      ∀ n o w, n < x.N → o < O → w < q.outSize H →
        out.getD ((n * O + o) * q.outSize H + w) 0 = mv (n * q.outSize H + w)
          ((List.range C).flatMap fun c => (List.range q.k).map fun a =>
            at1 x.data (r * C) H n (r * c) (q.coord w a)) o := by
  have hdm : Layer.dims ⟨C, O, [q], false, false⟩ x.sizes = [⟨H, q⟩] := by rw [hs]; rfl
  have ho : outs [⟨H, q⟩] = q.outSize H := by simp [outs, out_eq]
  have hk : kernels [⟨H, q⟩] = q.k := by simp [kernels]
  obtain ⟨out, h1, -, h3⟩ := forward_fresh ⟨C, O, [q], false, false⟩ mv x r
    ⟨hr, Or.inr ⟨rfl, hC⟩, fun h => (by cases h)⟩ hN (by rw [hs]; rfl) (by rw [hd, hs]; simp)
    (fun h => (by cases h)) (by rw [hdm]; simp [valid_of_fits q H hf])
  rw [hdm] at h1 h3
  rw [ho] at h3
  refine ⟨out, h1, fun n o w hn ho' hw' => ?_⟩
  rw [h3 n o w hn ho' hw']
  congr 1
  unfold patchOf
  simp only [hk, pix1, hC]
  simp

/-- **C56 (finding: the number of channels is not checked, 2-d with indexing).**  Additional channels of
the input are silently ignored; explicit unfolding raises. -/
theorem C56_channels2d (C O : Nat) (q0 q1 : KDim) (x : Img) (hN : 0 < x.N) (hC : C < x.C) (H W : Nat)
    (hs : x.sizes = [H, W]) (hd : x.data.length = x.N * (x.C * (H * W))) (hf : q0.Fits H ∧ q1.Fits W)
    (mv : Nat → List ℚ → Nat → ℚ) :
    (∃ out, (Layer.forwardI ⟨C, O, [q0, q1], false, true⟩ mv ⟨none⟩ x).2 =
        .ok ([x.N, O, q0.outSize H, q1.outSize W], out) ∧
      ∀ n o i j, n < x.N → o < O → i < q0.outSize H → j < q1.outSize W →
        out.getD (((n * O + o) * q0.outSize H + i) * q1.outSize W + j) 0 =
          mv ((n * q0.outSize H + i) * q1.outSize W + j)
          ((List.range C).flatMap fun c => (List.range q0.k).flatMap fun a => (List.range q1.k).map fun b =>
              at2 x.data x.C H W n c (q0.coord i a) (q1.coord j b)) o) ∧
    Layer.forwardU ⟨C, O, [q0, q1], false, true⟩ mv x = .error .runtimeError := by
  have hdm : Layer.dims ⟨C, O, [q0, q1], false, true⟩ x.sizes = [⟨H, q0⟩, ⟨W, q1⟩] := by rw [hs]; rfl
  have ho : outs [⟨H, q0⟩, ⟨W, q1⟩] = q0.outSize H * q1.outSize W := by simp [outs, out_eq]
  have hk : kernels [⟨H, q0⟩, ⟨W, q1⟩] = q0.k * q1.k := by simp [kernels]
  have hv : (Layer.dims ⟨C, O, [q0, q1], false, true⟩ x.sizes).all Dim.valid = true := by
    rw [hdm]; simp [valid_of_fits q0 H hf.1, valid_of_fits q1 W hf.2]
  constructor
  · obtain ⟨out, h1, -, h3⟩ := forward_fresh ⟨C, O, [q0, q1], false, true⟩ mv x 1
      ⟨by omega, Or.inl ⟨rfl, rfl, by simp only; omega⟩, fun h => (by cases h)⟩ hN (by rw [hs]; rfl)
      (by rw [hd, hs]; simp) (fun h => (by cases h)) hv
    rw [hdm] at h1 h3
    rw [ho] at h3
    refine ⟨out, h1, fun n o i j hn ho' hi hj => ?_⟩
    have e1 : ((n * O + o) * q0.outSize H + i) * q1.outSize W + j =
        (n * O + o) * (q0.outSize H * q1.outSize W) + (i * q1.outSize W + j) := by ring
    have e2 : (n * q0.outSize H + i) * q1.outSize W + j =
        n * (q0.outSize H * q1.outSize W) + (i * q1.outSize W + j) := by ring
    rw [e1, e2, h3 n o _ hn ho' (flat_lt hi hj)]
    congr 1
    unfold patchOf
    simp only [hk, Nat.one_mul, range_mul]
    rw [if_neg (by decide), List.append_nil]
    apply congrArg (fun f => (List.range C).flatMap f)
    funext c
    apply congrArg (fun f => (List.range q0.k).flatMap f)
    funext a
    apply List.map_congr_left
    intro b hb
    exact pix2 q0 q1 H W x.C x.data n c a b i j (List.mem_range.1 hb) hj
  · unfold Layer.forwardU
    simp only
    rw [if_pos hv, if_neg (show ¬ x.C = C by omega)]

end Aihw.Conv
