import Verif.Conv.Core

/-!
# C56: analog convolutions are convolutions
-/
namespace Aihw.Conv

/-! ## Specification -/

/-- Pixel `h` of channel `c` of sample `n` of an input `[N, C, H]`, zero outside. -/
def at1 (x : List ℚ) (C H n c : Nat) (h : ℤ) : ℚ :=
  if 0 ≤ h ∧ h < H then x.getD ((n * C + c) * H + h.toNat) 0 else 0

/-- Pixel `(h, w)` of channel `c` of sample `n` of an input `[N, C, H, W]`, zero outside. -/
def at2 (x : List ℚ) (C H W n c : Nat) (h w : ℤ) : ℚ :=
  if (0 ≤ h ∧ h < H) ∧ 0 ≤ w ∧ w < W then x.getD (((n * C + c) * H + h.toNat) * W + w.toNat) 0 else 0

/-- Pixel `(z, h, w)` of channel `c` of sample `n` of an input `[N, C, D, H, W]`, zero outside. -/
def at3 (x : List ℚ) (C D H W n c : Nat) (z h w : ℤ) : ℚ :=
  if (0 ≤ z ∧ z < D) ∧ (0 ≤ h ∧ h < H) ∧ 0 ≤ w ∧ w < W then
    x.getD ((((n * C + c) * D + z.toNat) * H + h.toNat) * W + w.toNat) 0 else 0

/-- Coordinate that kernel element `a` of window `w` looks at. -/
def KDim.coord (q : KDim) (w a : Nat) : ℤ := (w : ℤ) * q.s + (a : ℤ) * q.d - q.p

/-- Output size of the convolution. -/
def KDim.outSize (q : KDim) (n : Nat) : Nat := (n + 2 * q.p - (q.d * (q.k - 1) + 1)) / q.s + 1

/-- The kernel fits into the padded image. -/
def KDim.Fits (q : KDim) (n : Nat) : Prop := 0 < q.k ∧ 0 < q.s ∧ 0 < q.d ∧ q.d * (q.k - 1) + 1 ≤ n + 2 * q.p

/-- An exact tile with weights `W o i`. -/
def exact (W : Nat → Nat → ℚ) : Nat → List ℚ → Nat → ℚ :=
  fun _ v o => ∑ i ∈ Finset.range v.length, W o i * v.getD i 0

/-- An input the layer is made for. -/
def WF (l : Layer) (x : Img) : Prop :=
  0 < x.N ∧ x.C = l.C ∧ x.sizes.length = l.ks.length ∧ x.data.length = x.N * (x.C * x.sizes.prod)

/-- The state of the layer after a history of forward passes (each with the draws of its tile). -/
def Layer.run (l : Layer) (st : LSt) (h : List ((Nat → List ℚ → Nat → ℚ) × Img)) : LSt :=
  h.foldl (fun st q => (l.forwardI q.1 st q.2).1) st

/-! ## Pixels -/

theorem valid_of_fits (q : KDim) (n : Nat) (h : q.Fits n) : Dim.valid ⟨n, q⟩ = true := by
  unfold Dim.valid Dim.span
  simp only [Bool.and_eq_true, decide_eq_true_eq]
  exact ⟨⟨⟨h.1, h.2.1⟩, h.2.2.1⟩, h.2.2.2⟩

theorem out_eq (q : KDim) (n : Nat) : Dim.out ⟨n, q⟩ = q.outSize n := rfl

theorem coord_iff (q : KDim) (n w a : Nat) :
    (q.p ≤ w * q.s + a * q.d ∧ w * q.s + a * q.d < q.p + n) ↔ (0 ≤ q.coord w a ∧ q.coord w a < n) := by
  unfold KDim.coord
  constructor
  · rintro ⟨h1, h2⟩
    zify at h1 h2
    constructor <;> linarith
  · rintro ⟨h1, h2⟩
    constructor <;> zify <;> linarith

theorem coord_toNat (q : KDim) (w a : Nat) : (q.coord w a).toNat = w * q.s + a * q.d - q.p := by
  unfold KDim.coord
  have : (w : ℤ) * q.s + (a : ℤ) * q.d = ((w * q.s + a * q.d : ℕ) : ℤ) := by push_cast; ring
  rw [this]
  omega

theorem src1 (q : KDim) (n a w : Nat) : src [⟨n, q⟩] a w =
    if 0 ≤ q.coord w a ∧ q.coord w a < n then some (q.coord w a).toNat else none := by
  unfold src
  simp only [outs, kernels, pixels, List.map_nil, List.prod_nil, Nat.div_one, Nat.mod_one, Nat.mul_one]
  simp only [coord_iff, coord_toNat]
  split_ifs <;> simp [src]

theorem src_cons (q : KDim) (n : Nat) (ds : List Dim) (a0 a w0 w : Nat) (ha : a < kernels ds) (hw : w < outs ds) :
    src (⟨n, q⟩ :: ds) (a0 * kernels ds + a) (w0 * outs ds + w) =
      if 0 ≤ q.coord w0 a0 ∧ q.coord w0 a0 < n then
        (src ds a w).map fun r => (q.coord w0 a0).toNat * pixels ds + r else none := by
  conv_lhs => unfold src
  simp only [flat_div ha, flat_div hw, flat_mod ha, flat_mod hw, coord_iff, coord_toNat]

theorem pix1 (q : KDim) (H C : Nat) (x : List ℚ) (n c a w : Nat) :
    pix [⟨H, q⟩] C x n c a w = at1 x C H n c (q.coord w a) := by
  unfold pix at1
  rw [src1]
  split_ifs with h
  · simp [pixels]
  · rfl

theorem pix2 (q0 q1 : KDim) (H W C : Nat) (x : List ℚ) (n c a0 a1 w0 w1 : Nat) (ha : a1 < q1.k)
    (hw : w1 < q1.outSize W) :
    pix [⟨H, q0⟩, ⟨W, q1⟩] C x n c (a0 * q1.k + a1) (w0 * q1.outSize W + w1) =
      at2 x C H W n c (q0.coord w0 a0) (q1.coord w1 a1) := by
  have hk : kernels [⟨W, q1⟩] = q1.k := by simp [kernels]
  have ho : outs [⟨W, q1⟩] = q1.outSize W := by simp [outs, out_eq]
  have hp : pixels [⟨W, q1⟩] = W := by simp [pixels]
  have h := src_cons q0 H [⟨W, q1⟩] a0 a1 w0 w1 (by rw [hk]; exact ha) (by rw [ho]; exact hw)
  rw [hk, ho, hp] at h
  unfold pix at2
  rw [h, src1]
  by_cases h1 : 0 ≤ q0.coord w0 a0 ∧ q0.coord w0 a0 < H
  · rw [if_pos h1]
    by_cases h2 : 0 ≤ q1.coord w1 a1 ∧ q1.coord w1 a1 < W
    · rw [if_pos h2, if_pos ⟨h1, h2⟩]
      simp only [Option.map_some]
      congr 1
      simp only [pixels, List.map_cons, List.map_nil, List.prod_cons, List.prod_nil, Nat.mul_one]
      ring
    · rw [if_neg h2, if_neg (fun h => h2 h.2)]; rfl
  · rw [if_neg h1, if_neg (fun h => h1 h.1)]

theorem pix3 (q0 q1 q2 : KDim) (D H W C : Nat) (x : List ℚ) (n c a0 a1 a2 w0 w1 w2 : Nat) (ha1 : a1 < q1.k)
    (ha2 : a2 < q2.k) (hw1 : w1 < q1.outSize H) (hw2 : w2 < q2.outSize W) :
    pix [⟨D, q0⟩, ⟨H, q1⟩, ⟨W, q2⟩] C x n c ((a0 * q1.k + a1) * q2.k + a2)
        ((w0 * q1.outSize H + w1) * q2.outSize W + w2) =
      at3 x C D H W n c (q0.coord w0 a0) (q1.coord w1 a1) (q2.coord w2 a2) := by
  have hk : kernels [⟨W, q2⟩] = q2.k := by simp [kernels]
  have ho : outs [⟨W, q2⟩] = q2.outSize W := by simp [outs, out_eq]
  have hp : pixels [⟨W, q2⟩] = W := by simp [pixels]
  have hk2 : kernels [⟨H, q1⟩, ⟨W, q2⟩] = q1.k * q2.k := by simp [kernels]
  have ho2 : outs [⟨H, q1⟩, ⟨W, q2⟩] = q1.outSize H * q2.outSize W := by simp [outs, out_eq]
  have hp2 : pixels [⟨H, q1⟩, ⟨W, q2⟩] = H * W := by simp [pixels]
  have h := src_cons q1 H [⟨W, q2⟩] a1 a2 w1 w2 (by rw [hk]; exact ha2) (by rw [ho]; exact hw2)
  rw [hk, ho, hp] at h
  have h' := src_cons q0 D [⟨H, q1⟩, ⟨W, q2⟩] a0 (a1 * q2.k + a2) w0 (w1 * q2.outSize W + w2)
    (by rw [hk2]; exact flat_lt ha1 ha2) (by rw [ho2]; exact flat_lt hw1 hw2)
  rw [hk2, ho2, hp2, h, src1] at h'
  have e1 : (a0 * q1.k + a1) * q2.k + a2 = a0 * (q1.k * q2.k) + (a1 * q2.k + a2) := by ring
  have e2 : (w0 * q1.outSize H + w1) * q2.outSize W + w2 =
      w0 * (q1.outSize H * q2.outSize W) + (w1 * q2.outSize W + w2) := by ring
  unfold pix at3
  rw [e1, e2, h']
  by_cases h1 : 0 ≤ q0.coord w0 a0 ∧ q0.coord w0 a0 < D
  · rw [if_pos h1]
    by_cases h2 : 0 ≤ q1.coord w1 a1 ∧ q1.coord w1 a1 < H
    · rw [if_pos h2]
      by_cases h3 : 0 ≤ q2.coord w2 a2 ∧ q2.coord w2 a2 < W
      · rw [if_pos h3, if_pos ⟨h1, h2, h3⟩]
        simp only [Option.map_some]
        congr 1
        simp only [pixels, List.map_cons, List.map_nil, List.prod_cons, List.prod_nil, Nat.mul_one]
        ring
      · rw [if_neg h3, if_neg (fun h => h3 h.2.2)]; rfl
    · rw [if_neg h2, if_neg (fun h => h2 h.2.1)]; rfl
  · rw [if_neg h1, if_neg (fun h => h1 h.1)]

/-! ## State -/

theorem pixels_dims (l : Layer) (sizes : List Nat) (hr : sizes.length = l.ks.length) :
    pixels (l.dims sizes) = sizes.prod := by
  unfold pixels Layer.dims
  generalize l.ks = ks at *
  induction sizes generalizing ks with
  | nil => cases ks with
    | nil => rfl
    | cons => simp at hr
  | cons n ns ih => cases ks with
    | nil => simp at hr
    | cons k ks =>
      simp only [List.length_cons, Nat.add_right_cancel_iff] at hr
      simp only [List.zipWith_cons_cons, List.map_cons, List.prod_cons]
      rw [ih ks hr]

/-- The indices in the tile belong to an earlier input. -/
def Inv (l : Layer) (h : List Img) (st : LSt) : Prop :=
  ∀ r, st.idx = some r → ∃ y ∈ h, 0 < y.N ∧ r.1 = y.data.length / y.N ∧ l.indexes y = .ok r.2.1 ∧
    r.2.2 = (l.dims y.sizes).map Dim.out

theorem inv_step (l : Layer) (mv : Nat → List ℚ → Nat → ℚ) (h : List Img) (st : LSt) (x : Img)
    (hi : Inv l h st) : Inv l (h ++ [x]) (l.forwardI mv st x).1 := by
  have hmono : Inv l (h ++ [x]) st := by
    intro r hr
    obtain ⟨y, hy, hp⟩ := hi r hr
    exact ⟨y, by simp [hy], hp⟩
  unfold Layer.forwardI
  by_cases hN : x.N = 0
  · rw [if_pos hN]; exact hmono
  · rw [if_neg hN]
    cases hf : l.refresh st x with
    | error e => exact hmono
    | ok r =>
      simp only
      have hnew : ∀ r', (l.indexes x).map (fun i => (x.data.length / x.N, i, (l.dims x.sizes).map Dim.out)) =
          .ok r' → 0 < x.N ∧ r'.1 = x.data.length / x.N ∧ l.indexes x = .ok r'.2.1 ∧
            r'.2.2 = (l.dims x.sizes).map Dim.out := by
        intro r' hr'
        cases hx : l.indexes x with
        | error e => rw [hx] at hr'; simp [Except.map] at hr'
        | ok i =>
          rw [hx] at hr'
          simp only [Except.map, Except.ok.injEq] at hr'
          subst hr'
          exact ⟨by omega, rfl, rfl, rfl⟩
      intro r' hr'
      simp only [Option.some.injEq] at hr'
      subst hr'
      unfold Layer.refresh at hf
      cases hs : st.idx with
      | none =>
        rw [hs] at hf
        exact ⟨x, by simp, hnew _ hf⟩
      | some r0 =>
        rw [hs] at hf
        simp only at hf
        split_ifs at hf with hc
        · injection hf with hf
          subst hf
          exact hmono r0 hs
        · exact ⟨x, by simp, hnew _ hf⟩

theorem run_inv (l : Layer) (hist : List ((Nat → List ℚ → Nat → ℚ) × Img)) :
    Inv l (hist.map (·.2)) (l.run ⟨none⟩ hist) := by
  suffices h : ∀ (pre : List Img) (st : LSt), Inv l pre st → Inv l (pre ++ hist.map (·.2)) (l.run st hist) by
    have := h [] ⟨none⟩ (by intro r hr; cases hr)
    simpa using this
  induction hist with
  | nil => intro pre st h; simpa [Layer.run] using h
  | cons q hist ih =>
    intro pre st h
    have := ih (pre ++ [q.2]) _ (inv_step l q.1 pre st q.2 h)
    simpa [Layer.run] using this

/-- Result of a forward pass in a reachable state: the input is treated with the image sizes of an input
`y` of the history with the same number of elements, or of `x` itself. -/
theorem forward_any (l : Layer) (mv : Nat → List ℚ → Nat → ℚ) (h : List Img) (st : LSt) (hi : Inv l h st)
    (hw : ∀ y ∈ h, WF l y) (x : Img) (hx : WF l x) (hC0 : l.abias = true → 0 < l.C)
    (hv : (l.dims x.sizes).all Dim.valid = true) :
    ∃ y, (y = x ∨ y ∈ h ∧ y.sizes.prod * l.C = x.sizes.prod * l.C) ∧ (st.idx = none → y = x) ∧
      ∃ out, (l.forwardI mv st x).2 = .ok (x.N :: l.O :: (l.dims y.sizes).map Dim.out, out) ∧
        out.length = x.N * l.O * outs (l.dims y.sizes) ∧
        ∀ n o w, n < x.N → o < l.O → w < outs (l.dims y.sizes) →
          out.getD ((n * l.O + o) * outs (l.dims y.sizes) + w) 0 =
            mv (n * outs (l.dims y.sizes) + w) (patchOf (l.dims y.sizes) l.C l.C 1 l.abias x.data n w) o := by
  obtain ⟨hN, hxC, hxr, hxd⟩ := hx
  have hdiv : ∀ z : Img, WF l z → z.data.length / z.N = z.sizes.prod * l.C := by
    rintro z ⟨h1, h2, h3, h4⟩
    rw [h4, Nat.mul_div_cancel_left _ h1, h2, Nat.mul_comm]
  -- the indices in use
  have hr : ∃ r, l.refresh st x = .ok r ∧ ∃ y, (y = x ∨ y ∈ h ∧ y.sizes.prod * l.C = x.sizes.prod * l.C) ∧
      (st.idx = none → y = x) ∧
      WF l y ∧ l.indexes y = .ok r.2.1 ∧ r.2.2 = (l.dims y.sizes).map Dim.out := by
    have hnew : ∃ i, l.indexes x = .ok i := by
      unfold Layer.indexes
      simp only
      rw [if_pos hv]
      exact ⟨_, rfl⟩
    obtain ⟨i, hi'⟩ := hnew
    have hm : (l.indexes x).map (fun i => (x.data.length / x.N, i, (l.dims x.sizes).map Dim.out)) =
        .ok (x.data.length / x.N, i, (l.dims x.sizes).map Dim.out) := by rw [hi']; rfl
    unfold Layer.refresh
    cases hs : st.idx with
    | none => exact ⟨_, hm, x, Or.inl rfl, fun _ => rfl, ⟨hN, hxC, hxr, hxd⟩, hi', rfl⟩
    | some r =>
      simp only
      split_ifs with hc
      · obtain ⟨y, hy, h1, h2, h3, h4⟩ := hi r hs
        refine ⟨r, rfl, y, Or.inr ⟨hy, ?_⟩, fun h => (by cases h), hw y hy, h3, h4⟩
        rw [← hdiv y (hw y hy), ← h2, hc, hdiv x ⟨hN, hxC, hxr, hxd⟩]
      · exact ⟨_, hm, x, Or.inl rfl, fun h => (by cases h), ⟨hN, hxC, hxr, hxd⟩, hi', rfl⟩
  obtain ⟨r, hrf, y, hy, hy0, ⟨hyN, hyC, hyr, hyd⟩, hyi, hyo⟩ := hr
  refine ⟨y, hy, hy0, ?_⟩
  have hd : x.data.length = x.N * (y.C * pixels (l.dims y.sizes)) := by
    rw [hxd, pixels_dims l y.sizes hyr, hyC, hxC]
    congr 1
    rcases hy with rfl | ⟨-, h⟩
    · rfl
    · rw [Nat.mul_comm, ← h, Nat.mul_comm]
  have hch : Chan l y 1 := by
    refine ⟨by omega, ?_, fun _ => hyC⟩
    cases h2 : l.two with
    | true => exact Or.inl ⟨rfl, rfl, by omega⟩
    | false => exact Or.inr ⟨rfl, by omega⟩
  obtain ⟨out, ho, hol, hov⟩ := fwd_core l mv y 1 hch hyr r.2.1 hyi hC0 x.N hN x.data hd
  refine ⟨out, ?_, hol, fun n o w hn hoo hww => ?_⟩
  · unfold Layer.forwardI
    rw [if_neg (by omega), hrf]
    simp only
    have : r.2.2.prod = outs (l.dims y.sizes) := by rw [hyo]; rfl
    rw [this, ho, hyo]
    rfl
  · rw [hov n o w hn hoo hww, hyC]

end Aihw.Conv
