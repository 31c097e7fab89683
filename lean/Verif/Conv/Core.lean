import Verif.Conv.Lemmas

namespace Aihw.Conv

/-- Value kernel element `a` of window `w` sees in sample `n`, channel `c`. -/
def pix (ds : List Dim) (C : Nat) (x : List ℚ) (n c a w : Nat) : ℚ :=
  match src ds a w with
  | none => 0
  | some f => x.getD ((n * C + c) * pixels ds + f) 0

/-- Input vector of the tile for sample `n` and window `w`: `C` channels of the layer, `Cx` channels of
the input, channel `c` of the layer reads channel `r * c` of the input. -/
def patchOf (ds : List Dim) (C Cx r : Nat) (ab : Bool) (x : List ℚ) (n w : Nat) : List ℚ :=
  ((List.range C).flatMap fun c => (List.range (kernels ds)).map fun a => pix ds Cx x n (r * c) a w) ++
    (if ab then [1] else [])

theorem range_mul {α : Type} (C K : Nat) (g : Nat → α) :
    (List.range (C * K)).map g = (List.range C).flatMap fun c => (List.range K).map fun a => g (c * K + a) := by
  induction C with
  | zero => simp
  | succ C ih =>
    rw [Nat.succ_mul, List.range_add, List.map_append, ih, List.range_succ, List.flatMap_append]
    simp [Function.comp_def]

theorem sum_mul {M : Type} [AddCommMonoid M] (C K : Nat) (f : Nat → M) :
    ∑ i ∈ Finset.range (C * K), f i = ∑ c ∈ Finset.range C, ∑ a ∈ Finset.range K, f (c * K + a) := by
  induction C with
  | zero => simp
  | succ C ih => rw [Nat.succ_mul, Finset.sum_range_add, ih, Finset.sum_range_succ]

/-- Channels of the input and of the layer: equal, or (no error is raised) more channels. -/
def Chan (l : Layer) (x : Img) (r : Nat) : Prop :=
  0 < r ∧ ((l.two = true ∧ r = 1 ∧ l.C ≤ x.C) ∨ (l.two = false ∧ x.C = r * l.C)) ∧ (l.abias = true → x.C = l.C)

/-- What the index tensor of the layer contains at row `i`, window `w`. -/
theorem indexes_get (l : Layer) (x : Img) (r : Nat) (hC : Chan l x r) (hr : x.sizes.length = l.ks.length) (ind : List Nat)
    (h : l.indexes x = .ok ind) (hL : 0 < outs (l.dims x.sizes)) (hK : 0 < kernels (l.dims x.sizes)) :
    (∀ c a w, c < l.C → a < kernels (l.dims x.sizes) → w < outs (l.dims x.sizes) →
      ind[(c * kernels (l.dims x.sizes) + a) * outs (l.dims x.sizes) + w]? =
        some (chanIdx (l.dims x.sizes) (pixels (l.dims x.sizes) * r) c a w)) ∧
    (l.abias = true → 0 < l.C → ∀ w < outs (l.dims x.sizes),
      ind[l.C * kernels (l.dims x.sizes) * outs (l.dims x.sizes) + w]? = some 1) := by
  unfold Layer.indexes at h
  simp only at h
  by_cases hv : (l.dims x.sizes).all Dim.valid = true
  swap
  · rw [if_neg hv] at h; cases h
  rw [if_pos hv] at h
  generalize hds : l.dims x.sizes = ds at *
  have hf : ∃ f : List Nat, f = (if l.two then chanUnfold ds x.C else chanShift ds l.C x.C) ∧
      l.C * (kernels ds * outs ds) ≤ f.length ∧
      (l.abias = true → f.length = l.C * (kernels ds * outs ds)) ∧
      ∀ c a w, c < l.C → a < kernels ds → w < outs ds →
        f[(c * kernels ds + a) * outs ds + w]? = some (chanIdx ds (pixels ds * r) c a w) := by
    obtain ⟨hr0, hC1, hC2⟩ := hC
    rcases hC1 with ⟨h2, h3, h4⟩ | ⟨h2, h3⟩
    · rw [if_pos h2]
      refine ⟨_, rfl, ?_, fun hb => ?_, fun c a w hc ha hw => ?_⟩
      · rw [chanUnfold_length]; exact Nat.mul_le_mul_right _ h4
      · rw [chanUnfold_length, hC2 hb]
      · rw [h3, Nat.mul_one]; exact chanUnfold_get ds x.C c a w (by omega) ha hw
    · rw [if_neg (by rw [h2]; decide)]
      refine ⟨_, rfl, ?_, fun hb => ?_, fun c a w hc ha hw => ?_⟩
      · rw [chanShift_length]
      · rw [chanShift_length]
      · rw [h3]; exact chanShift_get ds l.C r c a w hc ha hw
  obtain ⟨f, hfe, hfl', hfl'', hfg⟩ := hf
  rw [← hfe] at h
  have hin : ∀ c a w, c < l.C → a < kernels ds → w < outs ds →
      (c * kernels ds + a) * outs ds + w < f.length := by
    intro c a w hc ha hw
    refine lt_of_lt_of_le ?_ hfl'
    rw [← Nat.mul_assoc]
    exact flat_lt (flat_lt hc ha) hw
  constructor
  · intro c a w hc ha hw
    injection h with h
    rw [← h]
    split_ifs
    · rw [List.getElem?_append_left (hin c a w hc ha hw)]; exact hfg c a w hc ha hw
    · exact hfg c a w hc ha hw
  · intro hb hC0 w hw
    have hfl := hfl'' hb
    injection h with h
    rw [← h, if_pos hb]
    have e1 : f.length / kernels ds = l.C * outs ds := by
      rw [hfl]
      have : l.C * (kernels ds * outs ds) = kernels ds * (l.C * outs ds) := by ring
      rw [this, Nat.mul_div_cancel_left _ hK]
    rw [List.getElem?_append_right (by rw [hfl, Nat.mul_assoc]; omega), e1, hfl]
    rw [List.getElem?_replicate]
    have e2 : l.C * kernels ds * outs ds + w - l.C * (kernels ds * outs ds) = w := by
      rw [Nat.mul_assoc]; omega
    rw [e2]
    have e3 : outs ds ≤ l.C * outs ds := Nat.le_mul_of_pos_left _ hC0
    rw [if_pos (by omega)]

theorem valid_spec (D : Dim) (h : D.valid = true) : 0 < D.kd.k ∧ 0 < D.kd.s ∧ 0 < D.kd.d ∧
    D.span ≤ D.n + 2 * D.kd.p := by
  unfold Dim.valid at h
  simp only [Bool.and_eq_true, decide_eq_true_eq] at h
  exact ⟨h.1.1.1, h.1.1.2, h.1.2, h.2⟩

theorem outs_pos (ds : List Dim) : 0 < outs ds := by
  induction ds with
  | nil => simp [outs]
  | cons D ds ih =>
    have : outs (D :: ds) = D.out * outs ds := by simp [outs]
    rw [this]
    exact Nat.mul_pos (Nat.succ_pos _) ih

theorem kernels_pos (ds : List Dim) (h : ds.all Dim.valid = true) : 0 < kernels ds := by
  induction ds with
  | nil => simp [kernels]
  | cons D ds ih =>
    have e : kernels (D :: ds) = D.kd.k * kernels ds := by simp [kernels]
    rw [List.all_cons, Bool.and_eq_true] at h
    rw [e]
    exact Nat.mul_pos (valid_spec D h.1).1 (ih h.2)

theorem dims_kernels (l : Layer) (sizes : List Nat) (hr : sizes.length = l.ks.length) :
    kernels (l.dims sizes) = (l.ks.map (·.k)).prod := by
  unfold kernels Layer.dims
  generalize l.ks = ks at *
  induction sizes generalizing ks with
  | nil => cases ks with
    | nil => rfl
    | cons => simp at hr
  | cons n ns ih => cases ks with
    | nil => simp at hr
    | cons k ks =>
      simp only [List.length_cons, Nat.add_right_cancel_iff] at hr
      simp only [List.zipWith_cons_cons, List.map_cons, List.prod_cons]
      rw [ih ks hr]

/-- Data of input row `i` of the tile: index and value. -/
theorem cells (l : Layer) (x : Img) (r : Nat) (hC : Chan l x r) (hr : x.sizes.length = l.ks.length) (ind : List Nat)
    (h : l.indexes x = .ok ind) (hC0 : l.abias = true → 0 < l.C) (N : Nat) (hN : 0 < N) (data : List ℚ)
    (hd : data.length = N * (x.C * pixels (l.dims x.sizes))) :
    ∀ ix n w, ix < l.xs → n < N → w < outs (l.dims x.sizes) →
      ∃ j, ind[ix * outs (l.dims x.sizes) + w]? = some j ∧
        (if j ≤ 1 then some (j : ℚ) else data[(j - 2) + n * (data.length / N)]?) =
          some ((patchOf (l.dims x.sizes) l.C x.C r l.abias data n w).getD ix 0) := by
  intro ix n w hx hn hw
  have hv : (l.dims x.sizes).all Dim.valid = true := by
    unfold Layer.indexes at h
    simp only at h
    by_contra hc
    rw [if_neg hc] at h
    cases h
  have hK := kernels_pos _ hv
  obtain ⟨g1, g2⟩ := indexes_get l x r hC hr ind h (outs_pos _) hK
  have hks := dims_kernels l x.sizes hr
  generalize l.dims x.sizes = ds at *
  have hdl : data.length / N = x.C * pixels ds := by rw [hd, Nat.mul_div_cancel_left _ hN]
  rw [hdl]
  have hfl : ((List.range l.C).flatMap fun c => (List.range (kernels ds)).map
      fun a => pix ds x.C data n (r * c) a w).length = l.C * kernels ds :=
    flatMap_length _ _ _ (by simp)
  unfold Layer.xs at hx
  rw [← hks] at hx
  by_cases hi : ix < l.C * kernels ds
  · have hc : ix / kernels ds < l.C := by rw [Nat.div_lt_iff_lt_mul hK]; exact hi
    have ha : ix % kernels ds < kernels ds := Nat.mod_lt _ hK
    have hix : ix = ix / kernels ds * kernels ds + ix % kernels ds := by
      rw [Nat.mul_comm]; exact (Nat.div_add_mod _ _).symm
    refine ⟨_, by rw [hix]; exact g1 _ _ w hc ha hw, ?_⟩
    have hp : (patchOf ds l.C x.C r l.abias data n w).getD ix 0 = pix ds x.C data n (r * (ix / kernels ds)) (ix % kernels ds) w := by
      unfold patchOf
      rw [List.getD_append _ _ _ _ (by rw [hfl]; exact hi), List.getD_eq_getElem?_getD]
      conv_lhs => rw [hix]
      rw [flatMap_getElem? _ (kernels ds) _ (by simp) _ _ hc ha]
      simp [ha]
    rw [hp]
    unfold chanIdx pix
    cases hs : src ds (ix % kernels ds) w with
    | none => simp
    | some f =>
      simp only
      have hf := src_lt ds _ _ f hs
      rw [if_neg (by omega)]
      have hc' : r * (ix / kernels ds) < x.C := by
        rcases hC.2.1 with ⟨-, h3, h4⟩ | ⟨-, h3⟩
        · rw [h3, Nat.one_mul]; omega
        · rw [h3]; exact Nat.mul_lt_mul_of_pos_left hc hC.1
      have e1 : 2 + f + pixels ds * r * (ix / kernels ds) - 2 + n * (x.C * pixels ds) =
          (n * x.C + r * (ix / kernels ds)) * pixels ds + f := by
        have : (n * x.C + r * (ix / kernels ds)) * pixels ds =
            n * (x.C * pixels ds) + pixels ds * r * (ix / kernels ds) := by
          ring
        rw [this]; omega
      rw [e1, List.getD_eq_getElem?_getD]
      have hlt : (n * x.C + r * (ix / kernels ds)) * pixels ds + f < data.length := by
        rw [hd, ← Nat.mul_assoc]
        exact flat_lt (flat_lt hn hc') hf
      rw [List.getElem?_eq_getElem hlt]
      rfl
  · have hb : l.abias = true := by
      by_contra hc
      rw [if_neg hc] at hx
      omega
    rw [if_pos hb] at hx
    have hix : ix = l.C * kernels ds := by omega
    refine ⟨1, by rw [hix]; exact g2 hb (hC0 hb) w hw, ?_⟩
    rw [if_pos (le_refl 1)]
    unfold patchOf
    rw [hix, List.getD_append_right _ _ _ _ (by rw [hfl]), hfl, if_pos hb]
    simp

/-- The length of the tile input. -/
theorem patch_length (l : Layer) (sizes : List Nat) (hr : sizes.length = l.ks.length) (Cx r : Nat) (data : List ℚ) (n w : Nat) :
    (patchOf (l.dims sizes) l.C Cx r l.abias data n w).length = l.xs := by
  unfold patchOf Layer.xs
  rw [List.length_append, flatMap_length _ (kernels (l.dims sizes)) _ (by simp), dims_kernels l sizes hr]
  split_ifs <;> simp

theorem map_getD_range {α : Type} (v : List α) (z : α) : (List.range v.length).map (fun i => v.getD i z) = v := by
  apply List.ext_getElem
  · simp
  · intro i h1 h2
    simp [List.getD_eq_getElem?_getD, h2]

/-- The columns the tile is given by the indexed interface. -/
theorem columns (l : Layer) (x : Img) (r : Nat) (hC : Chan l x r) (hr : x.sizes.length = l.ks.length) (ind : List Nat)
    (h : l.indexes x = .ok ind) (hC0 : l.abias = true → 0 < l.C) (N : Nat) (hN : 0 < N) (data : List ℚ)
    (hd : data.length = N * (x.C * pixels (l.dims x.sizes))) :
    ∃ b, bufIn ind data l.xs (outs (l.dims x.sizes)) N data.length = some b ∧
      ∀ n w, n < N → w < outs (l.dims x.sizes) →
        column (fun e => b.getD e 0) l.xs (outs (l.dims x.sizes) * N) (n * outs (l.dims x.sizes) + w) =
          patchOf (l.dims x.sizes) l.C x.C r l.abias data n w := by
  obtain ⟨b, hb, hv⟩ := bufIn_eq ind data l.xs (outs (l.dims x.sizes)) N data.length
    (fun ix n w => (patchOf (l.dims x.sizes) l.C x.C r l.abias data n w).getD ix 0)
    (cells l x r hC hr ind h hC0 N hN data hd)
  refine ⟨b, hb, fun n w hn hw => ?_⟩
  unfold column
  have hlen := patch_length l x.sizes hr x.C r data n w
  rw [← map_getD_range (patchOf (l.dims x.sizes) l.C x.C r l.abias data n w) 0, hlen]
  apply List.map_congr_left
  intro ix hix
  exact hv ix n w (List.mem_range.1 hix) hn hw

/-- **Core.**  The indexed forward pass with indices computed for image sizes `x.sizes`. -/
theorem fwd_core (l : Layer) (mv : Nat → List ℚ → Nat → ℚ) (x : Img) (r : Nat) (hC : Chan l x r)
    (hr : x.sizes.length = l.ks.length) (ind : List Nat)
    (h : l.indexes x = .ok ind) (hC0 : l.abias = true → 0 < l.C) (N : Nat) (hN : 0 < N) (data : List ℚ)
    (hd : data.length = N * (x.C * pixels (l.dims x.sizes))) :
    ∃ y, forwardIndexed mv ind data l.xs l.O (outs (l.dims x.sizes)) N = .ok y ∧
      y.length = N * l.O * outs (l.dims x.sizes) ∧
      ∀ n o w, n < N → o < l.O → w < outs (l.dims x.sizes) →
        y.getD ((n * l.O + o) * outs (l.dims x.sizes) + w) 0 =
          mv (n * outs (l.dims x.sizes) + w) (patchOf (l.dims x.sizes) l.C x.C r l.abias data n w) o := by
  obtain ⟨b, hb, hcol⟩ := columns l x r hC hr ind h hC0 N hN data hd
  unfold forwardIndexed
  rw [hb]
  simp only
  refine ⟨_, rfl, by simp, ?_⟩
  intro n o w hn ho hw
  generalize hL : outs (l.dims x.sizes) = L at *
  have hlt : (n * l.O + o) * L + w < N * l.O * L := flat_lt (flat_lt hn ho) hw
  rw [List.getD_eq_getElem?_getD, List.getElem?_map, List.getElem?_range hlt]
  simp only [Option.map_some, Option.getD_some]
  have hj : n * L + w < L * N := by rw [Nat.mul_comm L N]; exact flat_lt hn hw
  have hm : matrix mv (fun e => b.getD e 0) l.xs (L * N) (o * (L * N) + (n * L + w)) =
      mv (n * L + w) (patchOf (l.dims x.sizes) l.C x.C r l.abias data n w) o := by
    unfold matrix
    rw [flat_mod hj, flat_div hj, hcol n w hn hw]
  by_cases h1 : 1 < N
  · rw [if_pos h1, permute132_eq _ ho hw]
    have : (o * N + n) * L + w = o * (L * N) + (n * L + w) := by ring
    rw [this, hm]
  · rw [if_neg h1]
    have hN1 : N = 1 := by omega
    subst hN1
    have hn0 : n = 0 := by omega
    subst hn0
    have : (0 * l.O + o) * L + w = o * (L * 1) + (0 * L + w) := by ring
    rw [this, hm]

end Aihw.Conv
