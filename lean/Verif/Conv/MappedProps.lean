import Verif.Conv.MappedLemmas
import Verif.TileArray.Props

/-!
# C57: mapped analog convolutions
-/
namespace Aihw.Conv

/-- **C57 (split over channels).**  With a positive maximal tile size `m` that fits a kernel of `K` elements, the
`C ≥ 1` channels are split into parts that add up to `C`, none empty, none with more than `m` rows on a tile,
sizes differing by at most one, and no split respecting the limit has fewer parts. -/
theorem C57_split (C K m : Nat) (hC : 1 ≤ C) (hK : 1 ≤ K) (hm : K ≤ m) :
    ∃ l, splitGroups (C * K) (m : Int) K = .ok l ∧ l.sum = C ∧ (∀ s ∈ l, 1 ≤ s ∧ s * K ≤ m) ∧
      (l.Pairwise fun a b => b ≤ a ∧ a ≤ b + 1) ∧
      ∀ l' : List Nat, l'.sum = C → (∀ s ∈ l', s * K ≤ m) → l.length ≤ l'.length := by
  have hq : 1 ≤ m / K := (Nat.one_le_div_iff (by omega)).2 hm
  obtain ⟨l, h1, h2⟩ := TileArray.C01_split_sizes C (m / K) hC hq
  refine ⟨l, ?_, h2.sum, ?_, h2.balanced, ?_⟩
  · rw [← h1]
    unfold splitGroups TileArray.getSplitSizes
    have hq' : ¬ (((m / K : ℕ) : Int) ≤ 0) := by
      generalize m / K = q at *
      omega
    rw [if_neg (by omega), if_neg (by omega), if_neg (by omega), if_neg hq']
    simp only [Int.toNat_natCast, Nat.mul_div_cancel _ (show 0 < K by omega)]
  · intro s hs
    obtain ⟨b1, b2⟩ := h2.bounds s hs
    exact ⟨b1, (Nat.le_div_iff_mul_le (by omega)).1 b2⟩
  · intro l' h3 h4
    exact h2.minimal l' h3 fun s hs => (Nat.le_div_iff_mul_le (by omega)).2 (h4 s hs)

/-- **C57 (split, other cases).**  A non-positive limit keeps all channels on one tile; a kernel larger than the
limit raises `ModuleError`. -/
theorem C57_split_cases (C K : Nat) (m : Int) (hK : 1 ≤ K) :
    (m ≤ 0 → splitGroups (C * K) m K = .ok [C]) ∧
    (0 < m → m < K → splitGroups (C * K) m K = .error .moduleError) := by
  constructor
  · intro h
    unfold splitGroups
    rw [if_neg (by omega), if_pos h, Nat.mul_div_cancel _ (show 0 < K by omega)]
  · intro h1 h2
    unfold splitGroups
    rw [if_neg (by omega), if_neg (by omega), if_pos h2]

theorem sum_split_cases {size : Nat} {m : Int} {K : Nat} {l : List Nat} (h : splitGroups size m K = .ok l) :
    l.sum = size / K ∧ l ≠ [] := by
  unfold splitGroups at h
  by_cases h0 : K = 0
  · rw [if_pos h0] at h; cases h
  rw [if_neg h0] at h
  by_cases h1 : m ≤ 0
  · rw [if_pos h1] at h
    cases h
    exact ⟨by simp, by simp⟩
  rw [if_neg h1] at h
  by_cases h2 : m < K
  · rw [if_pos h2] at h; cases h
  rw [if_neg h2] at h
  simp only at h
  split_ifs at h with h3
  cases h
  refine ⟨?_, ?_⟩
  · rw [TileArray.sum_map_range_extra _ _ _ (Nat.mod_lt _ (Nat.pos_of_ne_zero h3)).le]
    exact Nat.div_add_mod _ _
  · intro h
    apply h3
    simpa using h

/-- Constructed layers are split correctly. -/
theorem make_splits (C O : Nat) (ks : List KDim) (two : Bool) (maxIn maxOut : Int) (digital : Bool)
    (bias : Option (List ℚ)) (l : MLayer) (h : MLayer.make C O ks two maxIn maxOut digital bias = .ok l) :
    l.C = C ∧ l.O = O ∧ l.ks = ks ∧ l.two = two ∧ l.bias = bias ∧ Splits l := by
  unfold MLayer.make at h
  split_ifs at h with h1 h2
  cases h3 : splitGroups (C * (ks.map (·.k)).prod) maxIn (C * (ks.map (·.k)).prod / C) with
  | error e => rw [h3] at h; cases h
  | ok ins =>
    rw [h3] at h
    simp only at h
    cases h4 : splitGroups O maxOut 1 with
    | error e => rw [h4] at h; cases h
    | ok outs =>
      rw [h4] at h
      cases h
      obtain ⟨a1, a2⟩ := sum_split_cases h3
      obtain ⟨b1, -⟩ := sum_split_cases h4
      refine ⟨rfl, rfl, rfl, rfl, rfl, ?_, by simpa using b1, a2⟩
      simp only
      have hC : 0 < C := by omega
      rw [Nat.mul_div_cancel_left _ hC] at a1 h3
      have hK : 0 < (ks.map (·.k)).prod := by
        by_contra hc
        have : (ks.map (·.k)).prod = 0 := by omega
        unfold splitGroups at h3
        rw [if_pos this] at h3
        cases h3
      rw [a1, Nat.mul_div_cancel _ hK]

/-- Result of a forward pass in a reachable state. -/
theorem mforward (l : MLayer) (hs : Splits l) (T : Nat → Nat → Nat → List ℚ → Nat → ℚ)
    (hist : List ((Nat → Nat → Nat → List ℚ → Nat → ℚ) × Img))
    (hw : ∀ y ∈ hist, MWF l y.2 ∧ (l.dims y.2.sizes).all Dim.valid = true) (x : Img) (hx : MWF l x) (hC : 0 < l.C)
    (hv : (l.dims x.sizes).all Dim.valid = true)
    (hsame : ∀ y ∈ hist, y.2.sizes.prod = x.sizes.prod → y.2.sizes = x.sizes) :
    ∃ out, (l.forwardI T (l.run ⟨0, none⟩ hist) x).2 = .ok (x.N :: l.O :: (l.dims x.sizes).map Dim.out, out) ∧
      out.length = x.N * l.O * outs (l.dims x.sizes) ∧
      ∀ n j o w, n < x.N → j < l.outs.length → o < l.outs.getD j 0 → w < outs (l.dims x.sizes) →
        out.getD ((n * l.O + (off l.outs j + o)) * outs (l.dims x.sizes) + w) 0 =
          ∑ i ∈ Finset.range l.ins.length,
            T i j (n * outs (l.dims x.sizes) + w)
              ((List.range (l.ins.getD i 0)).flatMap fun c => (List.range (kernels (l.dims x.sizes))).map fun a =>
                pix (l.dims x.sizes) l.C x.data n (off l.ins i + c) a w) o + l.biasOf (off l.outs j + o) := by
  have hw' : ∀ y ∈ hist.map (·.2), MWF l y := by
    intro y hy
    obtain ⟨q, hq, rfl⟩ := List.mem_map.1 hy
    exact (hw q hq).1
  obtain ⟨st', r, e1, -, -, y, hy, -, hyw, hyd, hyi⟩ :=
    refresh_ok l hs _ _ (mrun_inv l hs hist hw) hw' x hx hv
  have hys : y.sizes = x.sizes := by
    rcases hy with rfl | ⟨hy, hp⟩
    · rfl
    · obtain ⟨q, hq, rfl⟩ := List.mem_map.1 hy
      exact hsame q hq (Nat.eq_of_mul_eq_mul_left hC hp)
  rw [hys] at hyd hyi
  obtain ⟨hN, hxC, hxr, hxd⟩ := hx
  have hm : r.2.prod = outs (l.dims x.sizes) := by rw [hyd]; rfl
  have hpx : pixels (l.dims x.sizes) = x.sizes.prod := pixels_dims (l.sub 0 0) x.sizes hxr
  -- one tile
  have htile : ∀ i j, i < l.ins.length → ∀ data : List ℚ, data.length = x.N * (l.ins.getD i 0 * x.sizes.prod) →
      ∃ t, forwardIndexed (T i j) (r.1.getD i []) data (l.sub i j).xs (l.sub i j).O (outs (l.dims x.sizes)) x.N = .ok t ∧
        t.length = x.N * (l.sub i j).O * outs (l.dims x.sizes) ∧
        ∀ n o w, n < x.N → o < (l.sub i j).O → w < outs (l.dims x.sizes) →
          t.getD ((n * (l.sub i j).O + o) * outs (l.dims x.sizes) + w) 0 =
            T i j (n * outs (l.dims x.sizes) + w)
              (patchOf (l.dims x.sizes) (l.ins.getD i 0) (l.ins.getD i 0) 1 false data n w) o := by
    intro i j hi data hd
    exact fwd_core (l.sub i j) (T i j) ⟨1, l.ins.getD i 0, x.sizes, []⟩ 1 (chan_one _ _ rfl) hxr _
      (hyi i hi) (fun h => (by cases h)) x.N hN data (by rw [hd, ← hpx]; rfl)
  generalize hL : outs (l.dims x.sizes) = L at *
  have hlen : ∀ g : Nat → ℚ, ((List.range (x.N * l.O * L)).map g).length = x.N * l.O * L := by intro g; simp
  have hget : ∀ (g : Nat → ℚ) n p w, n < x.N → p < l.O → w < L →
      ((List.range (x.N * l.O * L)).map g).getD ((n * l.O + p) * L + w) 0 = g ((n * l.O + p) * L + w) := by
    intro g n p w hn hp hw'
    rw [List.getD_eq_getElem?_getD, List.getElem?_map, List.getElem?_range (flat_lt (flat_lt hn hp) hw')]
    rfl
  have hpl : ∀ j o, j < l.outs.length → o < l.outs.getD j 0 → off l.outs j + o < l.O := by
    intro j o hj ho
    have := off_le l.outs j hj
    rw [hs.2.1] at this
    omega
  unfold MLayer.forwardI
  rw [if_neg (by omega), e1]
  simp only
  by_cases hone : l.ins.length = 1 ∧ l.outs.length = 1
  · rw [if_pos hone]
    obtain ⟨s, hsi⟩ := List.length_eq_one_iff.1 hone.1
    obtain ⟨t0, hto⟩ := List.length_eq_one_iff.1 hone.2
    have hsC : s = l.C := by have := hs.1; rw [hsi] at this; simpa using this
    have htO : t0 = l.O := by have := hs.2.1; rw [hto] at this; simpa using this
    have hi0 : l.ins.getD 0 0 = l.C := by rw [hsi]; simpa using hsC
    have ho0 : l.outs.getD 0 0 = l.O := by rw [hto]; simpa using htO
    obtain ⟨t, ht1, ht2, ht3⟩ := htile 0 0 (by omega) x.data (by rw [hxd, hi0, hxC])
    have hO : (l.sub 0 0).O = l.O := ho0
    rw [hO] at ht1 ht2 ht3
    rw [hm, ht1, hyd]
    refine ⟨_, rfl, hlen _, ?_⟩
    intro n j o w hn hj ho hww
    have hj0 : j = 0 := by omega
    subst hj0
    have hoff : off l.outs 0 = 0 := rfl
    have hoffi : off l.ins 0 = 0 := rfl
    rw [ho0] at ho
    rw [hoff, Nat.zero_add, hget _ n o w hn ho hww, flat_div hww, flat_mod ho, ht3 n o w hn ho hww, hone.1,
      Finset.sum_range_one, hoffi]
    congr 1
    unfold patchOf
    rw [hi0]
    simp
  · have hsum : l.ins.sum = x.C := by rw [hs.1, hxC]
    rw [if_neg hone, if_pos hsum]
    have hts : ∀ i, ∀ j, ∃ t, i < l.ins.length →
        forwardIndexed (T i j) (r.1.getD i []) (l.part x i).data (l.sub i j).xs (l.sub i j).O L x.N = .ok t ∧
        ∀ n o w, n < x.N → o < (l.sub i j).O → w < L →
          t.getD ((n * (l.sub i j).O + o) * L + w) 0 = T i j (n * L + w)
              (patchOf (l.dims x.sizes) (l.ins.getD i 0) (l.ins.getD i 0) 1 false (l.part x i).data n w) o := by
      intro i j
      by_cases hi : i < l.ins.length
      · obtain ⟨t, h1, -, h3⟩ := htile i j hi (l.part x i).data (chans_length x _ _)
        exact ⟨t, fun _ => ⟨h1, h3⟩⟩
      · exact ⟨[], fun h => absurd h hi⟩
    choose t ht using hts
    have htl : l.tiles T r.1 L x = .ok ((List.range l.ins.length).map fun i => (List.range l.outs.length).map (t i)) := by
      unfold MLayer.tiles
      apply mapM_range_ok
      intro i hi
      apply mapM_range_ok
      intro j _
      exact (ht i j hi).1
    rw [hm, htl, hyd]
    refine ⟨_, rfl, hlen _, ?_⟩
    intro n j o w hn hj ho hww
    have hp := hpl j o hj ho
    rw [hget _ n _ w hn hp hww]
    have hd1 : ((n * l.O + (off l.outs j + o)) * L + w) / (l.O * L) = n := by
      have e : (n * l.O + (off l.outs j + o)) * L + w = n * (l.O * L) + ((off l.outs j + o) * L + w) := by ring
      rw [e, flat_div (flat_lt hp hww)]
    rw [hd1, flat_div hww, flat_mod hp, flat_mod hww]
    congr 1
    rw [List.map_map, list_sum_range]
    apply Finset.sum_congr rfl
    intro i hi
    have hi' := Finset.mem_range.1 hi
    simp only [Function.comp]
    rw [pick_eq L l.outs _ (by simp) j hj n o w ho]
    rw [List.getD_eq_getElem?_getD (a := ([] : List ℚ)), List.getElem?_map, List.getElem?_range hj]
    simp only [Option.map_some, Option.getD_some]
    have h5 := (ht i j hi').2 n o w hn ho hww
    have hO : (l.sub i j).O = l.outs.getD j 0 := rfl
    rw [hO] at h5
    rw [h5]
    congr 1
    have := patch_part (l.dims x.sizes) x (off l.ins i) (l.ins.getD i 0) n w hpx hn
    rw [hxC] at this
    exact this

end Aihw.Conv
