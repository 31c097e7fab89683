import Verif.Pulsed.TransferProps

/-!
# C34: isolation of transfers, setting weights
-/
namespace Aihw.Pulsed

variable {K : Type} [Field K] [LinearOrder K] [IsStrictOrderedRing K] [FloorRing K]

/-- Draws of an update: all uniform numbers are in `[0, 1)`. -/
def Upd.Unit (u : Upd K) : Prop :=
  ∀ j n, 0 ≤ (u.dr j n).u ∧ UnitDraws (u.dr j n).tx ∧ UnitDraws (u.dr j n).td

theorem write_untouched (F : Fns K) (p : TPar K) (d : Dev K) (c : Nat) (lr : K) (w : WD K)
    (hx : UnitDraws w.tx) (hd : UnitDraws w.td) (i j : Nat) (hi : i < p.dSize) (hj : j < p.xSize)
    (hne : (if p.cols then j else i) ≠ c) :
    (p.write F d c lr w).st (i * p.xSize + j) = d.st (i * p.xSize + j) := by
  have hsg : ((if lr < 0 then -1 else 1 : ℤ) = 1) ∨ ((if lr < 0 then -1 else 1 : ℤ) = -1) := by
    split_ifs <;> simp
  have hempty : ∀ x d' : Nat → K, (x j = 0 ∨ d' i = 0) →
      hits w.tr x d' w.tx w.td i j = [] := by
    intro x d' h
    unfold hits
    rw [List.filter_eq_nil_iff]
    intro k _
    simp only [decide_eq_true_eq]
    rintro ⟨h1, h2⟩
    rcases h with h | h
    · exact not_fires_zero hx h h2
    · exact not_fires_zero hd h h1
  unfold TPar.write
  by_cases hc : p.cols = true
  · simp only [hc, if_true] at hne ⊢
    rw [pulses_st, C45_cell_pulses _ _ _ _ _ hsg _ _ _ _ hx hd _ _ _ hi hj,
      hempty _ _ (Or.inl (by simp [unitVec, hne]))]
    rfl
  · simp only [hc, Bool.false_eq_true, if_false] at hne ⊢
    rw [pulses_st, C45_cell_pulses _ _ _ _ _ hsg _ _ _ _ hx hd _ _ _ hi hj,
      hempty _ _ (Or.inr (by simp [unitVec, hne]))]
    rfl

theorem resetRead_id (p : TPar K) (hp : p.resetProb ≤ 0) (d : Dev K) (start n : Nat) (w : WD K)
    (hu : 0 ≤ w.u) : p.resetRead d start n w = d := by
  unfold TPar.resetRead
  rw [if_neg]
  simp only [Bool.and_eq_true, decide_eq_true_eq, not_and]
  intro h
  exact absurd h (not_lt.2 (hp.trans hu))

theorem readFold_cells (F : Fns K) (p : TPar K) (hp : p.resetProb ≤ 0) (dst src : Nat) (lr : K)
    (start nVec : Nat) (dr : Nat → WD K)
    (hdr : ∀ n, 0 ≤ (dr n).u ∧ UnitDraws (dr n).tx ∧ UnitDraws (dr n).td) (k i j : Nat)
    (hi : i < p.dSize) (hj : j < p.xSize) (l : List Nat) (s : TS K)
    (h : k ≠ dst ∨ ∀ n ∈ l, start + n ≠ (if p.cols then j else i)) :
    ((l.foldl (p.readOne F dst src lr start nVec dr) s).dev k).st (i * p.xSize + j) =
      (s.dev k).st (i * p.xSize + j) := by
  induction l generalizing s with
  | nil => rfl
  | cons n l ih =>
    rw [List.foldl_cons, ih _ (h.imp_right fun h m hm => h m (List.mem_cons_of_mem _ hm))]
    have e1 : s.setDev src (p.resetRead (s.dev src) start nVec (dr n)) = s := by
      rw [resetRead_id p hp _ _ _ _ (hdr n).1]
      rcases s with ⟨d, _, _, _, _⟩
      simp only [TS.setDev, TS.mk.injEq, and_true]
      funext m
      split_ifs with hm
      · rw [hm]
      · rfl
    have e2 : (p.readOne F dst src lr start nVec dr s n).dev =
        (s.setDev dst (p.write F (s.dev dst) (start + n) lr (dr n))).dev := by
      unfold TPar.readOne
      rw [e1]
    rw [e2]
    simp only [TS.setDev]
    by_cases hk : k = dst
    · rw [if_pos hk, hk]
      rw [write_untouched F p _ _ _ _ (hdr n).2.1 (hdr n).2.2 i j hi hj]
      rcases h with h | h
      · exact absurd hk h
      · exact fun e => h n (List.mem_cons_self ..) e.symm
    · rw [if_neg hk]

theorem readAndUpdate_cells (F : Fns K) (p : TPar K) (hp : p.resetProb ≤ 0) (dst src : Nat) (lr : K)
    (start nVec : Nat) (dr : Nat → WD K)
    (hdr : ∀ n, 0 ≤ (dr n).u ∧ UnitDraws (dr n).tx ∧ UnitDraws (dr n).td) (k i j : Nat)
    (hi : i < p.dSize) (hj : j < p.xSize) (s : TS K)
    (h : (src, k, if p.cols then j else i) ∈ (p.readAndUpdate F dst src lr start nVec dr s).log →
      (src, k, if p.cols then j else i) ∈ s.log)
    (hs : (src, k, if p.cols then j else i) ∉ s.log) :
    ((p.readAndUpdate F dst src lr start nVec dr s).dev k).st (i * p.xSize + j) =
      (s.dev k).st (i * p.xSize + j) := by
  have hlog := (readAndUpdate_frame F p dst src lr start nVec dr s).2.2
  by_cases h1 : lr = 0 ∨ dst = src
  · unfold TPar.readAndUpdate
    rcases h1 with h1 | h1
    · rw [if_pos h1]
    · split_ifs <;> rfl
  · rw [if_neg h1] at hlog
    rw [hlog] at h
    have hnot : (src, k, if p.cols then j else i) ∉
        (List.range nVec).map fun n => (src, dst, start + n) :=
      fun hm => hs (h (List.mem_append.2 (Or.inr hm)))
    unfold TPar.readAndUpdate
    rw [if_neg (fun e => h1 (Or.inl e)), if_neg (fun e => h1 (Or.inr e))]
    apply readFold_cells F p hp dst src lr start nVec dr hdr k i j hi hj
    by_cases hk : k = dst
    · right
      intro n hn e
      apply hnot
      rw [List.mem_map]
      exact ⟨n, hn, by rw [e, hk]⟩
    · exact Or.inl hk

theorem transfer_cells (F : Fns K) (p : TPar K) (hp : p.resetProb ≤ 0) (dst src : Nat) (cur : K)
    (dr : Nat → WD K)
    (hdr : ∀ n, 0 ≤ (dr n).u ∧ UnitDraws (dr n).tx ∧ UnitDraws (dr n).td) (k i j : Nat)
    (hi : i < p.dSize) (hj : j < p.xSize) (s : TS K)
    (h : (src, k, if p.cols then j else i) ∉ (p.transfer F dst src cur dr s).log) :
    ((p.transfer F dst src cur dr s).dev k).st (i * p.xSize + j) =
      (s.dev k).st (i * p.xSize + j) := by
  unfold TPar.transfer at h ⊢
  by_cases hc : p.inSize - s.slice src < min p.nReads p.inSize
  · simp only [hc, if_true] at h ⊢
    have b3 := (readAndUpdate_frame F p dst src (p.transferLR src cur) 0
      (min p.nReads p.inSize - (p.inSize - s.slice src)) (fun k => dr (p.inSize - s.slice src + k))
      (p.readAndUpdate F dst src (p.transferLR src cur) (s.slice src)
      (p.inSize - s.slice src) dr s)).2.2
    have a3 := (readAndUpdate_frame F p dst src (p.transferLR src cur) (s.slice src)
      (p.inSize - s.slice src) dr s).2.2
    have h1 : (src, k, if p.cols then j else i) ∉ (p.readAndUpdate F dst src (p.transferLR src cur)
        (s.slice src) (p.inSize - s.slice src) dr s).log := by
      intro hm; exact h (by rw [b3]; exact List.mem_append.2 (Or.inl hm))
    have h2 : (src, k, if p.cols then j else i) ∉ s.log := by
      intro hm; exact h1 (by rw [a3]; exact List.mem_append.2 (Or.inl hm))
    rw [readAndUpdate_cells F p hp dst src _ 0 _ _ (fun n => hdr _) k i j hi hj _
      (fun hm => absurd hm h) h1]
    exact readAndUpdate_cells F p hp dst src _ _ _ _ hdr k i j hi hj _ (fun hm => absurd hm h1) h2
  · simp only [hc, if_false] at h ⊢
    have a3 := (readAndUpdate_frame F p dst src (p.transferLR src cur) (s.slice src)
      (min p.nReads p.inSize) dr s).2.2
    have h2 : (src, k, if p.cols then j else i) ∉ s.log := by
      intro hm; exact h (by rw [a3]; exact List.mem_append.2 (Or.inl hm))
    exact readAndUpdate_cells F p hp dst src _ _ _ _ hdr k i j hi hj _ (fun hm => absurd hm h) h2

/-- **C34 (isolation).**  Without resets, one update of a compound changes a cell of device `k ≥ 1`
only if the column (row) of that cell was read from device `k - 1` in this update; device 0 receives
exactly the pulses of the gradient update and nothing else. -/
theorem C34_isolation (F : Fns K) (p : TPar K) (hp : p.resetProb ≤ 0) (s : TS K)
    (hlog : s.log = []) (u : Upd K) (hu : u.Unit) (i j : Nat) (hi : i < p.dSize)
    (hj : j < p.xSize) (hin : ∀ k, s.slice k < p.inSize) :
    (∀ k, 1 ≤ k → (if p.cols then j else i) ∉ reads (p.update F s u) (k - 1) →
      ((p.update F s u).dev k).st (i * p.xSize + j) = (s.dev k).st (i * p.xSize + j)) ∧
    ((p.update F s u).dev 0).st (i * p.xSize + j) =
      ((s.dev 0).pulses F u.sgd).st (i * p.xSize + j) := by
  obtain ⟨s0, hs0⟩ : ∃ s0 : TS K, s0 =
      { (s.setDev 0 ((s.dev 0).pulses F u.sgd)) with idx := s.idx + 1 } := ⟨_, rfl⟩
  have hupd : p.update F s u = p.reduce ((List.range p.n).foldl
      (p.maybeTransfer F u.lr u.mBatch u.dr) s0) := by
    rw [hs0]; rfl
  have hsl0 : ∀ k, s0.slice k < p.inSize := by rw [hs0]; exact hin
  have hin0 : 0 < p.inSize := lt_of_le_of_lt (Nat.zero_le _) (hin 0)
  have main : ∀ (l : List Nat) (s : TS K) (k : Nat), (∀ m, s.slice m < p.inSize) →
      (∀ src, (src, k, if p.cols then j else i) ∉
        (l.foldl (p.maybeTransfer F u.lr u.mBatch u.dr) s).log) →
      ((l.foldl (p.maybeTransfer F u.lr u.mBatch u.dr) s).dev k).st (i * p.xSize + j) =
        (s.dev k).st (i * p.xSize + j) := by
    intro l
    induction l with
    | nil => intro s k _ _; rfl
    | cons a l ih =>
      intro s k hsl h
      rw [List.foldl_cons] at h ⊢
      by_cases ha : 0 < p.getEvery a u.mBatch ∧ s.idx % p.getEvery a u.mBatch = 0
      · have e1 : p.maybeTransfer F u.lr u.mBatch u.dr s a =
            p.transfer F (min (a + 1) (p.n - 1)) a u.lr (u.dr a) s := by
          unfold TPar.maybeTransfer; rw [if_pos ha]
        rw [e1] at h ⊢
        obtain ⟨t1, t2, t3⟩ := transfer_frame F p (min (a + 1) (p.n - 1)) a u.lr (u.dr a) s (hsl a)
        have hs1 : ∀ m, (p.transfer F (min (a + 1) (p.n - 1)) a u.lr (u.dr a) s).slice m <
            p.inSize := by
          intro m
          rw [t2]
          show (if m = a then _ else _) < _
          split_ifs
          · exact Nat.mod_lt _ hin0
          · exact hsl m
        rw [ih _ k hs1 h]
        apply transfer_cells F p hp _ _ _ _ (hu a) k i j hi hj
        intro hm
        refine h a ?_
        -- the log only grows
        have grow : ∀ (l : List Nat) (s : TS K) (q : Nat × Nat × Nat),
            (∀ m, s.slice m < p.inSize) → q ∈ s.log →
            q ∈ (l.foldl (p.maybeTransfer F u.lr u.mBatch u.dr) s).log := by
          intro l
          induction l with
          | nil => intro s q _ h; exact h
          | cons b l ih' =>
            intro s q hsl h
            rw [List.foldl_cons]
            unfold TPar.maybeTransfer
            split_ifs with hb
            · obtain ⟨t1, t2, t3⟩ :=
                transfer_frame F p (min (b + 1) (p.n - 1)) b u.lr (u.dr b) s (hsl b)
              apply ih'
              · intro m
                rw [t2]
                show (if m = b then _ else _) < _
                split_ifs
                · exact Nat.mod_lt _ hin0
                · exact hsl m
              · rw [t3]; exact List.mem_append.2 (Or.inl h)
            · exact ih' _ _ hsl h
        exact grow _ _ _ hs1 hm
      · have e1 : p.maybeTransfer F u.lr u.mBatch u.dr s a = s := by
          unfold TPar.maybeTransfer; rw [if_neg ha]
        rw [e1] at h ⊢
        exact ih _ k hsl h
  have hl0 : s0.log = [] := by rw [hs0]; exact hlog
  have i5 := (fold_schedule F p u.lr u.mBatch u.dr hin0 0 (List.range p.n) List.nodup_range s0
    hsl0).2.2.2.2
  have hdst : ∀ q ∈ ((List.range p.n).foldl (p.maybeTransfer F u.lr u.mBatch u.dr) s0).log,
      q.2.1 = q.1 + 1 := by
    intro q hq
    rcases i5 q hq with h | ⟨h1, h2, h3⟩
    · rw [hl0] at h; simp at h
    · have := List.mem_range.1 h1
      omega
  constructor
  · intro k hk hr
    have e0 : (s0.dev k).st (i * p.xSize + j) = (s.dev k).st (i * p.xSize + j) := by
      rw [hs0]
      simp only [TS.setDev]
      rw [if_neg (by omega)]
    rw [hupd]
    show (((List.range p.n).foldl (p.maybeTransfer F u.lr u.mBatch u.dr) s0).dev k).st _ = _
    rw [main _ s0 k hsl0 ?_, e0]
    intro src hm
    apply hr
    have h1 : k = src + 1 := hdst _ hm
    rw [hupd]
    show _ ∈ reads ((List.range p.n).foldl (p.maybeTransfer F u.lr u.mBatch u.dr) s0) (k - 1)
    unfold reads
    rw [List.mem_map]
    refine ⟨_, List.mem_filter.2 ⟨hm, ?_⟩, rfl⟩
    simp only [decide_eq_true_eq]
    omega
  · have e0 : (s0.dev 0).st (i * p.xSize + j) =
        ((s.dev 0).pulses F u.sgd).st (i * p.xSize + j) := by
      rw [hs0]; simp [TS.setDev]
    rw [hupd]
    show (((List.range p.n).foldl (p.maybeTransfer F u.lr u.mBatch u.dr) s0).dev 0).st _ = _
    rw [main _ s0 0 hsl0 ?_, e0]
    intro src hm
    have h1 : 0 = src + 1 := hdst _ hm
    omega

/-- **C34 (finding: fully hidden by cancellation).**  The fully hidden mode is chosen when the *sum*
of the weightings of the fast devices is zero.  For a user-defined `gamma_vec` with nonzero entries
cancelling each other the fast devices then do not contribute to the visible weights at all: after
an update the visible weight differs from the documented weighted sum by exactly
`Σ_{j < n-1} gamma_j w_j`. -/
theorem C34_cancelling_gamma (F : Fns K) (p : TPar K) (hn : 1 ≤ p.n) (s : TS K) (u : Upd K) (k : Nat)
    (hg : ((List.range (p.n - 1)).map p.gamma).sum = 0) (hl : p.gamma (p.n - 1) = 1) :
    ((List.range p.n).map fun j => p.gamma j * (((p.update F s u).dev j).st k).vis).sum -
      (p.update F s u).vis k =
    ((List.range (p.n - 1)).map fun j =>
      p.gamma j * (((p.update F s u).dev j).st k).vis).sum := by
  have hv := (C34_visible_weight F p s [] u k).2 ⟨hg, hl⟩
  have hrun : p.run F s ([] ++ [u]) = p.update F s u := rfl
  simp only [hrun] at hv
  rw [hv]
  obtain ⟨m, hm⟩ : ∃ m, p.n = m + 1 := ⟨p.n - 1, by omega⟩
  rw [hm, Nat.add_sub_cancel, List.range_succ, List.map_append, List.sum_append]
  rw [hm, Nat.add_sub_cancel] at hl
  simp [hl]

/-- **C34 (setting weights).**  `set_weights` restarts the transfer schedule.  If the compound is not
fully hidden, every fast device restarts at (clipped) zero, and reading back gives the weights that
were set whenever zero is within the bounds of the fast devices and `v / gamma_last` within those of
the last one (no write noise). -/
theorem C34_set_weights (p : TPar K) (hn : 1 ≤ p.n) (s s' : TS K) (v : Nat → K) (g : Nat → Nat → K)
    (h : p.setWeights s v g = .ok s') (hf : p.fullyHidden = false) (k : Nat)
    (hw : ∀ j < p.n, persistent (s.dev j).kd (s.dev j).par = false)
    (hb : ∀ j, j + 1 < p.n → ((s.dev j).cell k).minB ≤ 0 ∧ 0 ≤ ((s.dev j).cell k).maxB)
    (hlast : ((s.dev (p.n - 1)).cell k).minB ≤ v k / p.gamma (p.n - 1) ∧
      v k / p.gamma (p.n - 1) ≤ ((s.dev (p.n - 1)).cell k).maxB) :
    s'.vis k = v k ∧ s'.idx = 0 ∧ (∀ j, s'.slice j = 0) ∧
    (∀ j, j + 1 < p.n → ((s'.dev j).st k).vis = 0) ∧
    ((s'.dev (p.n - 1)).st k).vis = v k / p.gamma (p.n - 1) := by
  unfold TPar.setWeights at h
  rw [hf] at h
  simp only [Bool.false_eq_true, if_false] at h
  by_cases hg : p.gamma (p.n - 1) = 0
  · rw [if_pos hg] at h; cases h
  rw [if_neg hg] at h
  have h := (Except.ok.inj h).symm
  have hfast : ∀ j, j + 1 < p.n → ((s'.dev j).st k).vis = 0 := by
    intro j hj
    rw [h]
    simp only [TPar.reduce, Dev.mapSt, onSet, hw j (by omega), Bool.false_eq_true, if_false]
    rw [if_neg (by omega), clipMM_of_mem (hb j hj).1 (hb j hj).2]
  have hl : ((s'.dev (p.n - 1)).st k).vis = v k / p.gamma (p.n - 1) := by
    rw [h]
    simp only [TPar.reduce, Dev.mapSt, onSet, hw (p.n - 1) (by omega), Bool.false_eq_true, if_false,
      if_true]
    rw [clipMM_of_mem hlast.1 hlast.2]
  refine ⟨?_, by rw [h]; rfl, by rw [h]; intro j; rfl, hfast, hl⟩
  have hv : s'.vis k = ((List.range p.n).map fun j => p.gamma j * ((s'.dev j).st k).vis).sum := by
    rw [h]
    simp only [TPar.reduce, hf, Bool.false_eq_true, if_false]
  rw [hv]
  obtain ⟨m, hm⟩ : ∃ m, p.n = m + 1 := ⟨p.n - 1, by omega⟩
  rw [hm] at hfast
  rw [hm, Nat.add_sub_cancel] at hl hg
  rw [hm, List.range_succ, List.map_append, List.sum_append]
  have : ((List.range m).map fun j => p.gamma j * ((s'.dev j).st k).vis).sum = 0 := by
    apply List.sum_eq_zero
    intro x hx
    obtain ⟨j, hj, rfl⟩ := List.mem_map.1 hx
    rw [hfast j (by have := List.mem_range.1 hj; omega), mul_zero]
  rw [this]
  simp [hl]
  field_simp

/-- **C34 (finding: fully hidden with write noise).**  In the fully hidden mode `set_weights` zeroes
the apparent weights of the fast devices but not their persistent weights, so the state accumulated
before survives and is what later pulses act on. -/
theorem C34_hidden_persistent_kept (p : TPar K) (s s' : TS K) (v : Nat → K) (g : Nat → Nat → K)
    (h : p.setWeights s v g = .ok s') (hf : p.fullyHidden = true) (k j : Nat) (hj : j + 1 < p.n)
    (hkd : (s.dev j).kd ≠ .powRef) (hw : 0 < (s.dev j).par.writeNoise) :
    (s'.dev j).weight k = (s.dev j).weight k ∧ ((s'.dev j).st k).vis = 0 := by
  unfold TPar.setWeights at h
  rw [hf] at h
  simp only [if_true] at h
  have h := (Except.ok.inj h).symm
  have hd : s'.dev j = (s.dev j).mapSt fun _ c => ⟨0, c.per⟩ := by
    rw [h]
    simp only
    rw [if_neg (by omega)]
  rw [hd]
  refine ⟨?_, rfl⟩
  have : ∀ d : Dev K, d.kd ≠ .powRef → 0 < d.par.writeNoise → d.weight k = (d.st k).per := by
    intro d h1 h2
    unfold Dev.weight
    split
    · rename_i h3; exact absurd h3 h1
    · rw [if_pos h2]
  rw [this (s.dev j) hkd hw, this ((s.dev j).mapSt _) hkd hw]
  rfl

end Aihw.Pulsed
