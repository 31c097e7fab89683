import Verif.Pulsed.Transfer
import Mathlib.Data.Nat.Count
import Mathlib.Data.Int.CardIntervalMod

/-!
# C34: transfer scheduling and what a transfer can change
-/
namespace Aihw.Pulsed

variable {K : Type} [Field K] [LinearOrder K] [IsStrictOrderedRing K] [FloorRing K]

/-! ## Lemmas -/

theorem readFold_frame (F : Fns K) (p : TPar K) (dst src : Nat) (lr : K) (start nVec : Nat)
    (dr : Nat → WD K) (l : List Nat) (s : TS K) :
    (l.foldl (p.readOne F dst src lr start nVec dr) s).slice = s.slice ∧
    (l.foldl (p.readOne F dst src lr start nVec dr) s).idx = s.idx ∧
    (l.foldl (p.readOne F dst src lr start nVec dr) s).log =
      s.log ++ l.map fun i => (src, dst, start + i) := by
  induction l generalizing s with
  | nil => simp
  | cons i l ih =>
    rw [List.foldl_cons]
    obtain ⟨h1, h2, h3⟩ := ih (p.readOne F dst src lr start nVec dr s i)
    rw [h1, h2, h3]
    simp [TPar.readOne, TS.setDev]

theorem readAndUpdate_frame (F : Fns K) (p : TPar K) (dst src : Nat) (lr : K) (start nVec : Nat)
    (dr : Nat → WD K) (s : TS K) :
    (p.readAndUpdate F dst src lr start nVec dr s).slice = s.slice ∧
    (p.readAndUpdate F dst src lr start nVec dr s).idx = s.idx ∧
    (p.readAndUpdate F dst src lr start nVec dr s).log =
      s.log ++ (if lr = 0 ∨ dst = src then []
        else (List.range nVec).map fun i => (src, dst, start + i)) := by
  unfold TPar.readAndUpdate
  by_cases h1 : lr = 0
  · simp [h1]
  by_cases h2 : dst = src
  · simp [h2]
  simp only [h1, h2, if_false, or_self]
  exact readFold_frame F p dst src lr start nVec dr _ s

theorem range_wrap (i n m : Nat) (hi : i < m) (hn : n ≤ m) (h : m - i < n) :
    (List.range (m - i)).map (fun k => i + k) ++ (List.range (n - (m - i))).map (fun k => 0 + k) =
      (List.range n).map fun k => (i + k) % m := by
  apply List.ext_getElem
  · simp; omega
  · intro k h1 h2
    simp only [List.length_append, List.length_map, List.length_range] at h1
    rw [List.getElem_append]
    split_ifs with h3
    · simp only [List.length_map, List.length_range] at h3
      simp only [List.getElem_map, List.getElem_range]
      rw [Nat.mod_eq_of_lt (by omega)]
    · simp only [List.length_map, List.length_range, not_lt] at h3
      simp only [List.getElem_map, List.getElem_range, List.length_map, List.length_range]
      have : i + k = (k - (m - i)) + m := by omega
      rw [this, Nat.add_mod_right, Nat.mod_eq_of_lt (by omega)]
      omega

theorem transfer_frame (F : Fns K) (p : TPar K) (dst src : Nat) (cur : K) (dr : Nat → WD K)
    (s : TS K) (hs : s.slice src < p.inSize) :
    (p.transfer F dst src cur dr s).idx = s.idx ∧
    (p.transfer F dst src cur dr s).slice = (fun k =>
      if k = src then (s.slice src + min p.nReads p.inSize) % p.inSize else s.slice k) ∧
    (p.transfer F dst src cur dr s).log =
      s.log ++ (if p.transferLR src cur = 0 ∨ dst = src then []
        else (List.range (min p.nReads p.inSize)).map fun i =>
          (src, dst, (s.slice src + i) % p.inSize)) := by
  unfold TPar.transfer
  by_cases h : p.inSize - s.slice src < min p.nReads p.inSize
  · simp only [h, if_true]
    obtain ⟨a1, a2, a3⟩ := readAndUpdate_frame F p dst src (p.transferLR src cur) (s.slice src)
      (p.inSize - s.slice src) dr s
    obtain ⟨b1, b2, b3⟩ := readAndUpdate_frame F p dst src (p.transferLR src cur) 0
      (min p.nReads p.inSize - (p.inSize - s.slice src)) (fun k => dr (p.inSize - s.slice src + k))
      (p.readAndUpdate F dst src (p.transferLR src cur) (s.slice src)
      (p.inSize - s.slice src) dr s)
    refine ⟨by rw [b2, a2], by rw [b1, a1], ?_⟩
    rw [b3, a3]
    by_cases h0 : p.transferLR src cur = 0 ∨ dst = src
    · simp [h0]
    · simp only [h0, if_false, List.append_assoc]
      congr 1
      have := range_wrap (s.slice src) (min p.nReads p.inSize) p.inSize hs (min_le_right _ _) h
      have := congrArg (List.map fun c => (src, dst, c)) this
      simpa [List.map_append, Function.comp_def] using this
  · simp only [h, if_false]
    obtain ⟨a1, a2, a3⟩ := readAndUpdate_frame F p dst src (p.transferLR src cur) (s.slice src)
      (min p.nReads p.inSize) dr s
    refine ⟨a2, by rw [a1], ?_⟩
    rw [a3]
    congr 1
    split_ifs
    · rfl
    · apply List.map_congr_left
      intro i hi
      rw [List.mem_range] at hi
      rw [Nat.mod_eq_of_lt (by omega)]

/-- The slices read from device `j` so far. -/
def reads (s : TS K) (j : Nat) : List Nat := (s.log.filter fun e => decide (e.1 = j)).map (·.2.2)

/-- The effect of one update on the schedule of device `j`. -/
theorem fold_schedule (F : Fns K) (p : TPar K) (cur : K) (m : Nat) (dr : Nat → Nat → WD K)
    (hin : 0 < p.inSize) (j : Nat) (l : List Nat) (hl : l.Nodup) (s : TS K)
    (hs : ∀ k, s.slice k < p.inSize) :
    let s' := l.foldl (p.maybeTransfer F cur m dr) s
    let fired := j ∈ l ∧ 0 < p.getEvery j m ∧ s.idx % p.getEvery j m = 0
    s'.idx = s.idx ∧ (∀ k, s'.slice k < p.inSize) ∧
    (fired → s'.slice j = (s.slice j + min p.nReads p.inSize) % p.inSize ∧
      reads s' j = reads s j ++
        (if p.transferLR j cur = 0 ∨ min (j + 1) (p.n - 1) = j then []
          else (List.range (min p.nReads p.inSize)).map fun i => (s.slice j + i) % p.inSize)) ∧
    (¬ fired → s'.slice j = s.slice j ∧ reads s' j = reads s j) ∧
    (∀ e ∈ s'.log, e ∈ s.log ∨ (e.1 ∈ l ∧ e.2.1 = min (e.1 + 1) (p.n - 1) ∧ e.2.1 ≠ e.1)) := by
  induction l generalizing s with
  | nil =>
    refine ⟨rfl, hs, fun h => absurd h.1 (by simp), fun _ => ⟨rfl, rfl⟩, fun e he => Or.inl he⟩
  | cons a l ih =>
    rw [List.nodup_cons] at hl
    intro s' fired
    by_cases ha : 0 < p.getEvery a m ∧ s.idx % p.getEvery a m = 0
    · have e1 : p.maybeTransfer F cur m dr s a =
          p.transfer F (min (a + 1) (p.n - 1)) a cur (dr a) s := by
        unfold TPar.maybeTransfer; rw [if_pos ha]
      obtain ⟨t1, t2, t3⟩ := transfer_frame F p (min (a + 1) (p.n - 1)) a cur (dr a) s (hs a)
      have hs1 : ∀ k, (p.transfer F (min (a + 1) (p.n - 1)) a cur (dr a) s).slice k < p.inSize := by
        intro k
        rw [t2]
        show (if k = a then _ else _) < _
        split_ifs
        · exact Nat.mod_lt _ hin
        · exact hs k
      obtain ⟨i1, i2, i3, i4, i5⟩ := ih hl.2 _ hs1
      have hs' : s' = l.foldl (p.maybeTransfer F cur m dr)
          (p.transfer F (min (a + 1) (p.n - 1)) a cur (dr a) s) := by
        show List.foldl _ _ _ = _
        rw [List.foldl_cons, e1]
      rw [← hs'] at i1 i2 i3 i4 i5
      refine ⟨by rw [i1, t1], i2, ?_, ?_, ?_⟩
      · rintro ⟨hj, he⟩
        by_cases hja : j = a
        · subst hja
          obtain ⟨c1, c2⟩ := i4 (fun h => hl.1 h.1)
          refine ⟨by rw [c1, t2]; simp, ?_⟩
          rw [c2, reads, t3, List.filter_append, List.map_append, reads]
          congr 1
          split_ifs
          · rfl
          · rw [List.filter_eq_self.2 (by
              intro e he
              obtain ⟨i, _, rfl⟩ := List.mem_map.1 he
              simp), List.map_map]
            rfl
        · have hjl : j ∈ l := (List.mem_cons.1 hj).resolve_left hja
          obtain ⟨c1, c2⟩ := i3 ⟨hjl, by rw [t1]; exact he⟩
          have hsl : (p.transfer F (min (a + 1) (p.n - 1)) a cur (dr a) s).slice j = s.slice j := by
            rw [t2]; simp [hja]
          rw [hsl] at c1 c2
          refine ⟨c1, ?_⟩
          rw [c2]
          congr 1
          rw [reads, t3, List.filter_append, List.map_append, reads]
          rw [(List.filter_eq_nil_iff (l := if p.transferLR a cur = 0 ∨ min (a + 1) (p.n - 1) = a then _ else _)).2]
          · simp
          · intro e he
            split_ifs at he
            · simp at he
            · obtain ⟨i, _, rfl⟩ := List.mem_map.1 he
              simpa using fun h => hja h.symm
      · intro hnf
        have hja : j ≠ a := by
          rintro rfl
          exact hnf ⟨List.mem_cons_self .., ha⟩
        obtain ⟨c1, c2⟩ := i4 (fun h => hnf ⟨List.mem_cons_of_mem _ h.1, by rw [t1] at h; exact h.2⟩)
        have hsl : (p.transfer F (min (a + 1) (p.n - 1)) a cur (dr a) s).slice j = s.slice j := by
          rw [t2]; simp [hja]
        refine ⟨by rw [c1, hsl], ?_⟩
        rw [c2, reads, t3, List.filter_append, List.map_append, reads]
        rw [(List.filter_eq_nil_iff (l := if p.transferLR a cur = 0 ∨ min (a + 1) (p.n - 1) = a then _ else _)).2]
        · simp
        · intro e he
          split_ifs at he
          · simp at he
          · obtain ⟨i, _, rfl⟩ := List.mem_map.1 he
            simpa using fun h => hja h.symm
      · intro e he
        rcases i5 e he with h | h
        · rw [t3, List.mem_append] at h
          rcases h with h | h
          · exact Or.inl h
          · right
            split_ifs at h with h0
            · simp at h
            · obtain ⟨i, _, rfl⟩ := List.mem_map.1 h
              exact ⟨List.mem_cons_self .., rfl, fun h => h0 (Or.inr h)⟩
        · exact Or.inr ⟨List.mem_cons_of_mem _ h.1, h.2⟩
    · have e1 : p.maybeTransfer F cur m dr s a = s := by
        unfold TPar.maybeTransfer; rw [if_neg ha]
      obtain ⟨i1, i2, i3, i4, i5⟩ := ih hl.2 s hs
      have hs' : s' = l.foldl (p.maybeTransfer F cur m dr) s := by
        show List.foldl _ _ _ = _
        rw [List.foldl_cons, e1]
      rw [← hs'] at i1 i2 i3 i4 i5
      refine ⟨i1, i2, ?_, ?_, fun e he => (i5 e he).imp_right
        fun h => ⟨List.mem_cons_of_mem _ h.1, h.2⟩⟩
      · rintro ⟨hj, he⟩
        have hja : j ≠ a := by rintro rfl; exact ha he
        exact i3 ⟨(List.mem_cons.1 hj).resolve_left hja, he⟩
      · intro hnf
        exact i4 (fun h => hnf ⟨List.mem_cons_of_mem _ h.1, h.2⟩)

/-! ## Properties -/

/-- **C34 (schedule).**  Starting with fresh counters (after creation or `set_weights`), for every
number of devices, every sequence `us` of updates and every device `j` that is not the last one: if
the transfer period of device `j` is `e > 0` (in mat-vecs, i.e. `transfer_every` rounded, or
`⌈transfer_every * m_batch⌉`) and the transfer learning rate is not zero, then the columns (rows)
read from device `j` during the `us` are exactly `0, 1, 2, … (mod in_size)`, `n_reads_per_transfer`
of them for each of the `⌊|us| / e⌋` transfer events, all written to device `j + 1`. -/
theorem C34_schedule (F : Fns K) (p : TPar K) (hin : 0 < p.inSize) (hn : p.nReads ≤ p.inSize)
    (s : TS K) (h0 : s.idx = 0) (hsl : ∀ k, s.slice k = 0) (hlog : s.log = [])
    (us : List (Upd K)) (j e : Nat) (hj : j + 1 < p.n) (he : 0 < e)
    (hev : ∀ u ∈ us, p.getEvery j u.mBatch = e) (hlr : ∀ u ∈ us, p.transferLR j u.lr ≠ 0) :
    reads (p.run F s us) j = (List.range (p.nReads * (us.length / e))).map (· % p.inSize) ∧
    (p.run F s us).idx = us.length ∧
    ∀ t ∈ (p.run F s us).log, t.2.1 = t.1 + 1 ∧ t.2.1 < p.n := by
  have hmin : min p.nReads p.inSize = p.nReads := min_eq_left hn
  -- invariant over the number of updates already made
  have inv : ∀ (us : List (Upd K)) (s : TS K) (t : Nat),
      (∀ u ∈ us, p.getEvery j u.mBatch = e) → (∀ u ∈ us, p.transferLR j u.lr ≠ 0) →
      s.idx = t → (∀ k, s.slice k < p.inSize) → s.slice j = (p.nReads * (t / e)) % p.inSize →
      reads s j = (List.range (p.nReads * (t / e))).map (· % p.inSize) →
      (∀ q ∈ s.log, q.2.1 = q.1 + 1 ∧ q.2.1 < p.n) →
      reads (p.run F s us) j =
        (List.range (p.nReads * ((t + us.length) / e))).map (· % p.inSize) ∧
      (p.run F s us).idx = t + us.length ∧
      ∀ q ∈ (p.run F s us).log, q.2.1 = q.1 + 1 ∧ q.2.1 < p.n := by
    intro us
    induction us with
    | nil =>
      intro s t _ _ h1 _ _ h3 h4
      exact ⟨h3, h1, h4⟩
    | cons u us ih =>
      intro s t hev hlr h1 hsl h2 h3 h4
      have hrun : p.run F s (u :: us) = p.run F (p.update F s u) us := rfl
      rw [hrun]
      obtain ⟨s0, hs0⟩ : ∃ s0 : TS K, s0 =
          { (s.setDev 0 ((s.dev 0).pulses F u.sgd)) with idx := s.idx + 1 } := ⟨_, rfl⟩
      have hupd : p.update F s u = p.reduce ((List.range p.n).foldl
          (p.maybeTransfer F u.lr u.mBatch u.dr) s0) := by
        rw [hs0]; rfl
      have a1 : s0.slice = s.slice := by rw [hs0]; rfl
      have a2 : s0.idx = t + 1 := by rw [hs0, ← h1]
      have a3 : s0.log = s.log := by rw [hs0]; rfl
      obtain ⟨i1, i2, i3, i4, i5⟩ := fold_schedule F p u.lr u.mBatch u.dr hin j (List.range p.n)
        List.nodup_range s0 (by rw [a1]; exact hsl)
      have hre : ∀ w : TS K, reads (p.reduce w) j = reads w j := fun w => rfl
      have hev' := hev u (List.mem_cons_self ..)
      have hlr' := hlr u (List.mem_cons_self ..)
      have hne : ¬ (p.transferLR j u.lr = 0 ∨ min (j + 1) (p.n - 1) = j) := by
        rintro (h | h)
        · exact hlr' h
        · omega
      have hfired : (j ∈ List.range p.n ∧ 0 < p.getEvery j u.mBatch ∧
          s0.idx % p.getEvery j u.mBatch = 0) ↔ e ∣ t + 1 := by
        rw [hev', a2, Nat.dvd_iff_mod_eq_zero]
        constructor
        · exact fun h => h.2.2
        · exact fun h => ⟨List.mem_range.2 (by omega), he, h⟩
      have key := ih (p.update F s u) (t + 1) (fun v hv => hev v (List.mem_cons_of_mem _ hv))
        (fun v hv => hlr v (List.mem_cons_of_mem _ hv))
        (by rw [hupd]; exact i1.trans a2)
        (by rw [hupd]; exact i2)
        (by
          rw [hupd]
          show ((List.range p.n).foldl (p.maybeTransfer F u.lr u.mBatch u.dr) s0).slice j = _
          rw [Nat.succ_div]
          by_cases hd : e ∣ t + 1
          · obtain ⟨c1, -⟩ := i3 (hfired.2 hd)
            rw [c1, if_pos hd, a1, h2, hmin, Nat.mod_add_mod, Nat.mul_add, Nat.mul_one]
          · obtain ⟨c1, -⟩ := i4 (fun h => hd (hfired.1 h))
            rw [c1, if_neg hd, a1, h2, Nat.add_zero])
        (by
          rw [hupd, hre, Nat.succ_div]
          by_cases hd : e ∣ t + 1
          · obtain ⟨-, c2⟩ := i3 (hfired.2 hd)
            rw [c2, if_neg hne, if_pos hd, hmin, Nat.mul_add, Nat.mul_one, List.range_add,
              List.map_append, a1, h2]
            have : reads s0 j = reads s j := by rw [reads, a3, reads]
            rw [this, h3, List.map_map]
            congr 1
            apply List.map_congr_left
            intro i _
            simp [Nat.mod_add_mod]
          · obtain ⟨-, c2⟩ := i4 (fun h => hd (hfired.1 h))
            rw [c2, if_neg hd, Nat.add_zero, ← h3, reads, a3, reads])
        (by
          intro q hq
          rw [hupd] at hq
          rcases i5 q hq with h | ⟨h', h, hh⟩
          · rw [a3] at h; exact h4 q h
          · have := List.mem_range.1 h'
            rw [h] at hh ⊢
            omega)
      have e1 : t + 1 + us.length = t + (u :: us).length := by simp; omega
      rw [e1] at key
      exact key
  have := inv us s 0 hev hlr h0 (fun k => by rw [hsl k]; exact hin) (by simp [hsl])
    (by simp [reads, hlog]) (by simp [hlog])
  simpa using this

/-- **C34 (every column is transferred equally often).**  In the situation of `C34_schedule`, the
numbers of reads of any two columns of a device differ by at most one, at any time. -/
theorem C34_fair (F : Fns K) (p : TPar K) (hin : 0 < p.inSize) (hn : p.nReads ≤ p.inSize)
    (s : TS K) (h0 : s.idx = 0) (hsl : ∀ k, s.slice k = 0) (hlog : s.log = [])
    (us : List (Upd K)) (j e : Nat) (hj : j + 1 < p.n) (he : 0 < e)
    (hev : ∀ u ∈ us, p.getEvery j u.mBatch = e) (hlr : ∀ u ∈ us, p.transferLR j u.lr ≠ 0)
    (c c' : Nat) (hc : c < p.inSize) (hc' : c' < p.inSize) :
    (reads (p.run F s us) j).count c ≤ (reads (p.run F s us) j).count c' + 1 ∧
    p.nReads * (us.length / e) / p.inSize ≤ (reads (p.run F s us) j).count c := by
  rw [(C34_schedule F p hin hn s h0 hsl hlog us j e hj he hev hlr).1]
  have key : ∀ N c, c < p.inSize → ((List.range N).map (· % p.inSize)).count c =
      N / p.inSize + if c < N % p.inSize then 1 else 0 := by
    intro N c hc
    have h1 : ((List.range N).map (· % p.inSize)).count c =
        N.count (fun k => k ≡ c [MOD p.inSize]) := by
      rw [List.count, List.countP_map, Nat.count]
      apply List.countP_congr
      intro k _
      simp [Nat.ModEq, Nat.mod_eq_of_lt hc]
    rw [h1, Nat.count_modEq_card _ hin, Nat.mod_eq_of_lt hc]
  rw [key _ c hc, key _ c' hc']
  constructor
  · split_ifs <;> omega
  · omega

/-- **C34 (no transfer).**  A device with transfer period zero, with transfer learning rate zero, or
in last position never transfers anything. -/
theorem C34_no_transfer (F : Fns K) (p : TPar K) (hin : 0 < p.inSize) (s : TS K)
    (hsl : ∀ k, s.slice k < p.inSize) (us : List (Upd K)) (j : Nat)
    (h : (∀ u ∈ us, p.getEvery j u.mBatch = 0) ∨ (∀ u ∈ us, p.transferLR j u.lr = 0) ∨
      p.n ≤ j + 1) :
    reads (p.run F s us) j = reads s j := by
  induction us generalizing s with
  | nil => rfl
  | cons u us ih =>
    have hrun : p.run F s (u :: us) = p.run F (p.update F s u) us := rfl
    obtain ⟨s0, hs0⟩ : ∃ s0 : TS K, s0 =
        { (s.setDev 0 ((s.dev 0).pulses F u.sgd)) with idx := s.idx + 1 } := ⟨_, rfl⟩
    have hupd : p.update F s u = p.reduce ((List.range p.n).foldl
        (p.maybeTransfer F u.lr u.mBatch u.dr) s0) := by
      rw [hs0]; rfl
    have a1 : s0.slice = s.slice := by rw [hs0]; rfl
    have a3 : reads s0 j = reads s j := by rw [hs0]; rfl
    obtain ⟨i1, i2, i3, i4, i5⟩ := fold_schedule F p u.lr u.mBatch u.dr hin j (List.range p.n)
      List.nodup_range s0 (by rw [a1]; exact hsl)
    have hstep : reads (p.update F s u) j = reads s j := by
      rw [hupd]
      show reads (List.foldl _ _ _) j = _
      by_cases hf : j ∈ List.range p.n ∧ 0 < p.getEvery j u.mBatch ∧
          s0.idx % p.getEvery j u.mBatch = 0
      · obtain ⟨-, c2⟩ := i3 hf
        rw [c2, a3, if_pos]
        · simp
        · rcases h with h | h | h
          · have := h u (List.mem_cons_self ..)
            omega
          · exact Or.inl (h u (List.mem_cons_self ..))
          · right
            have := List.mem_range.1 hf.1
            omega
      · rw [(i4 hf).2, a3]
    rw [hrun, ih (p.update F s u) (by rw [hupd]; exact i2) ?_, hstep]
    rcases h with h | h | h
    · exact Or.inl fun v hv => h v (List.mem_cons_of_mem _ hv)
    · exact Or.inr (Or.inl fun v hv => h v (List.mem_cons_of_mem _ hv))
    · exact Or.inr (Or.inr h)

/-- **C34 (finding: default periods of the slower devices).**  The documentation says that each next
transfer period is multiplied by `x_size / n_reads_per_transfer`; the code multiplies by the number
of *outputs* of the read direction: `d_size` for column transfer.  Hence for column transfer the
documented period holds for all devices exactly when `d_size = x_size` (three or more devices with
nonzero periods). -/
theorem C34_default_period_finding (te : K) (hte : te ≠ 0) (p : TPar K) (hc : p.cols = true)
    (hr : 0 < p.nReads) (n : Nat) (hn : 3 ≤ n) :
    (∀ j, j + 1 < n → defaultEvery te p.outSize p.nReads n true (j) =
      te * ((p.xSize : K) / (p.nReads : K)) ^ j) ↔ p.dSize = p.xSize := by
  have hr' : (p.nReads : K) ≠ 0 := by exact_mod_cast hr.ne'
  have ho : p.outSize = p.dSize := by simp [TPar.outSize, hc]
  rw [ho]
  constructor
  · intro h
    have h1 := h 1 (by omega)
    rw [defaultEvery, if_neg (by simp; omega), pow_one, pow_one] at h1
    have h2 := mul_left_cancel₀ hte h1
    rw [div_left_inj' hr'] at h2
    exact_mod_cast h2
  · intro h j hj
    rw [defaultEvery, if_neg (by simp; omega), h]

/-- **C34 (visible weight).**  After every update, for every history, the visible weight is the
`gamma`-weighted sum of the hidden device weights, unless the compound is in the fully hidden mode
(`Σ` of all weightings but the last is zero and the last is one); there it is the weight of the last
device. -/
theorem C34_visible_weight (F : Fns K) (p : TPar K) (s : TS K) (us : List (Upd K)) (u : Upd K)
    (k : Nat) :
    let s' := p.run F s (us ++ [u])
    (¬ (((List.range (p.n - 1)).map p.gamma).sum = 0 ∧ p.gamma (p.n - 1) = 1) →
      s'.vis k = ((List.range p.n).map fun j => p.gamma j * ((s'.dev j).st k).vis).sum) ∧
    (((List.range (p.n - 1)).map p.gamma).sum = 0 ∧ p.gamma (p.n - 1) = 1 →
      s'.vis k = ((s'.dev (p.n - 1)).st k).vis) := by
  have hrun : p.run F s (us ++ [u]) = p.update F (p.run F s us) u := by
    simp [TPar.run, List.foldl_append]
  simp only [hrun]
  constructor
  · intro h
    have hf : p.fullyHidden = false := by
      unfold TPar.fullyHidden
      rw [Bool.and_eq_false_iff, decide_eq_false_iff_not, decide_eq_false_iff_not]
      by_cases h1 : ((List.range (p.n - 1)).map p.gamma).sum = 0
      · exact Or.inr fun h2 => h ⟨h1, h2⟩
      · exact Or.inl h1
    simp [TPar.update, TPar.finish, TPar.reduce, hf]
  · rintro ⟨h1, h2⟩
    have hf : p.fullyHidden = true := by simp [TPar.fullyHidden, h1, h2]
    simp [TPar.update, TPar.finish, TPar.reduce, hf]

end Aihw.Pulsed
