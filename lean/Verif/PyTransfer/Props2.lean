import Verif.PyTransfer.Props
import Mathlib.Data.Nat.ModEq
import Mathlib.Data.List.Induction

/-!
# C55, continued: order, schedule, choppers, reference, resuming
-/
namespace Aihw.PyTransfer

open Aihw.Pulsed (trunc0)

variable {G W Ω : Type}

/-! ## Order and schedule -/

/-- Induction over a history with column transfer: no index errors. -/
theorem run_inv_cols (o : Ops G W Ω) (c : Cfg) (hc : c.cols = true) (hx : 0 < c.xSize)
    (Inv : St G W Ω → Prop) (us : List (Upd Ω))
    (hg : ∀ u ∈ us, ∀ s, Inv s → Inv (c.grad o s u))
    (ht : ∀ u ∈ us, ∀ s l, Inv s → Inv (c.transfer o s u l))
    (s : St G W Ω) (h : Inv s) : Inv (c.run o s us) := by
  have hT : c.tIn = c.xSize := by unfold Cfg.tIn; rw [if_pos hc]
  induction us generalizing s with
  | nil => exact h
  | cons u us ih =>
    refine ih (fun v hv => hg v (List.mem_cons_of_mem _ hv)) (fun v hv => ht v (List.mem_cons_of_mem _ hv)) _ ?_
    have hg' := hg u (List.mem_cons_self ..) s h
    beta_reduce
    rcases update_shape o c s u with e | e | ⟨hk, e⟩ | ⟨l, -, hk, e⟩
    · rw [e]; exact h
    · rw [e]; exact hg'
    · exfalso
      unfold Cfg.nextIdx at hk
      rw [hT] at hk
      have := Nat.mod_lt (s.idx + 1) hx
      omega
    · rw [e]; exact ht u (List.mem_cons_self ..) _ l hg'

theorem getElem?_snoc {α : Type} (l : List α) (a b : α) (q : Nat) (h : (l ++ [a])[q]? = some b) :
    l[q]? = some b ∨ (q = l.length ∧ b = a) := by
  rcases lt_trichotomy q l.length with hq | hq | hq
  · rw [List.getElem?_append_left hq] at h; exact Or.inl h
  · subst hq
    rw [List.getElem?_concat_length] at h
    exact Or.inr ⟨rfl, (Option.some.inj h).symm⟩
  · rw [List.getElem?_eq_none (by simp; omega)] at h
    cases h

/-- **C55 (order).**  With column transfer, in every history (also with failing updates) the reads
visit the columns `1, 2, …, n - 1, 0, 1, …` in this order. -/
theorem C55_order (o : Ops G W Ω) (c : Cfg) (hc : c.cols = true) (hx : 0 < c.xSize) (us : List (Upd Ω))
    (s : St G W Ω) (hs : s.reads = []) (hi : s.idx = 0) :
    (∀ q r, (c.run o s us).reads[q]? = some r → r.k = (q + 1) % c.xSize) ∧
    (c.run o s us).idx = (c.run o s us).reads.length % c.xSize := by
  have hT : c.tIn = c.xSize := by unfold Cfg.tIn; rw [if_pos hc]
  refine run_inv_cols o c hc hx (fun t => (∀ q r, t.reads[q]? = some r → r.k = (q + 1) % c.xSize) ∧
    t.idx = t.reads.length % c.xSize) us ?_ ?_ s ?_
  · intro u _ t h; exact h
  · intro u _ t l ⟨h1, h2⟩
    have hk : c.nextIdx t = (t.reads.length + 1) % c.xSize := by
      unfold Cfg.nextIdx; rw [hT, h2, Nat.mod_add_mod]
    rw [transfer_reads]
    refine ⟨?_, ?_⟩
    · intro q r hq
      rcases getElem?_snoc _ _ _ _ hq with h | ⟨h, h'⟩
      · exact h1 q r h
      · rw [h', h]; exact hk
    · rw [List.length_append, List.length_singleton]; exact hk
  · rw [hs, hi]; simp

/-- The samples seen in a history. -/
def samples (us : List (Upd Ω)) : Nat := (us.map fun u => u.x.length).sum

theorem lrH_ok (c : Cfg) (s : St G W Ω) (u : Upd Ω) (T : Nat) (hT : 0 < T) (ht : 0 < c.tIn)
    (hA : 0 < c.granA) (hC : 0 < c.granC)
    (hl : c.correctGrad = true → 0 < c.fastLr ∧ 0 < c.lrAuto) :
    ∃ l, c.lrH T u.lr (c.lrA s u).1 = .ok l := by
  have hb : bufferUnit c T ≠ 0 := by
    unfold bufferUnit
    have h1 : (0 : ℚ) < c.tIn := by exact_mod_cast ht
    have h2 : (0 : ℚ) < T := by exact_mod_cast hT
    refine mul_ne_zero (mul_ne_zero ?_ hA.ne') ?_
    · split_ifs with h
      · exact h.ne'
      · exact one_ne_zero
    · split_ifs with h
      · exact (div_pos h (mul_pos h1 h2)).ne'
      · exact one_ne_zero
  have hA' : c.correctGrad = true → (c.lrA s u).1 ≠ 0 := by
    intro h
    obtain ⟨h1, h2⟩ := hl h
    unfold Cfg.lrA
    split_ifs with h3
    · simp only
      split_ifs with h4
      · exact (div_pos h2 (mul_pos h4.1 h4.2)).ne'
      · exact h2.ne'
    · exact h1.ne'
  by_cases h : c.correctGrad = true
  · exact ⟨_, (C55_transfer_lr c T u.lr _).2.1 h (hA' h) hA.ne' hC.ne' hb⟩
  · exact ⟨_, (C55_transfer_lr c T u.lr _).1 (by simpa using h) hb⟩

/-- **C55 (schedule).**  Supported settings, a constant period of `T > 0` samples, batches of at most
`T` samples, positive granularities and learning rates: no update of any history fails, after `N`
samples exactly `⌊N / T⌋` slices have been read, in the order `1, 2, …, n - 1, 0, 1, …`. -/
theorem C55_schedule (o : Ops G W Ω) (c : Cfg) (T : Nat) (h0 : 0 < T) (us : List (Upd Ω))
    (hsup : ∀ u ∈ us, ¬ Unsupported c u) (hT : ∀ u ∈ us, c.te u.x.length = T)
    (hm : ∀ u ∈ us, u.x.length ≤ T) (hx : c.tIn ≤ c.xSize) (hpos : 0 < c.tIn)
    (hA : 0 < c.granA) (hC : 0 < c.granC)
    (hl : c.correctGrad = true → 0 < c.fastLr ∧ 0 < c.lrAuto) (s : St G W Ω) (huc : s.uc = 0)
    (hi : s.idx = 0) (hs : s.reads = []) :
    (∀ e ∈ c.errors o s us, e = none) ∧ (c.run o s us).uc = samples us ∧
    (c.run o s us).reads.length = samples us / T ∧
    (∀ q r, (c.run o s us).reads[q]? = some r → r.k = (q + 1) % c.tIn) := by
  have key : ∀ (us : List (Upd Ω)), (∀ u ∈ us, ¬ Unsupported c u) → (∀ u ∈ us, c.te u.x.length = T) →
      (∀ u ∈ us, u.x.length ≤ T) → ∀ t : St G W Ω,
      (t.reads.length = t.uc / T ∧ t.idx = t.reads.length % c.tIn ∧
        ∀ q r, t.reads[q]? = some r → r.k = (q + 1) % c.tIn) →
      (∀ e ∈ c.errors o t us, e = none) ∧ (c.run o t us).uc = t.uc + samples us ∧
      (c.run o t us).reads.length = (t.uc + samples us) / T ∧
      (∀ q r, (c.run o t us).reads[q]? = some r → r.k = (q + 1) % c.tIn) := by
    intro us
    induction us with
    | nil => 
      intro _ _ _ t ⟨h1, h2, h3⟩
      refine ⟨by simp [Cfg.errors], by simp [samples, Cfg.run], by simpa [samples, Cfg.run] using h1, h3⟩
    | cons u us ih =>
      intro hsup hT hm t ⟨h1, h2, h3⟩
      have hu := hsup u (List.mem_cons_self ..)
      have hTu := hT u (List.mem_cons_self ..)
      have hmu := hm u (List.mem_cons_self ..)
      obtain ⟨p1, p2, p3, p4, p5⟩ := C55_period o c t u hu T hTu h0
      have hcases : (t.uc + u.x.length) / T = t.uc / T ∨ (t.uc + u.x.length) / T = t.uc / T + 1 := by
        have a1 : (t.uc + u.x.length) / T ≤ (t.uc + T) / T := Nat.div_le_div_right (by omega)
        rw [Nat.add_div_right _ h0] at a1
        have a2 : t.uc / T ≤ (t.uc + u.x.length) / T := Nat.div_le_div_right (by omega)
        omega
      have step : (c.update o t u).2.1 = none ∧ ((c.update o t u).1.reads.length = (c.update o t u).1.uc / T ∧
          (c.update o t u).1.idx = (c.update o t u).1.reads.length % c.tIn ∧
          ∀ q r, (c.update o t u).1.reads[q]? = some r → r.k = (q + 1) % c.tIn) := by
        have hr : ¬ c.rejects u = true := fun h => hu ((rejects_iff c u).1 h)
        rcases hcases with hc | hc
        · obtain ⟨q1, q2⟩ := p3 hc
          refine ⟨q1, ?_, ?_, ?_⟩
          · rw [q2, p1, hc]; exact h1
          · rw [q2]
            have : (c.update o t u).1.idx = t.idx := by
              rcases update_shape o c t u with h | h | ⟨hk, h⟩ | ⟨l, -, hk, h⟩
              · rw [h]
              · rw [h]; rfl
              · exfalso
                unfold Cfg.nextIdx at hk
                have := Nat.mod_lt (t.idx + 1) hpos
                omega
              · exfalso
                rw [h, transfer_reads] at q2
                have := congrArg List.length q2
                simp [Cfg.grad] at this
            rw [this]; exact h2
          · rw [q2]; exact h3
        · obtain ⟨l, hl'⟩ := lrH_ok c t u T h0 hpos hA hC hl
          have hnone := ((C55_row_transfer o c t u hu T hTu h0 hc l hl').1).2
            (lt_of_lt_of_le (Nat.mod_lt _ hpos) hx)
          refine ⟨hnone, ?_⟩
          rcases p4 hc with ⟨r, -, hr2⟩ | ⟨hne, -⟩
          · have hshape : ∃ l, (c.update o t u).1 = c.transfer o (c.grad o t u) u l := by
              rcases update_shape o c t u with h | h | ⟨hk, h⟩ | ⟨l, -, hk, h⟩
              · exfalso
                rw [h] at hr2
                have := congrArg List.length hr2
                simp at this
              · exfalso
                rw [h] at hr2
                have := congrArg List.length hr2
                simp [Cfg.grad] at this
              · exfalso
                rw [h] at hr2
                have := congrArg List.length hr2
                simp [Cfg.grad] at this
              · exact ⟨l, h⟩
            obtain ⟨l', hsh⟩ := hshape
            have hk : c.nextIdx (c.grad o t u) = (t.reads.length + 1) % c.tIn := by
              show (t.idx + 1) % c.tIn = _
              rw [h2, Nat.mod_add_mod]
            have hlen : (c.update o t u).1.reads.length = t.reads.length + 1 := by rw [hr2]; simp
            refine ⟨?_, ?_, ?_⟩
            · rw [hlen, p1, hc, h1]
            · rw [hlen, hsh]; exact hk
            · rw [hsh, transfer_reads]
              intro q r' hq
              rcases getElem?_snoc _ _ _ _ hq with h | ⟨h, h'⟩
              · exact h3 q r' h
              · rw [h', h]; exact hk
          · exact absurd hnone hne
      obtain ⟨e1, e2⟩ := step
      obtain ⟨r1, r2, r3, r4⟩ := ih (fun v hv => hsup v (List.mem_cons_of_mem _ hv))
        (fun v hv => hT v (List.mem_cons_of_mem _ hv)) (fun v hv => hm v (List.mem_cons_of_mem _ hv)) _ e2
      have hsam : samples (u :: us) = u.x.length + samples us := by simp [samples]
      have hrun : c.run o t (u :: us) = c.run o (c.update o t u).1 us := rfl
      rw [hrun, hsam, ← Nat.add_assoc, ← p1]
      refine ⟨?_, r2, r3, r4⟩
      intro e he
      rcases List.mem_cons.1 he with h | h
      · rw [h]; exact e1
      · exact r1 e h
  obtain ⟨k1, k2, k3, k4⟩ := key us hsup hT hm s ⟨by rw [hs, huc]; simp, by rw [hs, hi]; simp, by
    rw [hs]; simp⟩
  rw [huc, Nat.zero_add] at k2 k3
  exact ⟨k1, k2, k3, k4⟩

/-! ## Choppers -/

/-- **C55 (the read undoes the sign of the gradient).**  Column transfer, choppers initially `±1`.  As
long as column `j` is not read, its chopper does not change; every gradient update in this time
multiplies column `j` of the inputs by that chopper, and the next read of column `j` is multiplied by
the same chopper, so that the two signs cancel. -/
theorem C55_signs (o : Ops G W Ω) (c : Cfg) (us : List (Upd Ω))
    (s : St G W Ω) (hs : ∀ j, s.chop j = 1 ∨ s.chop j = -1) (j : Nat) (t : St G W Ω)
    (ht : t = c.run o s us) (hno : (readsOf t.reads j).length = (readsOf s.reads j).length) :
    t.chop j = s.chop j ∧ s.chop j * s.chop j = 1 ∧
    ∀ u : Upd Ω, ¬ Unsupported c u →
      (∃ e : GU, (c.update o t u).1.glog = t.glog ++ [e] ∧ e.d = u.d ∧
        ∀ (b : Nat) (row : Vec), u.x[b]? = some row → ∃ row' : Vec, e.x[b]? = some row' ∧
          row'[j]? = row[j]?.map (· * s.chop j)) ∧
      (∀ r, (c.update o t u).1.reads = t.reads ++ [r] → r.k = j → r.sign = s.chop j) := by
  have key : (readsOf s.reads j).length ≤ (readsOf t.reads j).length ∧
      ((readsOf t.reads j).length = (readsOf s.reads j).length → t.chop j = s.chop j) := by
    rw [ht]
    refine run_inv o c (fun t => (readsOf s.reads j).length ≤ (readsOf t.reads j).length ∧
      ((readsOf t.reads j).length = (readsOf s.reads j).length → t.chop j = s.chop j)) us ?_ ?_ ?_ s
      ⟨le_rfl, fun _ => rfl⟩
    · intro u _ t h; exact h
    · intro t _ h; exact h
    · intro u _ t l _ ⟨h1, h2⟩
      rw [transfer_reads, readsOf_append]
      by_cases hk : (rdOf o c t u l).k = j
      · rw [if_pos hk, List.length_append, List.length_singleton]
        exact ⟨by omega, fun h => by omega⟩
      · rw [if_neg hk, List.append_nil]
        refine ⟨h1, fun h => ?_⟩
        rw [← h2 h]
        show (if c.switch t u (c.nextIdx t) then fun j => if j = c.nextIdx t then -t.chop (c.nextIdx t)
          else t.chop j else t.chop) j = t.chop j
        have hk' : ¬ j = c.nextIdx t := fun h => hk h.symm
        split_ifs
        · simp only [if_neg hk']
        · rfl
  have hch := key.2 hno
  refine ⟨hch, ?_, ?_⟩
  · rcases hs j with h | h <;> rw [h] <;> norm_num
  · intro u hu
    have hr : ¬ c.rejects u = true := fun h => hu ((rejects_iff c u).1 h)
    have hx : ∀ (b : Nat) (row : Vec), u.x[b]? = some row → ∃ row' : Vec, (chopRows t.chop u.x)[b]? = some row' ∧
          row'[j]? = row[j]?.map (· * s.chop j) := by
      intro b row hb
      refine ⟨row.mapIdx fun j v => v * t.chop j, ?_, ?_⟩
      · unfold chopRows
        rw [List.getElem?_map, hb]; rfl
      · rw [List.getElem?_mapIdx, hch]
    constructor
    · refine ⟨⟨(c.lrA t u).1, chopRows t.chop u.x, u.d⟩, ?_, rfl, hx⟩
      unfold Cfg.update
      rw [if_neg hr]
      unfold Cfg.body Cfg.tryTransfer
      simp only
      cases c.lrH (c.te u.x.length) u.lr (c.lrA t u).1 with
      | error e => simp only; split_ifs <;> rfl
      | ok l => simp only; split_ifs <;> rfl
    · intro r hr2 hrk
      rcases update_shape o c t u with h | h | ⟨hk, h⟩ | ⟨l, -, hk, h⟩
      · exfalso
        rw [h] at hr2
        have := congrArg List.length hr2
        simp at this
      · exfalso
        rw [h] at hr2
        have := congrArg List.length hr2
        simp [Cfg.grad] at this
      · exfalso
        rw [h] at hr2
        have := congrArg List.length hr2
        simp [Cfg.grad] at this
      · rw [h, transfer_reads] at hr2
        have hr' := (List.singleton_inj.1 (List.append_cancel_left hr2)).symm
        rw [← hch, ← hrk, hr']
        rfl

/-- How often slice `k` has been read. -/
def timesRead (h : List (Rd Ω)) (k : Nat) : Nat := (readsOf h k).length

/-- **C55 (regular choppers).**  Column transfer with regular choppers of period `P = round(1 / p)`,
`0 < p ≤ 1`.  For every history the chopper of column 0 has switched `⌊V / P⌋` times, where `V` is the
number of reads of the column, i.e. after every `P`-th read; the choppers of the other columns have
switched `⌈V / P⌉` times (finding: they switch already at the very first read of the column, when the
gradient accumulated so far is read, and then after every `P` reads). -/
theorem C55_regular_chopper (o : Ops G W Ω) (c : Cfg) (hc : c.cols = true) (hx : 0 < c.xSize)
    (hr : c.inRandom = false) (hp : 0 < c.inProb) (hp1 : c.inProb ≤ 1) (P : Nat)
    (hP : (P : ℤ) = roundHE (1 / c.inProb)) (us : List (Upd Ω)) (s : St G W Ω) (hs : s.reads = [])
    (hi : s.idx = 0) (hcc : s.cc = 0) (j : Nat) (hj : j < c.xSize) :
    1 ≤ P ∧
    (c.run o s us).chop j = s.chop j *
      (-1) ^ (if j = 0 then timesRead (c.run o s us).reads j / P
        else (timesRead (c.run o s us).reads j + (P - 1)) / P) := by
  have hT : c.tIn = c.xSize := by unfold Cfg.tIn; rw [if_pos hc]
  have hper : c.period = P := by
    unfold Cfg.period
    rw [if_pos hp, ← hP]; rfl
  have hP1 : 1 ≤ P := by
    have h1 : (1 : ℚ) ≤ 1 / c.inProb := by rw [le_div_iff₀ hp]; linarith
    have h2 := roundHE_mono h1
    have h3 : roundHE (1 : ℚ) = 1 := by exact_mod_cast roundHE_intCast 1
    omega
  refine ⟨hP1, ?_⟩
  have key := run_inv_cols o c hc hx (fun t =>
    t.idx = t.reads.length % c.xSize ∧ t.cc = t.reads.length / c.xSize % P ∧
    timesRead t.reads j = t.reads.length / c.xSize +
      (if 1 ≤ j ∧ j ≤ t.reads.length % c.xSize then 1 else 0) ∧
    t.chop j = s.chop j * (-1) ^ (if j = 0 then timesRead t.reads j / P
        else (timesRead t.reads j + (P - 1)) / P)) us ?_ ?_ s ?_
  · exact key.2.2.2
  · intro u _ t h; exact h
  · intro u _ t l ⟨h1, h2, h3, h4⟩
    have hk : c.nextIdx t = (t.reads.length + 1) % c.xSize := by
      unfold Cfg.nextIdx; rw [hT, h1, Nat.mod_add_mod]
    have hlen : (c.transfer o t u l).reads.length = t.reads.length + 1 := by
      rw [transfer_reads]; simp
    have htr : timesRead (c.transfer o t u l).reads j = timesRead t.reads j +
        (if c.nextIdx t = j then 1 else 0) := by
      unfold timesRead
      rw [transfer_reads, readsOf_append, List.length_append]
      congr 1
      by_cases h : c.nextIdx t = j
      · rw [if_pos h, if_pos (show (rdOf o c t u l).k = j from h)]; rfl
      · rw [if_neg h, if_neg (show ¬ (rdOf o c t u l).k = j from h)]; rfl
    have hcc' : (c.transfer o t u l).cc = c.nextCC t (c.nextIdx t) := rfl
    have hchop : (c.transfer o t u l).chop j =
        if c.nextIdx t = j ∧ c.nextCC t (c.nextIdx t) = 0 then -t.chop j else t.chop j := by
      show (if c.switch t u (c.nextIdx t) then fun j => if j = c.nextIdx t then -t.chop (c.nextIdx t)
          else t.chop j else t.chop) j = _
      unfold Cfg.switch
      rw [if_pos hp.ne', hr]
      simp only [Bool.false_eq_true, if_false, decide_eq_true_eq]
      by_cases hb : c.nextCC t (c.nextIdx t) = 0
      · rw [if_pos hb]
        by_cases ha : c.nextIdx t = j
        · rw [if_pos (show c.nextIdx t = j ∧ c.nextCC t (c.nextIdx t) = 0 from ⟨ha, hb⟩)]
          simp only [ha, if_true]
        · rw [if_neg (show ¬ (c.nextIdx t = j ∧ c.nextCC t (c.nextIdx t) = 0) from fun h => ha h.1)]
          simp only [if_neg (fun h : j = c.nextIdx t => ha h.symm)]
      · rw [if_neg hb]
        rw [if_neg (show ¬ (c.nextIdx t = j ∧ c.nextCC t (c.nextIdx t) = 0) from fun h => hb h.2)]
    have hncc : c.nextCC t (c.nextIdx t) = (t.reads.length + 1) / c.xSize % P := by
      unfold Cfg.nextCC
      rw [h2, hper]
      by_cases hz : c.nextIdx t = 0
      · rw [if_pos ⟨hp.ne', hr, hz⟩]
        rw [hk] at hz
        rw [Nat.succ_div_of_mod_eq_zero hz, Nat.mod_add_mod]
      · rw [if_neg (fun h => hz h.2.2)]
        rw [hk] at hz
        rw [Nat.succ_div_of_mod_ne_zero hz]
    have hdiv : (t.reads.length + 1) / c.xSize = t.reads.length / c.xSize +
        if (t.reads.length + 1) % c.xSize = 0 then 1 else 0 := by
      by_cases hz : (t.reads.length + 1) % c.xSize = 0
      · rw [if_pos hz, Nat.succ_div_of_mod_eq_zero hz]
      · rw [if_neg hz, Nat.succ_div_of_mod_ne_zero hz]; rfl
    have hmod : (t.reads.length + 1) % c.xSize = 0 ∧ t.reads.length % c.xSize = c.xSize - 1 ∨
        (t.reads.length + 1) % c.xSize = t.reads.length % c.xSize + 1 := by
      rw [← Nat.mod_add_mod]
      have hlt := Nat.mod_lt t.reads.length hx
      rcases Nat.lt_or_ge (t.reads.length % c.xSize + 1) c.xSize with h | h
      · right; exact Nat.mod_eq_of_lt h
      · left
        have : t.reads.length % c.xSize + 1 = c.xSize := by omega
        rw [this]
        exact ⟨Nat.mod_self _, by omega⟩
    have htimes : timesRead (c.transfer o t u l).reads j = (t.reads.length + 1) / c.xSize +
        (if 1 ≤ j ∧ j ≤ (t.reads.length + 1) % c.xSize then 1 else 0) := by
      rw [htr, h3, hdiv, hk]
      have hlt := Nat.mod_lt t.reads.length hx
      clear hdiv hncc hchop hcc' htr hlen hk h4 h3 h2 h1
      generalize t.reads.length / c.xSize = A
      generalize t.reads.length % c.xSize = r at hmod hlt ⊢
      generalize (t.reads.length + 1) % c.xSize = r' at hmod ⊢
      clear hP hP1 hper hs
      generalize c.xSize = N at *
      split_ifs <;> omega
    refine ⟨?_, ?_, ?_, ?_⟩
    · rw [hlen]; exact hk
    · rw [hlen, hcc', hncc]
    · rw [hlen]; exact htimes
    · rw [hchop]
      by_cases ha : c.nextIdx t = j
      · rw [htr, if_pos ha]
        rw [hncc]
        by_cases hj0 : j = 0
        · rw [if_pos hj0] at h4 ⊢
          have hz : (t.reads.length + 1) % c.xSize = 0 := by rw [← hk, ha, hj0]
          have hV : (t.reads.length + 1) / c.xSize = timesRead t.reads j + 1 := by
            rw [hdiv, if_pos hz, h3, hj0]; simp
          rw [hV]
          by_cases hd : (timesRead t.reads j + 1) % P = 0
          · rw [if_pos ⟨ha, hd⟩, Nat.succ_div_of_mod_eq_zero hd, h4, pow_succ]; ring
          · rw [if_neg (fun h => hd h.2), Nat.succ_div_of_mod_ne_zero hd, h4]
        · rw [if_neg hj0] at h4 ⊢
          have hz : (t.reads.length + 1) % c.xSize = j := by rw [← hk, ha]
          have hV : (t.reads.length + 1) / c.xSize = timesRead t.reads j := by
            have hlt := Nat.mod_lt t.reads.length hx
            rw [hdiv, if_neg (by omega), h3]
            rcases hmod with ⟨a, b⟩ | a
            · omega
            · rw [if_neg (by omega)]
          rw [hV]
          have e1 : (timesRead t.reads j + 1 + (P - 1)) / P = timesRead t.reads j / P + 1 := by
            rw [show timesRead t.reads j + 1 + (P - 1) = timesRead t.reads j + P by omega,
              Nat.add_div_right _ hP1]
          rw [e1]
          have hdm := Nat.div_add_mod (timesRead t.reads j) P
          have hlt := Nat.mod_lt (timesRead t.reads j) hP1
          by_cases hd : timesRead t.reads j % P = 0
          · rw [if_pos ⟨ha, hd⟩, h4, pow_succ]
            have e2 : (timesRead t.reads j + (P - 1)) / P = timesRead t.reads j / P := by
              conv_lhs => rw [← hdm]
              rw [hd, Nat.add_zero, Nat.mul_add_div hP1,
                Nat.div_eq_of_lt (show P - 1 < P by omega), Nat.add_zero]
            rw [e2]; ring
          · rw [if_neg (fun h => hd h.2), h4]
            have e2 : (timesRead t.reads j + (P - 1)) / P = timesRead t.reads j / P + 1 := by
              conv_lhs => rw [← hdm]
              rw [Nat.add_assoc, Nat.mul_add_div hP1]
              congr 1
              rw [show timesRead t.reads j % P + (P - 1) = (timesRead t.reads j % P - 1) + P by omega,
                Nat.add_div_right _ hP1, Nat.div_eq_of_lt (by omega)]
            rw [e2]
      · rw [if_neg (fun h => ha h.1), htr, if_neg ha, Nat.add_zero]
        exact h4
  · rw [hs, hi, hcc]
    refine ⟨by simp, by simp, ?_, ?_⟩
    · have : ¬ (1 ≤ j ∧ j ≤ 0) := by omega
      rw [List.length_nil, Nat.zero_mod, if_neg this]
      simp [timesRead, readsOf]
    · have : (P - 1) / P = 0 := Nat.div_eq_of_lt (by omega)
      simp [timesRead, readsOf, this]

end Aihw.PyTransfer
