import Verif.GpuNm.Man
import Mathlib.Tactic.FieldSimp

/-!
# C98: noise management on the GPU over histories of batches
-/
open scoped BigOperators

namespace Aihw.GpuNm

variable {K : Type} [Field K] [LinearOrder K] [IsStrictOrderedRing K] [FloorRing K]

/-! ## Reductions of a batch -/

/-- The absolute maxima are right in every order of the threads, unless something of an earlier batch is
left. -/
theorem C98_absmax (n N : ℕ) (junk : ℕ → K) (earlier : List (Call K)) (c : Call K)
    (hpos : ∀ d ∈ earlier, 1 ≤ d.m) (hc : c.Good n N) (b : ℕ) (hb : b < c.m) (hf : Fresh b c earlier) :
    IsAbsMax n (c.sample n b) ((amaxAcc.run n N junk (c :: earlier)).val b) := by
  rw [value_right amax_laws earlier c hpos hc b hb hf]
  exact total_amax _ _ _ rfl

/-- The same for maxima. -/
theorem C98_max (n N : ℕ) (lowest : K) (junk : ℕ → K) (earlier : List (Call K)) (c : Call K)
    (hpos : ∀ d ∈ earlier, 1 ≤ d.m) (hc : c.Good n N) (hn : 1 ≤ n) (b : ℕ) (hb : b < c.m)
    (hlow : ∀ i : ℕ, lowest ≤ c.input i) (hf : Fresh b c earlier) :
    IsMax n (c.sample n b) (((maxAcc lowest).run n N junk (c :: earlier)).val b) := by
  rw [value_right (max_laws lowest) earlier c hpos hc b hb hf]
  obtain ⟨n, rfl⟩ := Nat.exists_eq_add_of_le' hn
  exact total_max _ _ _ fun j => hlow _

/-- The same for the sums of positive and of negative values. -/
theorem C98_sums (n N : ℕ) (junk : ℕ → K) (earlier : List (Call K)) (c : Call K)
    (hpos : ∀ d ∈ earlier, 1 ≤ d.m) (hc : c.Good n N) (b : ℕ) (hb : b < c.m) (hf : Fresh b c earlier) :
    (psumAcc.run n N junk (c :: earlier)).val b = posSum n (c.sample n b) ∧
      (nsumAcc.run n N junk (c :: earlier)).val b = negSum n (c.sample n b) := by
  rw [value_right psum_laws earlier c hpos hc b hb hf, value_right nsum_laws earlier c hpos hc b hb hf]
  exact ⟨total_psum _ _, total_nsum _ _⟩

/-- Nothing is left of earlier batches if those with the batch dimension first all had the sample. -/
theorem C98_fresh (b : ℕ) (c : Call K) (earlier : List (Call K))
    (h : ∀ d ∈ earlier, d.first → b < d.m) : Fresh b c earlier := by
  refine Or.inr (Or.inr ?_)
  induction earlier with
  | nil => trivial
  | cons d earlier ih =>
    exact ⟨h d List.mem_cons_self,
      fun _ => Or.inr (ih fun e he => h e (List.mem_cons_of_mem _ he))⟩

/-- The exception: after a smaller batch, the next larger one (batch dimension first) has the values of
the batch before the smaller one combined with its own, for all samples the smaller batch did not have. -/
theorem C98_left_over (n N : ℕ) (junk : ℕ → K) (earlier : List (Call K)) (c₁ c₂ c₃ : Call K)
    (hpos : ∀ d ∈ earlier, 1 ≤ d.m) (h1 : c₁.Good n N) (h2 : c₂.first) (h3 : c₃.first)
    (hg : c₃.Good n N) (b : ℕ) (hb1 : b < c₁.m) (hb2 : c₂.m ≤ b) (hb3 : b < c₃.m)
    (hsize : c₃.m ≤ c₁.m) (hf : Fresh b c₁ earlier) :
    (∃ v₁ v₃ : K, IsAbsMax n (c₁.sample n b) v₁ ∧ IsAbsMax n (c₃.sample n b) v₃ ∧
      (amaxAcc.run n N junk (c₃ :: c₂ :: c₁ :: earlier)).val b = max v₃ v₁) ∧
    (psumAcc.run n N junk (c₃ :: c₂ :: c₁ :: earlier)).val b =
      posSum n (c₃.sample n b) + posSum n (c₁.sample n b) := by
  constructor
  · have hv := value_right (junk := junk) amax_laws earlier c₁ hpos h1 b hb1 hf
    refine ⟨_, _, total_amax _ _ _ rfl, total_amax _ _ _ rfl, ?_⟩
    rw [stale_value amax_laws earlier c₁ c₂ c₃ hpos h1.1 h2 h3 hg b hb1 hb2 hb3
      ⟨c₁, List.mem_cons_self, hsize⟩ (by rw [hv]; exact right_absorbs amax_laws c₁ b), hv]
    rfl
  · have hv := value_right (junk := junk) psum_laws earlier c₁ hpos h1 b hb1 hf
    rw [stale_value psum_laws earlier c₁ c₂ c₃ hpos h1.1 h2 h3 hg b hb1 hb2 hb3
      ⟨c₁, List.mem_cons_self, hsize⟩ (by rw [hv]; exact right_absorbs psum_laws c₁ b), hv]
    unfold Acc.right
    rw [total_psum, total_psum]; rfl

/-! ## The noise manager -/

theorem compute_one (n N : ℕ) (lowest : K) (w : Man K) (ty : CppFwd.NM) (io : CppFwd.IO K) (r : Req K)
    (w' : Man K) (h : w.compute n N lowest ty io r = .ok w') : w.step n N lowest ⟨ty, io, r⟩ = w' := by
  unfold Man.step; rw [h]

theorem call_sample (r : Req K) (s : Sched) (n b : ℕ) : (r.call s).sample n b = r.sample n b := rfl

theorem capped_val (io : CppFwd.IO K) (buf : Buf K) (b : ℕ) :
    (capped io buf).val b = limited io.nmThres (buf.val b) := by
  unfold capped limited saturate
  split <;> rfl

theorem amax_value {h : List (Item K)} {buf : Buf K} {n N : ℕ} (hi : Inv amaxAcc (amaxCalls h) buf)
    (r : Req K) (hr : r.Good n N) (b : ℕ) (hb : b < r.m)
    (hf : Fresh b (r.call r.amaxSched) (amaxCalls h)) :
    IsAbsMax n (r.sample n b) ((amaxAcc.compute n N buf (r.call r.amaxSched)).val b) := by
  rw [value_inv amax_laws hi _ ⟨hr.1, hr.2.1⟩ b hb hf]
  exact total_amax _ _ _ rfl

/-- `AbsMax`: after every history, each input is divided by the absolute maximum of its sample, limited
by the threshold. -/
theorem C98_absmax_management (n N : ℕ) (lowest : K) (junk : ℕ → K) (h : List (Item K))
    (hm : ∀ i ∈ h, 1 ≤ i.req.m) (io : CppFwd.IO K) (r : Req K) (hr : r.Good n N) (b : ℕ) (hb : b < r.m)
    (hf : Fresh b (r.call r.amaxSched) (amaxCalls h)) :
    ∃ v : ℕ → K, ∃ a : K, (Man.run n N lowest junk (⟨.absMax, io, r⟩ :: h)).values = some v ∧
      IsAbsMax n (r.sample n b) a ∧ v b = limited io.nmThres a := by
  have hi := (run_inv (n := n) (N := N) (junk := junk) (lowest := lowest) h hm).amax
  exact ⟨_, _, rfl, amax_value hi r hr b hb hf, capped_val _ _ _⟩

/-- `Max`: the maximum. -/
theorem C98_max_management (n N : ℕ) (lowest : K) (junk : ℕ → K) (h : List (Item K))
    (hm : ∀ i ∈ h, 1 ≤ i.req.m) (io : CppFwd.IO K) (r : Req K) (hr : r.Good n N) (hn : 1 ≤ n) (b : ℕ)
    (hb : b < r.m) (hlow : ∀ i : ℕ, lowest ≤ r.input i)
    (hf : Fresh b (r.call r.maxSched) (maxCalls h)) :
    ∃ v : ℕ → K, ∃ a : K, (Man.run n N lowest junk (⟨.max, io, r⟩ :: h)).values = some v ∧
      IsMax n (r.sample n b) a ∧ v b = limited io.nmThres a := by
  have hi := (run_inv (n := n) (N := N) (junk := junk) (lowest := lowest) h hm).max
  refine ⟨_, _, rfl, ?_, capped_val _ _ _⟩
  show IsMax n _ (((maxAcc lowest).compute n N _ (r.call r.maxSched)).val b)
  rw [value_inv (max_laws lowest) hi _ ⟨hr.1, hr.2.2.1⟩ b hb hf]
  obtain ⟨n, rfl⟩ := Nat.exists_eq_add_of_le' hn
  exact total_max _ _ _ fun j => hlow _

/-- `AbsMaxNPSum`: the larger of the absolute maximum and what keeps the outputs in their bound if all
weights have the assumed maximum; the latter is limited by the resolution of the inputs, and does not
count if there is none. -/
theorem C98_npsum_management (n N : ℕ) (lowest : K) (junk : ℕ → K) (h : List (Item K))
    (hm : ∀ i ∈ h, 1 ≤ i.req.m) (io : CppFwd.IO K) (r : Req K) (hr : r.Good n N) (b : ℕ) (hb : b < r.m)
    (hfa : Fresh b (r.call r.amaxSched) (amaxCalls h))
    (hfp : Fresh b (r.call r.psumSched) (psumCalls h))
    (hfn : Fresh b (r.call r.nsumSched) (nsumCalls h)) :
    ∃ v : ℕ → K, ∃ a : K, (Man.run n N lowest junk (⟨.absMaxNPSum, io, r⟩ :: h)).values = some v ∧
      IsAbsMax n (r.sample n b) a ∧
      (0 < io.inpRes → v b = max (limited io.nmThres a)
        (min (max (posSum n (r.sample n b)) (-negSum n (r.sample n b)) * io.nmWmax / io.outBound.getD 1)
          (limited io.nmThres a * (io.maxBmRes / io.inpRes)))) ∧
      (io.inpRes ≤ 0 → v b = limited io.nmThres a) := by
  obtain ⟨ia, _, ip, iN⟩ := run_inv (n := n) (N := N) (junk := junk) (lowest := lowest) h hm
  generalize hw : Man.run n N lowest junk h = w at ia ip iN
  obtain ⟨b1, _, b3, b4⟩ := ensure_bufs { w with type := .absMaxNPSum } r
  have ha := amax_value ia r hr b hb hfa
  have hp : (psumAcc.compute n N w.psum (r.call r.psumSched)).val b = posSum n (r.sample n b) := by
    rw [value_inv psum_laws ip _ ⟨hr.1, hr.2.2.2.1⟩ b hb hfp]; exact total_psum _ _
  have hn : (nsumAcc.compute n N w.nsum (r.call r.nsumSched)).val b = negSum n (r.sample n b) := by
    rw [value_inv nsum_laws iN _ ⟨hr.1, hr.2.2.2.2⟩ b hb hfn]; exact total_nsum _ _
  have hv : (Man.npSum n N { w with type := .absMaxNPSum } io r).scales b =
      npSumValue io (limited io.nmThres ((amaxAcc.compute n N w.amax (r.call r.amaxSched)).val b))
        (posSum n (r.sample n b)) (negSum n (r.sample n b)) := by
    unfold Man.npSum
    show (if b < r.m then npSumValue io _ _ _ else _) = _
    rw [if_pos hb, capped_val, b1, b3, b4, hp, hn]
  refine ⟨(Man.npSum n N { w with type := .absMaxNPSum } io r).scales, _, ?_, ha, ?_, ?_⟩
  · show (Man.step n N lowest (Man.run n N lowest junk h) _).values = _
    rw [hw]
    show (Man.npSum n N { w with type := .absMaxNPSum } io r).values = _
    have ht : (Man.npSum n N { w with type := .absMaxNPSum } io r).type = .absMaxNPSum := by
      unfold Man.npSum Man.ensure
      split <;> rfl
    unfold Man.values
    rw [ht]
  · intro hres
    rw [hv]
    unfold npSumValue
    simp only [if_pos hres]
  · intro hres
    rw [hv]
    unfold npSumValue
    simp only [if_neg (not_lt.mpr hres), mul_one]
    exact max_eq_left (min_le_right _ _)

/-- `Constant`: the threshold, or 1, while only this kind is used. -/
theorem C98_constant (n N : ℕ) (lowest : K) (junk : ℕ → K) (h : List (Item K)) (io : CppFwd.IO K)
    (hh : ∀ i ∈ h, i.type = .constant ∧ i.io.nmThres = io.nmThres) (r : Req K) (b : ℕ) :
    ∃ v : ℕ → K, (Man.run n N lowest junk (⟨.constant, io, r⟩ :: h)).values = some v ∧
      v b = if 0 < io.nmThres then io.nmThres else 1 := by
  have inv : ∀ h : List (Item K), (∀ i ∈ h, i.type = .constant ∧ i.io.nmThres = io.nmThres) →
      (Man.run n N lowest junk h).constSet = true →
      (Man.run n N lowest junk h).scales b = if 0 < io.nmThres then io.nmThres else 1 := by
    intro h
    induction h with
    | nil => intro _ h; cases h
    | cons i h ih =>
      intro hh
      obtain ⟨ty, io', r'⟩ := i
      obtain ⟨hty, hio⟩ := hh _ List.mem_cons_self
      have hty' : ty = .constant := hty
      have hio' : io'.nmThres = io.nmThres := hio
      subst hty'
      have ih' := ih fun j hj => hh j (List.mem_cons_of_mem _ hj)
      show ((Man.run n N lowest junk h).step n N lowest _).constSet = true →
        ((Man.run n N lowest junk h).step n N lowest _).scales b = _
      generalize Man.run n N lowest junk h = w at ih'
      show (Man.constant { w with type := .constant } io' r').constSet = true →
        (Man.constant { w with type := .constant } io' r').scales b = _
      unfold Man.constant Man.ensureConst
      by_cases h1 : w.size < r'.m
      · simp only [if_pos h1]
        rw [if_neg Bool.false_ne_true]
        intro _
        show (if 0 < io'.nmThres then io'.nmThres else 1) = _
        rw [hio']
      · simp only [if_neg h1]
        by_cases h2 : w.constSet = true
        · rw [if_pos h2]
          exact fun _ => ih' h2
        · rw [if_neg h2]
          intro _
          show (if 0 < io'.nmThres then io'.nmThres else 1) = _
          rw [hio']
  have hset : (Man.run n N lowest junk (⟨.constant, io, r⟩ :: h)).constSet = true := by
    show (Man.constant { Man.run n N lowest junk h with type := .constant } io r).constSet = true
    unfold Man.constant
    generalize Man.ensureConst _ r = w'
    show (if w'.constSet then w' else _ : Man K).constSet = true
    split
    · assumption
    · rfl
  refine ⟨(Man.run n N lowest junk (⟨.constant, io, r⟩ :: h)).scales, ?_, ?_⟩
  · have ht : (Man.run n N lowest junk (⟨.constant, io, r⟩ :: h)).type = .constant := by
      show (Man.constant { Man.run n N lowest junk h with type := .constant } io r).type = .constant
      have e : (({ Man.run n N lowest junk h with type := .constant } : Man K).ensureConst r).type =
          .constant := by
        unfold Man.ensureConst; split <;> rfl
      unfold Man.constant
      generalize Man.ensureConst _ r = w' at e
      show (if w'.constSet then w' else _ : Man K).type = .constant
      split <;> exact e
    unfold Man.values
    rw [ht]
  · refine inv _ ?_ hset
    intro i hi
    rcases List.mem_cons.mp hi with rfl | hi
    · exact ⟨rfl, rfl⟩
    · exact hh i hi

/-- The exception: if `AbsMaxNPSum` was used in between (bound management `IterativeWorstCase` does so),
its values are taken for the constant from then on. -/
theorem C98_constant_lost (n N : ℕ) (lowest : K) (w : Man K) (io : CppFwd.IO K) (r₁ r₂ r₃ : Req K)
    (h2 : r₂.m ≤ r₁.m) (h3 : r₃.m ≤ r₁.m) (b : ℕ) (v : ℕ → K)
    (hv : (((w.step n N lowest ⟨.constant, io, r₁⟩).step n N lowest ⟨.absMaxNPSum, io, r₂⟩)).values
      = some v) :
    ∃ v' : ℕ → K, ((((w.step n N lowest ⟨.constant, io, r₁⟩).step n N lowest
      ⟨.absMaxNPSum, io, r₂⟩).step n N lowest ⟨.constant, io, r₃⟩)).values = some v' ∧ v' b = v b := by
  have hs : r₁.m ≤ (w.step n N lowest ⟨.constant, io, r₁⟩).size ∧
      (w.step n N lowest ⟨.constant, io, r₁⟩).constSet = true := by
    show r₁.m ≤ (Man.constant { w with type := .constant } io r₁).size ∧
      (Man.constant { w with type := .constant } io r₁).constSet = true
    unfold Man.constant Man.ensureConst
    by_cases h1 : w.size < r₁.m
    · simp only [if_pos h1]
      rw [if_neg Bool.false_ne_true]
      exact ⟨le_refl _, rfl⟩
    · simp only [if_neg h1]
      split
      · exact ⟨not_lt.mp h1, by assumption⟩
      · exact ⟨not_lt.mp h1, rfl⟩
  generalize w.step n N lowest ⟨.constant, io, r₁⟩ = w₁ at hs hv
  have e2 : w₁.step n N lowest ⟨.absMaxNPSum, io, r₂⟩ =
      Man.npSum n N { w₁ with type := .absMaxNPSum } io r₂ := rfl
  rw [e2] at hv ⊢
  have hs2 : (Man.npSum n N { w₁ with type := .absMaxNPSum } io r₂).size = w₁.size ∧
      (Man.npSum n N { w₁ with type := .absMaxNPSum } io r₂).constSet = true ∧
      (Man.npSum n N { w₁ with type := .absMaxNPSum } io r₂).type = .absMaxNPSum := by
    unfold Man.npSum Man.ensure
    have : ¬w₁.size < r₂.m := by omega
    simp only [if_neg this]
    exact ⟨trivial, hs.2, trivial⟩
  generalize Man.npSum n N { w₁ with type := .absMaxNPSum } io r₂ = w₂ at hv hs2
  have hv' : w₂.scales = v := by
    unfold Man.values at hv
    rw [hs2.2.2] at hv
    injection hv
  have e3 : w₂.step n N lowest ⟨.constant, io, r₃⟩ = { w₂ with type := .constant } := by
    show Man.constant { w₂ with type := .constant } io r₃ = _
    unfold Man.constant Man.ensureConst
    have : ¬w₂.size < r₃.m := by omega
    simp only [if_neg this]
    rw [if_pos hs2.2.1]
  rw [e3]
  exact ⟨w₂.scales, rfl, by rw [hv']⟩

/-- `AverageAbsMax` while training: if no earlier batch was larger and no thread reads the average late,
the values are the running average, updated by the mean of the absolute maxima of the batch. -/
theorem C98_average (n N : ℕ) (lowest : K) (junk : ℕ → K) (h : List (Item K))
    (hm : ∀ i ∈ h, 1 ≤ i.req.m) (io : CppFwd.IO K) (r : Req K) (hr : r.Good n N) (hN : 1 ≤ N)
    (htest : r.test = false) (hlate : ∀ i : ℕ, r.late i = false)
    (hf : ∀ b : ℕ, b < r.m → Fresh b (r.call r.amaxSched) (amaxCalls h))
    (hsize : (Man.run n N lowest junk h).size ≤ r.m) :
    ∃ a : ℕ → K, (∀ b : ℕ, b < r.m → IsAbsMax n (r.sample n b) (a b)) ∧
      ∃ new : K, new = (if (Man.run n N lowest junk h).ravgInit then
          (Man.run n N lowest junk h).ravg * (1 - min io.nmDecay 1) +
            min io.nmDecay 1 * ((∑ b ∈ Finset.range r.m, a b) / (r.m : K))
        else (∑ b ∈ Finset.range r.m, a b) / (r.m : K)) ∧
      (Man.run n N lowest junk (⟨.average, io, r⟩ :: h)).ravg = new ∧
      ∃ v : ℕ → K, (Man.run n N lowest junk (⟨.average, io, r⟩ :: h)).values = some v ∧
        ∀ b : ℕ, b < r.m → v b = new := by
  have hi := (run_inv (n := n) (N := N) (junk := junk) (lowest := lowest) h hm).amax
  show ∃ a : ℕ → K, _ ∧ ∃ new : K, _ ∧ ((Man.run n N lowest junk h).step n N lowest _).ravg = new ∧
    ∃ v : ℕ → K, ((Man.run n N lowest junk h).step n N lowest _).values = some v ∧ _
  generalize Man.run n N lowest junk h = w at hi hsize ⊢
  have e : w.step n N lowest ⟨.average, io, r⟩ =
      Man.averageAbsMax n N { w with type := .average } io r := rfl
  rw [e]
  refine ⟨fun b => (amaxAcc.compute n N w.amax (r.call r.amaxSched)).val b,
    fun b hb => amax_value hi r hr b hb (hf b hb), _, rfl, ?_⟩
  have hsum : sumMax r.m (amaxAcc.compute n N w.amax (r.call r.amaxSched)).val =
      ∑ b ∈ Finset.range r.m, (amaxAcc.compute n N w.amax (r.call r.amaxSched)).val b := by
    unfold sumMax
    split
    · rfl
    · rename_i h1
      have : r.m = 1 := by have := hr.1; omega
      rw [this, Finset.sum_range_one]
  have hthreads : r.m < avgThreads r.m N := by
    have := nBlocks_le (r.m + 1) N hN
    unfold avgThreads
    omega
  have hens : ((({ w with type := .average } : Man K).ensureAvg r).size = r.m) ∧
      (({ w with type := .average } : Man K).ensureAvg r).ravg = w.ravg ∧
      (({ w with type := .average } : Man K).ensureAvg r).ravgInit = w.ravgInit ∧
      (({ w with type := .average } : Man K).ensureAvg r).type = .average ∧
      (({ w with type := .average } : Man K).ensureAvg r).amax = w.amax := by
    unfold Man.ensureAvg
    split
    · exact ⟨rfl, rfl, rfl, rfl, rfl⟩
    · rename_i h1
      exact ⟨le_antisymm hsize (not_lt.mp h1), rfl, rfl, rfl, rfl⟩
  unfold Man.averageAbsMax
  generalize ({ w with type := .average } : Man K).ensureAvg r = w' at hens
  obtain ⟨g1, g2, g3, g4, g5⟩ := hens
  simp only [htest]
  rw [if_neg Bool.false_ne_true, ← hsum]
  have hd : average w'.size w'.ravg (if w'.ravgInit = true then min io.nmDecay 1 else 1)
      (sumMax r.m (amaxAcc.compute n N w'.amax (r.call r.amaxSched)).val) =
      (if w.ravgInit = true then w.ravg * (1 - min io.nmDecay 1) + min io.nmDecay 1 *
        (sumMax r.m (amaxAcc.compute n N w.amax (r.call r.amaxSched)).val / (r.m : K))
      else sumMax r.m (amaxAcc.compute n N w.amax (r.call r.amaxSched)).val / (r.m : K)) := by
    unfold average
    rw [g1, g2, g3, g5]
    split
    · rfl
    · rw [sub_self, mul_zero, zero_add, one_mul]
  constructor
  · show (if w'.size < avgThreads r.m N then average w'.size w'.ravg _ _ else w'.ravg) = _
    rw [if_pos (by rw [g1]; exact hthreads), hd]
  · refine ⟨_, by unfold Man.values Man.setAverage; rw [g4], ?_⟩
    intro b hb
    show (if b < w'.size ∧ b < avgThreads r.m N then
        (if r.late b = true ∧ w'.size < avgThreads r.m N then _ else average w'.size w'.ravg _ _)
      else w'.scales b) = _
    rw [if_pos ⟨by rw [g1]; exact hb, by omega⟩, hlate b, if_neg (fun hh => absurd hh.1 Bool.false_ne_true), hd]

/-- The exceptions: the sum is divided by the size of the largest batch so far, and the average is not
updated at all if that is not smaller than the number of threads. -/
theorem C98_average_small_batch (n N : ℕ) (lowest : K) (w : Man K) (io : CppFwd.IO K) (r : Req K)
    (htest : r.test = false) (hinit : w.ravgInit = true) (hm : 2 ≤ r.m) (hsize : r.m ≤ w.size) :
    ((w.size < avgThreads r.m N → (w.step n N lowest ⟨.average, io, r⟩).ravg =
        w.ravg * (1 - min io.nmDecay 1) + min io.nmDecay 1 *
          ((∑ b ∈ Finset.range r.m, (w.step n N lowest ⟨.average, io, r⟩).amax.val b) / (w.size : K))) ∧
      (avgThreads r.m N ≤ w.size → (w.step n N lowest ⟨.average, io, r⟩).ravg = w.ravg)) := by
  have e : w.step n N lowest ⟨.average, io, r⟩ =
      Man.averageAbsMax n N { w with type := .average } io r := rfl
  rw [e]
  unfold Man.averageAbsMax
  have hens : ({ w with type := .average } : Man K).ensureAvg r = { w with type := .average } := by
    unfold Man.ensureAvg
    rw [if_neg (by exact not_lt.mpr hsize)]
  rw [hens]
  simp only [htest]
  rw [if_neg Bool.false_ne_true]
  unfold Man.setAverage
  constructor
  · intro hlt
    show (if w.size < avgThreads r.m N then average w.size w.ravg (if w.ravgInit = true then _ else _) _
      else w.ravg) = _
    rw [if_pos hlt, if_pos hinit]
    unfold average sumMax
    rw [if_pos (by omega)]
  · intro hge
    show (if w.size < avgThreads r.m N then _ else w.ravg) = _
    rw [if_neg (not_lt.mpr hge)]

/-- Evaluation does not change the running average. -/
theorem C98_average_test (n N : ℕ) (lowest : K) (w : Man K) (io : CppFwd.IO K) (r : Req K)
    (htest : r.test = true) : (w.step n N lowest ⟨.average, io, r⟩).ravg = w.ravg := by
  show (Man.averageAbsMax n N { w with type := .average } io r).ravg = w.ravg
  unfold Man.averageAbsMax Man.ensureAvg
  simp only [htest, if_pos]
  split <;> rfl

/-- Without noise management there are no values. -/
theorem C98_none (n N : ℕ) (lowest : K) (w : Man K) (io : CppFwd.IO K) (r : Req K) :
    (w.step n N lowest ⟨.none, io, r⟩).values = none := rfl

end Aihw.GpuNm
