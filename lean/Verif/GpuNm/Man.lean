import Verif.GpuNm.Runs

/-!
# The buffers of a noise manager over histories
-/
open scoped BigOperators

namespace Aihw.GpuNm

variable {K : Type} [Field K] [LinearOrder K] [IsStrictOrderedRing K] [FloorRing K]
variable {a : Acc K} {n N : ℕ} {junk : ℕ → K} {lowest : K}

/-- What holds for a buffer after the calls `h`, whatever happened to its values. -/
structure Inv (a : Acc K) (h : List (Call K)) (buf : Buf K) : Prop where
  cap : ∀ m : ℕ, 1 ≤ m → (buf.cap < m ↔ ∀ d ∈ h, 2 ≤ d.m → d.m < m)
  zero : ∀ b : ℕ, b < buf.cap → Ready b h → buf.zero b = a.e

theorem inv_new (a : Acc K) (junk : ℕ → K) : Inv a [] ⟨junk, junk, 0⟩ :=
  ⟨fun _ hm => ⟨fun _ _ hd => absurd hd List.not_mem_nil, fun _ => hm⟩,
    fun _ hb => absurd hb (Nat.not_lt_zero _)⟩

theorem inv_capped {h : List (Call K)} {buf : Buf K} (io : CppFwd.IO K) (hi : Inv a h buf) :
    Inv a h (capped io buf) := by
  unfold capped saturate
  split
  · exact ⟨hi.cap, hi.zero⟩
  · exact hi

theorem inv_compute {h : List (Call K)} {buf : Buf K} (hi : Inv a h buf) (c : Call K) (hc : 1 ≤ c.m) :
    Inv a (c :: h) (a.compute n N buf c) := by
  constructor
  · intro m hm
    rw [compute_cap]
    have ih := hi.cap m hm
    constructor
    · intro hh d hd hd2
      split at hh
      · rcases List.mem_cons.mp hd with rfl | hd
        · omega
        · exact ih.mp hh d hd hd2
      · rcases List.mem_cons.mp hd with rfl | hd
        · omega
        · exact ih.mp (by omega) d hd hd2
    · intro hh
      have h' := ih.mpr fun d hd => hh d (List.mem_cons_of_mem _ hd)
      split
      · exact h'
      · have := hh c List.mem_cons_self (by omega)
        omega
  · intro b hb hr
    by_cases hf : c.first
    · rw [trans_zero _ _ _ hf, if_pos (hr.1 hf)]
    · rw [plain_zero _ _ _ hc hf]
      by_cases hg : 2 ≤ c.m ∧ buf.cap < c.m
      · rw [if_pos hg]
      · rw [if_neg hg]
        rw [compute_cap] at hb
        have hb' : b < buf.cap := by
          split at hb
          · exact hb
          · omega
        rcases hr.2 hf with h | h
        · exfalso
          have := (hi.cap c.m hc).mpr h
          apply hg
          exact ⟨by by_contra h2; omega, this⟩
        · exact hi.zero b hb' h

theorem value_inv (la : a.Laws) {h : List (Call K)} {buf : Buf K} (hi : Inv a h buf) (c : Call K)
    (hc : c.Good n N) (b : ℕ) (hb : b < c.m) (hr : Fresh b c h) :
    (a.compute n N buf c).val b = a.right n c b := by
  by_cases hf : c.first
  · have hz : (a.grow buf c.m c.junk).zero b = a.e := by
      unfold Acc.grow
      by_cases hg : buf.cap < c.m
      · rw [if_pos hg]
      · rw [if_neg hg]
        rcases hr with hr | hr | hr
        · exact absurd hf hr
        · exact absurd ((hi.cap c.m hc.1).mpr hr) hg
        · exact hi.zero b (by omega) hr
    rw [first_value la _ _ _ hb hf hc (by rw [hz]; exact la.idem), hz, la.comm]
    exact right_absorbs la c b
  · exact plain_value _ _ _ hb hf

/-- What holds for a noise manager after a history. -/
structure ManInv (h : List (Item K)) (lowest : K) (w : Man K) : Prop where
  amax : Inv amaxAcc (amaxCalls h) w.amax
  max : Inv (maxAcc lowest) (maxCalls h) w.max
  psum : Inv psumAcc (psumCalls h) w.psum
  nsum : Inv nsumAcc (nsumCalls h) w.nsum

theorem ensure_bufs (w : Man K) (r : Req K) :
    (w.ensure r).amax = w.amax ∧ (w.ensure r).max = w.max ∧ (w.ensure r).psum = w.psum ∧
      (w.ensure r).nsum = w.nsum := by
  unfold Man.ensure; split <;> exact ⟨rfl, rfl, rfl, rfl⟩

theorem ensureAvg_bufs (w : Man K) (r : Req K) :
    (w.ensureAvg r).amax = w.amax ∧ (w.ensureAvg r).max = w.max ∧ (w.ensureAvg r).psum = w.psum ∧
      (w.ensureAvg r).nsum = w.nsum := by
  unfold Man.ensureAvg; split <;> exact ⟨rfl, rfl, rfl, rfl⟩

theorem constant_bufs (w : Man K) (io : CppFwd.IO K) (r : Req K) :
    (w.constant io r).amax = w.amax ∧ (w.constant io r).max = w.max ∧
      (w.constant io r).psum = w.psum ∧ (w.constant io r).nsum = w.nsum := by
  have e : ((w.ensureConst r).amax = w.amax ∧ (w.ensureConst r).max = w.max ∧
      (w.ensureConst r).psum = w.psum ∧ (w.ensureConst r).nsum = w.nsum) := by
    unfold Man.ensureConst; split <;> exact ⟨rfl, rfl, rfl, rfl⟩
  unfold Man.constant
  generalize w.ensureConst r = w' at e
  show (if w'.constSet then w' else _ : Man K).amax = w.amax ∧
    (if w'.constSet then w' else _ : Man K).max = w.max ∧
    (if w'.constSet then w' else _ : Man K).psum = w.psum ∧
    (if w'.constSet then w' else _ : Man K).nsum = w.nsum
  split <;> exact e

theorem calls_skip (h : List (Item K)) (i : Item K) :
    (i.usesAmax = false → amaxCalls (i :: h) = amaxCalls h) ∧
    (i.type ≠ .max → maxCalls (i :: h) = maxCalls h) ∧
    (i.type ≠ .absMaxNPSum → psumCalls (i :: h) = psumCalls h) ∧
    (i.type ≠ .absMaxNPSum → nsumCalls (i :: h) = nsumCalls h) := by
  refine ⟨fun hu => ?_, fun hu => ?_, fun hu => ?_, fun hu => ?_⟩
  · unfold amaxCalls; rw [List.filter_cons_of_neg (by rw [hu]; exact Bool.false_ne_true)]
  · unfold maxCalls; rw [List.filter_cons_of_neg (by simpa using hu)]
  · unfold psumCalls; rw [List.filter_cons_of_neg (by simpa using hu)]
  · unfold nsumCalls; rw [List.filter_cons_of_neg (by simpa using hu)]

theorem calls_use (h : List (Item K)) (i : Item K) :
    (i.usesAmax = true → amaxCalls (i :: h) = i.req.call i.req.amaxSched :: amaxCalls h) ∧
    (i.type = .max → maxCalls (i :: h) = i.req.call i.req.maxSched :: maxCalls h) ∧
    (i.type = .absMaxNPSum → psumCalls (i :: h) = i.req.call i.req.psumSched :: psumCalls h) ∧
    (i.type = .absMaxNPSum → nsumCalls (i :: h) = i.req.call i.req.nsumSched :: nsumCalls h) := by
  refine ⟨fun hu => ?_, fun hu => ?_, fun hu => ?_, fun hu => ?_⟩
  · unfold amaxCalls; rw [List.filter_cons_of_pos hu, List.map_cons]
  · unfold maxCalls; rw [List.filter_cons_of_pos (by simpa using hu), List.map_cons]
  · unfold psumCalls; rw [List.filter_cons_of_pos (by simpa using hu), List.map_cons]
  · unfold nsumCalls; rw [List.filter_cons_of_pos (by simpa using hu), List.map_cons]

theorem step_inv (h : List (Item K)) (w : Man K) (hw : ManInv h lowest w) (i : Item K)
    (hm : 1 ≤ i.req.m) : ManInv (i :: h) lowest (w.step n N lowest i) := by
  obtain ⟨s1, s2, s3, s4⟩ := calls_skip h i
  obtain ⟨u1, u2, u3, u4⟩ := calls_use h i
  obtain ⟨ty, io, r⟩ := i
  have hw0 : ∀ t : CppFwd.NM, ManInv h lowest { w with type := t } :=
    fun t => ⟨hw.amax, hw.max, hw.psum, hw.nsum⟩
  have ne : ∀ t : CppFwd.NM, (Item.mk ty io r : Item K).type = t ↔ ty = t := fun t => Iff.rfl
  unfold Man.step Man.compute
  cases ty with
  | none =>
    exact ⟨by rw [s1 rfl]; exact hw.amax, by rw [s2 (by intro hh; cases hh)]; exact hw.max,
      by rw [s3 (by intro hh; cases hh)]; exact hw.psum, by rw [s4 (by intro hh; cases hh)]; exact hw.nsum⟩
  | averageSingle =>
    exact ⟨by rw [s1 rfl]; exact hw.amax, by rw [s2 (by intro hh; cases hh)]; exact hw.max,
      by rw [s3 (by intro hh; cases hh)]; exact hw.psum, by rw [s4 (by intro hh; cases hh)]; exact hw.nsum⟩
  | absMaxSingle =>
    exact ⟨by rw [s1 rfl]; exact hw.amax, by rw [s2 (by intro hh; cases hh)]; exact hw.max,
      by rw [s3 (by intro hh; cases hh)]; exact hw.psum, by rw [s4 (by intro hh; cases hh)]; exact hw.nsum⟩
  | constant =>
    obtain ⟨b1, b2, b3, b4⟩ := constant_bufs { w with type := .constant } io r
    refine ⟨?_, ?_, ?_, ?_⟩
    · rw [s1 rfl]; show Inv _ _ (Man.constant _ io r).amax; rw [b1]; exact hw.amax
    · rw [s2 (by intro hh; cases hh)]; show Inv _ _ (Man.constant _ io r).max; rw [b2]; exact hw.max
    · rw [s3 (by intro hh; cases hh)]; show Inv _ _ (Man.constant _ io r).psum; rw [b3]; exact hw.psum
    · rw [s4 (by intro hh; cases hh)]; show Inv _ _ (Man.constant _ io r).nsum; rw [b4]; exact hw.nsum
  | max =>
    exact ⟨by rw [s1 rfl]; exact hw.amax,
      by rw [u2 rfl]; exact inv_capped io (inv_compute hw.max _ hm),
      by rw [s3 (by intro hh; cases hh)]; exact hw.psum, by rw [s4 (by intro hh; cases hh)]; exact hw.nsum⟩
  | absMax =>
    exact ⟨by rw [u1 rfl]; exact inv_capped io (inv_compute hw.amax _ hm),
      by rw [s2 (by intro hh; cases hh)]; exact hw.max,
      by rw [s3 (by intro hh; cases hh)]; exact hw.psum, by rw [s4 (by intro hh; cases hh)]; exact hw.nsum⟩
  | absMaxNPSum =>
    obtain ⟨b1, b2, b3, b4⟩ := ensure_bufs { w with type := .absMaxNPSum } r
    refine ⟨?_, ?_, ?_, ?_⟩
    · rw [u1 rfl]
      exact inv_capped io (inv_compute (by rw [b1]; exact hw.amax) _ hm)
    · rw [s2 (by intro hh; cases hh)]; show Inv _ _ (Man.ensure _ r).max; rw [b2]; exact hw.max
    · rw [u3 rfl]
      exact inv_compute (by rw [b3]; exact hw.psum) _ hm
    · rw [u4 rfl]
      exact inv_compute (by rw [b4]; exact hw.nsum) _ hm
  | average =>
    obtain ⟨b1, b2, b3, b4⟩ := ensureAvg_bufs { w with type := .average } r
    show ManInv _ lowest (Man.averageAbsMax n N { w with type := .average } io r)
    unfold Man.averageAbsMax
    cases ht : r.test with
    | true =>
      rw [if_pos rfl]
      refine ⟨?_, ?_, ?_, ?_⟩
      · rw [s1 (by unfold Item.usesAmax; rw [ht]; rfl), b1]; exact hw.amax
      · rw [s2 (by intro hh; cases hh), b2]; exact hw.max
      · rw [s3 (by intro hh; cases hh), b3]; exact hw.psum
      · rw [s4 (by intro hh; cases hh), b4]; exact hw.nsum
    | false =>
      rw [if_neg Bool.false_ne_true]
      refine ⟨?_, ?_, ?_, ?_⟩
      · rw [u1 (by unfold Item.usesAmax; rw [ht]; rfl)]
        exact inv_compute (by rw [b1]; exact hw.amax) _ hm
      · rw [s2 (by intro hh; cases hh)]; show Inv _ _ (Man.ensureAvg _ r).max; rw [b2]; exact hw.max
      · rw [s3 (by intro hh; cases hh)]; show Inv _ _ (Man.ensureAvg _ r).psum; rw [b3]; exact hw.psum
      · rw [s4 (by intro hh; cases hh)]; show Inv _ _ (Man.ensureAvg _ r).nsum; rw [b4]; exact hw.nsum

theorem run_inv (h : List (Item K)) (hm : ∀ i ∈ h, 1 ≤ i.req.m) :
    ManInv h lowest (Man.run n N lowest junk h) := by
  induction h with
  | nil => exact ⟨inv_new _ junk, inv_new _ junk, inv_new _ junk, inv_new _ junk⟩
  | cons i h ih =>
    exact step_inv h _ (ih fun j hj => hm j (List.mem_cons_of_mem _ hj)) i (hm i List.mem_cons_self)

end Aihw.GpuNm
