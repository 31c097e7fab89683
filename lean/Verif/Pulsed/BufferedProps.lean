import Verif.Pulsed.BufferedLemmas

/-!
# C52: what the digital buffer of a buffered transfer compound (TTv2) does
-/
namespace Aihw.Pulsed

variable {K : Type} [Field K] [LinearOrder K] [IsStrictOrderedRing K] [FloorRing K]

/-! ## Specification

The observable history is the list of reads of the fast devices (`Rd`): device, slice (column or
row), the vector `y` that was read, the factor `fac` multiplied with it, the sign flips, and the
number of steps `n` requested from the next device for each output. -/

/-- The slice index of weight `(i, j)` and its position in the slice. -/
def sliceOf (p : BPar K) (i j : Nat) : Nat := if p.cols then j else i

/-- The position of weight `(i, j)` in its slice. -/
def posOf (p : BPar K) (i j : Nat) : Nat := if p.cols then i else j

/-- The reads of device `src` that include weight `(i, j)`. -/
def readsOf (p : BPar K) (h : List (Rd K)) (src i j : Nat) : List (Rd K) :=
  h.filter fun r => decide (r.src = src ∧ r.c = sliceOf p i j)

/-- The value a read contributes to the buffer entry at position `o`. -/
def Rd.inc (r : Rd K) (o : Nat) : K := (if r.flip o then -1 else 1) * (r.fac * r.y o)

/-- Everything read for weight `(i, j)`, scaled by the transfer learning rates. -/
def accumulated (p : BPar K) (h : List (Rd K)) (src i j : Nat) : K :=
  ((readsOf p h src i j).map fun r => r.inc (posOf p i j)).sum

/-- Total number of steps requested for weight `(i, j)` of the next device. -/
def sent (p : BPar K) (h : List (Rd K)) (src i j : Nat) : ℤ :=
  ((readsOf p h src i j).map fun r => r.n (posOf p i j)).sum

/-! ## Lemmas -/

theorem slicePos (p : BPar K) {i j : Nat} (hi : i < p.dSize) (hj : j < p.xSize) :
    sliceOf p i j < p.inSize ∧ posOf p i j < p.outSize ∧
    p.cellOf (sliceOf p i j) (posOf p i j) = i * p.xSize + j := by
  refine ⟨?_, ?_, cellOf_flat p i j⟩
  · unfold sliceOf TPar.inSize
    split_ifs <;> assumption
  · unfold posOf TPar.outSize
    split_ifs <;> assumption

theorem readsOf_append (p : BPar K) (h : List (Rd K)) (r : Rd K) (src i j : Nat) :
    readsOf p (h ++ [r]) src i j =
      readsOf p h src i j ++ (if r.src = src ∧ r.c = sliceOf p i j then [r] else []) := by
  unfold readsOf
  rw [List.filter_append]
  by_cases hr : r.src = src ∧ r.c = sliceOf p i j
  · simp [hr]
  · simp [hr]

theorem accumulated_append (p : BPar K) (h : List (Rd K)) (r : Rd K) (src i j : Nat) :
    accumulated p (h ++ [r]) src i j =
      accumulated p h src i j +
        (if r.src = src ∧ r.c = sliceOf p i j then r.inc (posOf p i j) else 0) := by
  unfold accumulated
  rw [readsOf_append]
  by_cases hr : r.src = src ∧ r.c = sliceOf p i j
  · simp [hr]
  · simp [hr]

theorem sent_append (p : BPar K) (h : List (Rd K)) (r : Rd K) (src i j : Nat) :
    sent p (h ++ [r]) src i j =
      sent p h src i j + (if r.src = src ∧ r.c = sliceOf p i j then r.n (posOf p i j) else 0) := by
  unfold sent
  rw [readsOf_append]
  by_cases hr : r.src = src ∧ r.c = sliceOf p i j
  · simp [hr]
  · simp [hr]

/-- The entry of the history made by one read of the buffered class. -/
def bufRd (p : BPar K) (dst src : Nat) (lr : K) (c : Nat) (w : WD K) (s : BS K) : Rd K :=
  ⟨src, c, w.y, |lr|, fun _ => false, fun o => p.steps dst (p.omega src c lr w s o)⟩

theorem bufOne_hist (F : Fns K) (p : BPar K) (dst src : Nat) (lr : K) (c : Nat) (w : WD K)
    (s : BS K) : (p.bufOne F dst src lr c w s).hist = s.hist ++ [bufRd p dst src lr c w s] := rfl

theorem bufOne_buf (F : Fns K) (p : BPar K) (dst src : Nat) (lr : K) (c : Nat) (w : WD K)
    (s : BS K) (hc : c < p.inSize) (a i j : Nat) (hi : i < p.dSize) (hj : j < p.xSize) :
    (p.bufOne F dst src lr c w s).buf a (i * p.xSize + j) =
      if src = a ∧ c = sliceOf p i j then
        p.bufNext dst (s.buf a (i * p.xSize + j) + (bufRd p dst src lr c w s).inc (posOf p i j))
      else s.buf a (i * p.xSize + j) := by
  obtain ⟨h1, h2, h3⟩ := slicePos p hi hj
  simp only [BPar.bufOne]
  by_cases ha : src = a
  · subst ha
    rw [if_pos rfl]
    by_cases hcs : c = sliceOf p i j
    · rw [if_pos ⟨rfl, hcs⟩, ← h3, ← hcs, setSlice_same p _ _ hc h2]
      simp only [BPar.omega, Rd.inc, bufRd, Bool.false_eq_true, if_false]
      congr 1
      ring
    · rw [if_neg (fun h => hcs h.2), ← h3, setSlice_other p _ _ hc h1 (Ne.symm hcs) h2]
  · rw [if_neg (fun h => ha h.symm), if_neg (fun h => ha h.1)]

theorem skip_src (F : Fns K) (p : BPar K) {dst src : Nat} {lr : K}
    (h : (p.bufVirt F).skip dst src lr = false) : lr ≠ 0 ∧ dst ≠ src ∧ src < p.n - 1 := by
  simp only [BPar.bufVirt, Bool.or_eq_false_iff, decide_eq_false_iff_not] at h
  exact ⟨h.1.1, h.1.2, by omega⟩

/-! ## Properties -/

/-- **C52 (nothing read is lost).**  Without `forget_buffer`, for every number of devices, every
transfer direction, every history of updates with arbitrary reads (noise included) and every weight
`(i, j)` of device `src` (not the last): the buffered value is exactly the initial one plus everything
read for this weight, each read times the absolute transfer learning rate at that time, minus
`(1 - momentum) * thres_scale * granularity` for every step requested from the next device. -/
theorem C52_conservation (F : Fns K) (p : BPar K) (hf : p.forget = false) (hin : 0 < p.inSize)
    (s : BS K) (hh : s.hist = []) (hs : ∀ k, s.ts.slice k < p.inSize) (us : List (Upd K))
    (src i j : Nat) (hsrc : src + 1 < p.n) (hi : i < p.dSize) (hj : j < p.xSize) :
    (p.bufRun F s us).buf src (i * p.xSize + j) =
      s.buf src (i * p.xSize + j) + accumulated p (p.bufRun F s us).hist src i j -
      (1 - max (min p.momentum 1) 0) * (p.thres * p.gran (src + 1)) *
        (sent p (p.bufRun F s us).hist src i j : K) := by
  refine (bufRun_inv F p (fun t => t.buf src (i * p.xSize + j) = s.buf src (i * p.xSize + j) +
      accumulated p t.hist src i j - (1 - max (min p.momentum 1) 0) * (p.thres * p.gran (src + 1)) *
        (sent p t.hist src i j : K)) hin us ?_ s ?_ hs).1
  · intro u _
    constructor
    · intro a ha n c t hc hsk hI
      have hsk' := skip_src F p hsk
      have hmin : min (a + 1) (p.n - 1) = a + 1 := min_eq_left (by omega)
      show (p.bufOne F _ a _ c _ t).buf _ _ = _ + accumulated p (p.bufOne F _ a _ c _ t).hist _ _ _ -
        _ * (sent p (p.bufOne F _ a _ c _ t).hist _ _ _ : K)
      rw [bufOne_buf F p _ _ _ _ _ _ hc _ _ _ hi hj, bufOne_hist, accumulated_append, sent_append]
      by_cases hm : a = src ∧ c = sliceOf p i j
      · rw [if_pos hm]
        simp only [bufRd, hm, and_self, if_true]
        obtain ⟨rfl, rfl⟩ := hm
        obtain ⟨h1, h2, h3⟩ := slicePos p hi hj
        generalize hr : Rd.inc (K := K) _ _ = inc
        have hom : p.omega a (sliceOf p i j) ((p.bufVirt F).lrOf (min (a + 1) (p.n - 1)) a u.lr)
            (u.dr a n) t (posOf p i j) = t.buf a (i * p.xSize + j) + inc := by
          rw [← hr, ← h3]
          simp only [BPar.omega, Rd.inc, Bool.false_eq_true, if_false]
          ring
        rw [hom, hmin]
        unfold BPar.bufNext
        rw [hf]
        by_cases hz : p.steps (a + 1) (t.buf a (i * p.xSize + j) + inc) ≠ 0
        · rw [if_pos hz]
          simp only [Bool.false_eq_true, if_false, BPar.sub, BPar.bg]
          push_cast
          rw [hI]
          ring
        · rw [if_neg hz]
          rw [ne_eq, not_not] at hz
          rw [hz, hI]
          push_cast
          ring
      · rw [if_neg hm]
        simp only [bufRd, hm, if_false, add_zero]
        exact hI
    · exact fun t a b h => h
    · exact fun t h => h
    · exact fun t h => h
  · simp [hh, accumulated, sent, readsOf]

/-- **C52 (requested steps are bounded).**  No read ever requests more than `desired_BL` steps from a
weight of the next device. -/
theorem C52_steps_bounded (F : Fns K) (p : BPar K) (hin : 0 < p.inSize) (s : BS K) (hh : s.hist = [])
    (hs : ∀ k, s.ts.slice k < p.inSize) (us : List (Upd K)) (r : Rd K)
    (hr : r ∈ (p.bufRun F s us).hist) (o : Nat) : |r.n o| ≤ (p.bl : ℤ) := by
  refine (bufRun_inv F p (fun t => ∀ r ∈ t.hist, ∀ o, |r.n o| ≤ (p.bl : ℤ)) hin us ?_ s ?_ hs).1
    r hr o
  · intro u _
    constructor
    · intro a ha n c t hc hsk hI r hr o
      have hr' : r ∈ t.hist ++ [bufRd p _ _ _ _ _ _] := hr
      rcases List.mem_append.1 hr' with h | h
      · exact hI r h o
      · rw [List.mem_singleton.1 h]
        exact clipSteps_abs _ _
    · exact fun t a b h => h
    · exact fun t h => h
    · exact fun t h => h
  · simp [hh]

/-- One step keeps the residual below the threshold if the increment is within the pulse budget. -/
theorem bufNext_residual (p : BPar K) (hf : p.forget = false) (hm : p.momentum ≤ 0) (dst : Nat)
    (hbg : 0 < p.bg dst) (b inc : K) (hb : |b| < p.bg dst) (hi : |inc| ≤ (p.bl : K) * p.bg dst) :
    |p.bufNext dst (b + inc)| < p.bg dst := by
  have hlt : |(b + inc) / p.bg dst| < (p.bl : K) + 1 := by
    rw [abs_div, abs_of_pos hbg, div_lt_iff₀ hbg]
    calc |b + inc| ≤ |b| + |inc| := abs_add_le _ _
      _ < p.bg dst + (p.bl : K) * p.bg dst := by linarith
      _ = ((p.bl : K) + 1) * p.bg dst := by ring
  have hst : p.steps dst (b + inc) = trunc0 ((b + inc) / p.bg dst) :=
    clipSteps_id (trunc0_bounds hlt)
  have hsub : p.sub = 1 := by
    unfold BPar.sub
    rw [max_eq_right ((min_le_left _ _).trans hm)]
    ring
  have hres := trunc0_abs_sub ((b + inc) / p.bg dst)
  have heq : p.bufNext dst (b + inc) =
      ((b + inc) / p.bg dst - (trunc0 ((b + inc) / p.bg dst) : K)) * p.bg dst := by
    unfold BPar.bufNext
    rw [hf, hst, hsub, sub_mul, div_mul_cancel₀ _ hbg.ne']
    by_cases hz : trunc0 ((b + inc) / p.bg dst) ≠ 0
    · rw [if_pos hz]; simp
    · rw [if_neg hz]
      rw [ne_eq, not_not] at hz
      rw [hz]; simp
  rw [heq, abs_mul, abs_of_pos hbg]
  calc _ < 1 * p.bg dst := mul_lt_mul_of_pos_right hres hbg
    _ = _ := one_mul _

/-- **C52 (the slow device tracks the accumulated reads).**  Without `forget_buffer` and momentum,
with a positive threshold `g = thres_scale * granularity` and an initial buffer value below it: as
long as no single scaled read of weight `(i, j)` exceeds `desired_BL * g`, the buffer stays below the
threshold forever and the total number of requested steps times `g` differs from everything
accumulated by less than `2 g` (less than `g` when the buffer started at zero). -/
theorem C52_tracks (F : Fns K) (p : BPar K) (hf : p.forget = false) (hm : p.momentum ≤ 0)
    (hin : 0 < p.inSize) (s : BS K) (hh : s.hist = []) (hs : ∀ k, s.ts.slice k < p.inSize)
    (us : List (Upd K)) (src i j : Nat) (hsrc : src + 1 < p.n) (hi : i < p.dSize) (hj : j < p.xSize)
    (hbg : 0 < p.thres * p.gran (src + 1))
    (hb : |s.buf src (i * p.xSize + j)| < p.thres * p.gran (src + 1))
    (hr : ∀ r ∈ readsOf p (p.bufRun F s us).hist src i j,
      |r.inc (posOf p i j)| ≤ (p.bl : K) * (p.thres * p.gran (src + 1))) :
    |(p.bufRun F s us).buf src (i * p.xSize + j)| < p.thres * p.gran (src + 1) ∧
    |accumulated p (p.bufRun F s us).hist src i j -
      p.thres * p.gran (src + 1) * (sent p (p.bufRun F s us).hist src i j : K)| <
        2 * (p.thres * p.gran (src + 1)) ∧
    (s.buf src (i * p.xSize + j) = 0 →
      |accumulated p (p.bufRun F s us).hist src i j -
        p.thres * p.gran (src + 1) * (sent p (p.bufRun F s us).hist src i j : K)| <
          p.thres * p.gran (src + 1)) := by
  have h1 : |(p.bufRun F s us).buf src (i * p.xSize + j)| < p.thres * p.gran (src + 1) := by
    refine (bufRun_inv F p (fun t => (∀ r ∈ readsOf p t.hist src i j,
      |r.inc (posOf p i j)| ≤ (p.bl : K) * (p.thres * p.gran (src + 1))) →
      |t.buf src (i * p.xSize + j)| < p.thres * p.gran (src + 1)) hin us ?_ s (fun _ => hb) hs).1 hr
    intro u _
    constructor
    · intro a ha n c t hc hsk hI hall
      have hsk' := skip_src F p hsk
      have hmin : min (a + 1) (p.n - 1) = a + 1 := min_eq_left (by omega)
      show |(p.bufOne F _ a _ c _ t).buf _ _| < _
      have hall' : ∀ r ∈ readsOf p (t.hist ++ [bufRd p (min (a + 1) (p.n - 1)) a
          ((p.bufVirt F).lrOf (min (a + 1) (p.n - 1)) a u.lr) c (u.dr a n) t]) src i j,
          |r.inc (posOf p i j)| ≤ (p.bl : K) * (p.thres * p.gran (src + 1)) := hall
      rw [readsOf_append] at hall'
      have hI' := hI fun r hr => hall' r (List.mem_append_left _ hr)
      rw [bufOne_buf F p _ _ _ _ _ _ hc _ _ _ hi hj]
      by_cases hmm : a = src ∧ c = sliceOf p i j
      · rw [if_pos hmm]
        have hlast := hall' _ (List.mem_append_right _ (by
          rw [if_pos (show (bufRd p _ a _ c _ t).src = src ∧ (bufRd p _ a _ c _ t).c = _ from hmm)]
          exact List.mem_singleton.2 rfl))
        obtain ⟨rfl, rfl⟩ := hmm
        rw [hmin] at hlast ⊢
        exact bufNext_residual p hf hm (a + 1) hbg _ _ hI' hlast
      · rw [if_neg hmm]; exact hI'
    · exact fun t a b h => h
    · exact fun t h => h
    · exact fun t h => h
  have hc := C52_conservation F p hf hin s hh hs us src i j hsrc hi hj
  have hone : (1 : K) - max (min p.momentum 1) 0 = 1 := by
    rw [max_eq_right ((min_le_left _ _).trans hm)]; ring
  rw [hone, one_mul] at hc
  refine ⟨h1, ?_, ?_⟩
  · rw [abs_lt] at h1 hb ⊢
    constructor <;> linarith
  · intro h0
    rw [h0, zero_add] at hc
    rw [← hc]
    exact h1

/-- **C52 (`forget_buffer`).**  With `forget_buffer`, a read that triggers at least one step leaves
`momentum` times the buffered value, whatever the number of steps: with momentum zero the whole
value is dropped, also the part that exceeded the pulse budget.  A read that triggers no step leaves
the accumulated value. -/
theorem C52_forget (F : Fns K) (p : BPar K) (hf : p.forget = true) (dst src : Nat) (lr : K) (c : Nat)
    (hc : c < p.inSize) (w : WD K) (s : BS K) (i j : Nat) (hi : i < p.dSize) (hj : j < p.xSize)
    (hcs : c = sliceOf p i j) :
    ∃ r, (p.bufOne F dst src lr c w s).hist = s.hist ++ [r] ∧
      (p.bufOne F dst src lr c w s).buf src (i * p.xSize + j) =
        if r.n (posOf p i j) = 0 then s.buf src (i * p.xSize + j) + |lr| * w.y (posOf p i j)
        else (s.buf src (i * p.xSize + j) + |lr| * w.y (posOf p i j)) * p.momentum := by
  refine ⟨_, bufOne_hist F p dst src lr c w s, ?_⟩
  rw [bufOne_buf F p _ _ _ _ _ _ hc _ _ _ hi hj, if_pos ⟨rfl, hcs⟩]
  obtain ⟨h1, h2, h3⟩ := slicePos p hi hj
  have e : (bufRd p dst src lr c w s).inc (posOf p i j) = |lr| * w.y (posOf p i j) := by
    simp [Rd.inc, bufRd]
  have e2 : (bufRd p dst src lr c w s).n (posOf p i j) =
      p.steps dst (s.buf src (i * p.xSize + j) + |lr| * w.y (posOf p i j)) := by
    simp only [bufRd, BPar.omega]
    rw [hcs, h3, mul_comm (w.y _)]
  rw [e, e2]
  unfold BPar.bufNext
  rw [hf]
  by_cases hz : p.steps dst (s.buf src (i * p.xSize + j) + |lr| * w.y (posOf p i j)) = 0
  · rw [if_neg (by simpa using hz), if_pos hz]
  · rw [if_pos hz, if_neg hz, if_pos rfl]

/-- **C52 (threshold).**  A read requests a step exactly when the accumulated value reaches the
threshold in absolute value, and the direction is the sign of the accumulated value. -/
theorem C52_threshold (p : BPar K) (hb : 0 < p.bl) (dst src : Nat) (lr : K) (c : Nat) (w : WD K)
    (s : BS K) (hg : 0 < p.thres * p.gran dst) (F : Fns K) (i j : Nat) (hcs : c = sliceOf p i j) :
    ∃ r, (p.bufOne F dst src lr c w s).hist = s.hist ++ [r] ∧
      (0 < r.n (posOf p i j) ↔
        p.thres * p.gran dst ≤ s.buf src (i * p.xSize + j) + |lr| * w.y (posOf p i j)) ∧
      (r.n (posOf p i j) < 0 ↔
        s.buf src (i * p.xSize + j) + |lr| * w.y (posOf p i j) ≤ -(p.thres * p.gran dst)) := by
  refine ⟨_, bufOne_hist F p dst src lr c w s, ?_⟩
  have h3 : p.cellOf (sliceOf p i j) (posOf p i j) = i * p.xSize + j := cellOf_flat p i j
  simp only [bufRd, BPar.steps, BPar.omega, BPar.bg]
  rw [hcs, h3, mul_comm (w.y _)]
  generalize s.buf src (i * p.xSize + j) + |lr| * w.y (posOf p i j) = om
  generalize p.thres * p.gran dst = g at hg ⊢
  rw [clipSteps_pos hb, clipSteps_neg hb]
  have key : om / g < 1 ↔ om < g := div_lt_one hg
  have key2 : -1 < om / g ↔ -g < om := by rw [lt_div_iff₀ hg]; simp
  rcases lt_trichotomy (|om / g|) 1 with h | h | h
  · rw [trunc0_zero_of_lt h]
    rw [abs_lt, key, key2] at h
    constructor
    · simp only [lt_self_iff_false, false_iff, not_le]; exact h.2
    · simp only [lt_self_iff_false, false_iff, not_le]; exact h.1
  all_goals
    have h' : 1 ≤ |om / g| := by first | exact h.ge | exact h.le
    rcases le_abs'.1 h' with hn | hp
    · have t := trunc0_neg hn
      have hom : om ≤ -g := by
        by_contra hc
        exact absurd hn (not_le.2 (key2.2 (not_le.1 hc)))
      constructor
      · constructor
        · intro; omega
        · intro; linarith
      · exact ⟨fun _ => hom, fun _ => by omega⟩
    · have t := trunc0_pos hp
      have hom : g ≤ om := by
        by_contra hc
        exact absurd hp (not_le.2 (key.2 (not_le.1 hc)))
      constructor
      · exact ⟨fun _ => hom, fun _ => by omega⟩
      · constructor
        · intro; omega
        · intro; linarith

/-- **C52 (layout).**  The buffer entry used for slice `c` and output `o` is the flat index of the
weight that the read returned there, for both transfer directions, and two different weights never
share an entry. -/
theorem C52_layout (p : BPar K) :
    (∀ i j, p.cellOf (sliceOf p i j) (posOf p i j) = i * p.xSize + j) ∧
    (∀ c c' o o', c < p.inSize → c' < p.inSize → o < p.outSize → o' < p.outSize →
      p.cellOf c o = p.cellOf c' o' → c = c' ∧ o = o') ∧
    (p.outSize ≤ p.tmpSize ↔ p.cols = true ∨ p.xSize ≤ p.dSize) := by
  refine ⟨fun i j => cellOf_flat p i j, fun c c' o o' h1 h2 h3 h4 => cellOf_inj p h1 h2 h3 h4, ?_⟩
  unfold TPar.outSize BPar.tmpSize
  by_cases h : p.cols = true <;> simp [h]

end Aihw.Pulsed
