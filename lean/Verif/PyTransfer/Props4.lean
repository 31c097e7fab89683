import Verif.PyTransfer.Props3

/-!
# C55, continued: random choppers and automatic scale
-/
namespace Aihw.PyTransfer

variable {G W Ω : Type}

/-- **C55 (random choppers).**  In every history, a read enters with the present sign of its chopper; with
`in_chop_random` that chopper then switches exactly if the uniform draw of this update is below
`in_chop_prob` (never for probability 0); the other choppers stay. -/
theorem C55_random_chopper (o : Ops G W Ω) (c : Cfg) (hr : c.inRandom = true) (us : List (Upd Ω)) (s : St G W Ω)
    (u : Upd Ω) (r : Rd Ω) (t t' : St G W Ω) (ht : t = c.run o s us) (ht' : t' = c.run o s (us ++ [u]))
    (hrd : t'.reads = t.reads ++ [r]) :
    r.sign = t.chop r.k ∧ (r.switched = true ↔ c.inProb ≠ 0 ∧ u.rnd < c.inProb) ∧
    t'.chop r.k = (if c.inProb ≠ 0 ∧ u.rnd < c.inProb then -t.chop r.k else t.chop r.k) ∧
    (∀ j, j ≠ r.k → t'.chop j = t.chop j) := by
  have e : t' = (c.update o t u).1 := by rw [ht', ht, run_append]; rfl
  have hlen : ∀ l : List (Rd Ω), l ≠ l ++ [r] := by
    intro l h
    have := congrArg List.length h
    simp at this
  rcases update_shape o c t u with h | h | ⟨-, h⟩ | ⟨l, -, hk, h⟩
  · rw [e, h] at hrd; exact absurd hrd (hlen _)
  · rw [e, h] at hrd; exact absurd hrd (hlen _)
  · rw [e, h] at hrd; exact absurd hrd (hlen _)
  · have hr' : r = rdOf o c (c.grad o t u) u l := by
      rw [e, h, transfer_reads] at hrd
      exact (List.singleton_inj.1 (List.append_cancel_left hrd)).symm
    have hk' : r.k = c.nextIdx (c.grad o t u) := by rw [hr']; rfl
    have hs : r.sign = t.chop r.k := by rw [hr']; rfl
    have hsw : r.switched = c.switch (c.grad o t u) u r.k := by rw [hr']; rfl
    have hsw' : r.switched = true ↔ c.inProb ≠ 0 ∧ u.rnd < c.inProb := by
      rw [hsw]
      unfold Cfg.switch
      rw [hr]
      by_cases h0 : c.inProb = 0
      · simp [h0]
      · simp [h0]
    have hc : t'.chop = if r.switched = true then fun j => if j = r.k then -t.chop r.k else t.chop j
        else t.chop := by
      rw [e, h, hsw, hk']
      rfl
    refine ⟨hs, hsw', ?_, ?_⟩
    · rw [hc]
      by_cases hq : r.switched = true
      · rw [if_pos hq, if_pos (hsw'.1 hq)]; simp
      · rw [if_neg hq, if_neg (fun h => hq (hsw'.2 h))]
    · intro j hj
      rw [hc]
      split_ifs
      · exact if_neg hj
      · rfl

/-- `m` is the largest absolute value of the entries of `x`. -/
def IsAbsMax (x : Mat) (m : ℚ) : Prop :=
  (∀ row ∈ x, ∀ a ∈ row, |a| ≤ m) ∧ ∃ row ∈ x, ∃ a ∈ row, |a| = m

theorem absMax_spec (x : Mat) (hx : x.flatten ≠ []) : IsAbsMax x (absMax x.flatten) := by
  constructor
  · intro row hr a ha
    exact abs_le_absMax (List.mem_flatten.2 ⟨row, hr, ha⟩)
  · obtain ⟨a, ha, he⟩ := absMax_mem hx
    obtain ⟨row, hr, ha'⟩ := List.mem_flatten.1 ha
    exact ⟨row, hr, a, ha', he.symm⟩

/-- **C55 (automatic scale).**  Every supported update calls the gradient tile once, with the errors as
given.  Without `auto_scale` its learning rate is `fast_lr`.  With it, the running means of the largest
absolute input and error move by the fraction `(1 - auto_momentum) / batch` towards those of this call, and the learning rate is the constant divided by their
product, or the constant itself while one of them is not positive. -/
theorem C55_auto_scale (o : Ops G W Ω) (c : Cfg) (us : List (Upd Ω)) (s : St G W Ω) (u : Upd Ω)
    (hs : ¬ Unsupported c u) (hx : u.x.flatten ≠ []) (hd : u.d.flatten ≠ []) (t t' : St G W Ω)
    (ht : t = c.run o s us) (ht' : t' = c.run o s (us ++ [u])) :
    ∃ e : GU, t'.glog = t.glog ++ [e] ∧ e.d = u.d ∧
      (c.autoScale = false → e.lr = c.fastLr ∧ t'.mx = t.mx ∧ t'.md = t.md) ∧
      (c.autoScale = true → ∃ ax ad, IsAbsMax u.x ax ∧ IsAbsMax u.d ad ∧
        t'.mx = t.mx + (1 - c.autoMom) / (u.x.length : ℚ) * (ax - t.mx) ∧
        t'.md = t.md + (1 - c.autoMom) / (u.x.length : ℚ) * (ad - t.md) ∧
        (0 < t'.mx → 0 < t'.md → e.lr * (t'.mx * t'.md) = c.lrAuto) ∧
        (¬ (0 < t'.mx ∧ 0 < t'.md) → e.lr = c.lrAuto)) := by
  have e : t' = (c.update o t u).1 := by rw [ht', ht, run_append]; rfl
  have hrj : ¬ c.rejects u = true := fun h => hs ((rejects_iff c u).1 h)
  have hsame : t'.glog = (c.grad o t u).glog ∧ t'.mx = (c.grad o t u).mx ∧ t'.md = (c.grad o t u).md := by
    rw [e]
    have hb : (c.update o t u).1 = (c.body o t u).1 := by
      unfold Cfg.update; rw [if_neg hrj]
    rw [hb]
    unfold Cfg.body
    simp only
    split_ifs
    · exact ⟨rfl, rfl, rfl⟩
    · exact ⟨rfl, rfl, rfl⟩
    · exact ⟨rfl, rfl, rfl⟩
    · unfold Cfg.tryTransfer
      cases c.lrH (c.te u.x.length) u.lr (c.lrA t u).1 with
      | error e => exact ⟨rfl, rfl, rfl⟩
      | ok l =>
        simp only
        split_ifs
        · exact ⟨rfl, rfl, rfl⟩
        · exact ⟨rfl, rfl, rfl⟩
  obtain ⟨h1, h2, h3⟩ := hsame
  refine ⟨⟨(c.lrA t u).1, chopRows t.chop u.x, u.d⟩, h1, rfl, ?_, ?_⟩
  · intro ha
    rw [h2, h3]
    unfold Cfg.grad Cfg.lrA
    simp [ha]
  · intro ha
    refine ⟨absMax u.x.flatten, absMax u.d.flatten, absMax_spec _ hx, absMax_spec _ hd, ?_, ?_, ?_, ?_⟩
    · rw [h2]
      unfold Cfg.grad Cfg.lrA
      rw [if_pos ha]
      simp only
      ring
    · rw [h3]
      unfold Cfg.grad Cfg.lrA
      rw [if_pos ha]
      simp only
      ring
    · rw [h2, h3]
      unfold Cfg.grad Cfg.lrA
      rw [if_pos ha]
      simp only
      intro p1 p2
      rw [if_pos ⟨p1, p2⟩]
      exact div_mul_cancel₀ _ (mul_ne_zero p1.ne' p2.ne')
    · rw [h2, h3]
      unfold Cfg.grad Cfg.lrA
      rw [if_pos ha]
      simp only
      intro p
      rw [if_neg p]

end Aihw.PyTransfer
