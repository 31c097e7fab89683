import Verif.PyTransfer.Props2

/-!
# C55, continued: reference, ideal tile, resuming
-/
namespace Aihw.PyTransfer

open Aihw.Pulsed (trunc0)

variable {G W Ω : Type}

/-! ## Reference of the dynamic compound -/

/-- The exponential running mean. -/
def runMean (a m0 : ℚ) (ys : List ℚ) : ℚ := ys.foldl (fun m y => (1 - a) * m + a * y) m0

/-- The reads up to and including the last one at which the chopper switched. -/
def upToSwitch : List (Rd Ω) → List (Rd Ω)
  | [] => []
  | r :: rs => if (r :: rs).any (·.switched) then r :: upToSwitch rs else []

/-- The reference after the reads `rs` of a slice: the running mean at the last read at which the
chopper switched, or the initial reference if it never did. -/
def reference (a r0 m0 : ℚ) (i : Nat) (rs : List (Rd Ω)) : ℚ :=
  if rs.any (·.switched) then runMean a m0 ((upToSwitch rs).map (·.y i)) else r0

theorem upToSwitch_none (rs : List (Rd Ω)) (h : rs.any (·.switched) = false) : upToSwitch rs = [] := by
  cases rs with
  | nil => rfl
  | cons r rs => simp only [upToSwitch, h, Bool.false_eq_true, if_false]

theorem upToSwitch_snoc (rs : List (Rd Ω)) (r : Rd Ω) :
    upToSwitch (rs ++ [r]) = if r.switched then rs ++ [r] else upToSwitch rs := by
  induction rs with
  | nil =>
    by_cases h : r.switched = true
    · simp [upToSwitch, h]
    · simp [upToSwitch, h]
  | cons a rs ih =>
    rw [List.cons_append, upToSwitch, ih]
    by_cases h : r.switched = true
    · simp [h]
    · rw [if_neg h, if_neg h]
      have e : (a :: (rs ++ [r])).any (·.switched) = (a :: rs).any (·.switched) := by
        simp [h]
      rw [e, upToSwitch]

theorem reference_snoc (a r0 m0 : ℚ) (i : Nat) (rs : List (Rd Ω)) (r : Rd Ω) :
    reference a r0 m0 i (rs ++ [r]) =
      if r.switched then runMean a m0 ((rs ++ [r]).map (·.y i)) else reference a r0 m0 i rs := by
  unfold reference
  rw [upToSwitch_snoc]
  by_cases h : r.switched = true
  · simp [h]
  · simp [h]

/-- **C55 (reference of the dynamic compound).**  For every history: the reference subtracted at a read
is the exponential running mean of the slice at the last read at which its chopper switched (the
initial reference before that); the running mean has weight `min(tail / period, 1)` per read. -/
theorem C55_reference (o : Ops G W Ω) (c : Cfg) (hd : c.dynamic = true) (us : List (Upd Ω))
    (s : St G W Ω) (hs : s.reads = []) (k i : Nat) :
    (∀ h1 r h2, (c.run o s us).reads = h1 ++ r :: h2 → r.k = k →
      r.ref i = reference (min (c.tail / (c.period : ℚ)) 1) (s.ref k i) (s.past k i) i (readsOf h1 k)) ∧
    (c.run o s us).past k i = runMean (min (c.tail / (c.period : ℚ)) 1) (s.past k i)
      ((readsOf (c.run o s us).reads k).map (·.y i)) := by
  have key := run_inv o c (fun t =>
    (∀ h1 r h2, t.reads = h1 ++ r :: h2 → r.k = k →
      r.ref i = reference c.beta (s.ref k i) (s.past k i) i (readsOf h1 k)) ∧
    t.past k i = runMean c.beta (s.past k i) ((readsOf t.reads k).map (·.y i)) ∧
    t.ref k i = reference c.beta (s.ref k i) (s.past k i) i (readsOf t.reads k)) us ?_ ?_ ?_ s ?_
  · exact ⟨key.1, key.2.1⟩
  · intro u _ t h; exact h
  · intro t _ h; exact h
  · intro u _ t l _ ⟨h1, h2, h3⟩
    obtain ⟨r, hr⟩ : ∃ r, r = rdOf o c t u l := ⟨_, rfl⟩
    have hpast : (c.transfer o t u l).past k i =
        if r.k = k then (1 - c.beta) * t.past k i + c.beta * r.y i else t.past k i := by
      show (if c.dynamic then setRow t.past (c.nextIdx t) fun i => (1 - c.beta) * t.past (c.nextIdx t) i +
        c.beta * o.gRead (c.nextIdx t) u.ωr t.g i else t.past) k i = _
      rw [if_pos hd]
      by_cases hk : r.k = k
      · rw [if_pos hk]
        have hk' : c.nextIdx t = k := by rw [← hk, hr]; rfl
        rw [hk', setRow_same, hr]
        simp only [rdOf, hk']
      · rw [if_neg hk]
        have hk' : k ≠ c.nextIdx t := by rintro e; apply hk; rw [hr, e]; rfl
        rw [setRow_ne _ hk']
    have hpast' : (c.transfer o t u l).past k i =
        runMean c.beta (s.past k i) ((readsOf (t.reads ++ [r]) k).map (·.y i)) := by
      rw [hpast, readsOf_append]
      by_cases hk : r.k = k
      · rw [if_pos hk, if_pos hk, h2]
        unfold runMean
        rw [List.map_append, List.foldl_append]
        rfl
      · rw [if_neg hk, if_neg hk, List.append_nil, h2]
    rw [transfer_reads, ← hr]
    refine ⟨?_, hpast', ?_⟩
    · intro a q b hab hq
      rcases List.eq_nil_or_concat b with hb | ⟨b', q', hb⟩
      · rw [hb] at hab
        obtain ⟨e1, e2⟩ := List.append_inj' hab rfl
        rw [← List.singleton_inj.1 e2, ← e1]
        rw [← List.singleton_inj.1 e2] at hq
        rw [← h3, hr]
        have hk' : c.nextIdx t = k := by rw [← hq, hr]; rfl
        show c.refOf t (c.nextIdx t) i = _
        unfold Cfg.refOf
        rw [if_pos hd, hk']
      · have e : a ++ q :: b = (a ++ q :: b') ++ [q'] := by rw [hb]; simp
        rw [e] at hab
        obtain ⟨e1, -⟩ := List.append_inj' hab rfl
        exact h1 a q b' e1 hq
    · rw [readsOf_append]
      by_cases hk : r.k = k
      · have hk' : c.nextIdx t = k := by rw [← hk, hr]; rfl
        rw [if_pos hk, reference_snoc]
        have hsw : r.switched = c.switch t u k := by rw [hr, ← hk']; rfl
        rw [hsw]
        show (if c.dynamic && c.switch t u (c.nextIdx t) then
          setRow t.ref (c.nextIdx t) ((c.transfer o t u l).past (c.nextIdx t)) else t.ref) k i = _
        rw [hk', hd, Bool.true_and]
        by_cases h : c.switch t u k = true
        · rw [if_pos h, if_pos h, setRow_same, hpast', readsOf_append, if_pos hk]
        · rw [if_neg h, if_neg h, h3]
      · have hk' : k ≠ c.nextIdx t := by rintro e; apply hk; rw [hr, e]; rfl
        rw [if_neg hk, List.append_nil, ← h3]
        show (if c.dynamic && c.switch t u (c.nextIdx t) then
          setRow t.ref (c.nextIdx t) ((c.transfer o t u l).past (c.nextIdx t)) else t.ref) k i = _
        split_ifs
        · rw [setRow_ne _ hk']
        · rfl
  · rw [hs]
    refine ⟨?_, ?_, ?_⟩
    · intro a q b h
      simp at h
    · simp [readsOf, runMean]
    · simp [readsOf, reference]

/-! ## Ideal gradient tile -/

/-- The outer product gradient of a batch for weight `(i, j)`. -/
def outer (x d : Mat) (i j : Nat) : ℚ :=
  (List.zipWith (fun (xr dr : Vec) => dr.getD i 0 * xr.getD j 0) x d).sum

/-- An ideal gradient tile: the update subtracts learning rate times gradient, the read returns a
column exactly. -/
def idealOps (W Ω : Type) (wUpd : Nat → (Nat → ℚ) → Ω → W → W) : Ops (Nat → Nat → ℚ) W Ω where
  gUpd := fun lr x d _ g => fun i j => g i j - lr * outer x d i j
  gRead := fun k _ g i => g i k
  wUpd := wUpd

theorem outer_chop (chop : Nat → ℚ) (x d : Mat) (i j : Nat) :
    outer (chopRows chop x) d i j = chop j * outer x d i j := by
  unfold outer chopRows
  induction x generalizing d with
  | nil => simp
  | cons xr x ih =>
    cases d with
    | nil => simp
    | cons dr d =>
      have e : (xr.mapIdx fun j v => v * chop j).getD j 0 = xr.getD j 0 * chop j := by
        rw [List.getD_eq_getElem?_getD, List.getD_eq_getElem?_getD, List.getElem?_mapIdx]
        cases xr[j]? <;> simp
      simp only [List.map_cons, List.zipWith_cons_cons, List.sum_cons, ih, e]
      ring

/-- **C55 (gradients enter the buffer with their own sign).**  With an ideal gradient tile, column
transfer and fixed gradient learning rate `fast_lr`: let column `j` not be read during a history of
supported updates, and let the next update read it.  Then the contribution of this read to the buffer is
`lr * (chopper * A₀ - fast_lr * (sum of all gradients of that time, including the last update))`,
whatever the chopper: choppers only affect what was stored in the tile before (`A₀`). -/
theorem C55_ideal (wUpd : Nat → (Nat → ℚ) → Ω → W → W) (c : Cfg) (ha : c.autoScale = false)
    (hd : c.dynamic = false) (us : List (Upd Ω)) (u : Upd Ω) (s : St (Nat → Nat → ℚ) W Ω)
    (hs : ∀ j, s.chop j = 1 ∨ s.chop j = -1) (hsup : ∀ v ∈ us ++ [u], ¬ Unsupported c v) (i j : Nat)
    (t t' : St (Nat → Nat → ℚ) W Ω) (ht : t = c.run (idealOps W Ω wUpd) s us)
    (ht' : t' = c.run (idealOps W Ω wUpd) s (us ++ [u])) (hno : readsOf t.reads j = readsOf s.reads j)
    (r : Rd Ω) (hr : t'.reads = t.reads ++ [r]) (hrk : r.k = j) :
    r.inc i = r.lrH * (s.chop j * s.g i j -
      c.fastLr * ((us ++ [u]).map fun v => outer v.x v.d i j).sum) := by
  obtain ⟨o, ho⟩ : ∃ o, o = idealOps W Ω wUpd := ⟨_, rfl⟩
  rw [← ho] at ht ht'
  have gupd : ∀ (v : Upd Ω) (a : St (Nat → Nat → ℚ) W Ω), ¬ Unsupported c v →
      (c.update o a v).1.g i j = a.g i j - c.fastLr * (a.chop j * outer v.x v.d i j) := by
    intro v a hv
    have hr : ¬ c.rejects v = true := fun h => hv ((rejects_iff c v).1 h)
    have e : (c.update o a v).1.g = o.gUpd (c.lrA a v).1 (chopRows a.chop v.x) v.d v.ωg a.g := by
      unfold Cfg.update
      rw [if_neg hr]
      unfold Cfg.body Cfg.tryTransfer
      simp only
      cases c.lrH (c.te v.x.length) v.lr (c.lrA a v).1 with
      | error e => simp only; split_ifs <;> rfl
      | ok l => simp only; split_ifs <;> rfl
    have hl : (c.lrA a v).1 = c.fastLr := by unfold Cfg.lrA; rw [ha]; rfl
    rw [e, hl, ho]
    show a.g i j - c.fastLr * outer _ v.d i j = _
    rw [outer_chop]
  have gacc : ∀ us : List (Upd Ω), (∀ v ∈ us, ¬ Unsupported c v) →
      (readsOf (c.run o s us).reads j).length = (readsOf s.reads j).length →
      (c.run o s us).g i j = s.g i j - c.fastLr * (s.chop j * (us.map fun v => outer v.x v.d i j).sum) := by
    intro us
    induction us using List.reverseRecOn with
    | nil => intro _ _; simp [Cfg.run]
    | append_singleton us v ih =>
      intro h1 h2
      have e : c.run o s (us ++ [v]) = (c.update o (c.run o s us) v).1 := by rw [run_append]; rfl
      have mono : ∀ (a : St (Nat → Nat → ℚ) W Ω) (us : List (Upd Ω)),
          (readsOf a.reads j).length ≤ (readsOf (c.run o a us).reads j).length := by
        intro a us
        refine run_inv o c (fun t => (readsOf a.reads j).length ≤ (readsOf t.reads j).length) us ?_ ?_ ?_ a le_rfl
        · intro u _ t h; exact h
        · intro t _ h; exact h
        · intro u _ t l _ h
          rw [transfer_reads, readsOf_append, List.length_append]
          omega
      have h3 : (readsOf (c.run o s us).reads j).length = (readsOf s.reads j).length := by
        have a1 := mono s us
        have a2 := mono (c.run o s us) [v]
        rw [← run_append] at a2
        omega
      rw [e, gupd v _ (h1 v (by simp)), ih (fun v hv => h1 v (by simp [hv])) h3,
        (C55_signs o c us s hs j _ rfl h3).1, List.map_append, List.sum_append, List.map_singleton,
        List.sum_singleton]
      ring
  have hno' : (readsOf t.reads j).length = (readsOf s.reads j).length := by rw [hno]
  have hu : ¬ Unsupported c u := hsup u (by simp)
  have et' : t' = (c.update o t u).1 := by rw [ht', ht, run_append]; rfl
  have hgt := gacc us (fun v hv => hsup v (by simp [hv])) (by rw [← ht]; exact hno')
  rw [← ht] at hgt
  obtain ⟨hch, hsq, hsig⟩ := C55_signs o c us s hs j t ht hno'
  have hsgn := (hsig u hu).2 r (by rw [← et']; exact hr) hrk
  have hg' := gupd u t hu
  rw [hch, hgt] at hg'
  have hy : r.y i = (c.update o t u).1.g i j ∧ r.ref i = 0 := by
    rcases update_shape o c t u with h | h | ⟨hk, h⟩ | ⟨l, -, hk, h⟩
    · exfalso
      rw [et', h] at hr
      have := congrArg List.length hr
      simp at this
    · exfalso
      rw [et', h] at hr
      have := congrArg List.length hr
      simp [Cfg.grad] at this
    · exfalso
      rw [et', h] at hr
      have := congrArg List.length hr
      simp [Cfg.grad] at this
    · rw [et', h, transfer_reads] at hr
      have hr' := (List.singleton_inj.1 (List.append_cancel_left hr)).symm
      have hk2 : c.nextIdx (c.grad o t u) = j := by rw [← hrk, hr']; rfl
      refine ⟨?_, ?_⟩
      · rw [h, hr']
        show o.gRead (c.nextIdx (c.grad o t u)) u.ωr (c.grad o t u).g i = (c.grad o t u).g i j
        rw [hk2, ho]; rfl
      · rw [hr']
        show c.refOf (c.grad o t u) _ i = 0
        unfold Cfg.refOf
        rw [hd]; rfl
  unfold Rd.inc
  rw [hsgn, hy.1, hy.2, hg', List.map_append, List.sum_append, List.map_singleton, List.sum_singleton]
  have e2 : s.chop j * (s.g i j - c.fastLr * (s.chop j * (us.map fun v => outer v.x v.d i j).sum) -
      c.fastLr * (s.chop j * outer u.x u.d i j) - 0) = s.chop j * s.g i j -
      c.fastLr * ((us.map fun v => outer v.x v.d i j).sum + outer u.x u.d i j) * (s.chop j * s.chop j) := by
    ring
  rw [mul_assoc, e2, hsq, mul_one]

/-! ## Resuming from a checkpoint -/

/-- Two tiles that behave the same under the period `T`. -/
structure Same (T : Nat) (s t : St G W Ω) : Prop where
  g : s.g = t.g
  w : s.w = t.w
  hid : s.hid = t.hid
  past : s.past = t.past
  ref : s.ref = t.ref
  chop : s.chop = t.chop
  idx : s.idx = t.idx
  cc : s.cc = t.cc
  uc : s.uc % T = t.uc % T

theorem same_step (o : Ops G W Ω) (c : Cfg) (ha : c.autoScale = false) (T : Nat) (u : Upd Ω)
    (hT : c.te u.x.length = T) (s t : St G W Ω) (h : Same T s t) :
    Same T (c.update o s u).1 (c.update o t u).1 ∧ (c.update o s u).2.1 = (c.update o t u).2.1 := by
  obtain ⟨g, w, hid, past, ref, chop, idx, cc, uc⟩ := h
  have hl : ∀ a : St G W Ω, (c.lrA a u).1 = c.fastLr := by
    intro a; unfold Cfg.lrA; rw [ha]; rfl
  have hgrad : Same T (c.grad o s u) (c.grad o t u) := by
    refine ⟨?_, w, hid, past, ref, chop, idx, cc, ?_⟩
    · simp only [Cfg.grad, hl, g, chop]
    · show (s.uc + u.x.length) % T = (t.uc + u.x.length) % T
      rw [Nat.add_mod, uc, ← Nat.add_mod]
  unfold Cfg.update
  by_cases hr : c.rejects u = true
  · rw [if_pos hr, if_pos hr]; exact ⟨⟨g, w, hid, past, ref, chop, idx, cc, uc⟩, rfl⟩
  rw [if_neg hr, if_neg hr]
  unfold Cfg.body
  simp only [hT, hl]
  rw [uc]
  by_cases h0 : T = 0
  · rw [if_pos h0, if_pos h0]; exact ⟨hgrad, rfl⟩
  rw [if_neg h0, if_neg h0]
  by_cases h1 : t.uc % T + u.x.length < T
  · rw [if_pos h1, if_pos h1]; exact ⟨hgrad, rfl⟩
  rw [if_neg h1, if_neg h1]
  by_cases h2 : 2 * T ≤ t.uc % T + u.x.length
  · rw [if_pos h2, if_pos h2]; exact ⟨hgrad, rfl⟩
  rw [if_neg h2, if_neg h2]
  generalize c.grad o s u = a at hgrad
  generalize c.grad o t u = b at hgrad
  obtain ⟨g, w, hid, past, ref, chop, idx, cc, uc⟩ := hgrad
  have hk : c.nextIdx a = c.nextIdx b := by unfold Cfg.nextIdx; rw [idx]
  have hncc : ∀ k, c.nextCC a k = c.nextCC b k := by intro k; unfold Cfg.nextCC; rw [cc]
  have hsw : ∀ k, c.switch a u k = c.switch b u k := by intro k; unfold Cfg.switch; rw [hncc]
  unfold Cfg.tryTransfer
  cases c.lrH T u.lr c.fastLr with
  | error e => exact ⟨⟨g, w, hid, past, ref, chop, idx, cc, uc⟩, rfl⟩
  | ok l =>
    simp only
    rw [hk]
    by_cases hx : c.nextIdx b < c.xSize
    · rw [if_pos hx, if_pos hx]
      refine ⟨⟨g, ?_, ?_, ?_, ?_, ?_, hk, ?_, uc⟩, rfl⟩ <;>
        simp only [Cfg.transfer, Cfg.acc, Cfg.refOf, hsw, hncc, hk, g, w, hid, past, ref,
          chop]
    · rw [if_neg hx, if_neg hx]
      exact ⟨⟨g, w, hid, past, ref, chop, rfl, cc, uc⟩, rfl⟩

/-- **C55 (resuming).**  A `state_dict` does not contain the counters of the tile.  Loading it in a new
tile and continuing gives the same tiles, buffers, choppers and errors for every further history, if
the checkpoint was taken when the counters stand at zero: sample counter a multiple of the period, next
slice the first, chopper counter zero, and no automatic scale. -/
theorem C55_resume (o : Ops G W Ω) (c : Cfg) (ha : c.autoScale = false) (T : Nat) (us : List (Upd Ω))
    (hT : ∀ u ∈ us, c.te u.x.length = T) (s : St G W Ω) (g0 : G) (w0 : W) (huc : s.uc % T = 0)
    (hi : s.idx = 0) (hcc : s.cc = 0) :
    (c.run o (restore s (fresh g0 w0)) us).g = (c.run o s us).g ∧
    (c.run o (restore s (fresh g0 w0)) us).w = (c.run o s us).w ∧
    (c.run o (restore s (fresh g0 w0)) us).hid = (c.run o s us).hid ∧
    (c.run o (restore s (fresh g0 w0)) us).past = (c.run o s us).past ∧
    (c.run o (restore s (fresh g0 w0)) us).ref = (c.run o s us).ref ∧
    (c.run o (restore s (fresh g0 w0)) us).chop = (c.run o s us).chop ∧
    c.errors o (restore s (fresh g0 w0)) us = c.errors o s us := by
  have key : ∀ (us : List (Upd Ω)), (∀ u ∈ us, c.te u.x.length = T) → ∀ a b : St G W Ω, Same T a b →
      Same T (c.run o a us) (c.run o b us) ∧ c.errors o a us = c.errors o b us := by
    intro us
    induction us with
    | nil => intro _ a b h; exact ⟨h, rfl⟩
    | cons u us ih =>
      intro hT a b h
      obtain ⟨h1, h2⟩ := same_step o c ha T u (hT u (List.mem_cons_self ..)) a b h
      obtain ⟨h3, h4⟩ := ih (fun v hv => hT v (List.mem_cons_of_mem _ hv)) _ _ h1
      refine ⟨h3, ?_⟩
      simp only [Cfg.errors, h2, h4]
  have h0 : Same T (restore s (fresh g0 w0)) s := by
    refine ⟨rfl, rfl, rfl, rfl, rfl, rfl, ?_, ?_, ?_⟩
    · rw [hi]; rfl
    · rw [hcc]; rfl
    · rw [huc]; show 0 % T = 0; exact Nat.zero_mod T
  obtain ⟨⟨g, w, hid, past, ref, chop, -, -, -⟩, he⟩ := key us hT _ _ h0
  exact ⟨g, w, hid, past, ref, chop, he⟩

/-- **C55 (finding: resuming restarts the counters).**  After loading a checkpoint the first slice
read is slice `1 mod n`, whereas the tile that was saved continues with the slice after its last one. -/
theorem C55_resume_finding (o : Ops G W Ω) (c : Cfg) (s : St G W Ω) (g0 : G) (w0 : W) (u : Upd Ω)
    (r r' : Rd Ω) (h : (c.update o s u).1.reads = s.reads ++ [r])
    (h' : (c.update o (restore s (fresh g0 w0)) u).1.reads = [r']) :
    r.k = (s.idx + 1) % c.tIn ∧ r'.k = 1 % c.tIn := by
  have key : ∀ (a : St G W Ω) (q : Rd Ω), (c.update o a u).1.reads = a.reads ++ [q] →
      q.k = (a.idx + 1) % c.tIn := by
    intro a q hq
    rcases update_shape o c a u with h | h | ⟨hk, h⟩ | ⟨l, -, hk, h⟩
    · exfalso
      rw [h] at hq
      have := congrArg List.length hq
      simp at this
    · exfalso
      rw [h] at hq
      have := congrArg List.length hq
      simp [Cfg.grad] at this
    · exfalso
      rw [h] at hq
      have := congrArg List.length hq
      simp [Cfg.grad] at this
    · rw [h, transfer_reads] at hq
      rw [← List.singleton_inj.1 (List.append_cancel_left hq)]
      rfl
  exact ⟨key s r h, key _ r' h'⟩

end Aihw.PyTransfer
