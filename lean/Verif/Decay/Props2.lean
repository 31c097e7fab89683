import Verif.Decay.Props

/-!
# C89: unit cells and `post_update_step`
-/
namespace Aihw.Decay
open Aihw Aihw.Pulsed

variable {K : Type} [Field K] [LinearOrder K] [IsStrictOrderedRing K] [FloorRing K]

/-! ## Unit cells -/

/-- The call with the draws of device `j`. -/
def Call.at (j : Nat) : Call K → Call K
  | .decay a n => .decay a fun _ => n j
  | .diffuse g n => .diffuse (fun _ => g j) fun _ => n j
  | .reset st c pr u g n => .reset st c pr (fun _ => u j) (fun _ => g j) fun _ => n j

/-- Weighted sum of the weights of the devices of a unit cell. -/
def weighted (p : VPar K) (s : VS K) (k : Nat) : K := ((List.range p.n).map fun j => p.gamma j * ((s.dev j).st k).vis).sum

omit [IsStrictOrderedRing K] in
theorem dev_at (F : Fns K) (c : Call K) (d : Dev K) (j i : Nat) : (c.at j).dev F d i = c.dev F d j := by
  cases c <;> rfl

omit [IsStrictOrderedRing K] in
theorem at_idle (c : Call K) (j : Nat) : (c.at j).idle = c.idle := by
  cases c <;> rfl

omit [IsStrictOrderedRing K] in
theorem pulsed_exec (F : Fns K) (c : Call K) (d : Dev K) (j : Nat) :
    (Tile.pulsed d).exec F (c.at j) = .ok (.pulsed (if c.idle then d else c.dev F d j)) := by
  unfold Tile.exec
  rw [at_idle]
  have : (Tile.pulsed d).refuses (c.at j) = false := by cases c <;> rfl
  rw [this]
  cases c.idle
  · show Except.ok (Tile.pulsed ((c.at j).dev F d 0)) = _
    rw [dev_at]; rfl
  · rfl

omit [IsStrictOrderedRing K] in
theorem each_dev (F : Fns K) (p : VPar K) (s : VS K) (c : Call K) (j : Nat) :
    (p.each F s c.op).dev j = c.dev F (s.dev j) j := by
  cases c <;> rfl

/-- Devices of a unit cell decay, diffuse and are reset independently, each as if it were alone on a tile, and the weights
of the tile stay the weighted sum of the weights of the devices. -/
theorem C89_vector (F : Fns K) (p : VPar K) (cs : List (Call K)) (s : VS K) (hs : ∀ k, s.vis k = weighted p s k) :
    ∃ s', (Tile.vector p s).run F cs = .ok (.vector p s') ∧
      (∀ j, (Tile.pulsed (s.dev j)).run F (cs.map (Call.at j)) = .ok (.pulsed (s'.dev j))) ∧
      ∀ k, (Tile.vector p s').weights k = weighted p s' k := by
  induction cs generalizing s with
  | nil => exact ⟨s, rfl, fun _ => rfl, hs⟩
  | cons c cs ih =>
    have he : (Tile.vector p s).exec F c = .ok (.vector p (if c.idle then s else p.each F s c.op)) := by
      unfold Tile.exec
      have : (Tile.vector p s).refuses c = false := by cases c <;> rfl
      rw [this]
      cases c.idle <;> rfl
    obtain ⟨s', r, hd, hk⟩ := ih (if c.idle then s else p.each F s c.op) (by
      cases c.idle
      · intro k; rfl
      · exact hs)
    refine ⟨s', ?_, ?_, hk⟩
    · simp only [Tile.run, he]
      exact r
    · intro j
      simp only [List.map_cons, Tile.run, pulsed_exec]
      have := hd j
      cases hi : c.idle
      · rw [hi] at this
        simp only [Bool.false_eq_true, if_false] at this ⊢
        rw [each_dev] at this
        exact this
      · rw [hi] at this
        simpa using this

/-- Decay and diffusion of a transfer compound whose weights are not hidden: as in every unit cell. -/
theorem C89_transfer (F : Fns K) (p : VPar K) (s : VS K) (c : Call K) (hc : ∀ st co pr u g n, c ≠ .reset st co pr u g n) :
    ∃ s', (Tile.transfer false p s).exec F c = .ok (.transfer false p s') ∧
      (∀ j, (Tile.pulsed (s.dev j)).exec F (c.at j) = .ok (.pulsed (s'.dev j))) ∧
      ∀ k, (Tile.transfer false p s').weights k = weighted p s' k := by
  refine ⟨p.each F s c.op, ?_, ?_, fun k => rfl⟩
  · cases c with
    | decay _ _ => rfl
    | diffuse _ _ => rfl
    | reset st co pr u g n => exact absurd rfl (hc st co pr u g n)
  · intro j
    rw [pulsed_exec, each_dev]
    cases c with
    | decay _ _ => rfl
    | diffuse _ _ => rfl
    | reset st co pr u g n => exact absurd rfl (hc st co pr u g n)

/-- A reset of a transfer compound reaches its first device only.  If the weights of the tile are those of the last device
alone (all other weights hidden), `reset()` leaves the weights of the tile as they are. -/
theorem C89_transfer_reset (F : Fns K) (hidden : Bool) (p : VPar K) (s : VS K) (start cols : ℤ) (prob : K)
    (u g n : Nat → Nat → K) (hs : hidden = false → ∀ k, s.vis k = weighted p s k) :
    ∃ s', (Tile.transfer hidden p s).exec F (.reset start cols prob u g n) = .ok (.transfer hidden p s') ∧
      (Tile.pulsed (s.dev 0)).exec F (.reset start cols prob u g n) = .ok (.pulsed (s'.dev 0)) ∧
      (∀ j, j ≠ 0 → s'.dev j = s.dev j) ∧
      (hidden = true → (Tile.transfer hidden p s').weights = (Tile.transfer hidden p s).weights) ∧
      (hidden = false → ∀ k, (Tile.transfer hidden p s').weights k = weighted p s' k) := by
  by_cases hp : prob = 0
  · refine ⟨s, ?_, ?_, fun _ _ => rfl, fun _ => rfl, hs⟩
    · show (if (decide (prob = 0)) = true then _ else _) = _
      rw [decide_eq_true hp]; rfl
    · show (if (decide (prob = 0)) = true then _ else _) = _
      rw [decide_eq_true hp]; rfl
  · refine ⟨transferReset F hidden p s (.reset start cols prob u g n), ?_, ?_, ?_, ?_, ?_⟩
    · show (if (decide (prob = 0)) = true then _ else _) = _
      rw [decide_eq_false hp]; rfl
    · show (if (decide (prob = 0)) = true then _ else _) = _
      rw [decide_eq_false hp]
      cases hidden <;> rfl
    · intro j hj
      cases hidden
      · show (if j = 0 then _ else s.dev j) = _
        rw [if_neg hj]
      · show (if j = 0 then _ else s.dev j) = _
        rw [if_neg hj]
    · intro h; subst h; rfl
    · intro h; subst h; intro k; rfl

/-- The device seen by the last device of a fully hidden compound: its own parameters with the weights of the tile. -/
def visible (s : VS K) (j : Nat) : Dev K := { s.dev j with st := fun k => ⟨s.vis k, ((s.dev j).st k).per⟩ }

/-- Decay and diffusion of a fully hidden compound of `m + 1` devices: the weights of the tile change as those of the last
device alone, every hidden device changes on its own, and the unused entry of the last device keeps its content. -/
theorem C89_hidden (F : Fns K) (p : VPar K) (s : VS K) (c : Call K) (hc : ∀ st co pr u g n, c ≠ .reset st co pr u g n)
    (m : Nat) (hn : p.n = m + 1) :
    ∃ s' d', (Tile.transfer true p s).exec F c = .ok (.transfer true p s') ∧
      (Tile.pulsed (visible s m)).exec F (c.at m) = .ok (.pulsed d') ∧
      (Tile.transfer true p s').weights = (Tile.pulsed d').weights ∧
      visible s' m = d' ∧
      (∀ k, ((s'.dev m).st k).vis = ((s.dev m).st k).vis) ∧
      ∀ j, j < m → (Tile.pulsed (s.dev j)).exec F (c.at j) = .ok (.pulsed (s'.dev j)) := by
  have hi : c.idle = false := by
    cases c with
    | decay _ _ => rfl
    | diffuse _ _ => rfl
    | reset st co pr u g n => exact absurd rfl (hc st co pr u g n)
  have hl : p.n - 1 = m := by omega
  refine ⟨hiddenExec F p s c, c.dev F (visible s m) m, ?_, ?_, ?_, ?_, ?_, ?_⟩
  · cases c with
    | decay _ _ => rfl
    | diffuse _ _ => rfl
    | reset st co pr u g n => exact absurd rfl (hc st co pr u g n)
  · rw [pulsed_exec, hi]; rfl
  · show (onWeights F c (s.dev (p.n - 1)) (p.n - 1) s.vis).2 = _
    rw [hl]
    rfl
  · have e : (hiddenExec F p s c).dev m = (onWeights F c (s.dev m) m s.vis).1 := by
      unfold hiddenExec
      dsimp only
      rw [hl, if_pos rfl]
    have e2 : (hiddenExec F p s c).vis = (onWeights F c (s.dev m) m s.vis).2 := by
      unfold hiddenExec
      dsimp only
      rw [hl]
    unfold visible
    rw [e, e2]
    cases c <;> rfl
  · intro k
    have e : (hiddenExec F p s c).dev m = (onWeights F c (s.dev m) m s.vis).1 := by
      unfold hiddenExec
      dsimp only
      rw [hl, if_pos rfl]
    rw [e]
    cases c <;> rfl
  · intro j hj
    rw [pulsed_exec, hi]
    have : (hiddenExec F p s c).dev j = c.dev F (s.dev j) j := by
      unfold hiddenExec
      dsimp only
      rw [hl, if_neg (by omega), if_pos hj]
    rw [this]; rfl

/-! ## The step after every mini-batch -/

/-- The cells of a device are constructed with the given lifetime and diffusion. -/
def Constructed (life diff : K) (d : Dev K) : Prop :=
  ∀ k, ∃ expf th p last r, populateCell expf th p last r = .ok (d.cell k) ∧ p.lifetime = life ∧ p.diffusion = diff

/-- The fraction lost per mini-batch by a cell. -/
def lost (life : K) (c : Cell K) : K := if 0 < life then 1 - c.decay else 0

theorem constructed_rate {life diff : K} {d : Dev K} (h : Constructed life diff d) (k : Nat) :
    (life ≤ 0 → (d.cell k).decay = 1) ∧ (diff = 0 → (d.cell k).diff = 0) ∧ lost life (d.cell k) = 1 - (d.cell k).decay := by
  obtain ⟨expf, th, p, last, r, hp, rfl, rfl⟩ := h k
  obtain ⟨-, -, h3, -, h5⟩ := C89_rate expf th p last r _ hp 1
  have e : p.lifetime ≤ 0 → (d.cell k).decay = 1 := by
    intro hl
    have := h3 hl
    linarith
  refine ⟨e, ?_, ?_⟩
  · intro hd
    rw [h5, hd, zero_mul, abs_zero]
  · unfold lost
    split_ifs with hl
    · rfl
    · rw [e (not_lt.1 hl), sub_self]

theorem post_weight (F : Fns K) (life diff : K) (hd : 0 ≤ diff) (d : Dev K) (h : Constructed life diff d) (r : Draws K) :
    ∃ d' : Nat → Dev K, (∀ j : Nat, (Tile.pulsed d).run F (((PyDev.simple life diff).calls r).map (Call.at j)) =
        .ok (.pulsed (d' j))) ∧ (∀ j, (d' j).cell = d.cell ∧ (d' j).kd = d.kd ∧ (d' j).par = d.par) ∧
      ∀ j k, Within d k (d.weight k) →
        (d' j).weight k = limited d k ((d.cell k).resetB +
          (limited d k (d.weight k + (d.cell k).diff * r.g j k) - (d.cell k).resetB) * (1 - lost life (d.cell k))) := by
  have H : ∀ j : Nat, ∃ d', (Tile.pulsed d).run F (((PyDev.simple life diff).calls r).map (Call.at j)) = .ok (.pulsed d') ∧
      (d'.cell = d.cell ∧ d'.kd = d.kd ∧ d'.par = d.par) ∧ ∀ k, Within d k (d.weight k) →
        d'.weight k = limited d k ((d.cell k).resetB +
          (limited d k (d.weight k + (d.cell k).diff * r.g j k) - (d.cell k).resetB) * (1 - lost life (d.cell k))) := by
    intro j
    have hb : ∀ k, Within d k (d.weight k) → (d.cell k).minB ≤ (d.cell k).maxB := fun k hw => hw.1.trans hw.2
    have ein : ∀ k x, Within d k (d.weight k) → limited d k (limited d k x) = limited d k x := by
      intro k x hw
      have hb := hb k hw
      unfold limited
      split_ifs <;> first | rfl | (exfalso; linarith) | skip
    by_cases h1 : 0 < diff <;> by_cases h2 : 0 < life
    · refine ⟨(Call.decay 1 r.n').dev F ((Call.diffuse r.g r.n).dev F d j) j, ?_, ⟨rfl, rfl, rfl⟩, ?_⟩
      · simp only [PyDev.calls, PyDev.requiresDiffusion, PyDev.requiresDecay, decide_eq_true h1, decide_eq_true h2, if_true,
          List.cons_append, List.nil_append, List.map_cons, List.map_nil, Tile.run, pulsed_exec]
        rfl
      · intro k hw
        rw [decay_weight, diffuse_weight]
        have e : ((Call.diffuse r.g r.n).dev F d j).cell = d.cell := rfl
        rw [e, clipMM_limited d k _ (hb k hw), clipMM_limited d k _ (hb k hw), (constructed_rate h k).2.2]
        congr 1
        ring
    · refine ⟨(Call.diffuse r.g r.n).dev F d j, ?_, ⟨rfl, rfl, rfl⟩, ?_⟩
      · simp only [PyDev.calls, PyDev.requiresDiffusion, PyDev.requiresDecay, decide_eq_true h1, decide_eq_false h2, if_true,
          Bool.false_eq_true, if_false, List.append_nil, List.map_cons, List.map_nil, Tile.run, pulsed_exec]
        rfl
      · intro k hw
        have e0 : lost life (d.cell k) = 0 := if_neg h2
        rw [diffuse_weight, clipMM_limited d k _ (hb k hw), e0, sub_zero, mul_one, add_sub_cancel, ein k _ hw]
    · refine ⟨(Call.decay 1 r.n').dev F d j, ?_, ⟨rfl, rfl, rfl⟩, ?_⟩
      · simp only [PyDev.calls, PyDev.requiresDiffusion, PyDev.requiresDecay, decide_eq_false h1, decide_eq_true h2, if_true,
          Bool.false_eq_true, if_false, List.nil_append, List.map_cons, List.map_nil, Tile.run, pulsed_exec]
        rfl
      · intro k hw
        have e0 := (constructed_rate h k).2.1 (le_antisymm (not_lt.1 h1) hd)
        rw [decay_weight, clipMM_limited d k _ (hb k hw), e0, zero_mul, add_zero, limited_eq hw, (constructed_rate h k).2.2]
        congr 1
        ring
    · refine ⟨d, ?_, ⟨rfl, rfl, rfl⟩, ?_⟩
      · simp only [PyDev.calls, PyDev.requiresDiffusion, PyDev.requiresDecay, decide_eq_false h1, decide_eq_false h2,
          Bool.false_eq_true, if_false, List.append_nil, List.map_nil, Tile.run]
      · intro k hw
        have e0 := (constructed_rate h k).2.1 (le_antisymm (not_lt.1 h1) hd)
        have e1 : lost life (d.cell k) = 0 := if_neg h2
        rw [e0, e1, zero_mul, add_zero, limited_eq hw, sub_zero, mul_one, add_sub_cancel, limited_eq hw]
  choose d' H1 H2 H3 using H
  exact ⟨d', H1, H2, H3⟩

omit [IsStrictOrderedRing K] in
theorem at_zero (c : Call K) (d : Dev K) (F : Fns K) : (Tile.pulsed d).exec F (c.at 0) = (Tile.pulsed d).exec F c := by
  cases c <;> rfl

/-- `post_update_step` of a tile with one device: diffusion, then decay.  The queries `requires_diffusion` and
`requires_decay` skip only calls that change no stored weight. -/
theorem C89_post_update (F : Fns K) (life diff : K) (hd : 0 ≤ diff) (d : Dev K) (h : Constructed life diff d) (r : Draws K) :
    ∃ d', postUpdate F (.simple life diff) (.pulsed d) r = .ok (.pulsed d') ∧
      postUpdate F (.mixedPrec (.simple life diff)) (.mixed d) r = .ok (.mixed d') ∧
      ∀ k, Within d k (d.weight k) →
        d'.weight k = limited d k ((d.cell k).resetB +
          (limited d k (d.weight k + (d.cell k).diff * r.g 0 k) - (d.cell k).resetB) * (1 - lost life (d.cell k))) := by
  obtain ⟨d', h1, -, h3⟩ := post_weight F life diff hd d h r
  have hrun : (Tile.pulsed d).run F ((PyDev.simple life diff).calls r) = .ok (.pulsed (d' 0)) := by
    have := h1 0
    rw [← this]
    unfold PyDev.calls
    split_ifs <;> rfl
  refine ⟨d' 0, hrun, ?_, h3 0⟩
  have hm : ∀ (cs : List (Call K)) (a b : Dev K), (Tile.pulsed a).run F cs = .ok (.pulsed b) →
      (Tile.mixed a).run F cs = .ok (.mixed b) := by
    intro cs
    induction cs with
    | nil =>
      intro a b e
      injection e with e
      injection e with e
      rw [e]; rfl
    | cons c cs ih =>
      intro a b e
      have e1 : (Tile.pulsed a).exec F c = .ok (.pulsed (if c.idle then a else c.dev F a 0)) := by
        rw [← at_zero]; exact pulsed_exec F c a 0
      have e2 : (Tile.mixed a).exec F c = .ok (.mixed (if c.idle then a else c.dev F a 0)) := by
        unfold Tile.exec
        have : (Tile.mixed a).refuses c = false := by cases c <;> rfl
        rw [this]
        cases c.idle <;> rfl
      simp only [Tile.run, e1] at e
      simp only [Tile.run, e2]
      exact ih _ _ e
  exact hm _ _ _ hrun

/-- Several mini-batches in which the devices get no updates. -/
def batches (F : Fns K) (c : PyDev K) : Tile K → List (Draws K) → Except PyErr (Tile K)
  | t, [] => .ok t
  | t, r :: l => match postUpdate F c t r with
    | .error e => .error e
    | .ok t => batches F c t l

/-- Without diffusion and without updates the distance to the reset bias shrinks by the same factor with every mini-batch. -/
theorem C89_batches (F : Fns K) (life : K) (l : List (Draws K)) (d : Dev K) (h : Constructed life 0 d) :
    ∃ d', batches F (.simple life 0) (.pulsed d) l = .ok (.pulsed d') ∧
      ∀ k, Within d k (d.weight k) → Within d k (d.cell k).resetB →
        0 ≤ lost life (d.cell k) → lost life (d.cell k) ≤ 1 →
        d'.weight k = (d.cell k).resetB + (d.weight k - (d.cell k).resetB) * (1 - lost life (d.cell k)) ^ l.length := by
  induction l generalizing d with
  | nil => exact ⟨d, rfl, fun k _ _ _ _ => by simp⟩
  | cons r l ih =>
    obtain ⟨d1, h1, h2, h3⟩ := post_weight F life 0 le_rfl d h r
    obtain ⟨d1', e1, -, h3'⟩ := C89_post_update F life 0 le_rfl d h r
    have ed : d1' = d1 0 := by
      have hrun : (Tile.pulsed d).run F ((PyDev.simple life 0).calls r) = .ok (.pulsed (d1 0)) := by
        have := h1 0
        rw [← this]
        unfold PyDev.calls
        split_ifs <;> rfl
      have := e1.symm.trans hrun
      injection this with this
      injection this
    subst ed
    have hc := (h2 0).1
    obtain ⟨d', e2, h4⟩ := ih (d1 0) (by intro k; rw [hc]; exact h k)
    refine ⟨d', ?_, ?_⟩
    · simp only [batches, e1]
      exact e2
    · intro k hw hb l0 l1
      have hz := (constructed_rate h k).2.1 rfl
      have hbt := between (s := 1 - lost life (d.cell k)) hb hw (by linarith) (by linarith)
      have e3 : (d1 0).weight k = (d.cell k).resetB + (d.weight k - (d.cell k).resetB) * (1 - lost life (d.cell k)) := by
        rw [h3' k hw, hz, zero_mul, add_zero, limited_eq hw, limited_eq hbt]
      have := h4 k
      simp only [Within, hc] at this
      rw [this (by rw [e3]; exact hbt) hb l0 l1, e3, List.length_cons, pow_succ]
      ring

/-- In a unit cell the queries ask whether any device decays or diffuses; the devices that do not are not changed by the
others' needs. -/
theorem C89_others (F : Fns K) (l : List (K × K)) (p : VPar K) (s : VS K)
    (hs : ∀ k, s.vis k = weighted p s k) (hc : ∀ j (hj : j < l.length), Constructed l[j].1 l[j].2 (s.dev j))
    (r : Draws K) :
    ∃ s', postUpdate F (.unitCell (l.map fun q => .simple q.1 q.2)) (.vector p s) r = .ok (.vector p s') ∧
      (∀ k, (Tile.vector p s').weights k = weighted p s' k) ∧
      ∀ j (hj : j < l.length), l[j].1 ≤ 0 → l[j].2 = 0 → ∀ k, Within (s.dev j) k ((s.dev j).weight k) →
        (s'.dev j).weight k = (s.dev j).weight k := by
  obtain ⟨s', e, hd, hk⟩ := C89_vector F p ((PyDev.unitCell (l.map fun q => .simple q.1 q.2)).calls r) s hs
  refine ⟨s', e, hk, ?_⟩
  intro j hj h1 h2 k hw
  have hr := constructed_rate (hc j hj) k
  have a1 := hr.1 h1
  have a2 := hr.2.1 h2
  have key : ∀ (cs : List (Call K)) (d d' : Dev K),
      (∀ c ∈ cs, (∃ g n, c = Call.diffuse g n) ∨ ∃ n, c = Call.decay 1 n) → d.cell = (s.dev j).cell →
      Within (s.dev j) k (d.weight k) → (Tile.pulsed d).run F (cs.map (Call.at j)) = .ok (.pulsed d') →
      d'.weight k = d.weight k := by
    intro cs
    induction cs with
    | nil =>
      intro d d' _ _ _ e
      injection e with e
      injection e with e
      rw [e]
    | cons c cs ih =>
      intro d d' hcs hcell hw e
      have hi : c.idle = false := by
        rcases hcs c List.mem_cons_self with ⟨g, n, rfl⟩ | ⟨n, rfl⟩ <;> rfl
      simp only [List.map_cons, Tile.run, pulsed_exec, hi, Bool.false_eq_true, if_false] at e
      have hw1 : (c.dev F d j).weight k = d.weight k := by
        rcases hcs c List.mem_cons_self with ⟨g, n, rfl⟩ | ⟨n, rfl⟩
        · rw [diffuse_weight, hcell, a2, zero_mul, add_zero]
          exact clip_eq hw
        · rw [decay_weight, hcell, a1, sub_self, mul_zero, add_zero, mul_one, sub_add_cancel]
          exact clip_eq hw
      rw [ih (c.dev F d j) d' (fun c' h' => hcs c' (List.mem_cons_of_mem _ h')) ((dev_cell F c d j).1.trans hcell)
        (by rw [hw1]; exact hw) e, hw1]
  refine key _ (s.dev j) (s'.dev j) ?_ rfl hw (hd j)
  intro c hc
  unfold PyDev.calls at hc
  rw [List.mem_append] at hc
  rcases hc with hc | hc
  · split_ifs at hc
    · rw [List.mem_singleton] at hc; exact Or.inl ⟨_, _, hc⟩
    · cases hc
  · split_ifs at hc
    · rw [List.mem_singleton] at hc; exact Or.inr ⟨_, hc⟩
    · cases hc

/-- `requires_decay` and `requires_diffusion` of a unit cell. -/
theorem C89_requires (l : List (K × K)) :
    ((PyDev.unitCell (l.map fun q => PyDev.simple q.1 q.2)).requiresDecay = true ↔ ∃ q ∈ l, 0 < q.1) ∧
    ((PyDev.unitCell (l.map fun q => PyDev.simple q.1 q.2)).requiresDiffusion = true ↔ ∃ q ∈ l, 0 < q.2) := by
  constructor
  · rw [PyDev.requiresDecay]
    induction l with
    | nil => simp [anyDecay]
    | cons q l ih =>
      rw [List.map_cons, anyDecay, Bool.or_eq_true, ih, PyDev.requiresDecay, decide_eq_true_eq]
      simp
  · rw [PyDev.requiresDiffusion]
    induction l with
    | nil => simp [anyDiffusion]
    | cons q l ih =>
      rw [List.map_cons, anyDiffusion, Bool.or_eq_true, ih, PyDev.requiresDiffusion, decide_eq_true_eq]
      simp

end Aihw.Decay
