import Verif.State.Props3
import Verif.Pulsed.TransferProps2

/-!
# C28 for the pulsed devices: what a reloaded device does next — theorems

The abstract simulator of `State/Model.lean` is instantiated with the device model of `Verif.Pulsed`.
-/
namespace Aihw.State
open Aihw.Pulsed

variable {K : Type} [Field K] [LinearOrder K] [IsStrictOrderedRing K] [FloorRing K]

/-- A simulator tile: pulsed device array and the learning rate of the tile. -/
structure DTile (K : Type) where
  dev : Dev K
  lr : ℚ

/-- The hidden parameters: all per-cell parameters and the persistent weights
(`getDeviceParameter`, rpu_pulsed_device.cpp:256-287 and the derived classes). -/
structure Hid (K : Type) where
  cell : Nat → Cell K
  per : Nat → K

/-- The simulator interface for a pulsed device.  `mk` is the construction from a configuration
(rpu_pulsed.cpp `populateParameter`, arbitrary device-to-device variation), `dtod` is
`dw_min_dtod`, `G seed` the Gaussian draws of a call, `nm` the parameter names of the class;
`overwrite` is the raw copy into the shared weight memory (tiles/base.py:759,
`_copy_weights_to_shared_tensors`), which bypasses the device. -/
def devOps (F : Fns K) (mk : Cfg → Nat → Nat → Nat → Dev K) (dtod : K) (G : Nat → Nat → K)
    (nm : Kind K → List String) : SimOps (DTile K) (Nat → K) (Hid K) Unit where
  create c x d seed := ⟨mk c x d seed, 1 / 100⟩
  weights s := fun k => (s.dev.st k).vis
  hidden s := ⟨s.dev.cell, fun k => (s.dev.st k).per⟩
  names s := nm s.dev.kd
  lr s := some s.lr
  extra _ := none
  setHidden h seed s := (s.dev.step F (.setHidden h.cell h.per dtod (G seed))).map fun d => ⟨d, s.lr⟩
  setWeights v seed s := (s.dev.step F (.set v (G seed))).map fun d => ⟨d, s.lr⟩
  overwrite v s := ⟨s.dev.mapSt fun k c => ⟨v k, c.per⟩, s.lr⟩
  setLr l s := .ok ⟨s.dev, l⟩
  loadExtra _ s := .ok s

/-! ## Specification -/

/-- Visible outcome of a history: the weights, or the exception. -/
def outcome (r : Except PyErr (Dev K)) : Except PyErr (Nat → K) := r.map fun d k => (d.st k).vis

/-- Two simulator tiles that no further use can tell apart: same learning rate, and for every future
history of operations (updates, decay, diffusion, drift, clipping, resets, setting weights or hidden
parameters) with the same random numbers the same exceptions and the same weights. -/
def Resumes (F : Fns K) (a b : DTile K) : Prop :=
  a.lr = b.lr ∧ ∀ l : List (Pulsed.Op K), outcome (b.dev.run F l) = outcome (a.dev.run F l)

/-! ## Lemmas -/

/-- Devices without persistent weights that agree in everything but the (unused) persistent field. -/
structure Twin (a b : Dev K) : Prop where
  kd : a.kd = b.kd
  par : a.par = b.par
  x : a.xSize = b.xSize
  d : a.dSize = b.dSize
  cell : a.cell = b.cell
  vis : ∀ k, (a.st k).vis = (b.st k).vis
  off : persistent a.kd a.par = false

theorem Twin.mapSt {a b : Dev K} (h : Twin a b) (f g : Nat → CS K → CS K)
    (hfg : ∀ k s s', s.vis = s'.vis → (f k s).vis = (g k s').vis) :
    Twin (a.mapSt f) (b.mapSt g) :=
  ⟨h.kd, h.par, h.x, h.d, h.cell, fun k => hfg k _ _ (h.vis k), h.off⟩

theorem writeNoise_off (kd : Kind K) (p : Par K) (h : persistent kd p = false) (s : CS K) (g : K) :
    writeNoise kd p s g = s := by
  simp [writeNoise, h]

theorem onStored_off (kd : Kind K) (p : Par K) (h : persistent kd p = false) (f : K → K) (s : CS K)
    (g : K) : onStored kd p f s g = ⟨f s.vis, s.per⟩ := by
  simp [onStored, h, writeNoise_off]

theorem onSet_off (kd : Kind K) (p : Par K) (h : persistent kd p = false) (c : Cell K) (s : CS K)
    (v g : K) : onSet kd p c s v g = ⟨clipMM c v, s.per⟩ := by
  simp [onSet, h]

theorem pulse_off (F : Fns K) (kd : Kind K) (p : Par K) (c : Cell K) (h : persistent kd p = false)
    (s s' : CS K) (hv : s.vis = s'.vis) (down : Bool) (g g2 : K) :
    (Pulsed.pulse F kd p c s down g g2).vis = (Pulsed.pulse F kd p c s' down g g2).vis := by
  unfold Pulsed.pulse
  simp only [h, Bool.false_and, Bool.false_eq_true, if_false, hv]
  split <;> simp_all

theorem Twin.pulses (F : Fns K) {a b : Dev K} (h : Twin a b) (l : List (P K)) :
    Twin (a.pulses F l) (b.pulses F l) := by
  induction l generalizing a b with
  | nil => exact h
  | cons q l ih =>
    refine ih ⟨h.kd, h.par, h.x, h.d, h.cell, ?_, h.off⟩
    intro k
    simp only [Dev.pulse1]
    by_cases hk : k = q.k
    · simp only [hk, if_true, h.kd, h.par, h.cell]
      exact pulse_off F _ _ _ (by rw [← h.kd, ← h.par]; exact h.off) _ _ (h.vis _) _ _ _
    · simp only [hk, if_false]; exact h.vis k

theorem Twin.resetAt {a b : Dev K} (h : Twin a b) (l : List Nat) (g : Nat → K) (n : Nat) :
    Twin (a.resetAt l g n) (b.resetAt l g n) := by
  induction l generalizing a b n with
  | nil => exact h
  | cons i l ih =>
    show Twin ((a.reset1 i (g n)).resetAt l g (n + 1)) ((b.reset1 i (g n)).resetAt l g (n + 1))
    refine ih (a := a.reset1 i (g n)) (b := b.reset1 i (g n)) ⟨h.kd, h.par, h.x, h.d, h.cell, ?_, h.off⟩ (n + 1)
    intro k
    simp only [Dev.reset1]
    by_cases hk : k = i
    · simp only [hk, if_true, h.par, h.cell]
    · simp only [hk, if_false]; exact h.vis k

theorem Twin.step (F : Fns K) {a b : Dev K} (h : Twin a b) (o : Pulsed.Op K) :
    (∃ e, a.step F o = .error e ∧ b.step F o = .error e) ∨
    ∃ a' b', a.step F o = .ok a' ∧ b.step F o = .ok b' ∧ Twin a' b' := by
  have hb : persistent b.kd b.par = false := by rw [← h.kd, ← h.par]; exact h.off
  have stored : ∀ (f f' : Nat → K → K) (g : Nat → K), (∀ k v, f k v = f' k v) →
      Twin (a.mapSt fun k s => onStored a.kd a.par (f k) s (g k))
        (b.mapSt fun k s => onStored b.kd b.par (f' k) s (g k)) := by
    intro f f' g hf
    apply h.mapSt
    intro k s s' hs
    rw [onStored_off _ _ h.off, onStored_off _ _ hb, hf, hs]
  have hdec : ∀ nb f k, decayFactor a nb f k = decayFactor b nb f k := by
    intro nb f k; simp [decayFactor, h.x, h.cell]
  cases o with
  | set v g =>
    refine Or.inr ⟨_, _, rfl, rfl, h.mapSt _ _ ?_⟩
    intro k s s' hs
    rw [onSet_off _ _ h.off, onSet_off _ _ hb, h.cell]
  | pulses l => exact Or.inr ⟨_, _, rfl, rfl, h.pulses F l⟩
  | decay nb g =>
    exact Or.inr ⟨_, _, rfl, rfl, stored _ _ g fun k v => by rw [hdec, h.cell]⟩
  | decayAlpha al nb g =>
    exact Or.inr ⟨_, _, rfl, rfl, stored _ _ g fun k v => by rw [hdec, h.cell]⟩
  | diffuse g g2 =>
    exact Or.inr ⟨_, _, rfl, rfl, stored _ _ g2 fun k v => by rw [h.cell]⟩
  | drift v g =>
    exact Or.inr ⟨_, _, rfl, rfl, stored (fun k _ => _) (fun k _ => _) g fun k v => by rw [h.cell]⟩
  | clip c g =>
    exact Or.inr ⟨_, _, rfl, rfl, stored _ _ g fun k v => by rw [h.cell]⟩
  | resetCols st n sel g g2 =>
    exact Or.inr ⟨_, _, rfl, rfl, stored (fun k w => if inCols a.xSize st (if 0 ≤ n then n else a.xSize) ((k % a.xSize : Nat) : Int) && sel k
        then resetCell a.par (a.cell k) (g k) else w) (fun k w => if inCols b.xSize st (if 0 ≤ n then n else b.xSize) ((k % b.xSize : Nat) : Int) && sel k
        then resetCell b.par (b.cell k) (g k) else w) g2 fun k v => by rw [h.cell, h.par, h.x]⟩
  | resetAt idx g =>
    refine Or.inr ⟨a.resetAt idx g 0, b.resetAt idx g 0, ?_, ?_, h.resetAt idx g 0⟩
    · simp [Dev.step, h.off]
    · simp [Dev.step, hb]
  | setHidden cell per dtod g =>
    refine Or.inr ⟨_, _, rfl, rfl, ?_⟩
    have hpar : ∀ (kd : Kind K) (p : Par K) (x : K), persistent kd { p with dwMin := x } = persistent kd p := by
      intro kd p x; cases kd <;> rfl
    refine ⟨h.kd, by simp only [h.par, h.x, h.d], h.x, h.d, rfl, ?_, ?_⟩
    · intro k
      simp only
      rw [onSet_off _ _ (by rw [hpar]; exact h.off), onSet_off _ _ (by rw [hpar]; exact hb), h.vis]
    · simp only [hpar]; exact h.off
  | fpUpdate dw g =>
    refine Or.inr ⟨_, _, rfl, rfl, h.mapSt _ _ ?_⟩
    intro k s s' hs
    rw [onStored_off _ _ h.off, onStored_off _ _ hb, h.cell]
    simp [hs]

theorem Twin.run (F : Fns K) {a b : Dev K} (h : Twin a b) (l : List (Pulsed.Op K)) :
    outcome (b.run F l) = outcome (a.run F l) := by
  induction l generalizing a b with
  | nil =>
    simp only [Dev.run, outcome, Except.map]
    congr 1
    funext k
    exact (h.vis k).symm
  | cons o l ih =>
    rcases h.step F o with ⟨e, h1, h2⟩ | ⟨a', b', h1, h2, h'⟩
    · simp [Dev.run, h1, h2]
    · simp only [Dev.run, h1, h2]
      exact ih h'

/-! ## Theorems -/

/-- The average step size of the saved cells is within the tolerance in which loading keeps the nominal
step `dw_min` (rpu_pulsed_device.cpp:322-330). -/
def StepKept (d : Dev K) (dtod : K) : Prop :=
  |(((List.range (d.xSize * d.dSize)).map fun k => (|(d.cell k).up| + |(d.cell k).down|) / 2).sum) /
      ((d.xSize * d.dSize : Nat) : K) - d.par.dwMin| / d.par.dwMin ≤ 2 * dtod

/-- **C28 (a reloaded device resumes exactly).**  For every device class without write noise: a tile
built from the saved configuration, whatever its own device-to-device variation, is after loading
indistinguishable from the saved tile — for every future history of updates, decays, diffusion,
drift, clipping, resets and so on with the same random numbers it gives the same weights and
exceptions, and it has the same learning rate — provided the average saved step size is within
`2 * dw_min_dtod` (relative) of `dw_min`. -/
theorem C28_device_resumes (F : Fns K) (mk : Cfg → Nat → Nat → Nat → Dev K) (dtod : K)
    (G : Nat → Nat → K) (nm : Kind K → List String) {A : Type} (c : Cfg)
    (src dst : Tile (DTile K) A) (ht : dst.torchTile = false)
    (hmk : ∀ seed, (mk c dst.xSize dst.dSize seed).kd = src.sim.dev.kd ∧
      (mk c dst.xSize dst.dSize seed).par = src.sim.dev.par ∧
      (mk c dst.xSize dst.dSize seed).xSize = src.sim.dev.xSize ∧
      (mk c dst.xSize dst.dSize seed).dSize = src.sim.dev.dSize)
    (hoff : persistent src.sim.dev.kd src.sim.dev.par = false)
    (hstep : StepKept src.sim.dev dtod) :
    Restorable (devOps F mk dtod G nm) (Resumes F) c src dst := by
  intro seed
  obtain ⟨h1, h2, h3, h4⟩ := hmk seed
  refine ⟨by simp [blank, ht, devOps, h1], ?_⟩
  intro seed'
  have hdw : newDwMin src.sim.dev.par.dwMin dtod
      (meanStep (src.sim.dev.xSize * src.sim.dev.dSize) src.sim.dev.cell) = src.sim.dev.par.dwMin := by
    unfold newDwMin
    rw [if_neg]
    exact not_lt.2 hstep
  set b := mk c dst.xSize dst.dSize seed with hb
  have hpar : ({ b.par with
      dwMin := newDwMin b.par.dwMin dtod (meanStep (b.xSize * b.dSize) src.sim.dev.cell) } : Par K) =
      src.sim.dev.par := by
    rw [h2, h3, h4, hdw]
  have hbl : blank (devOps F mk dtod G nm) c dst seed = ⟨b, 1 / 100⟩ := by
    simp [blank, ht, devOps, hb]
  rw [hbl]
  refine ⟨_, rfl, ?_⟩
  refine ⟨rfl, fun l => ?_⟩
  refine Twin.run F (a := src.sim.dev) ?_ l
  exact ⟨h1.symm, hpar.symm, h3.symm, h4.symm, rfl, fun k => rfl, hoff⟩

/-- Consequence for whole models: with `C28_round_trip`, every tile of the reloaded model resumes. -/
example (F : Fns K) (mk : Cfg → Nat → Nat → Nat → Dev K) (dtod : K) (G : Nat → Nat → K)
    (nm : Kind K → List String) {A : Type} (isa : String → String → Bool)
    (src dst : List (Tile (DTile K) A)) (w : World) (seed : Nat) (hlen : src.length = dst.length)
    (hload : ∀ d ∈ dst, d.loadCfg = true)
    (hpair : ∀ p ∈ src.zip dst, p.1.cls = p.2.cls ∧ (w.cfgs p.2.cfg).tileClass = p.2.cls ∧
      (w.cfgs p.1.cfg).tileClass = p.1.cls ∧ SameLayout p.1 p.2 ∧ p.2.torchTile = false ∧
      (∀ seed, (mk (w.cfgs p.1.cfg) p.2.xSize p.2.dSize seed).kd = p.1.sim.dev.kd ∧
        (mk (w.cfgs p.1.cfg) p.2.xSize p.2.dSize seed).par = p.1.sim.dev.par ∧
        (mk (w.cfgs p.1.cfg) p.2.xSize p.2.dSize seed).xSize = p.1.sim.dev.xSize ∧
        (mk (w.cfgs p.1.cfg) p.2.xSize p.2.dSize seed).dSize = p.1.sim.dev.dSize) ∧
      persistent p.1.sim.dev.kd p.1.sim.dev.par = false ∧ StepKept p.1.sim.dev dtod) :
    ∃ (w' : World) (ts : List (Tile (DTile K) A)), loadStateDict (devOps F mk dtod G nm) isa (src.map (stateDict (devOps F mk dtod G nm)))
        false true none none seed w dst = (.ok (), w', ts) ∧
      ∀ (i : Nat) (s t : Tile (DTile K) A), src[i]? = some s → ts[i]? = some t → Resumes F s.sim t.sim ∧ t.params = s.params := by
  obtain ⟨ts, h1, h2, h3⟩ := C28_round_trip (devOps F mk dtod G nm) isa (Resumes F) src dst w false
    true none none seed hlen hload (fun p hp => by
      obtain ⟨a1, a2, a3, a4, a5, a6, a7, a8⟩ := hpair p hp
      exact ⟨a1, a2, a3, a4, C28_device_resumes F mk dtod G nm _ p.1 p.2 a5 a6 a7 a8⟩)
  refine ⟨_, ts, h1, fun i s t hs ht => ?_⟩
  have hi : i < dst.length := by
    rw [← h2]; exact (List.getElem?_eq_some_iff.1 ht).1
  obtain ⟨d, hd⟩ : ∃ d, dst[i]? = some d := ⟨dst[i], List.getElem?_eq_getElem hi⟩
  have := (h3 i s d t hs hd ht).1
  exact ⟨this.sim, this.params⟩

/-- **C28 (finding: write noise).**  With write noise the visible weights are restored exactly, but the
hidden persistent weights become the *visible* (noisy) weights clipped to the bounds, whatever the
saved persistent weights were — plus new noise only on the visible side, which is overwritten. -/
theorem C28_persistent_lost (F : Fns K) (mk : Cfg → Nat → Nat → Nat → Dev K) (dtod : K)
    (G : Nat → Nat → K) (nm : Kind K → List String) {A : Type} (src : Tile (DTile K) A)
    (b t : DTile K) (seed : Nat) (hk : b.dev.kd = src.sim.dev.kd) (hp : b.dev.par = src.sim.dev.par)
    (hon : persistent src.sim.dev.kd src.sim.dev.par = true)
    (h : restoreSim (devOps F mk dtod G nm) (getAnalogState (devOps F mk dtod G nm) src) seed b = .ok t)
    (k : Nat) :
    (t.dev.st k).vis = (src.sim.dev.st k).vis ∧
    (t.dev.st k).per =
      max (min (src.sim.dev.st k).vis (src.sim.dev.cell k).maxB) (src.sim.dev.cell k).minB := by
  have hpar : ∀ (kd : Kind K) (p : Par K) (x : K), persistent kd { p with dwMin := x } = persistent kd p := by
    intro kd p x; cases kd <;> rfl
  have : t = _ := (Except.ok.inj h).symm
  subst this
  refine ⟨rfl, ?_⟩
  simp only [devOps, getAnalogState, Dev.mapSt, onSet, hk, hp, hpar, hon, if_true]
  split_ifs
  · unfold writeNoise
    split_ifs <;> rfl
  · rfl

/-- **C28 (finding: the nominal step can change on loading).**  If the average step size of the saved
cells differs from `dw_min` by more than `2 * dw_min_dtod` (relative), loading replaces `dw_min`, and
with it the granularity used by the update management, by the average: the reloaded tile trains with
other pulse numbers.  With `dw_min_dtod = 0` every nonzero deviation does (for instance any nonzero
up-down asymmetry spread or a single corrupt cell). -/
theorem C28_step_replaced (F : Fns K) (mk : Cfg → Nat → Nat → Nat → Dev K) (dtod : K)
    (G : Nat → Nat → K) (nm : Kind K → List String) {A : Type} (src : Tile (DTile K) A)
    (b t : DTile K) (seed : Nat) (hp : b.dev.par = src.sim.dev.par)
    (hx : b.dev.xSize = src.sim.dev.xSize) (hd : b.dev.dSize = src.sim.dev.dSize)
    (h : restoreSim (devOps F mk dtod G nm) (getAnalogState (devOps F mk dtod G nm) src) seed b = .ok t) :
    (StepKept src.sim.dev dtod → t.dev.par.dwMin = src.sim.dev.par.dwMin) ∧
    (¬ StepKept src.sim.dev dtod → t.dev.par.dwMin =
      (((List.range (src.sim.dev.xSize * src.sim.dev.dSize)).map fun k =>
        (|(src.sim.dev.cell k).up| + |(src.sim.dev.cell k).down|) / 2).sum) /
          ((src.sim.dev.xSize * src.sim.dev.dSize : Nat) : K)) := by
  have : t = _ := (Except.ok.inj h).symm
  subst this
  simp only [devOps, getAnalogState, Dev.mapSt, hp, hx, hd, newDwMin, meanStep, StepKept]
  constructor
  · intro h; rw [if_neg (not_lt.2 h)]
  · intro h; rw [if_pos (not_le.1 h)]

/-- **C28 (finding: transfer compounds).**  Restoring a transfer (Tiki-Taka) compound sets the weights
of the last device from the visible weights and sets all other (fast) devices to zero, clipped to
their bounds: what had been accumulated there is lost, whatever it was. -/
theorem C28_transfer_fast_lost (p : TPar K) (s s' : TS K) (v : Nat → K) (g : Nat → Nat → K)
    (h : p.setWeights s v g = .ok s') (hfh : p.fullyHidden = false) (j k : Nat) (hj : j ≠ p.n - 1)
    (hoff : persistent (s.dev j).kd (s.dev j).par = false) :
    ((s'.dev j).st k).vis = max (min 0 ((s.dev j).cell k).maxB) ((s.dev j).cell k).minB ∧
    s'.idx = 0 ∧ ∀ i, s'.slice i = 0 := by
  unfold TPar.setWeights at h
  simp only [hfh, Bool.false_eq_true, if_false] at h
  split_ifs at h
  have := (Except.ok.inj h).symm
  subst this
  refine ⟨?_, rfl, fun _ => rfl⟩
  simp only [TPar.reduce, Dev.mapSt]
  rw [onSet_off _ _ hoff]
  simp [clipMM, hj]

end Aihw.State
