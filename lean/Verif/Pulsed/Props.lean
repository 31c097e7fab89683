import Verif.Pulsed.Model

/-!
# C33: pulsed devices and their weight bounds
-/
namespace Aihw.Pulsed

variable {K : Type} [Field K] [LinearOrder K] [IsStrictOrderedRing K] [FloorRing K]

/-! ## Specification -/

/-- The weight a cell stores: with write noise on, the persistent weight, otherwise the visible
one (the powstep-reference class ignores write noise). -/
def Dev.weight (d : Dev K) (k : Nat) : K :=
  match d.kd with
  | .powRef => (d.st k).vis
  | _ => if 0 < d.par.writeNoise then (d.st k).per else (d.st k).vis

/-- Cell `k` is within its own bounds. -/
def Within (d : Dev K) (k : Nat) : Prop :=
  (d.cell k).minB ≤ d.weight k ∧ d.weight k ≤ (d.cell k).maxB

/-- Device classes whose pulse is clipped relative to a reference. -/
def HasRef : Kind K → Prop
  | .sbRef _ => True
  | .powRef => True
  | _ => False

/-- A valid device: accepted parameters and a non-negative nominal step. -/
def Valid (d : Dev K) : Prop := parOk d.kd d.par = true ∧ 0 ≤ d.par.dwMin

/-- Operations considered for cell `k`: everything, except that hidden parameters must have
`min_bound ≤ max_bound` and a fixed-value clip must not lie below the cell's range. -/
def OpOk (d : Dev K) (k : Nat) : Op K → Prop
  | .clip c _ => c < 0 ∨ -c ≤ (d.cell k).maxB
  | .setHidden cell _ _ _ => (cell k).minB ≤ (cell k).maxB
  | _ => True

/-- All operations of a history are considered ones. -/
def HistOk (F : Fns K) (k : Nat) : Dev K → List (Op K) → Prop
  | _, [] => True
  | d, o :: l => OpOk d k o ∧ ∀ d', d.step F o = .ok d' → HistOk F k d' l

/-! ## Lemmas -/

theorem clipMM_mem {c : Cell K} (h : c.minB ≤ c.maxB) (w : K) :
    c.minB ≤ clipMM c w ∧ clipMM c w ≤ c.maxB :=
  ⟨le_max_right _ _, max_le (min_le_right _ _) h⟩

theorem clipXN_mem {c : Cell K} (h : c.minB ≤ c.maxB) (w : K) :
    c.minB ≤ clipXN c w ∧ clipXN c w ≤ c.maxB :=
  ⟨le_min (le_max_right _ _) h, min_le_right _ _⟩

theorem clipMM_eq_clipXN {c : Cell K} (h : c.minB ≤ c.maxB) (w : K) : clipMM c w = clipXN c w := by
  unfold clipMM clipXN
  rcases le_total w c.maxB with h1 | h1 <;> rcases le_total w c.minB with h2 | h2 <;>
    simp [h1, h2, h]
  exact le_antisymm (h1.trans h2) h

theorem clipMM_of_mem {c : Cell K} {w : K} (h1 : c.minB ≤ w) (h2 : w ≤ c.maxB) :
    clipMM c w = w := by
  unfold clipMM; rw [min_eq_left h2, max_eq_left h1]

theorem clipXN_of_mem {c : Cell K} {w : K} (h1 : c.minB ≤ w) (h2 : w ≤ c.maxB) :
    clipXN c w = w := by
  unfold clipXN; rw [max_eq_left h1, min_eq_left h2]

theorem addPow_mem {c : Cell K} (h : c.minB ≤ c.maxB) (w s : K) (r : Pw K) :
    c.minB ≤ addPow c w s r ∧ addPow c w s r ≤ c.maxB := by
  cases r with
  | fin v => exact clipXN_mem h _
  | nan => simp [addPow, h]
  | inf => unfold addPow; split_ifs <;> simp [h]

/-- A pulse leaves the stored weight in range (classes without reference). -/
theorem stepW_mem (F : Fns K) {kd : Kind K} (hk : ¬ HasRef kd) (p : Par K) {c : Cell K}
    (h : c.minB ≤ c.maxB) (w : K) (down : Bool) (g w' : K)
    (hs : stepW F kd p c w down g = some w') : c.minB ≤ w' ∧ w' ≤ c.maxB := by
  cases kd with
  | constant => simp only [stepW, Option.some.injEq] at hs; subst hs; exact clipMM_mem h _
  | linear m =>
    cases m <;> simp only [stepW, Option.some.injEq] at hs <;> subst hs <;> exact clipXN_mem h _
  | exp e =>
    simp only [stepW] at hs
    split_ifs at hs <;> simp only [Option.some.injEq] at hs <;> subst hs <;> exact clipMM_mem h _
  | pow =>
    simp only [stepW] at hs
    split_ifs at hs <;> simp only [Option.some.injEq] at hs <;> subst hs <;> exact addPow_mem h _ _ _
  | piecewise u d => simp only [stepW, Option.some.injEq] at hs; subst hs; exact clipXN_mem h _
  | sbRef m => exact absurd trivial hk
  | powRef => exact absurd trivial hk

/-- For the reference classes the range applies to weight + reference. -/
theorem stepW_mem_ref (F : Fns K) {kd : Kind K} (hk : HasRef kd) (p : Par K) {c : Cell K}
    (h : c.minB ≤ c.maxB) (w : K) (down : Bool) (g w' : K)
    (hs : stepW F kd p c w down g = some w') : c.minB ≤ w' + c.ref ∧ w' + c.ref ≤ c.maxB := by
  cases kd with
  | sbRef m =>
    simp only [stepW, Option.some.injEq] at hs
    subst hs
    rw [sub_add_cancel]
    exact clipXN_mem h _
  | powRef =>
    simp only [stepW] at hs
    split_ifs at hs <;> simp only [Option.some.injEq] at hs <;> subst hs <;> rw [sub_add_cancel] <;>
      exact addPow_mem h _ _ _
  | constant => exact hk.elim
  | linear _ => exact hk.elim
  | exp _ => exact hk.elim
  | pow => exact hk.elim
  | piecewise _ _ => exact hk.elim

/-- The stored component of a state. -/
def stored (kd : Kind K) (p : Par K) (s : CS K) : K :=
  match kd with
  | .powRef => s.vis
  | _ => if 0 < p.writeNoise then s.per else s.vis

theorem weight_eq (d : Dev K) (k : Nat) : d.weight k = stored d.kd d.par (d.st k) := rfl

theorem stored_persistent (kd : Kind K) (p : Par K) (s : CS K) :
    stored kd p s = if persistent kd p then s.per else s.vis := by
  cases kd <;> simp [stored, persistent]

theorem persistent_implements {kd : Kind K} {p : Par K} (h : parOk kd p = true) :
    persistent kd p = true → implementsWriteNoise kd = true := by
  intro hp
  cases kd <;> simp_all [parOk, implementsWriteNoise]

theorem scaled_nonpos {kd : Kind K} {p : Par K} (h0 : 0 ≤ p.dwMin)
    (hi : implementsWriteNoise kd = true) (hp : persistent kd p = false) : ¬ 0 < scaledNoise p := by
  have : p.writeNoise ≤ 0 := by
    cases kd <;> simp_all [persistent, implementsWriteNoise]
  exact not_lt.2 (mul_nonpos_of_nonpos_of_nonneg this h0)

theorem stored_pulse (F : Fns K) {kd : Kind K} {p : Par K} (hv : parOk kd p = true)
    (h0 : 0 ≤ p.dwMin) (c : Cell K) (s : CS K) (down : Bool) (g g2 : K) :
    stored kd p (pulse F kd p c s down g g2) =
      (stepW F kd p c (stored kd p s) down g).getD (stored kd p s) := by
  rw [stored_persistent, stored_persistent]
  unfold pulse
  cases hp : persistent kd p with
  | true =>
    have hi := persistent_implements hv hp
    simp only [hi, Bool.and_self, if_true]
    cases stepW F kd p c s.per down g with
    | none => simp
    | some w => simp
  | false =>
    simp only [Bool.false_and, Bool.false_eq_true, if_false]
    cases hs : stepW F kd p c s.vis down g with
    | none => simp
    | some w =>
      cases hi : implementsWriteNoise kd with
      | false => simp
      | true =>
        have := scaled_nonpos h0 hi hp
        simp [this]

theorem stored_writeNoise (kd : Kind K) (p : Par K) (s : CS K) (g : K) :
    stored kd p (writeNoise kd p s g) = stored kd p s := by
  rw [stored_persistent, stored_persistent]
  unfold writeNoise
  cases persistent kd p <;> cases implementsWriteNoise kd <;> simp

theorem stored_onStored (kd : Kind K) (p : Par K) (f : K → K) (s : CS K) (g : K) :
    stored kd p (onStored kd p f s g) = f (stored kd p s) := by
  unfold onStored
  split_ifs with h
  · rw [stored_writeNoise, stored_persistent, stored_persistent]; simp [h]
  · rw [stored_writeNoise, stored_persistent, stored_persistent]; simp [h]

theorem stored_onSet (kd : Kind K) (p : Par K) (c : Cell K) (s : CS K) (v g : K) :
    stored kd p (onSet kd p c s v g) = clipMM c v := by
  unfold onSet
  split_ifs with h h2
  · simp only []
    rw [stored_writeNoise, stored_persistent]; simp [h]
  · rw [stored_persistent]; simp [h]
  · rw [stored_persistent]; simp [h]

theorem clipCell_mem {c : Cell K} (h : c.minB ≤ c.maxB) {b : K} (hb : b < 0 ∨ -b ≤ c.maxB)
    (w : K) : c.minB ≤ clipCell c b w ∧ clipCell c b w ≤ c.maxB := by
  unfold clipCell
  split_ifs with h0
  · exact clipMM_mem h w
  · have hb' : -b ≤ c.maxB := hb.resolve_left h0
    exact ⟨le_trans (le_max_left _ _) (le_max_right _ _),
      max_le ((min_le_right _ _).trans (min_le_left _ _)) (max_le h hb')⟩

theorem resetCell_mem {c : Cell K} (h : c.minB ≤ c.maxB) (p : Par K) (g : K) :
    c.minB ≤ resetCell p c g ∧ resetCell p c g ≤ c.maxB := clipMM_mem h _

/-! ### Frame facts of pulses -/

@[simp] theorem pulse1_kd (F : Fns K) (d : Dev K) (q : P K) : (d.pulse1 F q).kd = d.kd := rfl
@[simp] theorem pulse1_par (F : Fns K) (d : Dev K) (q : P K) : (d.pulse1 F q).par = d.par := rfl
@[simp] theorem pulse1_cell (F : Fns K) (d : Dev K) (q : P K) : (d.pulse1 F q).cell = d.cell := rfl

@[simp] theorem pulses_nil (F : Fns K) (d : Dev K) : d.pulses F [] = d := rfl
@[simp] theorem pulses_cons (F : Fns K) (d : Dev K) (q : P K) (l : List (P K)) :
    d.pulses F (q :: l) = (d.pulse1 F q).pulses F l := rfl
theorem pulses_append (F : Fns K) (d : Dev K) (l l' : List (P K)) :
    d.pulses F (l ++ l') = (d.pulses F l).pulses F l' := by
  unfold Dev.pulses; rw [List.foldl_append]

@[simp] theorem pulses_kd (F : Fns K) (d : Dev K) (l : List (P K)) : (d.pulses F l).kd = d.kd := by
  induction l generalizing d with
  | nil => rfl
  | cons q l ih => rw [pulses_cons, ih, pulse1_kd]
@[simp] theorem pulses_par (F : Fns K) (d : Dev K) (l : List (P K)) :
    (d.pulses F l).par = d.par := by
  induction l generalizing d with
  | nil => rfl
  | cons q l ih => rw [pulses_cons, ih, pulse1_par]
@[simp] theorem pulses_cell (F : Fns K) (d : Dev K) (l : List (P K)) :
    (d.pulses F l).cell = d.cell := by
  induction l generalizing d with
  | nil => rfl
  | cons q l ih => rw [pulses_cons, ih, pulse1_cell]

theorem within_pulse1 (F : Fns K) {d : Dev K} (hk : ¬ HasRef d.kd) (hv : Valid d) {k : Nat}
    (hb : (d.cell k).minB ≤ (d.cell k).maxB) (hw : Within d k) (q : P K) :
    Within (d.pulse1 F q) k := by
  unfold Within at *
  rw [weight_eq] at *
  simp only [pulse1_cell, pulse1_kd, pulse1_par, Dev.pulse1]
  split_ifs with h
  · rw [stored_pulse F hv.1 hv.2]
    cases hs : stepW F d.kd d.par (d.cell k) (stored d.kd d.par (d.st k)) q.down q.g with
    | none => simpa using hw
    | some w => exact stepW_mem F hk d.par hb _ _ _ _ hs
  · exact hw

theorem within_pulses (F : Fns K) {d : Dev K} (hk : ¬ HasRef d.kd) (hv : Valid d) {k : Nat}
    (hb : (d.cell k).minB ≤ (d.cell k).maxB) (hw : Within d k) (l : List (P K)) :
    Within (d.pulses F l) k := by
  induction l generalizing d with
  | nil => exact hw
  | cons q l ih => exact ih (d := d.pulse1 F q) hk hv hb (within_pulse1 F hk hv hb hw q)

/-! ### `resetAt` -/

theorem resetAt_frame (d : Dev K) (l : List Nat) (g : Nat → K) (n : Nat) :
    (d.resetAt l g n).kd = d.kd ∧ (d.resetAt l g n).par = d.par ∧
      (d.resetAt l g n).cell = d.cell := by
  induction l generalizing d n with
  | nil => exact ⟨rfl, rfl, rfl⟩
  | cons i l ih => unfold Dev.resetAt; exact ih _ _

theorem within_resetAt {d : Dev K} (hp : persistent d.kd d.par = false) {k : Nat}
    (hb : (d.cell k).minB ≤ (d.cell k).maxB) (hw : Within d k) (l : List Nat) (g : Nat → K)
    (n : Nat) : Within (d.resetAt l g n) k := by
  induction l generalizing d n with
  | nil => exact hw
  | cons i l ih =>
    unfold Dev.resetAt
    refine ih (d := d.reset1 i (g n)) hp hb ?_ _
    unfold Within at *
    rw [weight_eq, stored_persistent] at *
    simp only [Dev.reset1, hp, Bool.false_eq_true, if_false] at *
    split_ifs
    · exact resetCell_mem hb _ _
    · exact hw

/-! ### The invariant of one step -/

/-- The class of a device never changes, and validity is preserved. -/
theorem step_frame (F : Fns K) {d d' : Dev K} (hv : Valid d) (o : Op K)
    (hs : d.step F o = .ok d') : d'.kd = d.kd ∧ d'.par.writeNoise = d.par.writeNoise ∧ Valid d' := by
  cases o with
  | setHidden cell per dtod g =>
    simp only [Dev.step, Except.ok.injEq] at hs
    subst hs
    refine ⟨rfl, rfl, ?_, ?_⟩
    · exact hv.1
    · simp only [newDwMin]
      split_ifs
      · unfold meanStep
        apply div_nonneg _ (Nat.cast_nonneg _)
        generalize List.range (d.xSize * d.dSize) = r
        induction r with
        | nil => simp
        | cons a r ih =>
          rw [List.map_cons, List.sum_cons]
          exact add_nonneg (by positivity) ih
      · exact hv.2
  | resetAt idx g =>
    simp only [Dev.step] at hs
    split_ifs at hs
    simp only [Except.ok.injEq] at hs
    subst hs
    obtain ⟨h1, h2, -⟩ := resetAt_frame d idx g 0
    exact ⟨h1, by rw [h2], by unfold Valid; rw [h1, h2]; exact hv⟩
  | pulses l =>
    simp only [Dev.step, Except.ok.injEq] at hs
    subst hs
    exact ⟨by simp, by simp, by unfold Valid at *; simpa using hv⟩
  | set v g => simp only [Dev.step, Except.ok.injEq] at hs; subst hs; exact ⟨rfl, rfl, hv⟩
  | decay nb g => simp only [Dev.step, Except.ok.injEq] at hs; subst hs; exact ⟨rfl, rfl, hv⟩
  | decayAlpha a nb g => simp only [Dev.step, Except.ok.injEq] at hs; subst hs; exact ⟨rfl, rfl, hv⟩
  | diffuse g g2 => simp only [Dev.step, Except.ok.injEq] at hs; subst hs; exact ⟨rfl, rfl, hv⟩
  | drift v g => simp only [Dev.step, Except.ok.injEq] at hs; subst hs; exact ⟨rfl, rfl, hv⟩
  | clip c g => simp only [Dev.step, Except.ok.injEq] at hs; subst hs; exact ⟨rfl, rfl, hv⟩
  | resetCols a b c g g2 =>
    simp only [Dev.step, Except.ok.injEq] at hs; subst hs; exact ⟨rfl, rfl, hv⟩
  | fpUpdate v g => simp only [Dev.step, Except.ok.injEq] at hs; subst hs; exact ⟨rfl, rfl, hv⟩

/-- Bounds of cell `k` stay consistent. -/
theorem step_bounds (F : Fns K) {d d' : Dev K} {k : Nat} (o : Op K)
    (hb : (d.cell k).minB ≤ (d.cell k).maxB) (ho : OpOk d k o)
    (hs : d.step F o = .ok d') : (d'.cell k).minB ≤ (d'.cell k).maxB := by
  cases o with
  | setHidden cell per dtod g =>
    simp only [Dev.step, Except.ok.injEq] at hs; subst hs; exact ho
  | resetAt idx g =>
    simp only [Dev.step] at hs
    split_ifs at hs
    simp only [Except.ok.injEq] at hs
    subst hs
    rw [(resetAt_frame d idx g 0).2.2]; exact hb
  | pulses l =>
    simp only [Dev.step, Except.ok.injEq] at hs
    subst hs
    simpa using hb
  | set v g => simp only [Dev.step, Except.ok.injEq] at hs; subst hs; exact hb
  | decay nb g => simp only [Dev.step, Except.ok.injEq] at hs; subst hs; exact hb
  | decayAlpha a nb g => simp only [Dev.step, Except.ok.injEq] at hs; subst hs; exact hb
  | diffuse g g2 => simp only [Dev.step, Except.ok.injEq] at hs; subst hs; exact hb
  | drift v g => simp only [Dev.step, Except.ok.injEq] at hs; subst hs; exact hb
  | clip c g => simp only [Dev.step, Except.ok.injEq] at hs; subst hs; exact hb
  | resetCols a b c g g2 =>
    simp only [Dev.step, Except.ok.injEq] at hs; subst hs; exact hb
  | fpUpdate v g => simp only [Dev.step, Except.ok.injEq] at hs; subst hs; exact hb

/-- Every considered non-pulse operation keeps (or puts) the cell in range, for every class. -/
theorem step_within_nonpulse (F : Fns K) {d d' : Dev K} {k : Nat} (o : Op K)
    (hb : (d.cell k).minB ≤ (d.cell k).maxB) (ho : OpOk d k o) (hw : Within d k)
    (hp : ∀ l, o ≠ .pulses l) (hs : d.step F o = .ok d') : Within d' k := by
  cases o with
  | pulses l => exact absurd rfl (hp l)
  | resetAt idx g =>
    simp only [Dev.step] at hs
    split_ifs at hs with hh
    simp only [Except.ok.injEq] at hs
    subst hs
    exact within_resetAt (by simpa using hh) hb hw _ _ _
  | setHidden cell per dtod g =>
    simp only [Dev.step, Except.ok.injEq] at hs; subst hs
    unfold Within; rw [weight_eq]
    simp only [stored_onSet]
    exact clipMM_mem ho _
  | set v g =>
    simp only [Dev.step, Except.ok.injEq] at hs; subst hs
    unfold Within; rw [weight_eq]
    simp only [Dev.mapSt, stored_onSet]
    exact clipMM_mem hb _
  | decay nb g =>
    simp only [Dev.step, Except.ok.injEq] at hs; subst hs
    unfold Within; rw [weight_eq]
    simp only [Dev.mapSt, stored_onStored]
    exact clipMM_mem hb _
  | decayAlpha a nb g =>
    simp only [Dev.step, Except.ok.injEq] at hs; subst hs
    unfold Within; rw [weight_eq]
    simp only [Dev.mapSt, stored_onStored]
    exact clipMM_mem hb _
  | diffuse g g2 =>
    simp only [Dev.step, Except.ok.injEq] at hs; subst hs
    unfold Within; rw [weight_eq]
    simp only [Dev.mapSt, stored_onStored]
    exact clipMM_mem hb _
  | drift v g =>
    simp only [Dev.step, Except.ok.injEq] at hs; subst hs
    unfold Within; rw [weight_eq]
    simp only [Dev.mapSt, stored_onStored]
    exact clipXN_mem hb _
  | clip c g =>
    simp only [Dev.step, Except.ok.injEq] at hs; subst hs
    unfold Within; rw [weight_eq]
    simp only [Dev.mapSt, stored_onStored]
    exact clipCell_mem hb ho _
  | resetCols a b c g g2 =>
    simp only [Dev.step, Except.ok.injEq] at hs; subst hs
    unfold Within at *; rw [weight_eq] at *
    simp only [Dev.mapSt, stored_onStored]
    split_ifs
    · exact resetCell_mem hb _ _
    · exact hw
    · exact resetCell_mem hb _ _
    · exact hw
  | fpUpdate v g =>
    simp only [Dev.step, Except.ok.injEq] at hs; subst hs
    unfold Within; rw [weight_eq]
    simp only [Dev.mapSt, stored_onStored]
    exact clipMM_mem hb _

theorem step_within (F : Fns K) {d d' : Dev K} {k : Nat} (o : Op K) (hk : ¬ HasRef d.kd)
    (hv : Valid d) (hb : (d.cell k).minB ≤ (d.cell k).maxB) (ho : OpOk d k o) (hw : Within d k)
    (hs : d.step F o = .ok d') : Within d' k := by
  cases o with
  | pulses l =>
    simp only [Dev.step, Except.ok.injEq] at hs; subst hs
    exact within_pulses F hk hv hb hw l
  | _ => exact step_within_nonpulse F _ hb ho hw (by intro l; simp) hs

/-! ## Properties -/

/-- **C33 (bounds).**  For the classes constant step, linear step / soft bounds, exp step, pow step
and piecewise step: starting from a freshly created device whose cell `k` has
`min_bound ≤ max_bound`, after every history of weight writes, updates (any pulses, any noise),
decay, diffusion, drift, clipping, resets, hidden-parameter writes and floating point updates that
runs without error, the stored weight of cell `k` lies in the bounds the cell then has. -/
theorem C33_bounds_history (F : Fns K) (kd : Kind K) (p : Par K) (x n : Nat) (cell : Nat → Cell K)
    (w0 g : Nat → K) (k : Nat) (hk : ¬ HasRef kd) (hp : parOk kd p = true) (h0 : 0 ≤ p.dwMin)
    (hb : (cell k).minB ≤ (cell k).maxB) (ops : List (Op K)) (d' : Dev K)
    (hok : HistOk F k (Dev.create kd p x n cell w0 g) ops)
    (hrun : (Dev.create kd p x n cell w0 g).run F ops = .ok d') :
    (d'.cell k).minB ≤ d'.weight k ∧ d'.weight k ≤ (d'.cell k).maxB := by
  have key : ∀ (ops : List (Op K)) (d : Dev K), ¬ HasRef d.kd → Valid d →
      (d.cell k).minB ≤ (d.cell k).maxB → Within d k → HistOk F k d ops →
      d.run F ops = .ok d' → Within d' k := by
    intro ops
    induction ops with
    | nil => intro d _ _ _ hw _ hr; simp only [Dev.run, Except.ok.injEq] at hr; subst hr; exact hw
    | cons o l ih =>
      intro d hk hv hb hw ho hr
      simp only [Dev.run] at hr
      cases hs : d.step F o with
      | error e => rw [hs] at hr; simp at hr
      | ok d1 =>
        rw [hs] at hr
        obtain ⟨f1, f2, f3⟩ := step_frame F hv o hs
        exact ih d1 (by rw [f1]; exact hk) f3 (step_bounds F o hb ho.1 hs)
          (step_within F o hk hv hb ho.1 hw hs) (ho.2 d1 hs) hr
  refine key ops _ hk ⟨hp, h0⟩ hb ?_ hok hrun
  unfold Within
  rw [weight_eq]
  simp only [Dev.create, stored_onSet]
  exact clipMM_mem hb _

/-- **C33 (stuck cells).**  A cell with `min_bound = max_bound = v` (a corrupt device) holds exactly
`v` after every history that does not rewrite its hidden parameters. -/
theorem C33_stuck_cell (F : Fns K) (kd : Kind K) (p : Par K) (x n : Nat) (cell : Nat → Cell K)
    (w0 g : Nat → K) (k : Nat) (v : K) (hk : ¬ HasRef kd) (hp : parOk kd p = true)
    (h0 : 0 ≤ p.dwMin) (hmin : (cell k).minB = v) (hmax : (cell k).maxB = v)
    (ops : List (Op K)) (d' : Dev K)
    (hnh : ∀ o ∈ ops, ∀ c pr dt gg, o ≠ .setHidden c pr dt gg)
    (hclip : ∀ o ∈ ops, ∀ b gg, o = .clip b gg → b < 0 ∨ -b ≤ v)
    (hrun : (Dev.create kd p x n cell w0 g).run F ops = .ok d') : d'.weight k = v := by
  have key : ∀ (ops : List (Op K)) (d : Dev K), ¬ HasRef d.kd → Valid d →
      (d.cell k).minB = v → (d.cell k).maxB = v → Within d k →
      (∀ o ∈ ops, ∀ c pr dt gg, o ≠ Op.setHidden c pr dt gg) →
      (∀ o ∈ ops, ∀ b gg, o = Op.clip b gg → b < 0 ∨ -b ≤ v) →
      d.run F ops = .ok d' → Within d' k ∧ (d'.cell k).minB = v ∧ (d'.cell k).maxB = v := by
    intro ops
    induction ops with
    | nil =>
      intro d _ _ h1 h2 hw _ _ hr
      simp only [Dev.run, Except.ok.injEq] at hr; subst hr; exact ⟨hw, h1, h2⟩
    | cons o l ih =>
      intro d hk hv h1 h2 hw hn hc hr
      simp only [Dev.run] at hr
      cases hs : d.step F o with
      | error e => rw [hs] at hr; simp at hr
      | ok d1 =>
        rw [hs] at hr
        have hb : (d.cell k).minB ≤ (d.cell k).maxB := by rw [h1, h2]
        have ho : OpOk d k o := by
          cases o with
          | clip b gg => rw [OpOk, h2]; exact hc _ (List.mem_cons_self ..) b gg rfl
          | setHidden c pr dt gg => exact absurd rfl (hn _ (List.mem_cons_self ..) c pr dt gg)
          | _ => trivial
        have hcell : d1.cell = d.cell := by
          cases o with
          | setHidden c pr dt gg => exact absurd rfl (hn _ (List.mem_cons_self ..) c pr dt gg)
          | resetAt idx g =>
            simp only [Dev.step] at hs
            split_ifs at hs
            simp only [Except.ok.injEq] at hs
            subst hs
            exact (resetAt_frame d idx g 0).2.2
          | pulses q => simp only [Dev.step, Except.ok.injEq] at hs; subst hs; simp
          | _ => simp only [Dev.step, Except.ok.injEq] at hs; subst hs; rfl
        obtain ⟨f1, f2, f3⟩ := step_frame F hv o hs
        exact ih d1 (by rw [f1]; exact hk) f3 (by rw [hcell]; exact h1) (by rw [hcell]; exact h2)
          (step_within F o hk hv hb ho hw hs)
          (fun o' h' => hn o' (List.mem_cons_of_mem _ h'))
          (fun o' h' => hc o' (List.mem_cons_of_mem _ h')) hr
  have hw0 : Within (Dev.create kd p x n cell w0 g) k := by
    unfold Within
    rw [weight_eq]
    simp only [Dev.create, stored_onSet]
    exact clipMM_mem (by rw [hmin, hmax]) _
  obtain ⟨hw, h1, h2⟩ := key ops _ hk ⟨hp, h0⟩ hmin hmax hw0 hnh hclip hrun
  exact le_antisymm (h2 ▸ hw.2) (h1 ▸ hw.1)

/-- **C33 (exception: fixed-value clip).**  `clip_weights(c)` with `c ≥ 0` writes exactly `-c` into
a cell whose maximal weight is below `-c`, i.e. a value outside the cell's bounds. -/
theorem C33_clip_escapes (F : Fns K) (d d' : Dev K) (k : Nat) (c : K) (g : Nat → K) (hc : 0 ≤ c)
    (hmin : (d.cell k).minB ≤ (d.cell k).maxB)
    (hb : (d.cell k).maxB < -c) (hs : d.step F (.clip c g) = .ok d') :
    d'.weight k = -c ∧ (d'.cell k).maxB < d'.weight k := by
  simp only [Dev.step, Except.ok.injEq] at hs
  subst hs
  have h : Dev.weight (d.mapSt fun k s => onStored d.kd d.par (clipCell (d.cell k) c) s (g k)) k
      = -c := by
    rw [weight_eq]
    simp only [Dev.mapSt, stored_onStored, clipCell, not_lt.2 hc, if_false]
    rw [max_eq_right (hmin.trans hb.le)]
    exact max_eq_right ((min_le_right _ _).trans ((min_le_left _ _).trans hb.le))
  refine ⟨h, ?_⟩
  rw [h]
  exact hb

/-- **C33 (reference classes).**  For the soft-bounds-reference and pow-step-reference classes the
pulses clip weight + reference, all other operations clip the weight itself; hence after every
history the weight is in the cell's range widened by the reference, and not necessarily in the
range (see the example below). -/
theorem C33_reference_history (F : Fns K) (kd : Kind K) (p : Par K) (x n : Nat)
    (cell : Nat → Cell K) (w0 g : Nat → K) (k : Nat) (hk : HasRef kd) (hp : parOk kd p = true)
    (h0 : 0 ≤ p.dwMin) (hb : (cell k).minB ≤ (cell k).maxB) (ops : List (Op K)) (d' : Dev K)
    (hnh : ∀ o ∈ ops, ∀ c pr dt gg, o ≠ .setHidden c pr dt gg)
    (hclip : ∀ o ∈ ops, ∀ b gg, o = .clip b gg → b < 0 ∨ -b ≤ (cell k).maxB)
    (hrun : (Dev.create kd p x n cell w0 g).run F ops = .ok d') :
    (cell k).minB - max (cell k).ref 0 ≤ d'.weight k ∧
      d'.weight k ≤ (cell k).maxB - min (cell k).ref 0 := by
  have wide : ∀ w : K, ((cell k).minB ≤ w ∧ w ≤ (cell k).maxB) →
      (cell k).minB - max (cell k).ref 0 ≤ w ∧ w ≤ (cell k).maxB - min (cell k).ref 0 := by
    intro w hw
    have := le_max_right (cell k).ref 0
    have := min_le_right (cell k).ref 0
    constructor <;> linarith [hw.1, hw.2]
  have wide2 : ∀ w : K, ((cell k).minB ≤ w + (cell k).ref ∧ w + (cell k).ref ≤ (cell k).maxB) →
      (cell k).minB - max (cell k).ref 0 ≤ w ∧ w ≤ (cell k).maxB - min (cell k).ref 0 := by
    intro w hw
    have := le_max_left (cell k).ref 0
    have := min_le_left (cell k).ref 0
    constructor <;> linarith [hw.1, hw.2]
  have key : ∀ (ops : List (Op K)) (d : Dev K), HasRef d.kd → Valid d → d.cell = cell →
      ((cell k).minB - max (cell k).ref 0 ≤ d.weight k ∧
        d.weight k ≤ (cell k).maxB - min (cell k).ref 0) →
      (∀ o ∈ ops, ∀ c pr dt gg, o ≠ Op.setHidden c pr dt gg) →
      (∀ o ∈ ops, ∀ b gg, o = Op.clip b gg → b < 0 ∨ -b ≤ (cell k).maxB) →
      d.run F ops = .ok d' → ((cell k).minB - max (cell k).ref 0 ≤ d'.weight k ∧
        d'.weight k ≤ (cell k).maxB - min (cell k).ref 0) := by
    intro ops
    induction ops with
    | nil =>
      intro d _ _ _ hw _ _ hr
      simp only [Dev.run, Except.ok.injEq] at hr; subst hr; exact hw
    | cons o l ih =>
      intro d hk hv hcell hw hn hc hr
      simp only [Dev.run] at hr
      cases hs : d.step F o with
      | error e => rw [hs] at hr; simp at hr
      | ok d1 =>
        rw [hs] at hr
        obtain ⟨f1, f2, f3⟩ := step_frame F hv o hs
        have hcell1 : d1.cell = d.cell := by
          cases o with
          | setHidden c pr dt gg => exact absurd rfl (hn _ (List.mem_cons_self ..) c pr dt gg)
          | resetAt idx g =>
            simp only [Dev.step] at hs
            split_ifs at hs
            simp only [Except.ok.injEq] at hs
            subst hs
            exact (resetAt_frame d idx g 0).2.2
          | pulses q => simp only [Dev.step, Except.ok.injEq] at hs; subst hs; simp
          | _ => simp only [Dev.step, Except.ok.injEq] at hs; subst hs; rfl
        refine ih d1 (by rw [f1]; exact hk) f3 (by rw [hcell1]; exact hcell) ?_
          (fun o' h' => hn o' (List.mem_cons_of_mem _ h'))
          (fun o' h' => hc o' (List.mem_cons_of_mem _ h')) hr
        cases o with
        | setHidden c pr dt gg => exact absurd rfl (hn _ (List.mem_cons_self ..) c pr dt gg)
        | pulses q =>
          simp only [Dev.step, Except.ok.injEq] at hs
          subst hs
          clear hr ih hn hc f1 f2 f3 hcell1
          induction q generalizing d with
          | nil => exact hw
          | cons a q ihq =>
            refine ihq (d.pulse1 F a) hk hv hcell ?_
            rw [weight_eq] at *
            simp only [Dev.pulse1]
            split_ifs with h
            · rw [stored_pulse F hv.1 hv.2]
              cases hs : stepW F d.kd d.par (d.cell k) (stored d.kd d.par (d.st k)) a.down a.g with
              | none => simpa using hw
              | some w =>
                simp only [Option.getD_some]
                have := stepW_mem_ref F hk d.par (c := d.cell k) (by rw [hcell]; exact hb) _ _ _ _ hs
                rw [hcell] at this
                exact wide2 w this
            · exact hw
        | resetAt idx g =>
          simp only [Dev.step] at hs
          split_ifs at hs with hh
          simp only [Except.ok.injEq] at hs
          subst hs
          have hh' : persistent d.kd d.par = false := by simpa using hh
          clear hr ih hn hc f1 f2 f3 hcell1 hh
          generalize 0 = m
          induction idx generalizing d m with
          | nil => exact hw
          | cons i idx ihq =>
            unfold Dev.resetAt
            refine ihq (d.reset1 i (g m)) hk hv hcell ?_ hh' _
            rw [weight_eq, stored_persistent] at *
            simp only [Dev.reset1, hh', Bool.false_eq_true, if_false] at *
            split_ifs
            · rw [hcell]; exact wide _ (resetCell_mem hb _ _)
            · exact hw
        | resetCols a b c g g2 =>
          simp only [Dev.step, Except.ok.injEq] at hs; subst hs
          rw [weight_eq] at *
          simp only [Dev.mapSt, stored_onStored]
          split_ifs
          · rw [hcell]; exact wide _ (resetCell_mem hb _ _)
          · exact hw
          · rw [hcell]; exact wide _ (resetCell_mem hb _ _)
          · exact hw
        | clip c g =>
          simp only [Dev.step, Except.ok.injEq] at hs; subst hs
          rw [weight_eq]
          simp only [Dev.mapSt, stored_onStored]
          rw [hcell]
          exact wide _ (clipCell_mem hb (hc _ (List.mem_cons_self ..) c g rfl) _)
        | set v g =>
          simp only [Dev.step, Except.ok.injEq] at hs; subst hs
          rw [weight_eq]; simp only [Dev.mapSt, stored_onSet]; rw [hcell]
          exact wide _ (clipMM_mem hb _)
        | decay nb g =>
          simp only [Dev.step, Except.ok.injEq] at hs; subst hs
          rw [weight_eq]; simp only [Dev.mapSt, stored_onStored]; rw [hcell]
          exact wide _ (clipMM_mem hb _)
        | decayAlpha a nb g =>
          simp only [Dev.step, Except.ok.injEq] at hs; subst hs
          rw [weight_eq]; simp only [Dev.mapSt, stored_onStored]; rw [hcell]
          exact wide _ (clipMM_mem hb _)
        | diffuse g g2 =>
          simp only [Dev.step, Except.ok.injEq] at hs; subst hs
          rw [weight_eq]; simp only [Dev.mapSt, stored_onStored]; rw [hcell]
          exact wide _ (clipMM_mem hb _)
        | drift v g =>
          simp only [Dev.step, Except.ok.injEq] at hs; subst hs
          rw [weight_eq]; simp only [Dev.mapSt, stored_onStored]; rw [hcell]
          exact wide _ (clipXN_mem hb _)
        | fpUpdate v g =>
          simp only [Dev.step, Except.ok.injEq] at hs; subst hs
          rw [weight_eq]; simp only [Dev.mapSt, stored_onStored]; rw [hcell]
          exact wide _ (clipMM_mem hb _)
  refine key ops _ hk ⟨hp, h0⟩ rfl ?_ hnh hclip hrun
  rw [weight_eq]
  simp only [Dev.create, stored_onSet]
  exact wide _ (clipMM_mem hb _)

end Aihw.Pulsed
