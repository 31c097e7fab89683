import Verif.Gpu.Stream

/-!
# Lemmas: grouped steps and single steps
-/

namespace Aihw.Gpu

open Spec

theorem clip_eq (p : Dev) (w : ℚ) : clip p w = max p.wmin (min p.wmax w) := by
  unfold clip
  dsimp only
  have h1 : (if p.wmax < w then p.wmax else w) = min p.wmax w := by
    split_ifs with h
    · rw [min_eq_left (le_of_lt h)]
    · rw [min_eq_right (not_lt.mp h)]
  rw [h1]
  split_ifs with h
  · rw [max_eq_left (le_of_lt h)]
  · rw [max_eq_right (not_lt.mp h)]

/-- Within the bounds of the device. -/
def Within (p : Dev) (w : ℚ) : Prop := p.wmin ≤ w ∧ w ≤ p.wmax

theorem clip_within {p : Dev} (hp : p.wmin ≤ p.wmax) (w : ℚ) : Within p (clip p w) := by
  rw [clip_eq]
  exact ⟨le_max_left _ _, max_le hp (min_le_left _ _)⟩

theorem clip_id {p : Dev} {w : ℚ} (h : Within p w) : clip p w = w := by
  rw [clip_eq, min_eq_right h.2, max_eq_right h.1]

/-- The change of the weight by a pulse. -/
def delta (p : Dev) (b : Bool) : ℚ := if b then p.up else -p.down

theorem step_eq (p : Dev) (w : ℚ) (b : Bool) : step p w b = clip p (w + delta p b) := by
  rw [clip_eq]
  unfold step delta
  cases b
  · simp only [Bool.false_eq_true, if_false, sub_eq_add_neg]
  · simp only [if_true]

theorem step_within {p : Dev} (hp : p.wmin ≤ p.wmax) (w : ℚ) (b : Bool) : Within p (step p w b) := by
  rw [step_eq]; exact clip_within hp _

theorem steps_within {p : Dev} (hp : p.wmin ≤ p.wmax) (l : List Bool) : ∀ w : ℚ, Within p w →
    Within p (steps p w l) := by
  induction l with
  | nil => intro w h; exact h
  | cons b l ih => intro w _; exact ih _ (step_within hp w b)

theorem steps_append (p : Dev) (w : ℚ) (a b : List Bool) :
    steps p w (a ++ b) = steps p (steps p w a) b := List.foldl_append

theorem clip_merge {p : Dev} {w δ : ℚ} (h : Within p w) (n : ℕ) :
    clip p (clip p (w + δ) + n * δ) = clip p (w + (n + 1) * δ) := by
  have hn : (0 : ℚ) ≤ n := Nat.cast_nonneg n
  obtain ⟨h1, h2⟩ := h
  simp only [clip_eq]
  rcases le_total 0 δ with hδ | hδ
  · have hnδ : 0 ≤ (n : ℚ) * δ := mul_nonneg hn hδ
    have e1 : (w + ((n : ℚ) + 1) * δ) = w + δ + n * δ := by ring
    rw [e1]
    rcases le_total (w + δ) p.wmax with hle | hle
    · rw [min_eq_right hle, max_eq_right (show p.wmin ≤ w + δ by linarith)]
    · rw [min_eq_left hle, max_eq_right (show p.wmin ≤ p.wmax by linarith),
        min_eq_left (show p.wmax ≤ p.wmax + n * δ by linarith),
        min_eq_left (show p.wmax ≤ w + δ + n * δ by linarith),
        max_eq_right (show p.wmin ≤ p.wmax by linarith)]
  · have hnδ : (n : ℚ) * δ ≤ 0 := mul_nonpos_of_nonneg_of_nonpos hn hδ
    have e1 : (w + ((n : ℚ) + 1) * δ) = w + δ + n * δ := by ring
    rw [e1, min_eq_right (show w + δ ≤ p.wmax by linarith)]
    rcases le_total p.wmin (w + δ) with hle | hle
    · rw [max_eq_right hle]
    · rw [max_eq_left hle, min_eq_right (show p.wmin + n * δ ≤ p.wmax by linarith),
        max_eq_left (show p.wmin + n * δ ≤ p.wmin by linarith),
        min_eq_right (show w + δ + n * δ ≤ p.wmax by linarith),
        max_eq_left (show w + δ + n * δ ≤ p.wmin by linarith)]

theorem steps_replicate {p : Dev} (hp : p.wmin ≤ p.wmax) (b : Bool) (n : ℕ) : ∀ w : ℚ, Within p w →
    steps p w (List.replicate n b) = clip p (w + n * delta p b) := by
  induction n with
  | zero =>
    intro w h
    simp only [List.replicate_zero, Nat.cast_zero, zero_mul, add_zero]
    rw [clip_id h]; rfl
  | succ n ih =>
    intro w h
    rw [List.replicate_succ]
    show steps p (step p w b) (List.replicate n b) = _
    rw [ih _ (step_within hp w b), step_eq, clip_merge h]
    push_cast
    rfl

theorem upFun_quiet {p : Dev} (hq : ¬ 0 < p.sigma) (z : ℕ → ℚ) (n : ℕ) (b : Bool) (s : Cell) :
    (upFun p z n b s).w = clip p (s.w + n * delta p b) := by
  unfold upFun amount
  dsimp only
  simp only [if_neg hq]
  congr 2
  unfold delta
  by_cases h : n = 1
  · subst h
    simp
  · rw [if_neg h, mul_comm]

theorem upFun_steps {p : Dev} (hp : p.wmin ≤ p.wmax) (hq : ¬ 0 < p.sigma) (z : ℕ → ℚ) (n : ℕ)
    (b : Bool) (s : Cell) (h : Within p s.w) :
    (upFun p z n b s).w = steps p s.w (List.replicate n b) := by
  rw [upFun_quiet hq, steps_replicate hp b n _ h]

/-- A read a kernel can get: if it is not mixed, `negative` is zero or one. -/
def Proper (r : Read) : Prop := r.mixed = false → r.negative = 0 ∨ r.negative = 1

/-! ### The functor kernel -/

theorem functorBits_steps {p : Dev} (hp : p.wmin ≤ p.wmax) (hq : ¬ 0 < p.sigma) (z : ℕ → ℚ)
    (n negative : ℕ) (is : List ℕ) : ∀ s : Cell, Within p s.w →
    (functorBits p z n negative is s).w
      = steps p s.w ((is.filter fun i => n.testBit i).map fun i => negative.testBit i) := by
  induction is with
  | nil => intro s _; rfl
  | cons i is ih =>
    intro s h
    rw [functorBits]
    by_cases hi : n.testBit i = true
    · rw [if_pos hi]
      have hu := upFun_steps hp hq z 1 (negative.testBit i) s h
      have hw : Within p (upFun p z 1 (negative.testBit i) s).w := by
        rw [upFun_quiet hq]; exact clip_within hp _
      rw [ih _ hw, hu, List.filter_cons_of_pos (by simpa using hi), List.map_cons]
      rfl
    · rw [if_neg hi, ih _ h, List.filter_cons_of_neg (by simpa using hi)]

theorem functorRead_steps {p : Dev} (hp : p.wmin ≤ p.wmax) (hq : ¬ 0 < p.sigma) (z : ℕ → ℚ)
    (r : Read) (s : Cell) (h : Within p s.w) :
    (functorRead p z r s).w = steps p s.w (delivered r) := by
  unfold functorRead delivered
  cases r.mixed
  · simp only [Bool.false_eq_true, if_false]
    split_ifs with hn
    · exact upFun_steps hp hq z _ _ s h
    · have : r.n = 0 := by omega
      rw [this]; rfl
  · simp only [if_true]
    exact functorBits_steps hp hq z _ _ _ s h

theorem functorLoop_steps {p : Dev} (hp : p.wmin ≤ p.wmax) (hq : ¬ 0 < p.sigma) (z : ℕ → ℚ)
    (rs : List Read) : ∀ s : Cell, Within p s.w →
    (functorLoop p z rs s).w = steps p s.w (rs.flatMap delivered) := by
  induction rs with
  | nil => intro s _; rfl
  | cons r rs ih =>
    intro s h
    have hr := functorRead_steps hp hq z r s h
    rw [functorLoop, ih _ (by rw [hr]; exact steps_within hp _ _ h), hr, List.flatMap_cons,
      steps_append]

/-! ### The summing kernels -/

/-- The weight once the pending pulses are applied. -/
def pending (p : Dev) (a : Acc) : ℚ :=
  steps p a.cell.w (List.replicate a.sumN (decide (0 < a.last)))

/-- Invariant of the summing kernels. -/
def Sound (p : Dev) (a : Acc) : Prop := Within p a.cell.w ∧ (a.last = 0 ∨ a.last = 1)

theorem flush_steps {p : Dev} (hp : p.wmin ≤ p.wmax) (hq : ¬ 0 < p.sigma) (z : ℕ → ℚ) {a : Acc}
    (h : Sound p a) : (flush p z a).w = pending p a := by
  unfold flush pending
  split_ifs with hn
  · exact upFun_steps hp hq z _ _ _ h.1
  · have : a.sumN = 0 := by omega
    rw [this]; rfl

theorem pending_within {p : Dev} (hp : p.wmin ≤ p.wmax) {a : Acc} (h : Sound p a) :
    Within p (pending p a) := steps_within hp _ _ h.1

theorem sumBit_steps {p : Dev} (hp : p.wmin ≤ p.wmax) (hq : ¬ 0 < p.sigma) (z : ℕ → ℚ) {a : Acc}
    (h : Sound p a) (g : Bool) :
    Sound p (sumBit p z (if g then 1 else 0) a)
      ∧ pending p (sumBit p z (if g then 1 else 0) a) = step p (pending p a) g := by
  have hf := flush_steps hp hq z h
  have hfw : Within p (flush p z a).w := by rw [hf]; exact pending_within hp h
  have hg : (if g then 1 else 0 : ℕ) = 0 ∨ (if g then 1 else 0 : ℕ) = 1 := by cases g <;> simp
  have hgl : decide (0 < (if g then 1 else 0 : ℕ)) = g := by cases g <;> simp
  generalize (if g then 1 else 0 : ℕ) = v at hg hgl ⊢
  unfold sumBit
  by_cases he : v = a.last
  · rw [if_pos he]
    refine ⟨⟨h.1, h.2⟩, ?_⟩
    unfold pending
    simp only
    rw [← he, hgl, List.replicate_succ', steps_append]
    rfl
  · rw [if_neg he]
    refine ⟨⟨hfw, hg⟩, ?_⟩
    unfold pending at hf ⊢
    simp only
    rw [hgl, hf]
    rfl

theorem sumBits_steps {p : Dev} (hp : p.wmin ≤ p.wmax) (hq : ¬ 0 < p.sigma) (z : ℕ → ℚ)
    (n negative : ℕ) (is : List ℕ) : ∀ a : Acc, Sound p a →
    Sound p (sumBits p z n negative is a)
      ∧ pending p (sumBits p z n negative is a)
        = steps p (pending p a) ((is.filter fun i => n.testBit i).map fun i => negative.testBit i) := by
  induction is with
  | nil => intro a h; exact ⟨h, rfl⟩
  | cons i is ih =>
    intro a h
    rw [sumBits]
    by_cases hi : n.testBit i = true
    · rw [if_pos hi]
      have hb := sumBit_steps hp hq z h (negative.testBit i)
      have := ih _ hb.1
      refine ⟨this.1, ?_⟩
      rw [this.2, hb.2, List.filter_cons_of_pos (by simpa using hi), List.map_cons]
      rfl
    · rw [if_neg hi, List.filter_cons_of_neg (by simpa using hi)]
      exact ih _ h

theorem sumPlain_steps {p : Dev} (hp : p.wmin ≤ p.wmax) (hq : ¬ 0 < p.sigma) (z : ℕ → ℚ) {a : Acc}
    (h : Sound p a) {r : Read} (hm : r.mixed = false) (hr : Proper r) :
    Sound p (sumPlain p z r a)
      ∧ pending p (sumPlain p z r a) = steps p (pending p a) (delivered r) := by
  have hf := flush_steps hp hq z h
  have hd : delivered r = List.replicate r.n (decide (0 < r.negative)) := by
    unfold delivered; rw [hm]; rfl
  unfold sumPlain
  split_ifs with he
  · refine ⟨⟨h.1, h.2⟩, ?_⟩
    unfold pending
    simp only
    rw [hd]
    rcases he with he | he
    · rw [he]; rfl
    · rw [← he, ← steps_append, List.replicate_append_replicate]
  · refine ⟨⟨by rw [hf]; exact pending_within hp h, hr hm⟩, ?_⟩
    unfold pending at hf ⊢
    simp only
    rw [hf, hd]

theorem sumInner_steps {p : Dev} (hp : p.wmin ≤ p.wmax) (hq : ¬ 0 < p.sigma) (z : ℕ → ℚ) {a : Acc}
    (h : Sound p a) {r : Read} (hr : Proper r) :
    Sound p (sumInner p z r a)
      ∧ pending p (sumInner p z r a) = steps p (pending p a) (delivered r) := by
  unfold sumInner
  cases hm : r.mixed
  · simp only [Bool.false_eq_true, if_false]
    exact sumPlain_steps hp hq z h hm hr
  · simp only [if_true]
    have := sumBits_steps hp hq z r.n r.negative (List.range 32) a h
    refine ⟨this.1, ?_⟩
    rw [this.2]
    unfold delivered
    rw [hm]
    rfl

/-- If neither all down pulses nor all up pulses together reach a bound, no pulse is limited. -/
theorem steps_free {p : Dev} (hdown : 0 ≤ p.down) (hup : 0 ≤ p.up) (l : List Bool) : ∀ w : ℚ,
    p.wmin ≤ w - (l.countP fun b => !b) * p.down → w + (l.countP fun b => b) * p.up ≤ p.wmax →
    steps p w l = w - ((l.countP fun b => !b) * p.down - (l.countP fun b => b) * p.up) := by
  induction l with
  | nil => intro w _ _; simp [steps]
  | cons b l ih =>
    intro w h1 h2
    have hn1 : 0 ≤ ((l.countP fun b => !b : ℕ) : ℚ) * p.down :=
      mul_nonneg (Nat.cast_nonneg _) hdown
    have hn2 : 0 ≤ ((l.countP fun b => b : ℕ) : ℚ) * p.up := mul_nonneg (Nat.cast_nonneg _) hup
    show steps p (step p w b) l = _
    cases b with
    | false =>
      simp only [List.countP_cons, Bool.not_false, if_true, Bool.false_eq_true, if_false,
        Nat.add_zero, Nat.cast_add, Nat.cast_one] at h1 h2 ⊢
      have hs : step p w false = w - p.down := by
        unfold step
        simp only [Bool.false_eq_true, if_false]
        rw [min_eq_right (by linarith), max_eq_right (by linarith)]
      rw [hs, ih _ (by linarith) (by linarith)]
      ring
    | true =>
      simp only [List.countP_cons, Bool.not_true, if_true, Bool.false_eq_true, if_false,
        Nat.add_zero, Nat.cast_add, Nat.cast_one] at h1 h2 ⊢
      have hs : step p w true = w + p.up := by
        unfold step
        simp only [if_true]
        rw [min_eq_right (by linarith), max_eq_right (by linarith)]
      rw [hs, ih _ (by linarith) (by linarith)]
      ring

theorem countP_bits (n negative : ℕ) (is : List ℕ) (f : Bool → Bool) :
    ((is.filter fun i => n.testBit i).map fun i => negative.testBit i).countP f
      = is.countP fun i => n.testBit i && f (negative.testBit i) := by
  rw [List.countP_map, List.countP_filter]
  apply List.countP_congr
  intro i _
  simp only [Function.comp, Bool.and_comm]

theorem noisyCount_quiet {p : Dev} (hq : ¬ 0 < p.sigma) (n : ℕ) : noisyCount p n = n := by
  unfold noisyCount; rw [if_neg hq]

theorem boundMixed_steps {p : Dev} (hp : p.wmin ≤ p.wmax) (hq : ¬ 0 < p.sigma) (hdown : 0 ≤ p.down)
    (hup : 0 ≤ p.up) (z : ℕ → ℚ) {a : Acc} (h : Sound p a) {r : Read} (hm : r.mixed = true) :
    Sound p (boundMixed p z r a)
      ∧ pending p (boundMixed p z r a) = steps p (pending p a) (delivered r) := by
  have hf := flush_steps hp hq z h
  have hfw : Within p (flush p z a).w := by rw [hf]; exact pending_within hp h
  have hd : delivered r
      = ((List.range 32).filter fun i => r.n.testBit i).map fun i => r.negative.testBit i := by
    unfold delivered; rw [hm]; rfl
  have hpos : ((posN r : ℕ) : ℚ) = ((delivered r).countP fun b => !b : ℕ) := by
    rw [hd, countP_bits]; rfl
  have hneg : ((negN r : ℕ) : ℚ) = ((delivered r).countP fun b => b : ℕ) := by
    rw [hd, countP_bits]; rfl
  unfold boundMixed
  dsimp only
  rw [noisyCount_quiet hq, noisyCount_quiet hq]
  split_ifs with hc
  · have hfree := steps_free hdown hup (delivered r) (flush p z a).w (by rw [← hpos]; exact hc.1)
      (by rw [← hneg]; exact hc.2)
    have hval : (flush p z a).w - ((posN r : ℚ) * p.down - (negN r : ℚ) * p.up)
        = steps p (flush p z a).w (delivered r) := by rw [hfree, hpos, hneg]
    refine ⟨⟨?_, Or.inl rfl⟩, ?_⟩
    · show Within p ((flush p z a).w - ((posN r : ℚ) * p.down - (negN r : ℚ) * p.up))
      rw [hval]; exact steps_within hp _ _ hfw
    · show (flush p z a).w - ((posN r : ℚ) * p.down - (negN r : ℚ) * p.up) = _
      rw [hval, hf]
  · have := sumBits_steps hp hq z r.n r.negative (List.range 32)
      ⟨{ w := (flush p z a).w
         drawn := (flush p z a).drawn + noisyDraws p (posN r) + noisyDraws p (negN r) }, 0, 0⟩
      ⟨hfw, Or.inl rfl⟩
    refine ⟨this.1, ?_⟩
    rw [this.2, hd]
    show steps p (flush p z a).w _ = _
    rw [hf]

theorem boundInner_steps {p : Dev} (hp : p.wmin ≤ p.wmax) (hq : ¬ 0 < p.sigma) (hdown : 0 ≤ p.down)
    (hup : 0 ≤ p.up) (z : ℕ → ℚ) {a : Acc} (h : Sound p a) {r : Read} (hr : Proper r) :
    Sound p (boundInner p z r a)
      ∧ pending p (boundInner p z r a) = steps p (pending p a) (delivered r) := by
  unfold boundInner
  cases hm : r.mixed
  · simp only [Bool.false_eq_true, if_false]
    exact sumPlain_steps hp hq z h hm hr
  · simp only [if_true]
    exact boundMixed_steps hp hq hdown hup z h hm

theorem sumLoop_steps {p : Dev} (bound : Bool) (hp : p.wmin ≤ p.wmax) (hq : ¬ 0 < p.sigma)
    (hstep : bound = true → 0 ≤ p.down ∧ 0 ≤ p.up) (z : ℕ → ℚ) (rs : List Read) :
    ∀ a : Acc, Sound p a → (∀ r ∈ rs, Proper r) →
    (sumLoop bound p z rs a).w = steps p (pending p a) (rs.flatMap delivered) := by
  induction rs with
  | nil => intro a h _; exact flush_steps hp hq z h
  | cons r rs ih =>
    intro a h hr
    have hr1 := hr r List.mem_cons_self
    have hi : Sound p (if bound then boundInner p z r a else sumInner p z r a)
        ∧ pending p (if bound then boundInner p z r a else sumInner p z r a)
          = steps p (pending p a) (delivered r) := by
      cases bound
      · exact sumInner_steps hp hq z h hr1
      · exact boundInner_steps hp hq (hstep rfl).1 (hstep rfl).2 z h hr1
    rw [sumLoop, ih _ hi.1 fun r' h' => hr r' (List.mem_cons_of_mem _ h'), hi.2, List.flatMap_cons,
      steps_append]

/-- Every kernel, without noise, makes one step per delivered pulse. -/
theorem kernelCell_steps {p : Dev} (k : Kernel) (hp : p.wmin ≤ p.wmax) (hq : ¬ 0 < p.sigma)
    (hstep : k = .boundCheck → 0 ≤ p.down ∧ 0 ≤ p.up) (z : ℕ → ℚ) {rs : List Read}
    (hr : ∀ r ∈ rs, Proper r) {w : ℚ} (hw : Within p w) :
    kernelCell k p z rs w = steps p w (rs.flatMap delivered) := by
  cases k with
  | functor => exact functorLoop_steps hp hq z rs ⟨w, 0⟩ hw
  | sum =>
    exact sumLoop_steps false hp hq (fun h => by cases h) z rs ⟨⟨w, 0⟩, 0, 0⟩ ⟨hw, Or.inl rfl⟩ hr
  | boundCheck =>
    exact sumLoop_steps true hp hq (fun _ => hstep rfl) z rs ⟨⟨w, 0⟩, 0, 0⟩ ⟨hw, Or.inl rfl⟩ hr

theorem read32_proper (side : Side) (x d : ℕ → W32) (px pd nw xo dof : ℕ) :
    Proper (read32 side x d px pd nw xo dof) := by
  unfold read32 Proper
  cases side <;> dsimp only <;> (try split_ifs) <;> simp

theorem read64_proper (side : Side) (x d : W64) : Proper (read64 side x d) := by
  unfold read64 Proper
  dsimp only
  split_ifs <;> simp

end Aihw.Gpu
