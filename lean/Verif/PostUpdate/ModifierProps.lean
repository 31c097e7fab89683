import Verif.PostUpdate.Modifier

/-!
# C42: weight modifiers
-/
namespace Aihw.PostUpdate.Modifier

/-! ## Specification -/

/-- The weights last written in a history. -/
def lastWritten (w0 : Mat) (h : List Act) : Mat :=
  h.foldl (fun w a => match a with | .write w' => w' | .postUpdate _ _ => w) w0

/-- A post-update step that computes a new modified copy: any modifier other than `None`, and other than `Copy`
without drop connect. -/
def Act.effective : Act → Prop
  | .write _ => False
  | .postUpdate p _ => p.type ≠ .none ∧ (p.type = .copy → 0 < p.pdrop)

/-! ## Lemmas -/

theorem act_w (t : Tile) (a : Act) :
    (act t a).w = match a with | .write w' => w' | .postUpdate _ _ => t.w := by
  cases a with
  | write w => rfl
  | postUpdate p d => simp only [act, postUpdate]; split_ifs <;> rfl

theorem run_w (h : List Act) (t : Tile) : (h.foldl act t).w = lastWritten t.w h := by
  induction h generalizing t with
  | nil => rfl
  | cons a h ih =>
    simp only [List.foldl_cons, lastWritten]
    rw [ih, act_w]; rfl

theorem act_not_effective {t : Tile} {a : Act} (h : ¬ a.effective) :
    (act t a).fb = t.fb ∧ (act t a).enableTest = t.enableTest := by
  cases a with
  | write w => exact ⟨rfl, rfl⟩
  | postUpdate p d =>
    simp only [Act.effective, not_and, Classical.not_imp, not_lt, ne_eq] at h
    simp only [act, postUpdate]
    split_ifs with h1 h2
    · exact ⟨rfl, rfl⟩
    · exact ⟨rfl, rfl⟩
    · obtain ⟨h3, h4⟩ := h h1; exact absurd ⟨h3, h4⟩ h2

theorem run_not_effective {h : List Act} (t : Tile) (hn : ∀ a ∈ h, ¬ a.effective) :
    (h.foldl act t).fb = t.fb ∧ (h.foldl act t).enableTest = t.enableTest := by
  induction h generalizing t with
  | nil => exact ⟨rfl, rfl⟩
  | cons a h ih =>
    have h1 := act_not_effective (t := t) (hn a (by simp))
    have h2 := ih (act t a) fun b hb => hn b (List.mem_cons_of_mem _ hb)
    exact ⟨h2.1.trans h1.1, h2.2.trans h1.2⟩

theorem roundC_spec (x : ℚ) : |x - roundC x| ≤ 1 / 2 := by
  unfold roundC
  rw [abs_le]
  split_ifs with h
  · have h1 := Int.floor_le (x + 1 / 2)
    have h2 := Int.lt_floor_add_one (x + 1 / 2)
    constructor <;> linarith
  · have h1 := Int.floor_le (-x + 1 / 2)
    have h2 := Int.lt_floor_add_one (-x + 1 / 2)
    push_cast
    constructor <;> linarith

theorem roundC_intCast (n : ℤ) : roundC n = n := by
  have h := roundC_spec (n : ℚ)
  rw [abs_le] at h
  have h1 : ((roundC n : ℤ) : ℚ) - n < 1 := by linarith
  have h2 : (-1 : ℚ) < (roundC n : ℚ) - n := by linarith
  have h1' : roundC n - n < 1 := by exact_mod_cast h1
  have h2' : -1 < roundC n - n := by exact_mod_cast h2
  omega

/-! ## C42 -/

/-- **C42** (evaluation). For every history of weight writes, updates and post-update steps, evaluation uses exactly
the weights last written, as long as no modifier is configured with `enable_during_test`. -/
theorem C42_eval_true_weights (w0 : Mat) (h : List Act)
    (hno : ∀ p d, Act.postUpdate p d ∈ h → p.enableDuringTest = false) :
    fbWeights (h.foldl act ⟨w0, none, false⟩) true = lastWritten w0 h ∧
    (h.foldl act ⟨w0, none, false⟩).w = lastWritten w0 h := by
  have hw := run_w h ⟨w0, none, false⟩
  refine ⟨?_, hw⟩
  have key : ∀ (h : List Act) (t : Tile), t.enableTest = false →
      (∀ p d, Act.postUpdate p d ∈ h → p.enableDuringTest = false) → (h.foldl act t).enableTest = false := by
    intro h
    induction h with
    | nil => intro t ht _; exact ht
    | cons a h ih =>
      intro t ht hh
      refine ih _ ?_ fun p d hm => hh p d (List.mem_cons_of_mem _ hm)
      cases a with
      | write w => exact ht
      | postUpdate p d =>
        simp only [act, postUpdate]
        split_ifs
        · exact ht
        · exact ht
        · exact hh p d (by simp)
  have he := key h ⟨w0, none, false⟩ rfl hno
  unfold fbWeights
  rw [he]
  cases (h.foldl act ⟨w0, none, false⟩).fb with
  | none => exact hw
  | some f => exact hw

/-- **C42** (training). Training passes use the copy computed by the most recent effective post-update step from
the weights present at that time - whatever has been written since, and also after the modifier has been switched
off. Before any effective step they use the true weights. -/
theorem C42_training_weights_stale (w0 : Mat) (pre suf : List Act) (p : ModPars) (d : Draws)
    (heff : (Act.postUpdate p d).effective) (hsuf : ∀ a ∈ suf, ¬ a.effective) :
    fbWeights ((pre ++ Act.postUpdate p d :: suf).foldl act ⟨w0, none, false⟩) false =
      applyMod p d (lastWritten w0 pre) ∧
    fbWeights (suf.foldl act ⟨w0, none, false⟩) false = lastWritten w0 suf := by
  constructor
  · rw [List.foldl_append, List.foldl_cons]
    set t := pre.foldl act ⟨w0, none, false⟩ with ht
    have hw : t.w = lastWritten w0 pre := run_w pre _
    have hstep : act t (.postUpdate p d) = modifyFB p d t := by
      simp only [act, postUpdate]
      rw [if_neg heff.1, if_neg (fun hc => absurd (heff.2 hc.1) (not_lt.2 hc.2))]
    have := run_not_effective (act t (.postUpdate p d)) hsuf
    unfold fbWeights
    rw [this.1, hstep]
    simp [modifyFB, hw]
  · have := run_not_effective (h := suf) ⟨w0, none, false⟩ hsuf
    unfold fbWeights
    rw [this.1]
    exact run_w suf _

/-- Entry of a modified matrix. -/
theorem applyMod_entry (p : ModPars) (d : Draws) (w : Mat) (i : Nat) (hi : i < w.length) (j : Nat)
    (hj : j < w[i].length) :
    ∃ (h1 : i < (applyMod p d w).length) (h2 : j < (applyMod p d w)[i].length),
      (applyMod p d w)[i][j] =
        if p.copyLastColumn ∧ j + 1 = w[i].length then w[i][j]
        else dropEntry p d i j (modEntry p (amaxOf p w) d i j w[i][j]) := by
  refine ⟨by simpa [applyMod] using hi, by simpa [applyMod, modRow] using hj, ?_⟩
  simp [applyMod, modRow]

/-- **C42** (shape and bias column). A modified copy has the shape of the weights, and with `copy_last_column` its
last column is exact for every modifier type and every random numbers. -/
theorem C42_copy_last_column (p : ModPars) (d : Draws) (w : Mat) :
    (applyMod p d w).length = w.length ∧
    (∀ i (hi : i < w.length) (h : i < (applyMod p d w).length), (applyMod p d w)[i].length = w[i].length) ∧
    (p.copyLastColumn = true → ∀ i (hi : i < w.length) (h : i < (applyMod p d w).length),
      (applyMod p d w)[i].getLast? = w[i].getLast?) := by
  refine ⟨by simp [applyMod], ?_, ?_⟩
  · intro i hi h; simp [applyMod, modRow]
  · intro hc i hi h
    have hl : (applyMod p d w)[i].length = w[i].length := by simp [applyMod, modRow]
    rw [List.getLast?_eq_getElem?, List.getLast?_eq_getElem?, hl]
    rcases Nat.eq_zero_or_pos w[i].length with h0 | h0
    · rw [List.getElem?_eq_none (by omega), List.getElem?_eq_none (by omega)]
    · obtain ⟨h1, h2, e⟩ := applyMod_entry p d w i hi (w[i].length - 1) (by omega)
      rw [if_pos ⟨hc, by omega⟩] at e
      rw [List.getElem?_eq_getElem (by omega), List.getElem?_eq_getElem (by omega), e]

/-- **C42** (programming noise keeps the sign). -/
theorem C42_prog_noise_sign (p : ModPars) (hty : p.type = .progNoise) (d : Draws) (w : Mat) (i j : Nat)
    (hi : i < w.length) (hj : j < w[i].length) (h1 : i < (applyMod p d w).length)
    (h2 : j < (applyMod p d w)[i].length) :
    (0 ≤ w[i][j] → 0 ≤ (applyMod p d w)[i][j]) ∧ (w[i][j] ≤ 0 → w[i][j] ≠ 0 → (applyMod p d w)[i][j] ≤ 0) := by
  obtain ⟨_, _, e⟩ := applyMod_entry p d w i hi j hj
  rw [e]
  have hd : ∀ x, (0 ≤ x → 0 ≤ dropEntry p d i j x) ∧ (x ≤ 0 → dropEntry p d i j x ≤ 0) := by
    intro x; unfold dropEntry
    split_ifs <;> constructor <;> intro h <;> first | exact h | exact le_rfl
  generalize w[i][j] = x at *
  have hm : (0 ≤ x → 0 ≤ modEntry p (amaxOf p w) d i j x) ∧
      (x ≤ 0 → x ≠ 0 → modEntry p (amaxOf p w) d i j x ≤ 0) := by
    unfold modEntry
    rw [hty]
    simp only
    split_ifs with a b
    · exact ⟨fun h => absurd b (not_lt.2 h), fun _ _ => neg_nonpos.2 (abs_nonneg _)⟩
    · exact ⟨fun _ => abs_nonneg _, fun h h0 => absurd (lt_of_le_of_ne h h0) b⟩
    · exact ⟨id, fun h _ => h⟩
  split_ifs
  · exact ⟨id, fun h _ => h⟩
  · exact ⟨fun h => (hd _).1 (hm.1 h), fun h h0 => (hd _).2 (hm.2 h h0)⟩

/-- **C42** (discretization, RPUCuda). Without stochastic rounding and drop connect every weight becomes an integer
multiple of `res` times the reference maximum, off by at most half of that. -/
theorem C42_cpp_discretize (p : ModPars) (hty : p.type = .discretize) (hres : 0 < p.res) (hsto : p.stoRound = false)
    (hdrop : p.pdrop ≤ 0) (hlast : p.copyLastColumn = false) (d : Draws) (w : Mat) (ha : 0 < amaxOf p w) (i j : Nat)
    (hi : i < w.length) (hj : j < w[i].length) (h1 : i < (applyMod p d w).length)
    (h2 : j < (applyMod p d w)[i].length) :
    (∃ k : ℤ, (applyMod p d w)[i][j] = k * (p.res * amaxOf p w)) ∧
    |(applyMod p d w)[i][j] - w[i][j]| ≤ p.res * amaxOf p w / 2 := by
  obtain ⟨_, _, e⟩ := applyMod_entry p d w i hi j hj
  rw [e]
  simp only [hlast, Bool.false_eq_true, false_and, if_false, dropEntry, not_lt.2 hdrop, gt_iff_lt, modEntry, hty, hres,
    if_true, discretize, not_le.2 hres, hsto]
  generalize w[i][j] = x
  generalize amaxOf p w = a at *
  refine ⟨⟨roundC (x / a / p.res), by ring⟩, ?_⟩
  have := roundC_spec (x / a / p.res)
  have e2 : a * (roundC (x / a / p.res) * p.res) - x =
      -(x / a / p.res - roundC (x / a / p.res)) * (p.res * a) := by
    field_simp
    ring
  rw [e2, abs_mul, abs_neg, abs_of_pos (mul_pos hres ha)]
  calc _ ≤ 1 / 2 * (p.res * a) := mul_le_mul_of_nonneg_right this (mul_pos hres ha).le
    _ = _ := by ring

/-- **C42** (multiplicative noise and drop connect leave zeros). -/
theorem C42_mult_noise_zero (p : ModPars) (hty : p.type = .multNormal ∨ p.type = .dropConnect) (d : Draws) (w : Mat)
    (i j : Nat) (hi : i < w.length) (hj : j < w[i].length) (h1 : i < (applyMod p d w).length)
    (h2 : j < (applyMod p d w)[i].length) (h0 : w[i][j] = 0) : (applyMod p d w)[i][j] = 0 := by
  obtain ⟨_, _, e⟩ := applyMod_entry p d w i hi j hj
  rw [e, h0]
  rcases hty with hty | hty <;> simp [modEntry, hty, dropEntry]

/-- **C42** (drop connect). A weight outside a restored last column is zeroed exactly if its uniform number is below the
drop probability, and otherwise untouched. -/
theorem C42_drop_connect (p : ModPars) (hty : p.type = .dropConnect) (hc : p.copyLastColumn = false) (d : Draws)
    (w : Mat) (i j : Nat) (hi : i < w.length) (hj : j < w[i].length) (h1 : i < (applyMod p d w).length)
    (h2 : j < (applyMod p d w)[i].length) (hp : 0 < p.pdrop) :
    (d.drop i j < p.pdrop → (applyMod p d w)[i][j] = 0) ∧
    (p.pdrop ≤ d.drop i j → (applyMod p d w)[i][j] = w[i][j]) := by
  obtain ⟨_, _, e⟩ := applyMod_entry p d w i hi j hj
  rw [e]
  refine ⟨fun h => ?_, fun h => ?_⟩
  · simp [modEntry, hty, dropEntry, hc, hp, h]
  · simp [modEntry, hty, dropEntry, hc, not_lt.2 h]

/-- **C42** (back ends differ). For every reference maximum `a > 0` and resolution `0 < r ≤ 1` the matrix `[a, r a]` is
discretized differently: the RPUCuda step is `r a`, the torch step `2 r a`; and multiplicative noise is scaled by the
reference maximum only in RPUCuda. -/
theorem C42_backends_differ (a r : ℚ) (ha : 0 < a) (hr : 0 < r) (hr1 : r ≤ 1) (d : Draws) (s : ℚ) (hs : 0 < s) :
    let p : ModPars := { type := .discretize, res := r }
    let w : Mat := [[a, r * a]]
    (applyMod p d w).map (·.getD 1 0) = [r * a] ∧ (torchModify p d w).map (·.map (·.getD 1 0)) = .ok [0] ∧
    (applyMod { type := .multNormal, stdDev := s } d w).map (·.getD 0 0) = [a + a * (s * a) * d.gauss 0 0] ∧
    (torchModify { type := .multNormal, stdDev := s } d w).map (·.map (·.getD 0 0)) =
      .ok [a + a * s * d.gauss 0 0] := by
  intro p w
  have hra : r * a ≤ a := by nlinarith
  have hra0 : 0 < r * a := mul_pos hr ha
  have hmax : ∀ ty : ModPars, ty.relToActualWmax = true → ty.type ≠ .copy → ty.copyLastColumn = false →
      amaxOf ty w = a := by
    intro ty h1 h2 h3
    simp only [amaxOf, h1, h2, ne_eq, not_false_eq_true, and_self, if_true, h3, w, absMax, List.map_cons, List.map_nil, List.foldr_cons, List.foldr_nil,
      abs_of_pos ha, abs_of_pos hra0, Bool.false_eq_true, if_false]
    rw [max_eq_left hra0.le, max_eq_left hra, abs_of_pos ha, max_eq_left ha.le]
    simp [ha]
  have hmax2 : absMax (w.map absMax) = a := by
    simp only [w, absMax, List.map_cons, List.map_nil, List.foldr_cons, List.foldr_nil,
      abs_of_pos ha, abs_of_pos hra0]
    rw [max_eq_left hra0.le, max_eq_left hra, abs_of_pos ha, max_eq_left ha.le]
  refine ⟨?_, ?_, ?_, ?_⟩
  · have e : r * a / a / r = ((1 : ℤ) : ℚ) := by push_cast; field_simp
    simp only [applyMod, hmax p rfl (by simp [p]) rfl]
    simp only [w, p, modRow, modEntry, dropEntry, discretize, List.mapIdx_cons, List.mapIdx_nil, List.map_cons,
      List.map_nil, hr, not_le.2 hr, gt_iff_lt, if_true, if_false, Bool.false_eq_true, false_and, lt_irrefl]
    simp only [List.getD_cons_succ, List.getD_cons_zero]
    rw [e, roundC_intCast]
    push_cast
    congr 1
    ring
  · have h1 : ¬ r > 1 := not_lt.2 hr1
    have hstep : r * (2 * a) ≠ 0 := by positivity
    have e : r * a / (r * (2 * a)) = 1 / 2 := by field_simp
    have hround : roundHE (1 / 2) = 0 := by decide +kernel
    simp only [torchModify, p, if_true, hmax2, h1, if_false, not_le.2 hr, hstep, Except.map]
    simp only [w, List.mapIdx_cons, List.mapIdx_nil, List.map_cons, List.map_nil, List.getD_cons_succ,
      List.getD_cons_zero, Bool.false_eq_true, if_false, add_zero, e, hround]
    simp
  · simp only [applyMod, hmax { type := .multNormal, stdDev := s } rfl (by simp) rfl]
    simp [w, modRow, modEntry, dropEntry, hs]
  · simp [torchModify, w, Except.map]

/-- **C42** (torch tile). Evaluation and the types None and Copy use the stored weights; unsupported types raise. -/
theorem C42_torch (p : ModPars) (d : Draws) (w : Mat) :
    torchForwardWeights p d w true = .ok w ∧
    (p.type = .none ∨ p.type = .copy → torchForwardWeights p d w false = .ok w) ∧
    (p.type = .poly ∨ p.type = .progNoise ∨ p.type = .discretizeAddNormal ∨ p.type = .dropConnect →
      torchForwardWeights p d w false = .error .configError) ∧
    (p.type = .discretize → 0 < p.res → p.relToActualWmax = true → (∀ r ∈ w, ∀ x ∈ r, x = 0) →
      torchForwardWeights p d w false = .error .nanInf) := by
  refine ⟨rfl, ?_, ?_, ?_⟩
  · rintro (h | h) <;> simp [torchForwardWeights, torchModify, h]
  · rintro (h | h | h | h) <;> simp [torchForwardWeights, torchModify, h]
  · intro h hr hrel hz
    have h0 : absMax (w.map absMax) = 0 := by
      refine le_antisymm (absMax_le le_rfl ?_) (absMax_nonneg _)
      intro a ha
      obtain ⟨r, hr, rfl⟩ := List.mem_map.1 ha
      rw [abs_of_nonneg (absMax_nonneg _)]
      exact absMax_le le_rfl fun x hx => by rw [hz r hr x hx]; simp
    have hpos : ¬ (if p.res > 1 then 1 / p.res else p.res) ≤ 0 := by
      rw [not_le]; split_ifs
      · positivity
      · exact hr
    simp only [torchForwardWeights, Bool.false_eq_true, if_false, torchModify, h, hrel, if_true, h0, hpos, mul_zero]

end Aihw.PostUpdate.Modifier
