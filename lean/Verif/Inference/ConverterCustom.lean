import Verif.Inference.ConverterProps
import Mathlib.Data.List.Pairwise

/-!
# Custom pair converter (C22)
-/
namespace Aihw.Inference

variable {K : Type} [Field K] [LinearOrder K] [IsStrictOrderedRing K]

/-! ## Linspace -/

theorem linspace_length (a b : K) (n : Nat) : (linspace a b n).length = n := by
  match n with
  | 0 => rfl
  | 1 => rfl
  | n + 2 => simp [linspace]

/-- Entry `i` of a grid of `n ≥ 2` points. -/
theorem linspace_get (a b : K) (n : Nat) (hn : 2 ≤ n) (i : Nat) (h : i < (linspace a b n).length) :
    (linspace a b n)[i] = a + (i : K) * ((b - a) / ((n : K) - 1)) := by
  match n, hn with
  | n + 2, _ =>
    simp only [linspace, List.getElem_map, List.getElem_range]
    congr 3
    push_cast; ring

theorem linspace_scale (c a b : K) (n : Nat) : (linspace a b n).map (· * c) = linspace (a * c) (b * c) n := by
  match n with
  | 0 => rfl
  | 1 => rfl
  | n + 2 =>
    simp only [linspace, List.map_map]
    apply List.map_congr_left
    intro i _
    simp only [Function.comp_apply]
    ring

theorem linspace_sorted {a b : K} (hab : a < b) (n : Nat) (hn : 2 ≤ n) : (linspace a b n).Pairwise (· < ·) := by
  rw [List.pairwise_iff_getElem]
  intro i j hi hj hij
  rw [linspace_get _ _ _ hn, linspace_get _ _ _ hn]
  have h1 : (0 : K) < (b - a) / ((n : K) - 1) := by
    apply div_pos (sub_pos.2 hab)
    have : (2 : K) ≤ n := by exact_mod_cast hn
    linarith
  have h2 : (i : K) < j := by exact_mod_cast hij
  have := mul_lt_mul_of_pos_right h2 h1
  linarith

theorem linspace_first (a b : K) (n : Nat) (hn : 2 ≤ n) (h : 0 < (linspace a b n).length) :
    (linspace a b n)[0] = a := by
  rw [linspace_get _ _ _ hn]; simp

theorem linspace_last (a b : K) (n : Nat) (hn : 2 ≤ n) (h : n - 1 < (linspace a b n).length) :
    (linspace a b n)[n - 1] = b := by
  rw [linspace_get _ _ _ hn]
  have h1 : ((n - 1 : Nat) : K) = (n : K) - 1 := by rw [Nat.cast_sub (by omega)]; simp
  rw [h1]
  have : (n : K) - 1 ≠ 0 := by
    have : (2 : K) ≤ n := by exact_mod_cast hn
    intro h; linarith
  field_simp
  ring

/-! ## Interpolation -/

theorem interp_sub (f x : K) (xs p m : List K) (hp : p.length = xs.length) (hm : m.length = xs.length) :
    f * (interp (xs.zip p) x - interp (xs.zip m) x) =
      interp (xs.zip (List.zipWith (fun a b => f * (a - b)) p m)) x := by
  induction xs generalizing p m with
  | nil => simp [interp]
  | cons x0 xs ih =>
    match p, m, hp, hm with
    | p0 :: p, m0 :: m, hp, hm =>
      simp only [List.length_cons, Nat.add_right_cancel_iff] at hp hm
      match xs, p, m, hp, hm, ih with
      | [], [], [], _, _, _ => simp [interp]
      | x1 :: xs, p1 :: p, m1 :: m, hp, hm, ih =>
        have := ih (p1 :: p) (m1 :: m) hp hm
        simp only [List.zip_cons_cons, List.zipWith_cons_cons, interp] at this ⊢
        split_ifs
        · rfl
        · ring
        · simpa only [interp] using this

theorem interp_add (x : K) (xs p m : List K) (hp : p.length = xs.length) (hm : m.length = xs.length) :
    interp (xs.zip p) x + interp (xs.zip m) x = interp (xs.zip (List.zipWith (· + ·) p m)) x := by
  induction xs generalizing p m with
  | nil => simp [interp]
  | cons x0 xs ih =>
    match p, m, hp, hm with
    | p0 :: p, m0 :: m, hp, hm =>
      simp only [List.length_cons, Nat.add_right_cancel_iff] at hp hm
      match xs, p, m, hp, hm, ih with
      | [], [], [], _, _, _ => simp [interp]
      | x1 :: xs, p1 :: p, m1 :: m, hp, hm, ih =>
        have := ih (p1 :: p) (m1 :: m) hp hm
        simp only [List.zip_cons_cons, List.zipWith_cons_cons, interp] at this ⊢
        split_ifs
        · rfl
        · ring
        · simpa only [interp] using this

theorem interp_zero (x : K) (xs : List K) (n : Nat) : interp (xs.zip (List.replicate n 0)) x = 0 := by
  induction xs generalizing n with
  | nil => simp [interp]
  | cons x0 xs ih =>
    match n with
    | 0 => simp [interp]
    | 1 => simp [interp]
    | n + 2 =>
      match xs, ih with
      | [], _ => rw [List.replicate_succ, List.zip_cons_cons, List.zip_nil_left, interp]
      | x1 :: xs, ih =>
        have := ih (n + 1)
        rw [List.replicate_succ, List.zip_cons_cons] at this
        rw [List.replicate_succ, List.replicate_succ, List.zip_cons_cons, List.zip_cons_cons]
        unfold interp
        split_ifs
        · rfl
        · ring
        · exact this

/-- Interpolating at a sample point of an increasing grid gives the sample. -/
theorem interp_grid (xs ys : List K) (hs : xs.Pairwise (· < ·)) (hl : ys.length = xs.length) (i : Nat)
    (h : i < xs.length) (h' : i < ys.length) : interp (xs.zip ys) xs[i] = ys[i] := by
  induction xs generalizing ys i with
  | nil => simp at h
  | cons x0 xs ih =>
    match ys, hl with
    | y0 :: ys, hl =>
      simp only [List.length_cons, Nat.add_right_cancel_iff] at hl
      match xs, ys, hl, ih with
      | [], [], _, _ =>
        have : i = 0 := by simpa using h
        subst this
        simp [interp]
      | x1 :: xs, y1 :: ys, hl, ih =>
        have hs' := List.pairwise_cons.1 hs
        match i with
        | 0 => simp [interp]
        | i + 1 =>
          have hi : i < (x1 :: xs).length := by simpa using h
          have hlt : x0 < (x1 :: xs)[i] := hs'.1 _ (List.getElem_mem hi)
          have hge : x1 ≤ (x1 :: xs)[i] := by
            have h2 := List.pairwise_cons.1 hs'.2
            cases i with
            | zero => simp
            | succ i => exact (h2.1 _ (List.getElem_mem (by simpa using hi))).le
          have := ih (y1 :: ys) hs'.2 hl i hi (by simpa using h')
          simp only [List.getElem_cons_succ, List.zip_cons_cons, interp] at this ⊢
          rw [if_neg (not_le.2 hlt), if_neg (not_lt.2 hge)]
          simpa only [interp] using this

/-- Interpolating a linear function on its grid gives the linear function between the end points. -/
theorem interp_linear (c x : K) (xs : List K) (hs : xs.Pairwise (· < ·)) (a b : K) (ha : xs.head? = some a)
    (hb : xs.getLast? = some b) (h1 : a ≤ x) (h2 : x ≤ b) : interp (xs.zip (xs.map (· * c))) x = x * c := by
  induction xs generalizing a with
  | nil => simp at ha
  | cons x0 xs ih =>
    simp only [List.head?_cons, Option.some.injEq] at ha
    subst ha
    match xs, ih with
    | [], _ =>
      simp only [List.getLast?_singleton, Option.some.injEq] at hb
      subst hb
      simp [interp, le_antisymm h2 h1]
    | x1 :: xs, ih =>
      have hs' := List.pairwise_cons.1 hs
      have hx : x0 < x1 := hs'.1 x1 (by simp)
      simp only [List.map_cons, List.zip_cons_cons, interp]
      split_ifs with c1 c2
      · rw [le_antisymm c1 h1]
      · have : x1 - x0 ≠ 0 := (sub_pos.2 hx).ne'
        field_simp
        ring
      · have := ih hs'.2 x1 rfl (by rw [List.getLast?_cons_cons] at hb; exact hb) (not_lt.1 c2)
        simpa only [List.map_cons, List.zip_cons_cons] using this

/-! ## Conversion and back -/

/-- All grids have length `n`. -/
def Spec.Uniform (s : Spec K) (n : Nat) : Prop := ∀ q ∈ s, q.2.1.length = n ∧ q.2.2.length = n

theorem codeFold_length (s : Spec K) (n : Nat) (hu : s.Uniform n) (acc : List K) (ha : acc.length = n) :
    (s.foldl (fun acc p => List.zipWith (· + ·) acc (List.zipWith (fun a b => p.1 * (a - b)) p.2.1 p.2.2)) acc).length
      = n := by
  induction s generalizing acc with
  | nil => exact ha
  | cons q s ih =>
    obtain ⟨h1, h2⟩ := hu q (by simp)
    exact ih (fun q hq => hu q (by simp [hq])) _ (by simp [ha, h1, h2])

theorem addPairs_custom (s : Spec K) (n : Nat) (hu : s.Uniform n) (grid : List K) (hg : grid.length = n) (w acc : List K)
    (ha : acc.length = n) :
    addPairs (s.map (·.1))
      ((s.map fun q => [w.map (interp (grid.zip q.2.1)), w.map (interp (grid.zip q.2.2))]).flatten)
      (w.map (interp (grid.zip acc))) =
    w.map (interp (grid.zip
      (s.foldl (fun acc p => List.zipWith (· + ·) acc (List.zipWith (fun a b => p.1 * (a - b)) p.2.1 p.2.2)) acc))) := by
  induction s generalizing acc with
  | nil => simp [addPairs]
  | cons q s ih =>
    obtain ⟨h1, h2⟩ := hu q (by simp)
    simp only [List.map_cons, List.flatten_cons, List.cons_append, List.nil_append, addPairs, List.foldl_cons]
    rw [zipWith_map_self, zipWith_map_self]
    have e : (w.map fun x => interp (grid.zip acc) x +
          q.1 * (interp (grid.zip q.2.1) x - interp (grid.zip q.2.2) x)) =
        w.map (interp (grid.zip (List.zipWith (· + ·) acc (List.zipWith (fun a b => q.1 * (a - b)) q.2.1 q.2.2)))) := by
      apply List.map_congr_left
      intro x _
      rw [interp_sub _ _ _ _ _ (by rw [h1, hg]) (by rw [h2, hg]),
        interp_add _ _ _ _ (by rw [ha, hg]) (by simp [h1, h2, hg])]
    rw [e, ih (fun q hq => hu q (by simp [hq])) _ (by simp [ha, h1, h2])]

/-- The round trip interpolates the code of the specification. -/
theorem customTrip_eq (s : Spec K) (n : Nat) (hs : s ≠ []) (hn : 0 < n) (hu : s.Uniform n)
    (hm : 0 < amaxK (codeOf s n)) (w : List K) (hw : w ≠ []) :
    customTrip s w = .ok (w.map fun x =>
      interp (((linspace (-amaxK (codeOf s n)) (amaxK (codeOf s n)) n).map
        (· / (amaxK (codeOf s n) / max (amaxK w) zeroClip))).zip (codeOf s n)) x /
        (amaxK (codeOf s n) / max (amaxK w) zeroClip)) := by
  cases s with
  | nil => exact absurd rfl hs
  | cons p s =>
    have hp := hu p (by simp)
    have hd := denom_pos w
    unfold customTrip customTo
    simp only
    rw [if_neg (by
      simp only [List.any_eq_true, decide_eq_true_eq, not_exists, not_and, not_or, ne_eq, not_not]
      intro q hq
      rw [hp.1]
      exact hu q hq), if_neg (by rw [hp.1]; simp [hn.ne', hw]), hp.1, if_neg hm.ne']
    simp only [bind, Except.bind]
    have hr : 0 < amaxK (codeOf (p :: s) n) / max (amaxK w) zeroClip := div_pos hm hd
    generalize hgrid : (linspace (-amaxK (codeOf (p :: s) n)) (amaxK (codeOf (p :: s) n)) n).map
        (· / (amaxK (codeOf (p :: s) n) / max (amaxK w) zeroClip)) = grid
    have hgl : grid.length = n := by rw [← hgrid]; simp [linspace_length]
    have key := addPairs_custom (p :: s) n hu grid hgl w (List.replicate n 0) (by simp)
    have hz : w.map (interp (grid.zip (List.replicate n 0))) = w.map fun _ => (0 : K) :=
      List.map_congr_left fun x _ => interp_zero x grid n
    rw [hz] at key
    unfold customBack
    have hlen : ∀ l : Spec K, ((l.map fun q => [w.map (interp (grid.zip q.2.1)),
        w.map (interp (grid.zip q.2.2))]).flatten).length = 2 * l.length := by
      intro l
      induction l with
      | nil => rfl
      | cons a l ih =>
        simp only [List.map_cons, List.flatten_cons, List.cons_append, List.nil_append, List.length_cons, ih]
        ring
    rw [if_neg (by rw [hlen, List.length_map]; simp)]
    have hfl : ((p :: s).map fun q => [w.map (interp (grid.zip q.2.1)), w.map (interp (grid.zip q.2.2))]).flatten =
        w.map (interp (grid.zip p.2.1)) :: w.map (interp (grid.zip p.2.2)) ::
          (s.map fun q => [w.map (interp (grid.zip q.2.1)), w.map (interp (grid.zip q.2.2))]).flatten := rfl
    rw [hfl]
    simp only [hr.ne', if_false, List.map_map, Function.comp_def]
    rw [← hfl, key, List.map_map]
    rfl

/-- **C22** (custom pairs). For a specification whose grids have a common length `n ≥ 2` and whose code (the weight
`Σ f (g⁺ - g⁻)` represented by each grid point) is not identically zero, conversion to conductances and back returns *every*
non-empty weight tensor unchanged exactly if the code is the uniform grid from `-M` to `M`, `M` its largest magnitude. -/
theorem C22_custom_round_trip_iff (s : Spec K) (n : Nat) (hs : s ≠ []) (hn : 2 ≤ n) (hu : s.Uniform n)
    (hm : 0 < amaxK (codeOf s n)) :
    (∀ w, w ≠ [] → customTrip s w = .ok w) ↔
      ∀ i, (h : i < (codeOf s n).length) →
        (codeOf s n)[i] = -amaxK (codeOf s n) + i * (2 * amaxK (codeOf s n) / (n - 1)) := by
  have hcl : (codeOf s n).length = n := codeFold_length s n hu _ (by simp)
  set code := codeOf s n with hcode
  set M := amaxK code with hM
  have hneg : -M < M := by linarith
  constructor
  · intro h i hi
    have hw : linspace (-1 : K) 1 n ≠ [] := by
      intro h0
      have := linspace_length (-1 : K) 1 n
      rw [h0] at this; simp at this; omega
    have h1 := h _ hw
    rw [customTrip_eq s n hs (by omega) hu hm _ hw, Except.ok.injEq] at h1
    have hamax : amaxK (linspace (-1 : K) 1 n) = 1 := by
      apply le_antisymm
      · have : ∀ l : List K, (∀ x ∈ l, |x| ≤ 1) → amaxK l ≤ 1 := by
          intro l
          induction l with
          | nil => intro _; simp [amaxK]
          | cons a l ih =>
            intro hl
            exact max_le (hl a (by simp)) (ih fun x hx => hl x (by simp [hx]))
        apply this
        intro x hx
        obtain ⟨j, hj, rfl⟩ := List.mem_iff_getElem.1 hx
        rw [linspace_get _ _ _ hn]
        have hj' : j ≤ n - 1 := by rw [linspace_length] at hj; omega
        have hpos : (0 : K) < (n : K) - 1 := by
          have : (2 : K) ≤ n := by exact_mod_cast hn
          linarith
        have hjn : (j : K) ≤ (n : K) - 1 := by
          have : (j : K) ≤ ((n - 1 : Nat) : K) := by exact_mod_cast hj'
          rw [Nat.cast_sub (by omega)] at this; simpa using this
        have h0 : (0 : K) ≤ (j : K) * ((1 - -1) / ((n : K) - 1)) := by positivity
        have h2 : (j : K) * ((1 - -1) / ((n : K) - 1)) ≤ 2 := by
          rw [mul_div_assoc', div_le_iff₀ hpos]; linarith
        rw [abs_le]; constructor <;> linarith
      · have hl : 0 < (linspace (-1 : K) 1 n).length := by rw [linspace_length]; omega
        have := abs_le_amaxK (List.getElem_mem hl)
        rw [linspace_first _ _ _ hn] at this
        simpa using this
    have hz : (zeroClip : K) ≤ 1 := by
      unfold zeroClip
      rw [div_le_one (by positivity)]; norm_num
    rw [hamax, max_eq_left hz, div_one] at h1
    have hgrid : (linspace (-M) M n).map (· / M) = linspace (-1) 1 n := by
      simp only [div_eq_mul_inv]
      rw [linspace_scale]
      congr 1 <;> field_simp
    rw [hgrid] at h1
    have hi' : i < (linspace (-1 : K) 1 n).length := by rw [linspace_length, ← hcl]; exact hi
    have h2 := List.getElem_of_eq h1 (i := i) (by simpa using hi')
    rw [List.getElem_map] at h2
    rw [interp_grid _ _ (linspace_sorted (by norm_num) n hn) (by rw [hcl, linspace_length]) i hi' hi,
      linspace_get _ _ _ hn] at h2
    rw [div_eq_iff hm.ne'] at h2
    rw [h2]; ring
  · intro h w hw
    rw [customTrip_eq s n hs (by omega) hu hm w hw, ← hcode, ← hM]
    congr 1
    have hd := denom_pos w
    set D := max (amaxK w) zeroClip with hD
    have hr : 0 < M / D := div_pos hm hd
    have hcode' : code = ((linspace (-M) M n).map (· / (M / D))).map (· * (M / D)) := by
      rw [List.map_map]
      apply List.ext_getElem (by simp [hcl, linspace_length])
      intro i h1 h2
      rw [h i h1, List.getElem_map, linspace_get _ _ _ hn]
      simp only [Function.comp_apply]
      rw [div_mul_cancel₀ _ hr.ne']; ring
    have hgrid : (linspace (-M) M n).map (· / (M / D)) = linspace (-D) D n := by
      simp only [div_eq_mul_inv]
      rw [linspace_scale]
      congr 1 <;> field_simp
    rw [hgrid] at hcode' ⊢
    have hz : (linspace (-D) D n).zip code = (linspace (-D) D n).zip ((linspace (-D) D n).map (· * (M / D))) :=
      congrArg _ hcode'
    rw [hz]
    conv_rhs => rw [← List.map_id w]
    apply List.map_congr_left
    intro x hx
    have hxD : |x| ≤ D := (abs_le_amaxK hx).trans (le_max_left _ _)
    obtain ⟨x1, x2⟩ := abs_le.1 hxD
    have hl : (linspace (-D) D n).length = n := linspace_length ..
    rw [interp_linear (M / D) x (linspace (-D) D n) (linspace_sorted (by linarith) n hn) (-D) D ?_ ?_ x1 x2]
    · simp only [id_eq]
      exact mul_div_cancel_right₀ x hr.ne'
    · rw [List.head?_eq_getElem?, List.getElem?_eq_getElem (by omega), linspace_first _ _ _ hn]
    · rw [List.getLast?_eq_getElem?, hl, List.getElem?_eq_getElem (by omega), linspace_last _ _ _ hn]

/-- **C22** (probe points). The invertibility test of the constructor accepts a nine point specification that changes
weights on a round trip (the weight 3/4 becomes 1/2): the five probes miss every second grid point. -/
theorem C22_test_incomplete :
    let s : Spec ℚ := [(1, [0, 0, 0, 0, 0, 2, 4, 4, 8], [8, 6, 4, 2, 0, 0, 0, 0, 0])]
    invertibilityTest s = .ok () ∧ customTrip s [1, 3/4] = .ok [1, 1/2] := by decide +kernel

/-- **C22** (accepted specifications). Every specification that round-trips all tensors passes the constructor test. -/
theorem C22_test_accepts (s : Spec K) (h : ∀ w, w ≠ [] → customTrip s w = .ok w) :
    invertibilityTest s = .ok () := by
  unfold invertibilityTest
  have hw : linspace (-1 : K) 1 5 ≠ [] := by
    intro h0
    have := linspace_length (-1 : K) 1 5
    rw [h0] at this; simp at this
  simp only [h _ hw]
  have hself : ∀ l : List K, allclose l l = true := by
    intro l
    unfold allclose
    rw [List.all_eq_true]
    intro b hb
    rw [List.zipWith_self, List.mem_map] at hb
    obtain ⟨x, _, rfl⟩ := hb
    simp only [sub_self, abs_zero, id_eq, decide_eq_true_eq]
    positivity
  simp [bind, Except.bind, hself]

/-- **C22** (what the constructor tests). The constructor accepts a specification exactly if the five weights `-1, -1/2, 0, 1/2, 1` survive
conversion and back up to an absolute error of `1e-4` plus a relative one of `1e-5`. -/
theorem C22_test_iff (s : Spec K) :
    invertibilityTest s = .ok () ↔ ∃ v : List K, customTrip s [-1, -1 / 2, 0, 1 / 2, 1] = .ok v ∧
      ∀ (i : Nat) (x y : K), [-1, -1 / 2, 0, 1 / 2, 1][i]? = some x → v[i]? = some y → |x - y| ≤ 1 / 10 ^ 4 + 1 / 10 ^ 5 * |y| := by
  have hl : linspace (-1 : K) 1 5 = [-1, -1 / 2, 0, 1 / 2, 1] := by
    simp only [linspace, List.range, List.range.loop, List.map]
    norm_num
  have hall : ∀ a b : List K, allclose a b = true ↔
      ∀ (i : Nat) (x y : K), a[i]? = some x → b[i]? = some y → |x - y| ≤ 1 / 10 ^ 4 + 1 / 10 ^ 5 * |y| := by
    intro a
    induction a with
    | nil => intro b; simp [allclose]
    | cons x a ih =>
      intro b
      cases b with
      | nil => simp [allclose]
      | cons y b =>
        have : allclose (x :: a) (y :: b) = (decide (|x - y| ≤ 1 / 10000 + 1 / 100000 * |y|) && allclose a b) := by
          simp [allclose]
        rw [this, Bool.and_eq_true, ih b, decide_eq_true_iff]
        constructor
        · rintro ⟨h1, h2⟩ i x' y' hx hy
          cases i with
          | zero => simp at hx hy; subst hx; subst hy; norm_num at h1 ⊢; exact h1
          | succ i => exact h2 i x' y' (by simpa using hx) (by simpa using hy)
        · intro h
          refine ⟨?_, fun i x' y' hx hy => h (i + 1) x' y' (by simpa using hx) (by simpa using hy)⟩
          have := h 0 x y (by simp) (by simp)
          norm_num at this ⊢; exact this
  unfold invertibilityTest
  rw [hl]
  simp only [bind, Except.bind]
  cases hc : customTrip s [-1, -1 / 2, 0, 1 / 2, 1] with
  | error e => simp
  | ok v =>
    simp only [Except.ok.injEq, exists_eq_left']
    rw [← hall]
    by_cases h : allclose [-1, -1 / 2, 0, 1 / 2, 1] v = true
    · simp [h]
    · simp [h]

example : ∃ (s : Spec ℚ) (n : Nat), s ≠ [] ∧ 2 ≤ n ∧ s.Uniform n ∧ 0 < amaxK (codeOf s n) ∧
    ∀ w, w ≠ [] → customTrip s w = .ok w := by
  refine ⟨[(1, [0, 0, 0, 4, 4], [4, 4, 0, 0, 0]), (2, [0, 0, 0, 0, 2], [2, 0, 0, 0, 0])], 5, by simp, by norm_num, ?_, by decide +kernel, ?_⟩
  · unfold Spec.Uniform; decide +kernel
  · rw [C22_custom_round_trip_iff _ 5 (by simp) (by norm_num) (by unfold Spec.Uniform; decide +kernel) (by decide +kernel)]
    decide +kernel

end Aihw.Inference
