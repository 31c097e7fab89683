import Verif.Inference.TileProps
import Mathlib.Tactic.Linarith
import Mathlib.Tactic.Ring
import Mathlib.Tactic.FieldSimp
import Mathlib.Tactic.Positivity
import Mathlib.Algebra.BigOperators.Group.List.Basic
import Mathlib.Algebra.BigOperators.Ring.List
import Mathlib.Algebra.Order.BigOperators.Group.List
import Mathlib.Data.List.GetD

/-!
# Drift compensation: property C19
-/
namespace Aihw.Inference.Life
open Aihw.Periphery

variable {P : Type}

/-- Specification: mean of all absolute entries (by columns first) of a weight matrix with `n` inputs. -/
def meanAbs (n : Nat) (w : Mat) : ℚ := mean (((List.range n).flatMap fun j => w.map fun r => r.getD j 0).map (|·|))

/-- Specification: mean of the absolute values of row `r` (output line) with `n` inputs. -/
def rowMeanAbs (n : Nat) (r : Vec) : ℚ := mean ((List.range n).map fun j => |r.getD j 0|)

theorem getD_scale (r : Vec) (c : ℚ) (j : Nat) : (r.map (· * c)).getD j 0 = r.getD j 0 * c := by
  rw [List.getD_eq_getElem?_getD, List.getD_eq_getElem?_getD, List.getElem?_map]
  cases r[j]? <;> simp

theorem mean_scale (l : Vec) (c : ℚ) : mean (l.map (· * c)) = mean l * c := by
  unfold mean
  rw [List.sum_map_mul_right, List.length_map, List.map_id']
  ring

theorem readout_global (c : Comp) (hc : c ≠ .perColumn) (n : Nat) (w : Mat) :
    readout c (exactRead n w) = [max (meanAbs n w) (1 / 10000)] := by
  unfold readout
  cases c with
  | perColumn => exact absurd rfl hc
  | _ => rfl

theorem readout_perColumn (n : Nat) (hn : 0 < n) (w : Mat) :
    readout .perColumn (exactRead n w) = w.map fun r => max (rowMeanAbs n r) (1 / 10000) := by
  have hl : ((exactRead n w).headD []).length = w.length := by
    obtain ⟨m, rfl⟩ : ∃ m, n = m + 1 := ⟨n - 1, by omega⟩
    simp [exactRead, List.range_succ_eq_map, col]
  unfold readout
  simp only [hl]
  apply List.ext_getElem (by simp)
  intro i h1 h2
  simp only [List.length_map, List.length_range] at h1 h2
  simp only [List.getElem_map, List.getElem_range]
  congr 2
  unfold rowMeanAbs exactRead
  show (col ((List.range n).map fun j => col w j) i).map (|·|) = _
  unfold col
  simp only [List.map_map]
  apply List.map_congr_left
  intro j _
  simp only [Function.comp_apply]
  congr 1
  rw [List.getD_eq_getElem _ _ (by simpa using h1), List.getElem_map]

theorem readout_pos (c : Comp) (out : Mat) : ∀ a ∈ readout c out, 0 < a := by
  intro a ha
  have : ∀ x : ℚ, 0 < max x (1 / 10000) := fun x => lt_max_of_lt_right (by norm_num)
  unfold readout at ha
  cases c <;> simp only [List.mem_map, List.mem_singleton] at ha
  · subst ha; exact this _
  · subst ha; exact this _
  · subst ha; exact this _
  · obtain ⟨j, _, rfl⟩ := ha; exact this _

theorem zipWith_div_pos : ∀ a b : Vec, (∀ x ∈ a, 0 < x) → (∀ x ∈ b, 0 < x) → ∀ x ∈ List.zipWith (· / ·) a b, (0 : ℚ) < x
  | [], _, _, _ => by simp
  | _ :: _, [], _, _ => by simp
  | x :: a, y :: b, h1, h2 => by
    intro z hz
    simp only [List.zipWith_cons_cons, List.mem_cons] at hz
    rcases hz with rfl | hz
    · exact div_pos (h1 x (by simp)) (h2 y (by simp))
    · exact zipWith_div_pos a b (fun x hx => h1 x (by simp [hx])) (fun x hx => h2 x (by simp [hx])) z hz

/-- Invariant: positive compensation factors and baseline entries. -/
def Pos (s : ITile P) : Prop := (∀ a ∈ s.alpha, 0 < a) ∧ ∀ b, s.baseline = some b → ∀ a ∈ b, 0 < a

theorem initBaseline_pos (k : Nat) (s : ITile P) (h : Pos s) : Pos (initBaseline k s).2 := by
  unfold initBaseline readForward
  split_ifs with h1 h2
  · exact h
  · cases hr : s.t.reference with
    | none => simp only [hr]; exact h
    | some r =>
      simp only [hr]
      refine ⟨h.1, ?_⟩
      rintro b ⟨⟩
      exact readout_pos _ _
  · refine ⟨h.1, ?_⟩
    rintro b ⟨⟩
    exact readout_pos _ _

theorem program_pos (b : Bool) (n : Option (NM P)) (k : Nat) (s : ITile P) (h : Pos s) : Pos (program b n k s).2 := by
  obtain ⟨r, hr, _⟩ := takeReference_spec b n s
  unfold program
  rw [hr]
  dsimp only
  split
  · exact h
  · split_ifs
    · exact h
    · exact initBaseline_pos _ _ h

theorem driftProgrammed_pos (t : ℚ) (k : Nat) (s : ITile P) (h : Pos s) : Pos (driftProgrammed t k s).2 := by
  unfold driftProgrammed
  split
  · split
    · exact h
    · dsimp only
      split_ifs
      · exact h
      · unfold readForward
        simp only [Bool.false_eq_true, if_false]
        split_ifs
        · exact h
        · unfold compensate
          dsimp only
          cases hb : s.baseline with
          | none => exact ⟨h.1, by intro b hb'; cases hb'⟩
          | some b =>
            simp only
            exact ⟨zipWith_div_pos _ _ (h.2 b hb) (readout_pos _ _), fun b' hb' => h.2 b' (by rw [hb]; exact hb')⟩
  · exact h

theorem istep_pos (s : ITile P) (c : ICall P) (h : Pos s) : Pos (istep s c) := by
  cases c with
  | base c => exact h
  | program b n k => exact program_pos _ _ _ _ h
  | drift t k =>
    show Pos (drift t k s).2
    obtain ⟨s', hs, h'⟩ | h' := drift_state t k s
    · rw [h']
      refine driftProgrammed_pos _ _ _ ?_
      rcases hs with rfl | ⟨_, rfl⟩
      · exact h
      · exact program_pos _ _ _ _ h
    · rw [h']; exact program_pos _ _ _ _ h
  | forward x sd e => exact h
  | other f => exact h

/-- **C19** (positive factor). After every history the compensation factors are positive numbers, for every noise model,
read-out and compensation kind. -/
theorem C19_alpha_positive (ic : ICfg) (c : Cfg) (nm : NM P) (hist : List (ICall P)) :
    ∀ a ∈ (irun (fresh ic c nm) hist).alpha, 0 < a := by
  have key : ∀ (s : ITile P) (l : List (ICall P)), Pos s → Pos (irun s l) := by
    intro s l
    induction l generalizing s with
    | nil => intro h; exact h
    | cons c l ih => intro h; exact ih _ (istep_pos s c h)
  exact (key (fresh ic c nm) hist ⟨by simp [fresh], by simp [fresh]⟩).1

/-! ## Evaluation output -/

theorem bmul_single (y : Vec) (a : ℚ) : bmul y [a] = .ok (y.map (· * a)) := by
  unfold bmul
  split_ifs with h
  · match y, h with
    | [x], _ => simp
  · rfl

theorem devWrite_unbounded {c : Cfg} (h : c.devBound = none) (w : Mat) : devWrite c w = w := by
  unfold devWrite; rw [h]

theorem dot_scale (r x : Vec) (c : ℚ) : dot (r.map (· * c)) x = dot r x * c := by
  unfold dot
  induction r generalizing x with
  | nil => simp
  | cons a r ih =>
    cases x with
    | nil => simp
    | cons b x =>
      simp only [List.map_cons, List.zipWith_cons_cons, List.sum_cons, ih]
      ring

/-- Rows times factors. -/
def rowsTimes (w : Mat) (cs : Vec) : Mat := List.zipWith (fun r c => r.map (· * c)) w cs

theorem matVec_rowsTimes (w : Mat) (cs x : Vec) : matVec (rowsTimes w cs) x = List.zipWith (· * ·) (matVec w x) cs := by
  unfold matVec rowsTimes
  induction w generalizing cs with
  | nil => simp
  | cons r w ih =>
    cases cs with
    | nil => simp
    | cons c cs => simp only [List.zipWith_cons_cons, List.map_cons, dot_scale, ih]

/-- Inputs prepared for an evaluation forward (specification of the digital input part). -/
def prep (t : Tile) (x : Vec) : Except PyErr Vec :=
  match t.inputRange, t.cfg.inputRange with
  | .none, _ => .ok x
  | some r, .none => if r = 0 then .error .nanInf else .ok (x.map (· / r))
  | some r, some _ => if r = 0 then .error .nanInf else .ok ((x.map (clamp (-|r|) |r|)).map (· / r))

theorem preForward_test (x : Vec) (std : ℚ) (t : Tile) : preForward x std true t = (prep t x, t) := by
  rcases t with ⟨⟨o, i, ab, db, mp, cir, dv⟩, w0, bias, ms, mls, le, ir, idx, ref, lr⟩
  unfold prep
  cases ir with
  | none => rfl
  | some r =>
    cases cir with
    | none =>
      show (if r = 0 then Op.throw .nanInf else pure (x.map (· / r)) : Op Vec) _ = _
      dsimp only
      by_cases hr : r = 0
      · rw [if_pos hr, if_pos hr]; rfl
      · rw [if_neg hr, if_neg hr]; rfl
    | some p =>
      show (if r = 0 then Op.throw .nanInf else pure ((x.map (clamp (-|r|) |r|)).map (· / r)) : Op Vec) _ = _
      dsimp only
      by_cases hr : r = 0
      · rw [if_pos hr, if_pos hr]; rfl
      · rw [if_neg hr, if_neg hr]; rfl

theorem jointForward_test (x : Vec) (std : ℚ) (t : Tile) :
    jointForward x std true t = (prep t x >>= fun z => devForward t z >>= fun y => postForward t y, t) := by
  unfold jointForward
  show Op.bind _ _ t = _
  unfold Op.bind
  rw [preForward_test]
  cases prep t x with
  | error e => rfl
  | ok z =>
    dsimp only
    show Op.bind Op.get _ t = _
    unfold Op.bind Op.get
    dsimp only
    show Op.bind (Op.lift _) _ t = _
    unfold Op.bind Op.lift
    show _ = (devForward t z >>= fun y => postForward t y, t)
    cases devForward t z <;> rfl

/-- The digital part after the analog output. -/
def finish (t : Tile) (y : Vec) : Except PyErr Vec :=
  (applyOutScaling t y).map fun y => if t.cfg.digitalBias then vadd y t.bias else y

theorem forwardI_test (x : Vec) (std : ℚ) (s : ITile P) :
    (forwardI x std true s).1 =
      (prep s.t x >>= fun z => devForward s.t z >>= fun y => postForward s.t y >>= fun y => applyAlpha s true y >>= finish s.t) := by
  unfold forwardI
  show (Op.bind _ _ s.t).1 = _
  unfold Op.bind
  rw [jointForward_test]
  cases h1 : prep s.t x with
  | error e => rfl
  | ok z =>
    have e : ∀ {α β : Type} (a : α) (f : α → Except PyErr β), (Except.ok a >>= f) = f a := fun _ _ => rfl
    have e' : ∀ {α β : Type} (x : PyErr) (f : α → Except PyErr β), (Except.error x >>= f) = .error x := fun _ _ => rfl
    simp only [e]
    cases h2 : devForward s.t z with
    | error e => simp only [e']
    | ok y =>
      simp only [e]
      cases h3 : postForward s.t y with
      | error e => simp only [e']
      | ok y =>
        simp only [e]
        show (Op.bind (Op.lift (applyAlpha s true y)) _ s.t).1 = (applyAlpha s true y >>= finish s.t)
        unfold Op.bind Op.lift
        cases h4 : applyAlpha s true y with
        | error e => rfl
        | ok y =>
          unfold finish
          show (Op.bind (Op.lift (applyOutScaling s.t y)) _ s.t).1 = _
          unfold Op.bind Op.lift
          show _ = (applyOutScaling s.t y).map _
          cases applyOutScaling s.t y <;> rfl

theorem forward_test (x : Vec) (std : ℚ) (t : Tile) :
    (Periphery.forward x std true t).1 =
      (prep t x >>= fun z => devForward t z >>= fun y => postForward t y >>= finish t) := by
  have h := forwardI_test (P := Unit) x std
    { ic := { read := fun _ w => w }, t := t, nm := ⟨fun _ _ => .error .other, fun _ _ _ _ => .error .other⟩ }
  rw [C18_training_forward _ _ _ _ (.inr rfl)] at h
  rw [h]
  rfl

/-- Multiplying the analog outputs by factors commutes with the mapping scales. -/
theorem postForward_scale (t : Tile) (y cs : Vec) (hy : y.length = cs.length)
    (hm : ∀ m, t.mappingScales = some m → m.length = y.length ∨ m.length = 1) :
    postForward t (List.zipWith (· * ·) y cs) = (postForward t y).map fun z => List.zipWith (· * ·) z cs := by
  have hl : (List.zipWith (· * ·) y cs).length = y.length := by simp [hy]
  have hb : ∀ m : Vec, m.length = y.length ∨ m.length = 1 →
      bmul (List.zipWith (· * ·) y cs) m = (bmul y m).map fun z => List.zipWith (· * ·) z cs := by
    intro m hm
    by_cases h : m.length = y.length
    · unfold bmul
      rw [if_pos (by rw [hl, h]), if_pos h.symm]
      simp only [Except.map]
      congr 1
      apply List.ext_getElem (by simp [hy, h])
      intro i h1 h2
      simp only [List.getElem_zipWith]; ring
    · have h1 : m.length = 1 := by tauto
      obtain ⟨a, rfl⟩ := List.length_eq_one_iff.1 h1
      rw [bmul_single, bmul_single]
      simp only [Except.map]
      congr 1
      apply List.ext_getElem (by simp [hy])
      intro i h1 h2
      simp only [List.getElem_zipWith, List.getElem_map]; ring
  unfold postForward
  cases hi : t.inputRange with
  | none =>
    cases hmm : t.mappingScales with
    | none => rfl
    | some m => exact hb m (hm m hmm)
  | some r =>
    cases hmm : t.mappingScales with
    | none =>
      simp only [Except.map]
      congr 1
      apply List.ext_getElem (by simp)
      intro i h1 h2
      simp only [List.getElem_zipWith, List.getElem_map]; ring
    | some m =>
      exact hb (m.map (r * ·)) (by simpa using hm m hmm)

theorem postForward_length (t : Tile) (y z : Vec)
    (hm : ∀ m, t.mappingScales = some m → m.length = y.length ∨ m.length = 1) (h : postForward t y = .ok z) :
    z.length = y.length := by
  have hb : ∀ m : Vec, m.length = y.length ∨ m.length = 1 → ∀ z, bmul y m = .ok z → z.length = y.length := by
    intro m hm z hz
    by_cases h : m.length = y.length
    · unfold bmul at hz; rw [if_pos h.symm] at hz; cases hz; simp [h]
    · have h1 : m.length = 1 := by tauto
      obtain ⟨a, rfl⟩ := List.length_eq_one_iff.1 h1
      rw [bmul_single] at hz; cases hz; simp
  unfold postForward at h
  cases hi : t.inputRange with
  | none =>
    cases hmm : t.mappingScales with
    | none => rw [hi, hmm] at h; cases h; rfl
    | some m => rw [hi, hmm] at h; exact hb m (hm m hmm) z h
  | some r =>
    cases hmm : t.mappingScales with
    | none => rw [hi, hmm] at h; cases h; simp
    | some m => rw [hi, hmm] at h; exact hb (m.map (r * ·)) (by simpa using hm m hmm) z h

theorem zipWith_cancel (z cs as : Vec) (h1 : z.length = cs.length) (h2 : as.length = cs.length)
    (h : ∀ i (h : i < cs.length), cs[i] * as[i] = 1) :
    List.zipWith (· * ·) (List.zipWith (· * ·) z cs) as = z := by
  apply List.ext_getElem (by simp [h1, h2])
  intro i h3 h4
  simp only [List.getElem_zipWith]
  rw [mul_assoc, h i (by omega), mul_one]

/-- Key lemma: device weights with rows multiplied by `cs` and compensation factors `1 / cs` evaluate like the original
weights without compensation. -/
theorem eval_compensated (s : ITile P) (hc : s.ic.comp ≠ .none) (pw : Mat) (cs : Vec) (hcs : cs.length = pw.length)
    (hw : s.t.w = rowsTimes pw cs)
    (hm : ∀ m, s.t.mappingScales = some m → m.length = pw.length ∨ m.length = 1)
    (ha : ∀ z : Vec, z.length = pw.length → bmul (List.zipWith (· * ·) z cs) s.alpha = .ok z) (x : Vec) (std : ℚ) :
    (forwardI x std true s).1 = (Periphery.forward x std true { s.t with w := pw }).1 := by
  rw [forwardI_test, forward_test]
  have hp : prep { s.t with w := pw } x = prep s.t x := rfl
  rw [hp]
  cases prep s.t x with
  | error e => rfl
  | ok z =>
    show (devForward s.t z >>= _) = (devForward { s.t with w := pw } z >>= _)
    unfold devForward
    dsimp only
    by_cases hl : z.length = s.t.cfg.inSize
    · rw [if_pos hl, if_pos hl]
      show (postForward s.t _ >>= _) = (postForward { s.t with w := pw } _ >>= finish { s.t with w := pw })
      rw [hw, matVec_rowsTimes]
      set y := matVec pw (if s.t.cfg.analogBias then z ++ [1] else z) with hy
      have hylen : y.length = pw.length := by simp [hy, matVec]
      rw [postForward_scale s.t y cs (by rw [hylen, hcs]) (by rw [hylen]; exact hm)]
      have e1 : postForward { s.t with w := pw } y = postForward s.t y := rfl
      rw [e1]
      cases hq : postForward s.t y with
      | error e => rfl
      | ok q =>
        have hql := postForward_length s.t y q (by rw [hylen]; exact hm) hq
        show (applyAlpha s true (List.zipWith (· * ·) q cs) >>= finish s.t) = finish { s.t with w := pw } q
        have : applyAlpha s true (List.zipWith (· * ·) q cs) = .ok q := by
          unfold applyAlpha
          have : (s.ic.comp != .none) = true := by simpa using hc
          rw [this]
          exact ha q (by rw [hql, hylen])
        rw [this]
        rfl
    · rw [if_neg hl, if_neg hl]; rfl

/-- The weights programming starts from. -/
def refOf (b : Bool) (s : ITile P) : Mat := if b = true ∧ s.t.reference.isSome then s.t.reference.getD [] else s.t.w

/-- What the baseline is computed from. -/
def baseRead (s : ITile P) (k : Nat) (R pw : Mat) : Mat :=
  if s.ic.comp = .exact then exactRead (xSize s.t.cfg) R else s.ic.read k (devWrite s.t.cfg pw)

theorem program_baseline (s : ITile P) (hc : s.ic.comp ≠ .none) (hi : s.ic.inTrans = false) (b : Bool) (n : Option (NM P)) (k : Nat)
    (pw : Mat) (p : P) (hp : (n.getD s.nm).prog k (refOf b s) = .ok (pw, p)) :
    (program b n k s).1 = .ok () ∧
    (program b n k s).2.baseline = some (readout s.ic.comp (baseRead s k (refOf b s) pw)) := by
  obtain ⟨r, hr, h1, h2, h3⟩ := takeReference_spec b n s
  have hrR : r = refOf b s := by
    unfold refOf
    cases b with
    | false => simpa using h2 rfl
    | true =>
      cases href : s.t.reference with
      | none => simpa [href] using h1 href
      | some Q => simpa [href] using h3 rfl Q href
  unfold program
  rw [hr]
  dsimp only [Option.getD_some]
  rw [hrR, hp]
  dsimp only
  rw [if_neg hc]
  unfold initBaseline readForward baseRead
  simp only [hi, Bool.and_false, Bool.false_eq_true, if_false]
  by_cases he : s.ic.comp = .exact
  · simp [he]
  · have : (s.ic.comp == Comp.exact) = false := by simpa using he
    simp [he, this]

theorem drift_alpha (s : ITile P) (hc : s.ic.comp ≠ .none) (hi : s.ic.inTrans = false) (pw : Mat) (p : P)
    (hpw : s.programmed = some pw) (hp : s.pars = some p) (bl : Vec) (hbl : s.baseline = some bl) (t : ℚ) (k : Nat) (dw : Mat)
    (hd : s.nm.drift k pw p t = .ok dw) :
    drift t k s = (.ok (), { s with
      t := { s.t with w := devWrite s.t.cfg dw }
      readoutSet := true
      alpha := List.zipWith (· / ·) bl (readout s.ic.comp (s.ic.read k (devWrite s.t.cfg dw))) }) := by
  rcases s with ⟨ic, tt, nm, programmed, pars, rs, bl', al⟩
  dsimp only at *
  subst hpw hp hbl
  unfold drift driftProgrammed
  dsimp only
  rw [hd]
  dsimp only
  rw [if_neg hc]
  unfold readForward
  simp only [hi, Bool.and_false, Bool.false_eq_true, if_false]
  rfl

/-- State after programming and any calls that do not program, then drifting: everything C19 needs. -/
theorem program_then_drift (s : ITile P) (hc : s.ic.comp ≠ .none) (hi : s.ic.inTrans = false) (b : Bool) (n : Option (NM P))
    (k k' : Nat) (pw dw : Mat) (p : P) (hp : (n.getD s.nm).prog k (refOf b s) = .ok (pw, p)) (t : ℚ)
    (hd : (n.getD s.nm).drift k' pw p t = .ok dw) (hist : List (ICall P)) (hh : ∀ c ∈ hist, c.noProgram = true) :
    let s2 := irun (program b n k s).2 hist
    drift t k' s2 = (.ok (), { s2 with
      t := { s2.t with w := devWrite s.t.cfg dw }
      readoutSet := true
      alpha := List.zipWith (· / ·) (readout s.ic.comp (baseRead s k (refOf b s) pw))
        (readout s.ic.comp (s.ic.read k' (devWrite s.t.cfg dw))) }) ∧ s2.ic = s.ic ∧ s2.t.cfg = s.t.cfg := by
  intro s2
  have hest := C18_program_establishes s b n k (refOf b s) pw p rfl hp
  have hbl := (program_baseline s hc hi b n k pw p hp).2
  obtain ⟨h1, h2, h3, h4⟩ := irun_programmed (program b n k s).2 hist hh pw hest.1
  have hic : s2.ic = s.ic := (irun_cfg _ hist).2.trans (program_cfg b n k s).2.1
  have hcfg : s2.t.cfg = s.t.cfg := (irun_cfg _ hist).1.trans (program_cfg b n k s).1
  have h := drift_alpha s2 (by rw [hic]; exact hc) (by rw [hic]; exact hi) pw p h1 (h2.trans hest.2.1) _ (h4.trans hbl) t k' dw
    (by rw [h3, hest.2.2.1]; exact hd)
  refine ⟨?_, hic, hcfg⟩
  rw [h, hic, hcfg]

/-- **C19** (read-out restored). With any compensation, after programming, any calls that do not program, and drifting - for any drift
whatsoever and any read-out noise - the compensation factors times the current (clipped) mean absolute read-out are exactly the
read-out at programming time (with exact reference: the exact read-out of the target weights). -/
theorem C19_readout_restored (s : ITile P) (hc : s.ic.comp ≠ .none) (hi : s.ic.inTrans = false) (b : Bool) (n : Option (NM P))
    (k k' : Nat) (pw dw : Mat) (p : P) (hp : (n.getD s.nm).prog k (refOf b s) = .ok (pw, p)) (t : ℚ)
    (hd : (n.getD s.nm).drift k' pw p t = .ok dw) (hist : List (ICall P)) (hh : ∀ c ∈ hist, c.noProgram = true) :
    let base := readout s.ic.comp (baseRead s k (refOf b s) pw)
    let now := readout s.ic.comp (s.ic.read k' (devWrite s.t.cfg dw))
    let s3 := (drift t k' (irun (program b n k s).2 hist)).2
    (drift t k' (irun (program b n k s).2 hist)).1 = .ok () ∧
    ∀ i, i < base.length → i < now.length → s3.alpha.getD i 0 * now.getD i 0 = base.getD i 0 := by
  intro base now s3
  obtain ⟨h, _, _⟩ := program_then_drift s hc hi b n k k' pw dw p hp t hd hist hh
  refine ⟨by rw [h], fun i h1 h2 => ?_⟩
  have e : s3.alpha = List.zipWith (· / ·) base now := by show (drift t k' _).2.alpha = _; rw [h]
  rw [e, List.getD_eq_getElem _ _ (by simp; omega), List.getD_eq_getElem _ _ h2, List.getD_eq_getElem _ _ h1]
  simp only [List.getElem_zipWith]
  exact div_mul_cancel₀ _ (ne_of_gt (readout_pos _ _ _ (List.getElem_mem h2)))

theorem meanAbs_scale (n : Nat) (w : Mat) (c : ℚ) (hc : 0 < c) :
    meanAbs n (w.map fun r => r.map (· * c)) = meanAbs n w * c := by
  unfold meanAbs
  rw [← mean_scale]
  congr 1
  simp only [List.map_flatMap, List.map_map]
  congr 1
  funext j
  apply List.map_congr_left
  intro r _
  simp only [Function.comp_apply, getD_scale, abs_mul, abs_of_pos hc]

theorem rowMeanAbs_scale (n : Nat) (r : Vec) (c : ℚ) (hc : 0 < c) : rowMeanAbs n (r.map (· * c)) = rowMeanAbs n r * c := by
  unfold rowMeanAbs
  rw [← mean_scale, List.map_map]
  congr 1
  apply List.map_congr_left
  intro j _
  simp only [Function.comp_apply, getD_scale, abs_mul, abs_of_pos hc]

theorem rowsTimes_replicate (w : Mat) (c : ℚ) : rowsTimes w (List.replicate w.length c) = w.map fun r => r.map (· * c) := by
  unfold rowsTimes
  apply List.ext_getElem (by simp)
  intro i h1 h2
  simp

/-- **C19** (uniform decay cancels). Global compensation with exact read-outs on a device without weight bound: if all programmed
weights have decayed by the same factor `c > 0` and both mean magnitudes are at least the clipping value 10⁻⁴, the evaluation
output equals that of the tile with the programmed weights and no compensation - after any calls that do not program, for any
input. The same holds for the exact-reference variant if programming was exact. -/
theorem C19_uniform_decay (s : ITile P) (hi : s.ic.inTrans = false) (b : Bool) (n : Option (NM P)) (k k' : Nat) (pw : Mat) (p : P)
    (hp : (n.getD s.nm).prog k (refOf b s) = .ok (pw, p))
    (hcomp : s.ic.comp = .global ∨ (s.ic.comp = .exact ∧ pw = refOf b s))
    (hread : ∀ k w, s.ic.read k w = exactRead (xSize s.t.cfg) w) (hdev : s.t.cfg.devBound = none) (t c : ℚ) (hc : 0 < c)
    (hd : (n.getD s.nm).drift k' pw p t = .ok (pw.map fun r => r.map (· * c)))
    (h1 : 1 / 10000 ≤ meanAbs (xSize s.t.cfg) pw) (h2 : 1 / 10000 ≤ meanAbs (xSize s.t.cfg) pw * c)
    (hist : List (ICall P)) (hh : ∀ c ∈ hist, c.noProgram = true) (x : Vec) (std : ℚ) :
    let s2 := irun (program b n k s).2 hist
    (∀ m, s2.t.mappingScales = some m → m.length = pw.length ∨ m.length = 1) →
    (drift t k' s2).2.alpha = [1 / c] ∧
    (forwardI x std true (drift t k' s2).2).1 = (Periphery.forward x std true { s2.t with w := pw }).1 := by
  intro s2 hm
  have hne : s.ic.comp ≠ .none := by rcases hcomp with h | ⟨h, _⟩ <;> rw [h] <;> decide
  have hnp : s.ic.comp ≠ .perColumn := by rcases hcomp with h | ⟨h, _⟩ <;> rw [h] <;> decide
  obtain ⟨h, hic, hcfg⟩ := program_then_drift s hne hi b n k k' pw _ p hp t hd hist hh
  have hbase : baseRead s k (refOf b s) pw = exactRead (xSize s.t.cfg) pw := by
    unfold baseRead
    rcases hcomp with h | ⟨h, he⟩
    · rw [if_neg (by rw [h]; decide), hread, devWrite_unbounded hdev]
    · rw [if_pos h, he]
  have hal : (drift t k' s2).2.alpha = [1 / c] := by
    rw [h]
    dsimp only
    rw [hbase, hread, devWrite_unbounded hdev, readout_global _ hnp, readout_global _ hnp, meanAbs_scale _ _ _ hc,
      max_eq_left h1, max_eq_left h2]
    have : meanAbs (xSize s.t.cfg) pw ≠ 0 := by
      have : (0 : ℚ) < 1 / 10000 := by norm_num
      linarith
    simp only [List.zipWith_cons_cons, List.zipWith_nil_right, List.cons.injEq, and_true]
    field_simp
  refine ⟨hal, ?_⟩
  have hw : (drift t k' s2).2.t = { s2.t with w := rowsTimes pw (List.replicate pw.length c) } := by
    rw [h]
    dsimp only
    rw [devWrite_unbounded hdev, rowsTimes_replicate]
  have := eval_compensated (drift t k' s2).2 (by rw [h]; dsimp only; rw [hic]; exact hne) pw (List.replicate pw.length c) (by simp)
    (by rw [hw]) (by rw [hw]; exact hm) (by
      intro z hz
      rw [hal, bmul_single]
      congr 1
      apply List.ext_getElem (by simp [hz])
      intro i h1 h2
      simp only [List.getElem_map, List.getElem_zipWith, List.getElem_replicate]
      field_simp) x std
  rw [this, hw]

/-- **C19** (row-dependent decay cancels per column). Per-column compensation with exact read-outs: if the weights of output line `i`
have decayed by their own factor `cs[i] > 0` and the mean magnitudes of every line are at least the clipping value, the evaluation output
equals that of the programmed weights without compensation. -/
theorem C19_per_column_decay (s : ITile P) (hi : s.ic.inTrans = false) (hcomp : s.ic.comp = .perColumn) (b : Bool) (n : Option (NM P))
    (k k' : Nat) (pw : Mat) (p : P) (hp : (n.getD s.nm).prog k (refOf b s) = .ok (pw, p))
    (hread : ∀ k w, s.ic.read k w = exactRead (xSize s.t.cfg) w) (hx : 0 < xSize s.t.cfg) (hdev : s.t.cfg.devBound = none)
    (t : ℚ) (cs : Vec) (hcs : cs.length = pw.length) (hpos : ∀ c ∈ cs, 0 < c)
    (hd : (n.getD s.nm).drift k' pw p t = .ok (List.zipWith (fun r c => r.map (· * c)) pw cs))
    (hclip : ∀ i (h : i < pw.length), 1 / 10000 ≤ rowMeanAbs (xSize s.t.cfg) pw[i] ∧
      1 / 10000 ≤ rowMeanAbs (xSize s.t.cfg) pw[i] * cs[i])
    (hist : List (ICall P)) (hh : ∀ c ∈ hist, c.noProgram = true) (x : Vec) (std : ℚ) :
    let s2 := irun (program b n k s).2 hist
    (∀ m, s2.t.mappingScales = some m → m.length = pw.length ∨ m.length = 1) →
    (drift t k' s2).2.alpha = cs.map (1 / ·) ∧
    (forwardI x std true (drift t k' s2).2).1 = (Periphery.forward x std true { s2.t with w := pw }).1 := by
  intro s2 hm
  have hne : s.ic.comp ≠ .none := by rw [hcomp]; decide
  obtain ⟨h, hic, hcfg⟩ := program_then_drift s hne hi b n k k' pw _ p hp t hd hist hh
  have hbase : baseRead s k (refOf b s) pw = exactRead (xSize s.t.cfg) pw := by
    unfold baseRead
    rw [if_neg (by rw [hcomp]; decide), hread, devWrite_unbounded hdev]
  have hal : (drift t k' s2).2.alpha = cs.map (1 / ·) := by
    rw [h]
    dsimp only
    rw [hbase, hread, devWrite_unbounded hdev, hcomp, readout_perColumn _ hx, readout_perColumn _ hx]
    apply List.ext_getElem (by simp [hcs])
    intro i h1 h2
    have hi' : i < pw.length := by simpa [hcs] using h2
    have hi'' : i < cs.length := by simpa using h2
    simp only [List.getElem_zipWith, List.getElem_map]
    have hc := hpos _ (List.getElem_mem hi'')
    rw [rowMeanAbs_scale _ _ _ hc, max_eq_left (hclip i hi').1, max_eq_left (hclip i hi').2]
    have : rowMeanAbs (xSize s.t.cfg) pw[i] ≠ 0 := by
      have := (hclip i hi').1
      have h0 : (0 : ℚ) < 1 / 10000 := by norm_num
      linarith
    field_simp
  refine ⟨hal, ?_⟩
  have hw : (drift t k' s2).2.t = { s2.t with w := rowsTimes pw cs } := by
    rw [h]
    dsimp only
    rw [devWrite_unbounded hdev]
    rfl
  have := eval_compensated (drift t k' s2).2 (by rw [h]; dsimp only; rw [hic]; exact hne) pw cs hcs
    (by rw [hw]) (by rw [hw]; exact hm) (by
      intro z hz
      rw [hal]
      unfold bmul
      rw [if_pos (by simp [hz, hcs])]
      congr 1
      apply List.ext_getElem (by simp [hz, hcs])
      intro i h1 h2
      simp only [List.getElem_map, List.getElem_zipWith]
      have hi'' : i < cs.length := by simp at h1; omega
      have hc := hpos _ (List.getElem_mem hi'')
      field_simp) x std
  rw [this, hw]

/-- Below the clipping value compensation is not exact: weights decayed to (almost) zero magnitude are amplified by at most
`10⁴` times the baseline. -/
theorem C19_alpha_bounded (s : ITile P) (hcomp : s.ic.comp = .global) (hi : s.ic.inTrans = false) (b : Bool) (n : Option (NM P))
    (k k' : Nat) (pw dw : Mat) (p : P) (hp : (n.getD s.nm).prog k (refOf b s) = .ok (pw, p)) (t : ℚ)
    (hd : (n.getD s.nm).drift k' pw p t = .ok dw) (hist : List (ICall P)) (hh : ∀ c ∈ hist, c.noProgram = true) :
    ∃ a, (drift t k' (irun (program b n k s).2 hist)).2.alpha = [a] ∧
      a ≤ 10000 * max (mean ((s.ic.read k (devWrite s.t.cfg pw)).flatten.map (|·|))) (1 / 10000) := by
  have hne : s.ic.comp ≠ .none := by rw [hcomp]; decide
  obtain ⟨h, _, _⟩ := program_then_drift s hne hi b n k k' pw dw p hp t hd hist hh
  rw [h]
  dsimp only
  have hbase : baseRead s k (refOf b s) pw = s.ic.read k (devWrite s.t.cfg pw) := by
    unfold baseRead; rw [if_neg (by rw [hcomp]; decide)]
  rw [hbase, hcomp]
  refine ⟨_, rfl, ?_⟩
  set B := max (mean ((s.ic.read k (devWrite s.t.cfg pw)).flatten.map (|·|))) (1 / 10000)
  set N := max (mean ((s.ic.read k' (devWrite s.t.cfg dw)).flatten.map (|·|))) (1 / 10000) with hN
  have hB : 0 < B := lt_max_of_lt_right (by norm_num)
  have hN' : 1 / 10000 ≤ N := le_max_right _ _
  have hN0 : 0 < N := lt_of_lt_of_le (by norm_num) hN'
  rw [div_le_iff₀ hN0]
  nlinarith

/-! ## Per-column compensation on images -/

/-- inference.py:281 applied to the output `[channels][positions]` of one image (convolutions with the indexed interface, where the channel
dimension is not the last one): torch broadcasting aligns the factors with the *last* dimension. -/
def applyAlphaImage (alpha : Vec) (y : Mat) : Except PyErr Mat := y.mapM fun r => bmul r alpha

/-- **C19** (images). With per-column factors (one per output channel, at least two) a convolution output whose number of positions differs
from the number of channels (and from 1) always raises; if the numbers agree the factors are applied to the positions
instead of the channels. -/
theorem C19_per_column_images (alpha : Vec) (y : Mat) (ha : alpha.length = y.length) (hy : 2 ≤ y.length) (m : Nat)
    (hm : ∀ r ∈ y, r.length = m) :
    (m ≠ y.length → m ≠ 1 → applyAlphaImage alpha y = .error .runtimeError) ∧
    (m = y.length → applyAlphaImage alpha y = .ok (y.map fun r => List.zipWith (· * ·) r alpha)) := by
  constructor
  · intro h1 h2
    cases y with
    | nil => simp at hy
    | cons r y =>
      have hr := hm r List.mem_cons_self
      have : bmul r alpha = .error .runtimeError := by
        unfold bmul
        rw [if_neg (by rw [hr, ha]; exact h1)]
        match alpha, r, ha, hr with
        | [], _, ha, _ => simp at ha
        | [_], _, ha, _ => simp only [List.length_cons, List.length_nil] at ha hy; omega
        | _ :: _ :: _, [_], _, hr => exact absurd hr.symm h2
        | _ :: _ :: _, [], _, _ => rfl
        | _ :: _ :: _, _ :: _ :: _, _, _ => rfl
      unfold applyAlphaImage
      rw [List.mapM_cons, this]
      rfl
  · intro h1
    unfold applyAlphaImage
    have : ∀ l : Mat, (∀ r ∈ l, r.length = alpha.length) →
        (l.mapM fun r => bmul r alpha) = .ok (l.map fun r => List.zipWith (· * ·) r alpha) := by
      intro l
      induction l with
      | nil => intro _; rfl
      | cons r l ih =>
        intro hl
        rw [List.mapM_cons, ih (fun r hr => hl r (List.mem_cons_of_mem _ hr))]
        have : bmul r alpha = .ok (List.zipWith (· * ·) r alpha) := by
          unfold bmul; rw [if_pos (hl r List.mem_cons_self)]
        rw [this]
        rfl
    exact this y fun r hr => by rw [hm r hr, ha, h1]

/-- Non-vacuity: two channels, two resp. three positions. -/
example : applyAlphaImage [2, 3] [[1, 1], [1, 1]] = .ok [[2, 3], [2, 3]] ∧
    applyAlphaImage [2, 3] [[1, 1, 1], [1, 1, 1]] = .error .runtimeError := by decide +kernel

end Aihw.Inference.Life
