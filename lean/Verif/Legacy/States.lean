import Verif.Legacy.Lemmas
import Mathlib.Data.List.GetD

/-!
# C78: tile states, configurations and entries
-/
namespace Aihw.Legacy
open Aihw

theorem sget_removed (ks : List String) : ∀ (d : TState) (q : String), sget (ks.foldl sdel d) q = if q ∈ ks then none else sget d q := by
  induction ks with
  | nil => intro d q; rw [if_neg (List.not_mem_nil)]; rfl
  | cons k ks ih =>
    intro d q
    rw [List.foldl_cons, ih, sget_sdel]
    by_cases h : q = k
    · rw [if_pos h, if_pos (show q ∈ k :: ks from h ▸ List.mem_cons_self)]
      split <;> rfl
    · rw [if_neg h]
      by_cases g : q ∈ ks
      · rw [if_pos g, if_pos (List.mem_cons_of_mem _ g)]
      · rw [if_neg g, if_neg (by simp [h, g])]

theorem getD_map_mul (a : List ℚ) (q : ℚ) (i : Nat) (h : i < a.length) : (a.map (· * q)).getD i 0 = a.getD i 0 * q := by
  rw [List.getD_eq_getElem _ _ (by simpa using h), List.getD_eq_getElem _ _ h, List.getElem_map]

theorem mulInto_ok {a b : List ℚ} {v : SVal} (h : mulInto a v = .ok b) :
    b.length = a.length ∧ ∀ i < a.length, b.getD i 0 = a.getD i 0 * factor (some v) i := by
  cases v with
  | none => cases h
  | cfg c => cases h
  | other n => cases h
  | scalar q =>
    injection h with h
    subst h
    exact ⟨by simp, fun i hi => getD_map_mul a q i hi⟩
  | nat n =>
    injection h with h
    subst h
    exact ⟨by simp, fun i hi => getD_map_mul a _ i hi⟩
  | bool n =>
    injection h with h
    subst h
    exact ⟨by simp, fun i hi => getD_map_mul a _ i hi⟩
  | tensor l =>
    have h' : (if l.length = a.length then Except.ok (List.zipWith (· * ·) a l) else match l with
      | [q] => .ok (a.map (· * q))
      | _ => .error PyErr.runtimeError) = Except.ok b := h
    by_cases hl : l.length = a.length
    · rw [if_pos hl] at h'
      injection h' with h'
      subst h'
      refine ⟨by simp [hl], fun i hi => ?_⟩
      have hz : i < (List.zipWith (· * ·) a l).length := by simp [hl, hi]
      rw [List.getD_eq_getElem _ _ hz, List.getElem_zipWith, List.getD_eq_getElem _ _ hi]
      congr 1
      show _ = if l.length = 1 then l.headD 1 else l.getD i 1
      by_cases h1 : l.length = 1
      · rw [if_pos h1]
        match l, h1 with
        | [q], _ =>
          have : i = 0 := by simp at hl; omega
          subst this
          rfl
      · rw [if_neg h1, List.getD_eq_getElem _ _ (by omega)]
    · rw [if_neg hl] at h'
      match l, h' with
      | [q], h' =>
        injection h' with h'
        subst h'
        exact ⟨by simp, fun i hi => getD_map_mul a q i hi⟩

theorem mulInto_total {a : List ℚ} {v : SVal} (h : CanScale a.length (some v)) : ∃ b, mulInto a v = .ok b := by
  cases v with
  | none => cases h
  | cfg c => cases h
  | other n => cases h
  | scalar q => exact ⟨_, rfl⟩
  | nat n => exact ⟨_, rfl⟩
  | bool n => exact ⟨_, rfl⟩
  | tensor l =>
    show ∃ b, (if l.length = a.length then Except.ok (List.zipWith (· * ·) a l) else match l with
      | [q] => .ok (a.map (· * q))
      | _ => .error PyErr.runtimeError) = Except.ok b
    by_cases hl : l.length = a.length
    · rw [if_pos hl]; exact ⟨_, rfl⟩
    · rw [if_neg hl]
      rcases h with h | h
      · exact absurd h hl
      · match l, h with
        | [q], _ => exact ⟨_, rfl⟩

theorem sget_cleaned (d : TState) (q : String) : sget (cleaned d) q =
    if q = "use_bias" then some ((sget d "bias").getD (.bool false)) else if q = "bias" ∨ q ∈ removedKeys then none else sget d q := by
  unfold cleaned
  rw [sget_sset, sget_sdel, sget_removed, sget_removed, if_neg (show ¬ "bias" ∈ removedKeys by decide)]
  by_cases h : q = "use_bias"
  · rw [if_pos h, if_pos h]
  · rw [if_neg h, if_neg h]
    by_cases g : q = "bias"
    · rw [if_pos g, if_pos (Or.inl g)]
    · rw [if_neg g]
      by_cases r : q ∈ removedKeys
      · rw [if_pos r, if_pos (Or.inr r)]
      · rw [if_neg r, if_neg (by tauto)]

theorem mulOpt_ok {a b : List ℚ} {v : Option SVal} (h : mulOpt a v = .ok b) :
    b.length = a.length ∧ ∀ i < a.length, b.getD i 0 = a.getD i 0 * factor v i := by
  cases v with
  | some v => exact mulInto_ok h
  | none =>
    injection h with h
    subst h
    exact ⟨rfl, fun i _ => by show _ = _ * 1; rw [mul_one]⟩

theorem mulOpt_total {a : List ℚ} {v : Option SVal} (h : CanScale a.length v) : ∃ b, mulOpt a v = .ok b := by
  cases v with
  | some v => exact mulInto_total h
  | none => exact ⟨_, rfl⟩

/-- The result of the conversion of a state. -/
def convResult (d : TState) (s : List ℚ) : TState × Option (List ℚ) × List ℚ :=
  (sdel (sdel (cleaned d) "mapping_scales") "analog_alpha_scale", alphaOf (sget d "alpha"), s)

theorem cleaned_other (d : TState) (q : String) (h1 : q ∉ removedKeys) (h2 : q ≠ "use_bias") (h3 : q ≠ "bias") :
    sget (cleaned d) q = sget d q := by
  rw [sget_cleaned, if_neg h2, if_neg (by tauto)]

theorem convState_form (d : TState) : convState d = (do
    let n ← sizeOf (sget d "out_size")
    let _ ← needCfg (sget d "rpu_config")
    let _ ← needCtx (sget d "analog_ctx")
    let s ← mulOpt (List.replicate n 1) (sget d "mapping_scales")
    let s ← mulOpt s (sget d "analog_alpha_scale")
    .ok (convResult d s)) := by
  have e1 := cleaned_other d "out_size" (by decide) (by decide) (by decide)
  have e2 := cleaned_other d "rpu_config" (by decide) (by decide) (by decide)
  have e3 := cleaned_other d "analog_ctx" (by decide) (by decide) (by decide)
  have e4 := cleaned_other d "mapping_scales" (by decide) (by decide) (by decide)
  have e6 := cleaned_other d "alpha" (by decide) (by decide) (by decide)
  have e5 : sget (sdel (cleaned d) "mapping_scales") "analog_alpha_scale" = sget d "analog_alpha_scale" := by
    rw [sget_sdel, if_neg (by decide)]
    exact cleaned_other d "analog_alpha_scale" (by decide) (by decide) (by decide)
  unfold convState convResult
  dsimp only
  rw [e1, e2, e3, e4, e5, e6]

theorem stateConv_of {d : TState} {n : Nat} (hn : sget d "out_size" = some (.nat n)) {s s' : List ℚ}
    (h : mulOpt (List.replicate n 1) (sget d "mapping_scales") = .ok s) (h' : mulOpt s (sget d "analog_alpha_scale") = .ok s') :
    StateConv d (convResult d s').1 s' := by
  obtain ⟨l1, f1⟩ := mulOpt_ok h
  obtain ⟨l2, f2⟩ := mulOpt_ok h'
  rw [List.length_replicate] at l1 f1
  have hl : s'.length = n := by omega
  have hg : ∀ k, sget (convResult d s').1 k = if k = "analog_alpha_scale" then none else if k = "mapping_scales" then none else
      sget (cleaned d) k := by
    intro k
    show sget (sdel (sdel (cleaned d) "mapping_scales") "analog_alpha_scale") k = _
    rw [sget_sdel, sget_sdel]
  refine ⟨?_, ?_, ?_, ?_, ?_⟩
  · rw [hl, hn]
  · intro i hi
    rw [f2 i (by omega), f1 i (by omega), List.getD_eq_getElem _ _ (by simp; omega), List.getElem_replicate, one_mul]
  · rw [hg, if_neg (by decide), if_neg (by decide), sget_cleaned, if_pos rfl]
  · intro k hk
    rw [hg, sget_cleaned]
    by_cases h1 : k = "analog_alpha_scale"
    · rw [if_pos h1]
    · rw [if_neg h1]
      by_cases h2 : k = "mapping_scales"
      · rw [if_pos h2]
      · rw [if_neg h2]
        have h3 : k ≠ "use_bias" := by rintro rfl; revert hk; decide
        rw [if_neg h3, if_pos]
        simp only [List.mem_cons, List.not_mem_nil, or_false] at hk
        unfold removedKeys
        simp only [List.mem_cons, List.not_mem_nil, or_false]
        tauto
  · intro k hk
    simp only [List.mem_cons, List.not_mem_nil, or_false, not_or] at hk
    rw [hg, if_neg (by tauto), if_neg (by tauto), sget_cleaned, if_neg (by tauto), if_neg]
    unfold removedKeys
    simp only [List.mem_cons, List.not_mem_nil, or_false]
    tauto

theorem convState_ok {d : TState} {r : TState × Option (List ℚ) × List ℚ} (h : convState d = .ok r) :
    StateConv d r.1 r.2.2 ∧ r.2.1 = alphaOf (sget d "alpha") := by
  rw [convState_form] at h
  cases h0 : sizeOf (sget d "out_size") with
  | error x => rw [h0] at h; cases h
  | ok n =>
    have hn : sget d "out_size" = some (.nat n) := by
      cases g : sget d "out_size" with
      | none => rw [g] at h0; cases h0
      | some v =>
        rw [g] at h0
        cases v <;> cases h0
        rfl
    rw [h0] at h
    cases h3 : needCfg (sget d "rpu_config") with
    | error x => rw [h3] at h; cases h
    | ok u =>
      rw [h3] at h
      cases h4 : needCtx (sget d "analog_ctx") with
      | error x => rw [h4] at h; cases h
      | ok u =>
        rw [h4] at h
        cases h1 : mulOpt (List.replicate n 1) (sget d "mapping_scales") with
        | error x => simp only [bind, Except.bind, h1] at h; cases h
        | ok s =>
          cases h2 : mulOpt s (sget d "analog_alpha_scale") with
          | error x => simp only [bind, Except.bind, h1, h2] at h; cases h
          | ok s' =>
            simp only [bind, Except.bind, h1, h2] at h
            injection h with h
            subst h
            exact ⟨stateConv_of hn h1 h2, rfl⟩

theorem convState_total {d : TState} {n : Nat} (hn : sget d "out_size" = some (.nat n)) {r : SVal} (hr : sget d "rpu_config" = some r)
    {c : List ℚ} (hc : sget d "analog_ctx" = some (.tensor c)) (hm : CanScale n (sget d "mapping_scales"))
    (ha : CanScale n (sget d "analog_alpha_scale")) : ∃ r, convState d = .ok r := by
  obtain ⟨s, hs⟩ := mulOpt_total (a := List.replicate n 1) (v := sget d "mapping_scales") (by rw [List.length_replicate]; exact hm)
  have hl := (mulOpt_ok hs).1
  rw [List.length_replicate] at hl
  obtain ⟨s', hs'⟩ := mulOpt_total (a := s) (v := sget d "analog_alpha_scale") (by rw [hl]; exact ha)
  refine ⟨convResult d s', ?_⟩
  have h0 : sizeOf (sget d "out_size") = .ok n := by rw [hn]; rfl
  have h1 : needCfg (sget d "rpu_config") = .ok () := by rw [hr]; rfl
  have h2 : needCtx (sget d "analog_ctx") = .ok () := by rw [hc]; rfl
  rw [convState_form]
  simp only [bind, Except.bind, h0, h1, h2, hs, hs']

/-- The size is read from the state. -/
theorem convState_needs_size {d : TState} (h : sget d "out_size" = none) : convState d = .error .keyError := by
  rw [convState_form, h]
  rfl

/-! ## Configurations -/

theorem fixMap_conv (b : Bool) (m : LMap) : MapConv b m (fixMap b m) := by
  obtain ⟨o, c, l, lo, oc, i, j⟩ := m
  cases b <;> cases o <;> cases l <;> exact ⟨rfl, rfl, rfl, ⟨rfl, rfl⟩, rfl⟩

theorem fixCfg_conv {b : Bool} {c c' : LCfg} (h : fixCfg b c = .ok c') : CfgConv b c c' := by
  unfold fixCfg at h
  by_cases hi : c.inference = false
  · rw [if_pos hi] at h
    injection h with h
    subst h
    have : c.inference = true → False := fun g => by rw [hi] at g; cases g
    exact ⟨rfl, fun _ => rfl, fun g => (this g).elim, fun g => (this g).elim, ⟨rfl, rfl⟩, fun g => (this g).elim, fun g => (this g).elim⟩
  · rw [if_neg hi] at h
    obtain ⟨inf, mp, pcm, gm, gr, pp, rm, co, c0, c1, c2⟩ := c
    have hm := fixMap_conv b (mp.getD oldWebMapping)
    cases co with
    | some l =>
      cases pcm <;> cases gr <;> (injection h with h; subst h; exact ⟨rfl, fun g => absurd g hi, fun _ => ⟨_, rfl, hm⟩, fun _ => rfl, ⟨rfl, rfl⟩,
        fun _ => ⟨rfl, rfl⟩, fun _ => ⟨rfl, fun g => by cases g⟩⟩)
    | none =>
      cases c0 with
      | none => cases pcm <;> cases gr <;> cases h
      | some x =>
        cases c1 with
        | none => cases pcm <;> cases gr <;> cases h
        | some y =>
          cases c2 with
          | none => cases pcm <;> cases gr <;> cases h
          | some z =>
            cases pcm <;> cases gr <;> (injection h with h; subst h; exact ⟨rfl, fun g => absurd g hi, fun _ => ⟨_, rfl, hm⟩, fun _ => rfl,
              ⟨rfl, rfl⟩, fun _ => ⟨rfl, rfl⟩, fun _ => ⟨rfl, fun _ => ⟨rfl, rfl, rfl⟩⟩⟩)

/-- Specification: a configuration that can be converted. -/
def Convertible (c : LCfg) : Prop := c.inference = true → c.coeffs = none → c.coeff0 ≠ none ∧ c.coeff1 ≠ none ∧ c.coeff2 ≠ none

theorem fixCfg_total {b : Bool} {c : LCfg} (h : Convertible c) : ∃ c', fixCfg b c = .ok c' := by
  unfold fixCfg
  by_cases hi : c.inference = false
  · rw [if_pos hi]; exact ⟨_, rfl⟩
  · rw [if_neg hi]
    have hi' : c.inference = true := by simpa using hi
    obtain ⟨inf, mp, pcm, gm, gr, pp, rm, co, c0, c1, c2⟩ := c
    cases co with
    | some l => cases pcm <;> cases gr <;> exact ⟨_, rfl⟩
    | none =>
      obtain ⟨h0, h1, h2⟩ := h hi' rfl
      cases c0 with
      | none => exact absurd rfl h0
      | some x =>
        cases c1 with
        | none => exact absurd rfl h1
        | some y =>
          cases c2 with
          | none => exact absurd rfl h2
          | some z => cases pcm <;> cases gr <;> exact ⟨_, rfl⟩

theorem fixCfg_missing {b : Bool} {c : LCfg} (h : ¬ Convertible c) : fixCfg b c = .error .keyError := by
  unfold Convertible at h
  push Not at h
  obtain ⟨hi, hc, hm⟩ := h
  unfold fixCfg
  rw [if_neg (by rw [hi]; decide)]
  obtain ⟨inf, mp, pcm, gm, gr, pp, rm, co, c0, c1, c2⟩ := c
  cases hc
  cases c0 with
  | none => cases pcm <;> cases gr <;> rfl
  | some x =>
    cases c1 with
    | none => cases pcm <;> cases gr <;> rfl
    | some y =>
      cases c2 with
      | none => cases pcm <;> cases gr <;> rfl
      | some z => exact absurd (hm (by simp) (by simp)) (by simp)

theorem fixLoop_ok {b : Bool} : ∀ {c f : Chk}, fixLoop b c = .ok f → List.Forall₂ (FixedEntry b) c f := by
  intro c
  induction c with
  | nil => intro f h; injection h with h; subst h; exact .nil
  | cons p t ih =>
    intro f h
    obtain ⟨k, v⟩ := p
    unfold fixLoop at h
    by_cases hk : contains tileState k = true
    · rw [if_pos hk] at h
      cases v with
      | tensor l => cases h
      | state d =>
        cases hc : sget d "rpu_config" with
        | none => simp only [cfgOf, hc] at h; cases h
        | some w =>
          cases w with
          | cfg c0 =>
            simp only [cfgOf, hc] at h
            cases hf : fixCfg b c0 with
            | error x => simp only [hf] at h; cases h
            | ok c1 =>
              simp only [hf] at h
              cases hl : fixLoop b t with
              | error x => simp only [hl] at h; cases h
              | ok t' =>
                simp only [hl] at h
                injection h with h
                subst h
                refine .cons ⟨rfl, fun g => absurd ((contains_iff _ _).1 hk) g, fun _ => ⟨d, _, c0, c1, rfl, rfl, hc, ?_, ?_, fixCfg_conv hf⟩⟩ (ih hl)
                · rw [sget_sset, if_pos rfl]
                · intro q hq
                  rw [sget_sset, if_neg hq]
          | none => simp only [cfgOf, hc] at h; cases h
          | scalar q => simp only [cfgOf, hc] at h; cases h
          | tensor q => simp only [cfgOf, hc] at h; cases h
          | nat q => simp only [cfgOf, hc] at h; cases h
          | bool q => simp only [cfgOf, hc] at h; cases h
          | other q => simp only [cfgOf, hc] at h; cases h
    · rw [if_neg hk] at h
      cases hl : fixLoop b t with
      | error x => simp only [hl] at h; cases h
      | ok t' =>
        simp only [hl] at h
        injection h with h
        subst h
        exact .cons ⟨rfl, fun _ => rfl, fun g => absurd ((contains_iff _ _).2 g) hk⟩ (ih hl)

theorem fixLoop_total {b : Bool} : ∀ {c : Chk}, (∀ p ∈ c, tileState <:+: p.1 → ∃ d c0, p.2 = .state d ∧ sget d "rpu_config" = some (.cfg c0) ∧
    Convertible c0) → ∃ f, fixLoop b c = .ok f := by
  intro c
  induction c with
  | nil => intro _; exact ⟨_, rfl⟩
  | cons p t ih =>
    intro h
    obtain ⟨f, hf⟩ := ih fun q hq => h q (List.mem_cons_of_mem _ hq)
    obtain ⟨k, v⟩ := p
    unfold fixLoop
    by_cases hk : contains tileState k = true
    · rw [if_pos hk]
      obtain ⟨d, c0, hv, hc, hcc⟩ := h (k, v) List.mem_cons_self ((contains_iff _ _).1 hk)
      dsimp only at hv
      subst hv
      obtain ⟨c1, h1⟩ := fixCfg_total (b := b) hcc
      simp only [cfgOf, hc, h1, hf]
      exact ⟨_, rfl⟩
    · rw [if_neg hk, hf]
      exact ⟨_, rfl⟩

end Aihw.Legacy
