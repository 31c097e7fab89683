import Verif.Inference.TileLemmas

/-!
# Life cycle of an inference tile: property C18
-/
namespace Aihw.Inference.Life
open Aihw.Periphery

variable {P : Type}

/-! ## Frame lemmas -/

theorem initBaseline_spec (k : Nat) (s : ITile P) :
    ∃ b, (initBaseline k s).2 = { s with readoutSet := true, baseline := b } := by
  unfold initBaseline readForward
  split_ifs with h1 h2
  · exact ⟨s.baseline, rfl⟩
  · cases hr : s.t.reference with
    | none => exact ⟨s.baseline, by simp only [hr]⟩
    | some r => simp only [hr]; exact ⟨_, rfl⟩
  · exact ⟨_, rfl⟩

theorem takeReference_spec (b : Bool) (n : Option (NM P)) (s : ITile P) :
    ∃ r, takeReference b n s = { s with nm := n.getD s.nm, t := { s.t with reference := some r } } ∧
      (s.t.reference = none → r = s.t.w) ∧ (b = false → r = s.t.w) ∧
      (b = true → ∀ R, s.t.reference = some R → r = R) := by
  unfold takeReference
  cases b with
  | false => exact ⟨s.t.w, by simp, fun _ => rfl, fun _ => rfl, by simp⟩
  | true =>
    cases hr : s.t.reference with
    | none => exact ⟨s.t.w, by simp [hr], fun _ => rfl, fun _ => rfl, by simp⟩
    | some R =>
      refine ⟨R, ?_, by simp, by simp, by simp⟩
      simp only [hr, Bool.not_true, Option.isNone_some, Bool.or_self, Bool.false_eq_true, if_false]
      congr 1
      rw [← hr]

/-- What `program_weights` does to the state. -/
theorem program_spec (b : Bool) (n : Option (NM P)) (k : Nat) (s : ITile P) :
    ∃ r, ((s.t.reference = none → r = s.t.w) ∧ (b = false → r = s.t.w) ∧
        (b = true → ∀ R, s.t.reference = some R → r = R)) ∧
      ((∃ e, (n.getD s.nm).prog k r = .error e ∧ (program b n k s) =
          (.error e, { s with nm := n.getD s.nm, t := { s.t with reference := some r } })) ∨
       (∃ pw p rs bl, (n.getD s.nm).prog k r = .ok (pw, p) ∧ (program b n k s).2 =
          { s with nm := n.getD s.nm, programmed := some pw, pars := some p, readoutSet := rs, baseline := bl,
                   t := { s.t with reference := some r, w := devWrite s.t.cfg pw } } ∧
          (s.ic.comp = .none → (program b n k s).1 = .ok () ∧ rs = s.readoutSet ∧ bl = s.baseline))) := by
  obtain ⟨r, hr, h1, h2, h3⟩ := takeReference_spec b n s
  refine ⟨r, ⟨h1, h2, h3⟩, ?_⟩
  unfold program
  rw [hr]
  dsimp only [Option.getD_some]
  cases hp : (n.getD s.nm).prog k r with
  | error e => left; exact ⟨e, rfl, rfl⟩
  | ok q =>
    obtain ⟨pw, p⟩ := q
    right
    dsimp only
    by_cases hc : s.ic.comp = .none
    · rw [if_pos hc]
      exact ⟨pw, p, _, _, rfl, rfl, fun _ => ⟨rfl, rfl, rfl⟩⟩
    · rw [if_neg hc]
      obtain ⟨bl, hb⟩ := initBaseline_spec k
        { s with nm := n.getD s.nm, programmed := some pw, pars := some p,
                 t := { s.t with reference := some r, w := devWrite s.t.cfg pw } }
      refine ⟨pw, p, _, _, rfl, hb, fun h => absurd h hc⟩

/-- What the drifting part does to the state. -/
theorem driftProgrammed_spec (t : ℚ) (k : Nat) (s : ITile P) :
    ∃ w rs a, (driftProgrammed t k s).2 = { s with t := { s.t with w := w }, readoutSet := rs, alpha := a } ∧
      ∀ pw p, s.programmed = some pw → s.pars = some p →
        (∀ dw, s.nm.drift k pw p t = .ok dw → w = devWrite s.t.cfg dw) ∧
        (∀ e, s.nm.drift k pw p t = .error e → w = s.t.w ∧ (driftProgrammed t k s).1 = .error e) := by
  rcases s with ⟨ic, tt, nm, programmed, pars, rs, bl, al⟩
  unfold driftProgrammed
  cases programmed with
  | none => exact ⟨tt.w, rs, al, rfl, by simp⟩
  | some pw =>
    cases pars with
    | none => exact ⟨tt.w, rs, al, rfl, by simp⟩
    | some p =>
      simp only [Option.some.injEq]
      cases hd : nm.drift k pw p t with
      | error e =>
        refine ⟨tt.w, rs, al, rfl, ?_⟩
        rintro pw' p' rfl rfl
        rw [hd]
        exact ⟨by simp, by simp⟩
      | ok dw =>
        have key : ∀ pw' p', pw = pw' → p = p' →
            (∀ dw', nm.drift k pw' p' t = .ok dw' → devWrite tt.cfg dw = devWrite tt.cfg dw') ∧
              ∀ (Q : PyErr → Prop) e, nm.drift k pw' p' t = .error e → Q e := by
          rintro pw' p' rfl rfl
          rw [hd]
          exact ⟨by rintro _ ⟨⟩; rfl, by rintro _ _ ⟨⟩⟩
        dsimp only
        split_ifs with hc
        · exact ⟨_, rs, al, rfl, fun pw' p' e1 e2 => ⟨(key pw' p' e1 e2).1, fun e he => (key pw' p' e1 e2).2 (fun e => _) e he⟩⟩
        · unfold readForward
          simp only [Bool.false_eq_true, if_false]
          split_ifs with h1
          · exact ⟨_, true, al, rfl, fun pw' p' e1 e2 => ⟨(key pw' p' e1 e2).1, fun e he => (key pw' p' e1 e2).2 (fun e => _) e he⟩⟩
          · cases bl with
            | none =>
              exact ⟨_, true, al, rfl, fun pw' p' e1 e2 => ⟨(key pw' p' e1 e2).1, fun e he => (key pw' p' e1 e2).2 (fun e => _) e he⟩⟩
            | some bl =>
              exact ⟨_, true, _, rfl, fun pw' p' e1 e2 => ⟨(key pw' p' e1 e2).1, fun e he => (key pw' p' e1 e2).2 (fun e => _) e he⟩⟩

theorem forwardI_pres {α : Type} {f : Tile → α} (h : ∀ t v n, f { t with inputRange := v, irIdx := n } = f t) (x : Vec)
    (std : ℚ) (e : Bool) (s : ITile P) : f (forwardI x std e s).2 = f s.t := by
  unfold forwardI
  refine (?_ : Pres f _) s.t
  exact (jointForward_pres h _ _ _).bind fun _ => Pres.lift.bind fun _ => Pres.get.bind fun _ => Pres.lift.bind fun _ => Pres.pure

/-- Calls that leave the reference weights in place: everything but setting or remapping weights and programming with
`from_reference=False`. -/
def ICall.keepsReference : ICall P → Bool
  | .base c => !c.refreshes
  | .program b _ _ => b
  | _ => true

/-- Calls other than `program_weights`. -/
def ICall.noProgram : ICall P → Bool
  | .program .. => false
  | _ => true

/-- Calls other than `drift_weights`. -/
def ICall.noDrift : ICall P → Bool
  | .drift .. => false
  | _ => true

/-- Calls that do not pass an explicit noise model. -/
def ICall.noModel : ICall P → Bool
  | .program _ (some _) _ => false
  | _ => true

theorem drift_state (t : ℚ) (k : Nat) (s : ITile P) :
    (∃ s', (s' = s ∨ (s.programmed = none ∧ s' = (program true none k s).2)) ∧
      (drift t k s).2 = (driftProgrammed t k s').2) ∨ (drift t k s).2 = (program true none k s).2 := by
  unfold drift
  cases hp : s.programmed with
  | some pw => left; exact ⟨s, .inl rfl, rfl⟩
  | none =>
    dsimp only
    cases h : program true none k s with
    | mk r s' =>
      cases r with
      | error e => right; rfl
      | ok _ => left; exact ⟨s', .inr ⟨rfl, rfl⟩, rfl⟩

theorem program_cfg (b : Bool) (n : Option (NM P)) (k : Nat) (s : ITile P) :
    (program b n k s).2.t.cfg = s.t.cfg ∧ (program b n k s).2.ic = s.ic ∧ (program b n k s).2.alpha = s.alpha := by
  obtain ⟨r, _, ⟨e, _, h⟩ | ⟨pw, p, rs, bl, _, h, _⟩⟩ := program_spec b n k s
  · rw [h]; exact ⟨rfl, rfl, rfl⟩
  · rw [h]; exact ⟨rfl, rfl, rfl⟩

theorem driftProgrammed_cfg (t : ℚ) (k : Nat) (s : ITile P) :
    (driftProgrammed t k s).2.t.cfg = s.t.cfg ∧ (driftProgrammed t k s).2.ic = s.ic ∧
    (driftProgrammed t k s).2.t.reference = s.t.reference ∧ (driftProgrammed t k s).2.programmed = s.programmed ∧
    (driftProgrammed t k s).2.pars = s.pars ∧ (driftProgrammed t k s).2.nm = s.nm ∧
    (driftProgrammed t k s).2.baseline = s.baseline := by
  obtain ⟨w, rs, a, h, _⟩ := driftProgrammed_spec t k s
  rw [h]; exact ⟨rfl, rfl, rfl, rfl, rfl, rfl, rfl⟩

theorem istep_cfg (s : ITile P) (c : ICall P) : (istep s c).t.cfg = s.t.cfg ∧ (istep s c).ic = s.ic := by
  cases c with
  | base c => exact ⟨step_cfg _ _, rfl⟩
  | program b n k => exact ⟨(program_cfg b n k s).1, (program_cfg b n k s).2.1⟩
  | drift t k =>
    show (drift t k s).2.t.cfg = _ ∧ (drift t k s).2.ic = _
    obtain ⟨s', hs, h⟩ | h := drift_state t k s
    · rw [h]
      have h1 := driftProgrammed_cfg t k s'
      rcases hs with rfl | ⟨_, rfl⟩
      · exact ⟨h1.1, h1.2.1⟩
      · exact ⟨h1.1.trans (program_cfg _ _ _ _).1, h1.2.1.trans (program_cfg _ _ _ _).2.1⟩
    · rw [h]; exact ⟨(program_cfg _ _ _ _).1, (program_cfg _ _ _ _).2.1⟩
  | forward x sd e => exact ⟨forwardI_pres (f := Tile.cfg) (fun _ _ _ => rfl) x sd e s, rfl⟩
  | other f => exact ⟨rfl, rfl⟩

theorem irun_cfg (s : ITile P) (h : List (ICall P)) : (irun s h).t.cfg = s.t.cfg ∧ (irun s h).ic = s.ic := by
  induction h generalizing s with
  | nil => exact ⟨rfl, rfl⟩
  | cons c h ih =>
    have h1 := ih (istep s c)
    have h2 := istep_cfg s c
    exact ⟨h1.1.trans h2.1, h1.2.trans h2.2⟩

theorem program_reference (b : Bool) (n : Option (NM P)) (k : Nat) (s : ITile P) :
    (s.t.reference = none → (program b n k s).2.t.reference = some s.t.w) ∧
    (b = false → (program b n k s).2.t.reference = some s.t.w) ∧
    (b = true → ∀ R, s.t.reference = some R → (program b n k s).2.t.reference = some R) := by
  obtain ⟨r, ⟨h1, h2, h3⟩, ⟨e, _, h⟩ | ⟨pw, p, rs, bl, _, h, _⟩⟩ := program_spec b n k s
  · rw [h]
    exact ⟨fun hh => congrArg some (h1 hh), fun hh => congrArg some (h2 hh), fun hh R hR => congrArg some (h3 hh R hR)⟩
  · rw [h]
    exact ⟨fun hh => congrArg some (h1 hh), fun hh => congrArg some (h2 hh), fun hh R hR => congrArg some (h3 hh R hR)⟩

theorem istep_reference (s : ITile P) (c : ICall P) (hc : c.keepsReference = true) (R : Mat)
    (h : s.t.reference = some R) : (istep s c).t.reference = some R := by
  cases c with
  | base c => exact (step_keepsRef _ _ (by simpa [ICall.keepsReference] using hc)).trans h
  | program b n k => exact (program_reference b n k s).2.2 hc R h
  | drift t k =>
    show (drift t k s).2.t.reference = _
    have hp := (program_reference true none k s).2.2 rfl R h
    obtain ⟨s', hs, h'⟩ | h' := drift_state t k s
    · rw [h', (driftProgrammed_cfg t k s').2.2.1]
      rcases hs with rfl | ⟨_, rfl⟩
      · exact h
      · exact hp
    · rw [h']; exact hp
  | forward x sd e => exact (forwardI_pres (f := Tile.reference) (fun _ _ _ => rfl) x sd e s).trans h
  | other f => exact h

theorem irun_reference (s : ITile P) (hist : List (ICall P)) (hc : ∀ c ∈ hist, c.keepsReference = true) (R : Mat)
    (h : s.t.reference = some R) : (irun s hist).t.reference = some R := by
  induction hist generalizing s with
  | nil => exact h
  | cons c hist ih =>
    exact ih _ (fun c hc' => hc c (List.mem_cons_of_mem _ hc')) (istep_reference s c (hc c List.mem_cons_self) R h)

theorem istep_programmed (s : ITile P) (c : ICall P) (hc : c.noProgram = true) (pw : Mat) (h : s.programmed = some pw) :
    (istep s c).programmed = some pw ∧ (istep s c).pars = s.pars ∧ (istep s c).nm = s.nm ∧
    (istep s c).baseline = s.baseline := by
  cases c with
  | base c => exact ⟨h, rfl, rfl, rfl⟩
  | program b n k => cases hc
  | drift t k =>
    show (drift t k s).2.programmed = _ ∧ (drift t k s).2.pars = _ ∧ (drift t k s).2.nm = _ ∧ (drift t k s).2.baseline = _
    have : drift t k s = driftProgrammed t k s := by unfold drift; rw [h]
    rw [this]
    have h1 := driftProgrammed_cfg t k s
    exact ⟨h1.2.2.2.1.trans h, h1.2.2.2.2.1, h1.2.2.2.2.2.1, h1.2.2.2.2.2.2⟩
  | forward x sd e => exact ⟨h, rfl, rfl, rfl⟩
  | other f => exact ⟨h, rfl, rfl, rfl⟩

theorem irun_programmed (s : ITile P) (hist : List (ICall P)) (hc : ∀ c ∈ hist, c.noProgram = true) (pw : Mat)
    (h : s.programmed = some pw) :
    (irun s hist).programmed = some pw ∧ (irun s hist).pars = s.pars ∧ (irun s hist).nm = s.nm ∧
    (irun s hist).baseline = s.baseline := by
  induction hist generalizing s with
  | nil => exact ⟨h, rfl, rfl, rfl⟩
  | cons c hist ih =>
    have h1 := istep_programmed s c (hc c List.mem_cons_self) pw h
    have h2 := ih (istep s c) (fun c hc' => hc c (List.mem_cons_of_mem _ hc')) h1.1
    exact ⟨h2.1, h2.2.1.trans h1.2.1, h2.2.2.1.trans h1.2.2.1, h2.2.2.2.trans h1.2.2.2⟩

/-! ## Theorems -/

/-- **C18** (programming starts from the reference). Take a tile without reference (as after every `set_weights`), program it in
any way, and let any calls follow that neither set nor remap weights nor program with `from_reference=False` - including
training updates, drifting and further programming. A final `program_weights()` then programs the weights the device held
before the *first* programming: noise does not compound, but weights learned since are discarded. -/
theorem C18_program_from_reference (s : ITile P) (hs : s.t.reference = none) (b : Bool) (n0 : Option (NM P)) (k0 : Nat)
    (hist : List (ICall P)) (hh : ∀ c ∈ hist, c.keepsReference = true) (n : Option (NM P)) (k : Nat) :
    let s1 := irun (program b n0 k0 s).2 hist
    (∀ pw p, (n.getD s1.nm).prog k s.t.w = .ok (pw, p) →
      (program true n k s1).2.t.w = devWrite s.t.cfg pw ∧ (program true n k s1).2.programmed = some pw ∧
      (program true n k s1).2.pars = some p) ∧
    (∀ e, (n.getD s1.nm).prog k s.t.w = .error e →
      (program true n k s1).1 = .error e ∧ (program true n k s1).2.t.w = s1.t.w) := by
  intro s1
  have href : s1.t.reference = some s.t.w := irun_reference _ hist hh _ ((program_reference b n0 k0 s).1 hs)
  have hcfg : s1.t.cfg = s.t.cfg := (irun_cfg _ hist).1.trans (program_cfg b n0 k0 s).1
  obtain ⟨r, ⟨_, _, h3⟩, ⟨e, hp, h⟩ | ⟨pw, p, rs, bl, hp, h, _⟩⟩ := program_spec true n k s1
  · have hr := h3 rfl _ href
    subst hr
    rw [h]
    refine ⟨fun pw p hq => ?_, fun e' he => ?_⟩
    · rw [hp] at hq; cases hq
    · rw [hp] at he; cases he; exact ⟨rfl, rfl⟩
  · have hr := h3 rfl _ href
    subst hr
    rw [h]
    refine ⟨fun pw p hq => ?_, fun e' he => ?_⟩
    · rw [hp] at hq; cases hq
      exact ⟨by rw [hcfg], rfl, rfl⟩
    · rw [hp] at he; cases he

/-- **C18** (setting weights drops the reference). After `set_weights`, whether it raises or not, the next programming starts
from the weights the device then holds. -/
theorem C18_set_weights_new_reference (s : ITile P) (w : Mat) (b : Option Vec) (sc : Bool) (o : Option ℚ)
    (hist : List (ICall P)) (hh : ∀ c ∈ hist, c.noProgram = true ∧ c.noDrift = true ∧ c.keepsReference = true)
    (n : Option (NM P)) (k : Nat) :
    let s1 := irun (istep s (.base (.setWeights w b sc o))) hist
    ∀ pw p, (n.getD s1.nm).prog k s1.t.w = .ok (pw, p) → (program true n k s1).2.t.w = devWrite s.t.cfg pw := by
  intro s1 pw p hq
  have h0 : (istep s (.base (.setWeights w b sc o))).t.reference = none := setWeights_dropsRef _ _ _ _ _
  have href : s1.t.reference = none := by
    have key : ∀ (s0 : ITile P) (l : List (ICall P)),
        (∀ c ∈ l, c.noProgram = true ∧ c.noDrift = true ∧ c.keepsReference = true) → s0.t.reference = none →
        (irun s0 l).t.reference = none := by
      intro s0 l
      induction l generalizing s0 with
      | nil => intro _ h; exact h
      | cons c l ih =>
        intro hl h
        refine ih (istep s0 c) (fun c hc => hl c (List.mem_cons_of_mem _ hc)) ?_
        obtain ⟨h1, h2, h3⟩ := hl c List.mem_cons_self
        cases c with
        | base c => exact (step_keepsRef _ _ (by simpa [ICall.keepsReference] using h3)).trans h
        | program b n k => cases h1
        | drift t k => cases h2
        | forward x sd e => exact (forwardI_pres (f := Tile.reference) (fun _ _ _ => rfl) x sd e s0).trans h
        | other f => exact h
    exact key _ hist hh h0
  have hcfg : s1.t.cfg = s.t.cfg := (irun_cfg _ hist).1.trans (istep_cfg _ _).1
  obtain ⟨r, ⟨h1, _, _⟩, ⟨e, hp, h⟩ | ⟨pw', p', rs, bl, hp, h, _⟩⟩ := program_spec true n k s1
  · rw [h1 href] at hp; rw [hp] at hq; cases hq
  · rw [h1 href] at hp; rw [hp] at hq; cases hq
    rw [h]; show devWrite s1.t.cfg pw = _; rw [hcfg]

/-- **C18** (explicit re-referencing). `program_weights(from_reference=False)` programs the weights the device holds at the moment
of the call. -/
theorem C18_program_current (s : ITile P) (n : Option (NM P)) (k : Nat) (pw : Mat) (p : P)
    (hp : (n.getD s.nm).prog k s.t.w = .ok (pw, p)) :
    (program false n k s).2.t.w = devWrite s.t.cfg pw ∧ (program false n k s).2.t.reference = some s.t.w := by
  refine ⟨?_, (program_reference false n k s).2.1 rfl⟩
  obtain ⟨r, ⟨_, h2, _⟩, ⟨e, hp', h⟩ | ⟨pw', p', rs, bl, hp', h, _⟩⟩ := program_spec false n k s
  · rw [h2 rfl] at hp'; rw [hp'] at hp; cases hp
  · rw [h2 rfl] at hp'; rw [hp'] at hp; cases hp
    rw [h]

/-- **C18** (drift does not accumulate). After a successful programming, and any calls that do not program - updates, earlier
drifts, even `set_weights` with new weights - `drift_weights(t)` writes the drifted version of the weights programmed then:
the result depends only on that programming, `t` and the random numbers. In particular weights set in between are
discarded. -/
theorem C18_drift_from_programmed (s : ITile P) (pw : Mat) (p : P) (hpw : s.programmed = some pw) (hp : s.pars = some p)
    (hist : List (ICall P)) (hh : ∀ c ∈ hist, c.noProgram = true) (t : ℚ) (k : Nat) :
    let s1 := irun s hist
    (∀ dw, s.nm.drift k pw p t = .ok dw → (drift t k s1).2.t.w = devWrite s.t.cfg dw) ∧
    (∀ e, s.nm.drift k pw p t = .error e → (drift t k s1).1 = .error e ∧ (drift t k s1).2.t.w = s1.t.w) := by
  intro s1
  obtain ⟨h1, h2, h3, _⟩ := irun_programmed s hist hh pw hpw
  have hd : drift t k s1 = driftProgrammed t k s1 := by unfold drift; rw [h1]
  have hcfg : s1.t.cfg = s.t.cfg := (irun_cfg _ hist).1
  obtain ⟨w, rs, a, h, hw⟩ := driftProgrammed_spec t k s1
  have hw := hw pw p h1 (h2.trans hp)
  rw [h3, hcfg] at hw
  rw [hd, h]
  exact ⟨fun dw he => hw.1 dw he, fun e he => ⟨(hw.2 e he).2, (hw.2 e he).1⟩⟩

/-- Programming that does not raise inside the noise model establishes the hypotheses of `C18_drift_from_programmed`, with
the noise model in force from then on. -/
theorem C18_program_establishes (s : ITile P) (b : Bool) (n : Option (NM P)) (k : Nat) (R pw : Mat) (p : P)
    (hR : R = if b = true ∧ s.t.reference.isSome then s.t.reference.getD [] else s.t.w)
    (hp : (n.getD s.nm).prog k R = .ok (pw, p)) :
    (program b n k s).2.programmed = some pw ∧ (program b n k s).2.pars = some p ∧
    (program b n k s).2.nm = n.getD s.nm ∧ (program b n k s).2.t.w = devWrite s.t.cfg pw := by
  obtain ⟨r, ⟨h1, h2, h3⟩, hcase⟩ := program_spec b n k s
  have hr : r = R := by
    rw [hR]
    cases b with
    | false => simpa using h2 rfl
    | true =>
      cases href : s.t.reference with
      | none => simpa [href] using h1 href
      | some Q => simpa [href] using h3 rfl Q href
  rw [hr] at hcase
  rcases hcase with ⟨e, hp', h⟩ | ⟨pw', p', rs, bl, hp', h, _⟩
  · rw [hp'] at hp; cases hp
  · rw [hp'] at hp; cases hp
    rw [h]; exact ⟨rfl, rfl, rfl, rfl⟩

/-- **C18** (automatic programming). `drift_weights` on a tile that was never programmed first programs its reference weights
(without drift compensation; with compensation the read-outs follow). -/
theorem C18_drift_programs (s : ITile P) (hn : s.programmed = none) (hc : s.ic.comp = .none) (t : ℚ) (k : Nat) (pw dw : Mat) (p : P)
    (hp : s.nm.prog k (if s.t.reference.isSome then s.t.reference.getD [] else s.t.w) = .ok (pw, p))
    (hd : s.nm.drift k pw p t = .ok dw) :
    (drift t k s).1 = .ok () ∧ (drift t k s).2.t.w = devWrite s.t.cfg dw ∧ (drift t k s).2.programmed = some pw := by
  have hest := C18_program_establishes s true none k _ pw p rfl (by simpa using hp)
  obtain ⟨r, _, ⟨e, hp', h⟩ | ⟨pw', p', rs, bl, hp', h, hcomp⟩⟩ := program_spec true none k s
  · rw [h] at hest; cases hn.symm.trans hest.1
  · have hok := (hcomp hc).1
    have hic := (program_cfg true none k s).2.1
    have hcf := (program_cfg true none k s).1
    unfold drift
    rw [hn]
    dsimp only
    cases hq : program true none k s with
    | mk r0 s1 =>
      rw [hq] at hest hok hic hcf
      subst hok
      dsimp only at hest hic hcf ⊢
      have e1 : s1.nm = s.nm := hest.2.2.1
      unfold driftProgrammed
      rw [hest.1, hest.2.1]
      dsimp only
      rw [e1, hd]
      dsimp only
      rw [hic, if_pos hc]
      exact ⟨rfl, by rw [hcf], rfl⟩

/-- **C18** (training mode). Training-mode forward never applies the compensation; without compensation neither does evaluation. -/
theorem C18_training_forward (s : ITile P) (x : Vec) (std : ℚ) (isTest : Bool) (h : isTest = false ∨ s.ic.comp = .none) :
    forwardI x std isTest s = Periphery.forward x std isTest s.t := by
  have ha : ∀ y, applyAlpha s isTest y = .ok y := by
    intro y
    unfold applyAlpha
    rcases h with h | h
    · simp [h]
    · simp [h]
  unfold forwardI Periphery.forward
  simp only [ha]
  rfl

theorem istep_alpha (s : ITile P) (c : ICall P) (hc : c.noDrift = true) : (istep s c).alpha = s.alpha := by
  cases c with
  | base c => rfl
  | program b n k => exact (program_cfg b n k s).2.2
  | drift t k => cases hc
  | forward x sd e => rfl
  | other f => rfl

/-- **C18** (stale compensation). The compensation factor is changed by `drift_weights` only: setting new weights and programming
them leaves the factor of the last drift in force for evaluation. -/
theorem C18_alpha_only_drift (s : ITile P) (hist : List (ICall P)) (hh : ∀ c ∈ hist, c.noDrift = true) :
    (irun s hist).alpha = s.alpha := by
  induction hist generalizing s with
  | nil => rfl
  | cons c hist ih =>
    exact (ih (istep s c) fun c hc => hh c (List.mem_cons_of_mem _ hc)).trans (istep_alpha s c (hh c List.mem_cons_self))

theorem istep_nm (s : ITile P) (c : ICall P) (hc : c.noModel = true) : (istep s c).nm = s.nm := by
  have hprog : ∀ (s : ITile P) b k, (program b none k s).2.nm = s.nm := by
    intro s b k
    obtain ⟨r, _, ⟨e, _, h⟩ | ⟨pw, p, rs, bl, _, h, _⟩⟩ := program_spec b none k s
    · rw [h]; rfl
    · rw [h]; rfl
  cases c with
  | base c => rfl
  | program b n k =>
    cases n with
    | none => exact hprog s b k
    | some m => cases hc
  | drift t k =>
    show (drift t k s).2.nm = _
    obtain ⟨s', hs, h'⟩ | h' := drift_state t k s
    · rw [h', (driftProgrammed_cfg t k s').2.2.2.2.2.1]
      rcases hs with rfl | ⟨_, rfl⟩
      · rfl
      · exact hprog _ _ _
    · rw [h']; exact hprog _ _ _
  | forward x sd e => rfl
  | other f => rfl

/-- **C18** (noise model argument). A noise model passed to `program_weights` replaces the configured one for good, even if
that programming raises. -/
theorem C18_model_replaced (s : ITile P) (m : NM P) (b : Bool) (k : Nat) (hist : List (ICall P))
    (hh : ∀ c ∈ hist, c.noModel = true) : (irun (program b (some m) k s).2 hist).nm = m := by
  have h0 : (program b (some m) k s).2.nm = m := by
    obtain ⟨r, _, ⟨e, _, h⟩ | ⟨pw, p, rs, bl, _, h, _⟩⟩ := program_spec b (some m) k s
    · rw [h]; rfl
    · rw [h]; rfl
  have key : ∀ (s : ITile P) (l : List (ICall P)), (∀ c ∈ l, c.noModel = true) → (irun s l).nm = s.nm := by
    intro s l
    induction l generalizing s with
    | nil => intro _; rfl
    | cons c l ih =>
      intro hl
      exact (ih (istep s c) fun c hc => hl c (List.mem_cons_of_mem _ hc)).trans (istep_nm s c (hl c List.mem_cons_self))
  rw [key _ hist hh, h0]

/-! ## Transposed inputs -/

/-- Invariant for transposed inputs with compensation: there is never a baseline. -/
theorem inTrans_program (s : ITile P) (hi : s.ic.inTrans = true) (hc : s.ic.comp ≠ .none) (b : Bool) (n : Option (NM P)) (k : Nat) :
    (program b n k s).1 ≠ .ok () ∧ (program b n k s).2.baseline = s.baseline ∧
    (∀ r, (program b n k s).2.t.reference = some r → ∀ pw p, (n.getD s.nm).prog k r = .ok (pw, p) →
      (program b n k s).1 = .error .attributeError ∧ (program b n k s).2.t.w = devWrite s.t.cfg pw) := by
  obtain ⟨r, hr, _⟩ := takeReference_spec b n s
  unfold program
  rw [hr]
  dsimp only [Option.getD_some]
  cases hp : (n.getD s.nm).prog k r with
  | error e =>
    refine ⟨by simp, rfl, ?_⟩
    rintro r' ⟨⟩ pw p hq
    rw [hp] at hq; cases hq
  | ok q =>
    obtain ⟨pw, p⟩ := q
    dsimp only
    rw [if_neg hc]
    unfold initBaseline readForward
    simp only [Bool.or_true, Bool.true_and, hi, if_true]
    refine ⟨by simp, trivial, ?_⟩
    rintro r' ⟨⟩ pw' p' hq
    rw [hp] at hq; cases hq
    exact ⟨trivial, rfl⟩

theorem inTrans_drift (s : ITile P) (hi : s.ic.inTrans = true) (hc : s.ic.comp ≠ .none) (hb : s.baseline = none) (t : ℚ) (k : Nat) :
    (drift t k s).1 ≠ .ok () ∧ (drift t k s).2.baseline = none := by
  have hdp : ∀ s : ITile P, s.ic.inTrans = true → s.ic.comp ≠ .none → s.baseline = none →
      (driftProgrammed t k s).1 ≠ .ok () ∧ (driftProgrammed t k s).2.baseline = none := by
    intro s hi hc hb
    refine ⟨?_, (driftProgrammed_cfg t k s).2.2.2.2.2.2.trans hb⟩
    unfold driftProgrammed
    cases hpw : s.programmed with
    | none => simp
    | some pw =>
      cases hp : s.pars with
      | none => simp
      | some p =>
        dsimp only
        cases hd : s.nm.drift k pw p t with
        | error e => simp
        | ok dw =>
          dsimp only
          rw [if_neg hc]
          unfold readForward
          simp only [Bool.false_eq_true, if_false]
          split_ifs
          · simp
          · unfold compensate; rw [hb]; simp
  unfold drift
  cases hpr : s.programmed with
  | some pw => exact hdp s hi hc hb
  | none =>
    dsimp only
    have h1 := inTrans_program s hi hc true none k
    cases hq : program true none k s with
    | mk r s' =>
      rw [hq] at h1
      cases r with
      | ok u => cases u; exact absurd rfl h1.1
      | error e => exact ⟨by simp, h1.2.1.trans hb⟩

/-- **C18** (transposed inputs). With drift compensation and `in_trans`, every `program_weights` and every `drift_weights` call raises,
whatever was called before; a programming whose noise model succeeds raises `AttributeError` (a misspelled method name)
after the device weights have been overwritten. -/
theorem C18_in_trans_raises (ic : ICfg) (c : Cfg) (nm : NM P) (hi : ic.inTrans = true) (hc : ic.comp ≠ .none)
    (hist : List (ICall P)) (b : Bool) (n : Option (NM P)) (k : Nat) (t : ℚ) :
    let s := irun (fresh ic c nm) hist
    (program b n k s).1 ≠ .ok () ∧ (drift t k s).1 ≠ .ok () ∧
    (∀ r, (program b n k s).2.t.reference = some r → ∀ pw p, (n.getD s.nm).prog k r = .ok (pw, p) →
      (program b n k s).1 = .error .attributeError ∧ (program b n k s).2.t.w = devWrite c pw) := by
  intro s
  have hic : s.ic = ic := (irun_cfg _ hist).2
  have hcfg : s.t.cfg = c := (irun_cfg (fresh ic c nm) hist).1
  have hb : s.baseline = none := by
    have key : ∀ (s0 : ITile P) (l : List (ICall P)), s0.ic = ic → s0.baseline = none → (irun s0 l).baseline = none := by
      intro s0 l
      induction l generalizing s0 with
      | nil => intro _ h; exact h
      | cons c l ih =>
        intro h0 h1
        refine ih (istep s0 c) ((istep_cfg s0 c).2.trans h0) ?_
        cases c with
        | base c => exact h1
        | program b n k => exact (inTrans_program s0 (h0 ▸ hi) (h0 ▸ hc) b n k).2.1.trans h1
        | drift t k => exact (inTrans_drift s0 (h0 ▸ hi) (h0 ▸ hc) h1 t k).2
        | forward x sd e => exact h1
        | other f => exact h1
    exact key _ hist rfl rfl
  have h1 := inTrans_program s (hic ▸ hi) (hic ▸ hc) b n k
  have h2 := inTrans_drift s (hic ▸ hi) (hic ▸ hc) hb t k
  rw [hcfg] at h1
  exact ⟨h1.1, h2.1, h1.2.2⟩

/-! ## Concrete case -/

/-- A noise model that adds `k` to every weight and decays by `1 / (1 + t)`. -/
def demoNM : NM Unit where
  prog k w := .ok (w.map fun r => r.map (· + (if k = 0 then 0 else 1)), ())
  drift _ w _ t := .ok (w.map fun r => r.map (· / (1 + t)))

def demoIC : ICfg := { comp := .global, read := fun _ w => exactRead 2 w }
def demoC : Cfg := { outSize := 2, inSize := 2, mapping := none }

end Aihw.Inference.Life
