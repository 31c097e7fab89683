import Verif.Cloud.Spec2

/-!
# C80, C81: the inference format of the AIHW Composer (cloud/converter/v1/inferencing.py, i_mappings.py,
rpu_config_info.py, noise_model_info.py)
-/
namespace Aihw.Cloud
open Aihw

theorem msgF_iff (f32 : ℚ → ℚ) (v : Val) (q : ℚ) : msgF f32 v = .ok q ↔ NumVal f32 v q := by
  cases v with
  | bool b => cases b <;> simp [msgF, NumVal, asFloat, eq_comm]
  | _ => simp [msgF, NumVal, asFloat, eq_comm]

theorem msgB_iff (v : Val) (c : Bool) : msgB v = .ok c ↔ FlagVal v c := by
  cases v with
  | bool b => cases b <;> cases c <;> simp [msgB, FlagVal, asInt]
  | _ => simp [msgB, FlagVal, asInt, eq_comm]

theorem msgI_iff (v : Val) (i : ℤ) : msgI v = .ok i ↔ IntVal v i := by
  cases v with
  | int j =>
    simp only [msgI, asInt]
    by_cases h : in64 j = true
    · rw [if_pos h]
      have := (in64_iff j).mp h
      constructor
      · rintro h; cases h; exact .inr (.inl ⟨rfl, this⟩)
      · rintro (⟨h, _⟩ | ⟨h, _⟩ | ⟨b, h, _⟩) <;> cases h
        rfl
    · rw [if_neg h]
      constructor
      · intro h; cases h
      · rintro (⟨h', _⟩ | ⟨h', h1⟩ | ⟨b, h', _⟩)
        · cases h'
        · cases h'; exact absurd ((in64_iff _).mpr h1) h
        · cases h'
  | bool b =>
    cases b <;> simp [msgI, IntVal, asInt, in64, eq_comm]
  | _ => simp [msgI, IntVal, asInt, eq_comm]

theorem msgS_iff (v : Val) (s : String) : msgS v = .ok s ↔ StrVal v s := by
  cases v <;> simp [msgS, StrVal, eq_comm]

theorem need_iff (d : Dict) (k : String) (v : Val) : need d k = .ok v ↔ get d k = some v := by
  unfold need
  cases get d k <;> simp

theorem needF_iff (f32 : ℚ → ℚ) (d : Dict) (k : String) (q : ℚ) :
    needF f32 d k = .ok q ↔ ∃ v, get d k = some v ∧ NumVal f32 v q := by
  unfold needF
  constructor
  · intro h
    obtain ⟨v, h1, h2⟩ := bind_ok h
    exact ⟨v, (need_iff _ _ _).mp h1, (msgF_iff _ _ _).mp h2⟩
  · rintro ⟨v, h1, h2⟩
    rw [(need_iff _ _ _).mpr h1]
    exact (msgF_iff _ _ _).mpr h2

theorem needB_iff (d : Dict) (k : String) (c : Bool) :
    needB d k = .ok c ↔ ∃ v, get d k = some v ∧ FlagVal v c := by
  unfold needB
  constructor
  · intro h
    obtain ⟨v, h1, h2⟩ := bind_ok h
    exact ⟨v, (need_iff _ _ _).mp h1, (msgB_iff _ _).mp h2⟩
  · rintro ⟨v, h1, h2⟩
    rw [(need_iff _ _ _).mpr h1]
    exact (msgB_iff _ _).mpr h2

/-- Writing the noise dictionary and reading it with `NoiseModelInfo`. -/
def readNoise (f32 : ℚ → ℚ) (d : Dict) : Except Err NoiseInfo := do
  let m ← noiseToProto f32 d
  noiseInfo m

theorem noiseFields_iff (f32 : ℚ → ℚ) (d : Dict) (v : Val) (n : NoiseFields) :
    noiseFields f32 d v = .ok n ↔
      (∃ v, get d "programming_noise_scale" = some v ∧ NumVal f32 v n.prog) ∧
      (∃ v, get d "read_noise_scale" = some v ∧ NumVal f32 v n.read) ∧
      (∃ v, get d "drift_scale" = some v ∧ NumVal f32 v n.drift) ∧
      (∃ v, get d "drift_compensation" = some v ∧ FlagVal v n.comp) ∧
      (∃ v, get d "poly_first_order_coef" = some v ∧ NumVal f32 v n.first) ∧
      (∃ v, get d "poly_second_order_coef" = some v ∧ NumVal f32 v n.second) ∧
      (∃ v, get d "poly_constant_coef" = some v ∧ NumVal f32 v n.const) ∧ StrVal v n.deviceId := by
  simp only [← needF_iff, ← needB_iff, ← msgS_iff]
  constructor
  · intro h
    unfold noiseFields at h
    obtain ⟨a, h1, h⟩ := bind_ok h
    obtain ⟨b, h2, h⟩ := bind_ok h
    obtain ⟨c, h3, h⟩ := bind_ok h
    obtain ⟨e, h4, h⟩ := bind_ok h
    obtain ⟨g, h5, h⟩ := bind_ok h
    obtain ⟨k, h6, h⟩ := bind_ok h
    obtain ⟨i, h7, h⟩ := bind_ok h
    obtain ⟨s, h8, h⟩ := bind_ok h
    cases h
    exact ⟨h1, h2, h3, h4, h5, h6, h7, h8⟩
  · rintro ⟨h1, h2, h3, h4, h5, h6, h7, h8⟩
    unfold noiseFields
    rw [h1, h2, h3, h4, h5, h6, h7, h8]
    rfl

theorem noiseToProto_iff (f32 : ℚ → ℚ) (d : Dict) (m : NoiseMsg) :
    noiseToProto f32 d = .ok m ↔ ∃ v, get d "device_id" = some v ∧
      ((v = .str "pcm" ∧ ∃ n, noiseFields f32 d v = .ok n ∧ m = .pcm n) ∨
        (v ≠ .str "pcm" ∧ ∃ n a b, noiseFields f32 d v = .ok n ∧ needF f32 d "drift_mean" = .ok a ∧
          needF f32 d "drift_std" = .ok b ∧ m = .generic n a b)) := by
  unfold noiseToProto
  constructor
  · intro h
    obtain ⟨v, h1, h⟩ := bind_ok h
    refine ⟨v, (need_iff _ _ _).mp h1, ?_⟩
    by_cases hv : v = .str "pcm"
    · rw [if_pos hv] at h
      cases hn : noiseFields f32 d v with
      | error e => rw [hn] at h; cases h
      | ok n => rw [hn] at h; cases h; exact .inl ⟨hv, n, rfl, rfl⟩
    · rw [if_neg hv] at h
      unfold genericMsg at h
      obtain ⟨n, h2, h⟩ := bind_ok h
      obtain ⟨a, h3, h⟩ := bind_ok h
      obtain ⟨b, h4, h⟩ := bind_ok h
      cases h
      exact .inr ⟨hv, n, a, b, h2, h3, h4, rfl⟩
  · rintro ⟨v, h1, ⟨hv, n, h2, rfl⟩ | ⟨hv, n, a, b, h2, h3, h4, rfl⟩⟩
    · rw [(need_iff _ _ _).mpr h1]
      show (if v = .str "pcm" then (noiseFields f32 d v).map .pcm else genericMsg f32 d v) = _
      rw [if_pos hv, h2]
      rfl
    · rw [(need_iff _ _ _).mpr h1]
      show (if v = .str "pcm" then (noiseFields f32 d v).map .pcm else genericMsg f32 d v) = _
      rw [if_neg hv]
      unfold genericMsg
      rw [h2, h3, h4]
      rfl

theorem readNoise_iff (f32 : ℚ → ℚ) (d : Dict) (n : NoiseInfo) :
    readNoise f32 d = .ok n ↔ NoiseOf f32 d n := by
  constructor
  · intro h
    obtain ⟨m, h1, h2⟩ := bind_ok h
    obtain ⟨v, hv, ⟨rfl, n', h3, rfl⟩ | ⟨hne, n', a, b, h3, h4, h5, rfl⟩⟩ := (noiseToProto_iff _ _ _).mp h1
    · obtain ⟨p1, p2, p3, p4, p5, p6, p7, p8⟩ := (noiseFields_iff _ _ _ _).mp h3
      have hd : n'.deviceId = "pcm" := by
        rcases p8 with ⟨h, _⟩ | h
        · cases h
        · injection h with h; exact h.symm
      simp only [noiseInfo] at h2
      rw [if_neg (by rw [hd]; decide)] at h2
      cases h2
      exact ⟨⟨_, hv, p8⟩, p1, p2, p3, p4, p5, p6, p7, fun _ => ⟨rfl, rfl⟩, fun h => absurd hd h⟩
    · obtain ⟨p1, p2, p3, p4, p5, p6, p7, p8⟩ := (noiseFields_iff _ _ _ _).mp h3
      have hd : n'.deviceId ≠ "pcm" := by
        rcases p8 with ⟨_, h⟩ | h
        · rw [h]; decide
        · intro h'; rw [h'] at h; exact hne h
      obtain ⟨va, ha, ha'⟩ := (needF_iff _ _ _ _).mp h4
      obtain ⟨vb, hb, hb'⟩ := (needF_iff _ _ _ _).mp h5
      simp only [noiseInfo] at h2
      by_cases hg : n'.deviceId = "generic"
      · rw [if_pos hg] at h2
        cases h2
        exact ⟨⟨_, hv, p8⟩, p1, p2, p3, p4, p5, p6, p7, fun h => absurd h hd,
          fun _ => ⟨va, vb, a, b, ha, hb, ha', hb', fun _ => ⟨rfl, rfl⟩, fun h => absurd hg h⟩⟩
      · rw [if_neg hg] at h2
        cases h2
        exact ⟨⟨_, hv, p8⟩, p1, p2, p3, p4, p5, p6, p7, fun h => absurd h hd,
          fun _ => ⟨va, vb, a, b, ha, hb, ha', hb', fun h => absurd h hg, fun _ => ⟨rfl, rfl⟩⟩⟩
  · rintro ⟨⟨v, hv, p8⟩, p1, p2, p3, p4, p5, p6, p7, hp, hg⟩
    have hf := (noiseFields_iff f32 d v n.fields).mpr ⟨p1, p2, p3, p4, p5, p6, p7, p8⟩
    unfold readNoise
    by_cases hd : n.fields.deviceId = "pcm"
    · have hv' : v = .str "pcm" := by
        rcases p8 with ⟨_, h⟩ | h
        · rw [hd] at h; exact absurd h (by decide)
        · rw [h, hd]
      rw [(noiseToProto_iff _ _ _).mpr ⟨v, hv, .inl ⟨hv', n.fields, hf, rfl⟩⟩]
      obtain ⟨e1, e2⟩ := hp hd
      show (if n.fields.deviceId = "generic" then _ else _) = _
      rw [if_neg (by rw [hd]; decide), ← e1]
      congr 1
      cases n
      simp only at e1 e2
      rw [e1, e2]
    · obtain ⟨va, vb, a, b, ha, hb, ha', hb', g1, g2⟩ := hg hd
      have hv' : v ≠ .str "pcm" := by
        rintro rfl
        rcases p8 with ⟨h, _⟩ | h
        · cases h
        · injection h with h; exact hd h.symm
      rw [(noiseToProto_iff _ _ _).mpr ⟨v, hv, .inr ⟨hv', n.fields, a, b, hf,
        (needF_iff _ _ _ _).mpr ⟨va, ha, ha'⟩, (needF_iff _ _ _ _).mpr ⟨vb, hb, hb'⟩, rfl⟩⟩]
      show Except.ok (if n.fields.deviceId = "generic" then _ else _) = _
      by_cases h : n.fields.deviceId = "generic"
      · rw [if_pos h]
        obtain ⟨e1, e2⟩ := g1 h
        rw [← e1, ← e2]
      · rw [if_neg h]
        obtain ⟨e1, e2⟩ := g2 h
        cases n
        simp only at e1 e2
        rw [e1, e2]

/-! ## Analog settings -/

theorem get_cons_self {α : Type} (k : String) (v : α) (d : List (String × α)) : get ((k, v) :: d) k = some v := by
  simp [get]

theorem get_cons_ne {α : Type} {k n : String} (h : k ≠ n) (v : α) (d : List (String × α)) :
    get ((k, v) :: d) n = get d n := by
  simp [get, h]

/-- The settings after a dictionary, starting from others. -/
structure After (f32 : ℚ → ℚ) (d : Dict) (a0 a : AnalogMsg) : Prop where
  keys : ∀ p ∈ d, p.1 = "output_noise_strength" ∨ p.1 = "adc" ∨ p.1 = "dac"
  noise : (get d "output_noise_strength" = none → a.outNoise = a0.outNoise) ∧
    ∀ v, get d "output_noise_strength" = some v → NumVal f32 v a.outNoise
  adc : (get d "adc" = none → a.adc = a0.adc) ∧ ∀ v, get d "adc" = some v → IntVal v a.adc
  dac : (get d "dac" = none → a.dac = a0.dac) ∧ ∀ v, get d "dac" = some v → IntVal v a.dac

theorem analog_after (f32 : ℚ → ℚ) (d : Dict) (hn : (d.map (·.1)).Nodup) (a0 a : AnalogMsg) :
    d.foldlM (analogField f32) a0 = .ok a ↔ After f32 d a0 a := by
  induction d generalizing a0 with
  | nil =>
    constructor
    · intro h
      cases h
      exact ⟨by simp, ⟨fun _ => rfl, by simp [get]⟩, ⟨fun _ => rfl, by simp [get]⟩, ⟨fun _ => rfl, by simp [get]⟩⟩
    · intro h
      have h1 := h.noise.1 rfl
      have h2 := h.adc.1 rfl
      have h3 := h.dac.1 rfl
      cases a; cases a0
      simp only at h1 h2 h3
      subst_vars
      rfl
  | cons p t ih =>
    obtain ⟨k, v⟩ := p
    rw [List.map_cons, List.nodup_cons] at hn
    have hk : get t k = none := get_none_of_not_mem hn.1
    rw [List.foldlM_cons]
    by_cases k1 : k = "output_noise_strength"
    · subst k1
      constructor
      · intro h
        obtain ⟨x, h1, h2⟩ := bind_ok h
        have A := (ih hn.2 x).mp h2
        simp only [analogField, if_true] at h1
        cases hm : msgF f32 v with
        | error e => rw [hm] at h1; cases h1
        | ok q =>
          rw [hm] at h1; cases h1
          have hq := A.noise.1 hk
          simp only at hq
          refine ⟨?_, ⟨by simp [get_cons_self], ?_⟩, ?_, ?_⟩
          · intro p hp
            rcases List.mem_cons.mp hp with rfl | hp
            · exact .inl rfl
            · exact A.keys p hp
          · intro w hw
            rw [get_cons_self] at hw; cases hw
            rw [hq]; exact (msgF_iff _ _ _).mp hm
          · rw [get_cons_ne (by decide)]; exact A.adc
          · rw [get_cons_ne (by decide)]; exact A.dac
      · intro A
        have hq := (msgF_iff f32 v a.outNoise).mpr (A.noise.2 v (get_cons_self _ _ _))
        simp only [analogField, if_true, hq]
        refine (ih hn.2 _).mpr ⟨fun p hp => A.keys p (by simp [hp]), ⟨fun _ => rfl, ?_⟩, ?_, ?_⟩
        · intro w hw; rw [hk] at hw; cases hw
        · have := A.adc; rwa [get_cons_ne (by decide)] at this
        · have := A.dac; rwa [get_cons_ne (by decide)] at this
    · by_cases k2 : k = "adc"
      · subst k2
        constructor
        · intro h
          obtain ⟨x, h1, h2⟩ := bind_ok h
          have A := (ih hn.2 x).mp h2
          simp only [analogField, if_true, if_neg k1] at h1
          cases hm : msgI v with
          | error e => rw [hm] at h1; cases h1
          | ok q =>
            rw [hm] at h1; cases h1
            have hq := A.adc.1 hk
            simp only at hq
            refine ⟨?_, ?_, ⟨by simp [get_cons_self], ?_⟩, ?_⟩
            · intro p hp
              rcases List.mem_cons.mp hp with rfl | hp
              · exact .inr (.inl rfl)
              · exact A.keys p hp
            · rw [get_cons_ne (by decide)]; exact A.noise
            · intro w hw
              rw [get_cons_self] at hw; cases hw
              rw [hq]; exact (msgI_iff _ _).mp hm
            · rw [get_cons_ne (by decide)]; exact A.dac
        · intro A
          have hq := (msgI_iff v a.adc).mpr (A.adc.2 v (get_cons_self _ _ _))
          simp only [analogField, if_true, if_neg k1, hq]
          refine (ih hn.2 _).mpr ⟨fun p hp => A.keys p (by simp [hp]), ?_, ⟨fun _ => rfl, ?_⟩, ?_⟩
          · have := A.noise; rwa [get_cons_ne (by decide)] at this
          · intro w hw; rw [hk] at hw; cases hw
          · have := A.dac; rwa [get_cons_ne (by decide)] at this
      · by_cases k3 : k = "dac"
        · subst k3
          constructor
          · intro h
            obtain ⟨x, h1, h2⟩ := bind_ok h
            have A := (ih hn.2 x).mp h2
            simp only [analogField, if_true, if_neg k1, if_neg k2] at h1
            cases hm : msgI v with
            | error e => rw [hm] at h1; cases h1
            | ok q =>
              rw [hm] at h1; cases h1
              have hq := A.dac.1 hk
              simp only at hq
              refine ⟨?_, ?_, ?_, ⟨by simp [get_cons_self], ?_⟩⟩
              · intro p hp
                rcases List.mem_cons.mp hp with rfl | hp
                · exact .inr (.inr rfl)
                · exact A.keys p hp
              · rw [get_cons_ne (by decide)]; exact A.noise
              · rw [get_cons_ne (by decide)]; exact A.adc
              · intro w hw
                rw [get_cons_self] at hw; cases hw
                rw [hq]; exact (msgI_iff _ _).mp hm
          · intro A
            have hq := (msgI_iff v a.dac).mpr (A.dac.2 v (get_cons_self _ _ _))
            simp only [analogField, if_true, if_neg k1, if_neg k2, hq]
            refine (ih hn.2 _).mpr ⟨fun p hp => A.keys p (by simp [hp]), ?_, ?_, ⟨fun _ => rfl, ?_⟩⟩
            · have := A.noise; rwa [get_cons_ne (by decide)] at this
            · have := A.adc; rwa [get_cons_ne (by decide)] at this
            · intro w hw; rw [hk] at hw; cases hw
        · constructor
          · intro h
            obtain ⟨x, h1, _⟩ := bind_ok h
            simp only [analogField, if_neg k1, if_neg k2, if_neg k3] at h1
            cases h1
          · intro A
            rcases A.keys (k, v) (by simp) with h | h | h
            · exact absurd h k1
            · exact absurd h k2
            · exact absurd h k3

theorem analog_iff (f32 : ℚ → ℚ) (d : Dict) (hn : (d.map (·.1)).Nodup) (a : AnalogMsg) :
    analogToProto f32 d = .ok a ↔ AnalogOf f32 d a := by
  unfold analogToProto
  rw [analog_after f32 d hn]
  constructor
  · intro A
    refine ⟨A.keys, ?_, ?_, ?_⟩
    · cases h : get d "output_noise_strength" with
      | none => exact .inl ⟨rfl, A.noise.1 h⟩
      | some v => exact A.noise.2 v h
    · cases h : get d "adc" with
      | none => exact .inl ⟨rfl, A.adc.1 h⟩
      | some v => exact A.adc.2 v h
    · cases h : get d "dac" with
      | none => exact .inl ⟨rfl, A.dac.1 h⟩
      | some v => exact A.dac.2 v h
  · intro A
    obtain ⟨k, n, ad, da⟩ := A
    refine ⟨k, ⟨fun h => ?_, fun v h => ?_⟩, ⟨fun h => ?_, fun v h => ?_⟩, ⟨fun h => ?_, fun v h => ?_⟩⟩
    · rw [h] at n; rcases n with ⟨_, h⟩ | ⟨_, h, _⟩ | ⟨_, h, _⟩ | ⟨_, h, _⟩
      · exact h
      all_goals cases h
    · rw [h] at n; exact n
    · rw [h] at ad; rcases ad with ⟨_, h⟩ | ⟨h, _⟩ | ⟨_, h, _⟩
      · exact h
      all_goals cases h
    · rw [h] at ad; exact ad
    · rw [h] at da; rcases da with ⟨_, h⟩ | ⟨h, _⟩ | ⟨_, h, _⟩
      · exact h
      all_goals cases h
    · rw [h] at da; exact da

/-! ## The configuration -/

theorem pow_two_one (i : ℤ) : (2 : ℚ) ^ i - 2 = 0 ↔ i = 1 := by
  constructor
  · intro h
    have h1 : (2 : ℚ) ^ i = 2 ^ (1 : ℤ) := by rw [zpow_one]; linarith
    exact zpow_right_injective₀ (by norm_num) (by norm_num) h1
  · rintro rfl; norm_num

theorem resolution_ok {i : ℤ} (h : i ≠ 1) : resolution i = .ok (1 / ((2 : ℚ) ^ i - 2)) := by
  unfold resolution
  rw [if_neg (fun h' => h ((pow_two_one i).mp h'))]

theorem resolution_one : resolution 1 = .error (.py .zeroDivision) := by
  unfold resolution
  rw [if_pos (by norm_num)]

theorem noiseModel_ok {n : NoiseInfo} (h : n.fields.deviceId = "pcm" ∨ n.fields.deviceId = "generic") :
    noiseModel n = .ok (noiseFor n) := by
  unfold noiseModel noiseFor
  rcases h with h | h
  · simp only [h, if_true]
  · simp only [h, if_true]
    rw [if_neg (by decide), if_neg (by decide)]

theorem create_known {dflt : String → Cfg} {n : NoiseInfo} {a : AnalogMsg} {layers : Option (List Item)}
    {s : String} (hs : commonName layers = some s) (hp : s ∈ cfgClasses .inference) :
    (Usable n a → createCfg dflt n a layers = .ok (cfgFor dflt s n a)) ∧
    (¬ Usable n a → ∃ e, createCfg dflt n a layers = .error e ∧
      ((e = .py .zeroDivision ∧ (a.adc = 1 ∨ a.dac = 1)) ∨
        (e = .deviceId ∧ a.adc ≠ 1 ∧ a.dac ≠ 1 ∧ n.fields.deviceId ≠ "pcm" ∧
          n.fields.deviceId ≠ "generic"))) := by
  have hp' : s ∈ presets .inference := hp
  unfold createCfg
  rw [hs]
  simp only [if_pos hp']
  constructor
  · rintro ⟨h1, h2, h3⟩
    rw [resolution_ok h1, resolution_ok h2, noiseModel_ok h3]
    rfl
  · intro hu
    by_cases h1 : a.adc = 1
    · rw [h1, resolution_one]
      exact ⟨_, rfl, .inl ⟨rfl, .inl rfl⟩⟩
    · rw [resolution_ok h1]
      by_cases h2 : a.dac = 1
      · rw [h2, resolution_one]
        exact ⟨_, rfl, .inl ⟨rfl, .inr rfl⟩⟩
      · rw [resolution_ok h2]
        have h3 : n.fields.deviceId ≠ "pcm" ∧ n.fields.deviceId ≠ "generic" :=
          not_or.mp fun h => hu ⟨h1, h2, h⟩
        refine ⟨.deviceId, ?_, .inr ⟨rfl, h1, h2, h3⟩⟩
        unfold noiseModel
        rw [if_neg h3.1, if_neg h3.2]
        rfl

/-- **C81.** `rpu_config_from_info` returns a configuration exactly if the noise dictionary has all
settings, the analog dictionary has only the three known keys, the values fit, neither converter has one
bit, and the device is `pcm` or `generic`; the configuration is then a `WebComposerInferenceRPUConfig`
with exactly these settings.  A missing `adc` (or `dac`) counts as zero bits. -/
theorem C81_config_iff (f32 : ℚ → ℚ) (dflt : String → Cfg) (analog noise : Dict)
    (hn : (analog.map (·.1)).Nodup) (c : Cfg) :
    cfgFromInfo f32 dflt analog noise = .ok c ↔
      ∃ a n, AnalogOf f32 analog a ∧ NoiseOf f32 noise n ∧ Usable n a ∧
        c = cfgFor dflt "WebComposerInferenceRPUConfig" n a := by
  have hk := fun n a => create_known (dflt := dflt) (n := n) (a := a) (layers := none)
    (s := "WebComposerInferenceRPUConfig") rfl (by decide)
  constructor
  · intro h
    unfold cfgFromInfo at h
    obtain ⟨m, h1, h⟩ := bind_ok h
    obtain ⟨n, h2, h⟩ := bind_ok h
    obtain ⟨a, h3, h⟩ := bind_ok h
    refine ⟨a, n, (analog_iff f32 analog hn a).mp h3, (readNoise_iff f32 noise n).mp ?_, ?_⟩
    · unfold readNoise; rw [h1]; exact h2
    · by_cases hu : Usable n a
      · rw [(hk n a).1 hu] at h
        cases h
        exact ⟨hu, rfl⟩
      · obtain ⟨e, he, _⟩ := (hk n a).2 hu
        rw [he] at h; cases h
  · rintro ⟨a, n, h1, h2, h3, rfl⟩
    obtain ⟨m, e1, e2⟩ := bind_ok ((readNoise_iff f32 noise n).mpr h2)
    unfold cfgFromInfo
    rw [e1]
    show (noiseInfo m >>= _) = _
    rw [e2]
    show (analogToProto f32 analog >>= _) = _
    rw [(analog_iff f32 analog hn a).mpr h1]
    exact (hk n a).1 h3

/-- **C81 (errors).** With readable dictionaries, one bit in a converter raises `ZeroDivisionError`, and
otherwise another device raises `NoiseModelDeviceIDException`. -/
theorem C81_errors (f32 : ℚ → ℚ) (dflt : String → Cfg) (analog noise : Dict)
    (hn : (analog.map (·.1)).Nodup) (a : AnalogMsg) (n : NoiseInfo) (ha : AnalogOf f32 analog a)
    (hno : NoiseOf f32 noise n) :
    (a.adc = 1 ∨ a.dac = 1 → cfgFromInfo f32 dflt analog noise = .error (.py .zeroDivision)) ∧
    (a.adc ≠ 1 → a.dac ≠ 1 → n.fields.deviceId ≠ "pcm" → n.fields.deviceId ≠ "generic" →
      cfgFromInfo f32 dflt analog noise = .error .deviceId) := by
  have hk := create_known (dflt := dflt) (n := n) (a := a) (layers := none)
    (s := "WebComposerInferenceRPUConfig") rfl (by decide)
  obtain ⟨m, e1, e2⟩ := bind_ok ((readNoise_iff f32 noise n).mpr hno)
  have key : cfgFromInfo f32 dflt analog noise = createCfg dflt n a none := by
    unfold cfgFromInfo
    rw [e1]
    show (noiseInfo m >>= _) = _
    rw [e2]
    show (analogToProto f32 analog >>= _) = _
    rw [(analog_iff f32 analog hn a).mpr ha]
    rfl
  rw [key]
  constructor
  · intro h
    obtain ⟨e, he, ⟨h', _⟩ | ⟨_, h1, h2, _⟩⟩ := hk.2 (fun hu => h.elim hu.adc hu.dac)
    · rw [he, h']
    · exact absurd h (not_or.mpr ⟨h1, h2⟩)
  · intro h1 h2 h3 h4
    obtain ⟨e, he, ⟨_, h'⟩ | ⟨h', _⟩⟩ := hk.2 (fun hu => hu.dev.elim h3 h4)
    · exact absurd h' (not_or.mpr ⟨h1, h2⟩)
    · rw [he, h']

/-- **C81 (missing key).** A setting missing in the noise dictionary is an error. -/
theorem C81_missing (f32 : ℚ → ℚ) (dflt : String → Cfg) (analog noise : Dict) (k : String)
    (hk : k ∈ ["device_id", "programming_noise_scale", "read_noise_scale", "drift_scale",
      "drift_compensation", "poly_first_order_coef", "poly_second_order_coef", "poly_constant_coef"])
    (hm : get noise k = none) : ∃ e, cfgFromInfo f32 dflt analog noise = .error e := by
  cases h : cfgFromInfo f32 dflt analog noise with
  | error e => exact ⟨e, rfl⟩
  | ok c =>
    exfalso
    unfold cfgFromInfo at h
    obtain ⟨m, h1, h⟩ := bind_ok h
    obtain ⟨n, h2, h⟩ := bind_ok h
    have A := (readNoise_iff f32 noise n).mp (by unfold readNoise; rw [h1]; exact h2)
    simp only [List.mem_cons, List.not_mem_nil, or_false] at hk
    rcases hk with rfl | rfl | rfl | rfl | rfl | rfl | rfl | rfl
    · obtain ⟨v, hv, _⟩ := A.dev; rw [hm] at hv; cases hv
    · obtain ⟨v, hv, _⟩ := A.prog; rw [hm] at hv; cases hv
    · obtain ⟨v, hv, _⟩ := A.read; rw [hm] at hv; cases hv
    · obtain ⟨v, hv, _⟩ := A.drift; rw [hm] at hv; cases hv
    · obtain ⟨v, hv, _⟩ := A.comp; rw [hm] at hv; cases hv
    · obtain ⟨v, hv, _⟩ := A.first; rw [hm] at hv; cases hv
    · obtain ⟨v, hv, _⟩ := A.second; rw [hm] at hv; cases hv
    · obtain ⟨v, hv, _⟩ := A.const; rw [hm] at hv; cases hv

end Aihw.Cloud
