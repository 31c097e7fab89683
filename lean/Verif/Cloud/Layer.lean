import Verif.Cloud.Lemmas

/-! # One layer: writing and reading (C79, C80) -/
namespace Aihw.Cloud
open Aihw

/-- Facts about the tables. -/
structure Facts (k : Kind) (c : Cls) (args : List (String × Ty)) : Prop where
  nodup : (args.map (·.1)).Nodup
  required : ∀ p ∈ sig c, p.2 = none → p.1 ∈ (carried c).map (·.1)
  insig : ∀ p ∈ args, p.1 ≠ "rpu_config" → p.1 ≠ "weight_scaling_omega" → p.1 ∈ (sig c).map (·.1)
  notspecial : ∀ p ∈ sig c, p.1 ≠ "rpu_config" ∧ p.1 ≠ "weight_scaling_omega"
  nogroups : "groups" ∉ args.map (·.1) ∧ "padding_mode" ∉ args.map (·.1)
  carriedArgs : ∀ p ∈ carried c, p ∈ args ∧ p.1 ≠ "bias" ∧ p.1 ≠ "rpu_config" ∧
    p.1 ≠ "weight_scaling_omega" ∧ p.1 ∈ (sig c).map (·.1) ∧ (isPair c p.1 = true → p.2 = .ints) ∧
    p.2 ≠ .str
  bias : if hasBias c then ("bias", Ty.bool) ∈ args ∧ "bias" ∈ (sig c).map (·.1)
    else "bias" ∉ args.map (·.1)
  others : ∀ p ∈ args, p ∈ carried c ∨ (p.1 = "bias" ∧ hasBias c = true) ∨ p.1 = "rpu_config" ∨
    p.1 = "weight_scaling_omega"
  rpu : if c.isAnalog then ("rpu_config", Ty.str) ∈ args else "rpu_config" ∉ args.map (·.1)
  omega : if c.isAnalog ∧ k = .training then ("weight_scaling_omega", Ty.float) ∈ args
    else "weight_scaling_omega" ∉ args.map (·.1)
  pool : c = .maxPool2d → ("stride", Ty.int) ∈ carried c

theorem facts {k : Kind} {c : Cls} {args : List (String × Ty)}
    (h : layerArgs k c = some args ∨ actArgs c = some args) : Facts k c args := by
  cases k <;> cases c <;> rcases h with h | h <;>
    first
    | (simp only [layerArgs, actArgs, reduceCtorEq, if_false, if_true] at h; done)
    | (simp only [layerArgs, actArgs, reduceCtorEq, if_false, if_true, Option.some.injEq] at h
       subst h
       constructor <;> decide)

theorem get_filter {α : Type} (d : List (String × α)) (n m : String) :
    get (d.filter fun p => p.1 ≠ m) n = if n = m then none else get d n := by
  induction d with
  | nil => simp [get]
  | cons p t ih =>
    by_cases hp : p.1 = m
    · have : (p :: t).filter (fun p => decide (p.1 ≠ m)) = t.filter (fun p => decide (p.1 ≠ m)) := by
        simp [List.filter, hp]
      rw [this, ih]
      by_cases hn : n = m
      · simp [hn]
      · have : ¬ (p.1 = n) := fun e => hn (e.symm.trans hp)
        simp [get, List.find?, this, hn]
    · have : (p :: t).filter (fun p => decide (p.1 ≠ m)) =
          p :: t.filter (fun p => decide (p.1 ≠ m)) := by simp [List.filter, hp]
      rw [this]
      by_cases hpn : p.1 = n
      · have : ¬ (n = m) := fun e => hp (hpn.trans e)
        simp [get, List.find?, hpn, this]
      · have e1 : get (p :: t.filter (fun p => decide (p.1 ≠ m))) n
            = get (t.filter (fun p => decide (p.1 ≠ m))) n := by simp [get, List.find?, hpn]
        have e2 : get (p :: t) n = get t n := by simp [get, List.find?, hpn]
        rw [e1, e2, ih]

theorem layerAttr_name {f32 : ℚ → ℚ} {k : Kind} {o : Obj} (p : String × Ty) (a : Attr)
    (h : layerAttr f32 k o p = .ok a) : a.name = p.1 := by
  unfold layerAttr at h
  cases hv : layerField k o p.1 with
  | error e => rw [hv] at h; cases h
  | ok v => rw [hv] at h; exact (store_ok h).1

theorem layerAttr_ok {f32 : ℚ → ℚ} {k : Kind} {o : Obj} {n : String} {ty : Ty} {a : Attr}
    (h : layerAttr f32 k o (n, ty) = .ok a) :
    ∃ v, layerField k o n = .ok v ∧ store f32 n ty v = .ok a := by
  unfold layerAttr at h
  cases hv : layerField k o n with
  | error e => rw [hv] at h; cases h
  | ok v => rw [hv] at h; exact ⟨v, rfl, h⟩

theorem layerField_plain (k : Kind) (o : Obj) {n : String} (h1 : n ≠ "bias") (h2 : n ≠ "rpu_config")
    (h3 : n ≠ "weight_scaling_omega") : layerField k o n = .ok (plainField o n) := by
  unfold layerField
  rw [if_neg h1, if_neg (fun h => h3 h.1), if_neg h2]

theorem norm_carried {c : Cls} {n : String} {ty : Ty} (hb : n ≠ "bias")
    (hp : isPair c n = true → ty = .ints) (a : Attr) : norm c n (load ty a) = load ty a := by
  unfold norm
  rw [if_neg hb]
  by_cases h : isPair c n = true
  · rw [if_pos h, hp h]; rfl
  · rw [if_neg h]

/-- The configuration name is written as it is. -/
theorem cfg_written {f32 : ℚ → ℚ} {k : Kind} {o : Obj} {a : Attr}
    (h : layerAttr f32 k o ("rpu_config", .str) = .ok a) :
    ∃ c, o.cfg = some c ∧ c.cls = .known a.s ∧ a.s ∈ presets k := by
  obtain ⟨v, hv, hs⟩ := layerAttr_ok h
  have hs := (store_ok hs).2.2 rfl
  unfold layerField at hv
  rw [if_neg (by decide), if_neg (by simp), if_pos rfl] at hv
  unfold cfgField at hv
  cases hc : o.cfg with
  | none => rw [hc] at hv; cases hv
  | some c =>
    rw [hc] at hv
    simp only at hv
    cases hp : presetName k c.cls with
    | none => rw [hp] at hv; cases hv
    | some n =>
      rw [hp] at hv
      simp only [Except.ok.injEq] at hv
      rw [← hv] at hs
      cases hs
      refine ⟨c, rfl, ?_⟩
      cases hcc : c.cls with
      | user m => rw [hcc] at hp; cases hp
      | known m =>
        rw [hcc] at hp
        simp only [presetName] at hp
        by_cases hm : m ∈ presets k
        · rw [if_pos hm] at hp
          cases hp
          exact ⟨rfl, hm⟩
        · rw [if_neg hm] at hp; cases hp

/-- The omega of the configuration is written rounded. -/
theorem omega_written {f32 : ℚ → ℚ} {o : Obj} {a : Attr}
    (h : layerAttr f32 .training o ("weight_scaling_omega", .float) = .ok a) :
    ∃ c, o.cfg = some c ∧ a.f = f32 c.omega := by
  obtain ⟨v, hv, hs⟩ := layerAttr_ok h
  unfold layerField at hv
  rw [if_neg (by decide), if_pos (by simp)] at hv
  unfold omegaField at hv
  cases hc : o.cfg with
  | none => rw [hc] at hv; cases hv
  | some c =>
    rw [hc] at hv
    cases hv
    cases hs
    exact ⟨c, rfl, rfl⟩

/-- What remains to be known about the arguments after reading. -/
structure ReadKw (args : List (String × Ty)) (l : List Attr) (kw : Kw) (cfg : Option Cfg) : Prop where
  get : ∀ n, n ≠ "rpu_config" → n ≠ "weight_scaling_omega" →
    Cloud.get kw.plain n = (named l n).bind fun a => (Cloud.get args n).map fun ty => load ty a
  mem : ∀ p ∈ kw.plain, p.1 ∈ args.map (·.1) ∧ p.1 ≠ "rpu_config" ∧ p.1 ≠ "weight_scaling_omega"
  cfg : kw.cfg = cfg

/-- The configuration after reading: in the training format with the value of omega as a stray
attribute. -/
def afterCfg (f32 : ℚ → ℚ) (k : Kind) (o : Obj) (c : Cfg) : Cfg :=
  if k = .training then { c with stray := o.cfg.map fun d => f32 d.omega } else c

theorem read_ok {f32 : ℚ → ℚ} {k : Kind} {mk : MkCfg} {args : List (String × Ty)} {o : Obj}
    {l : List Attr} (F : Facts k o.cls args) (hw : Written (layerAttr f32 k o) args l)
    (mc : o.cls.isAnalog = true → ∃ c, ∀ d s, o.cfg = some d → d.cls = .known s → mk s = .ok c) :
    ∃ kw kw', readArgs k mk args l ⟨[], none⟩ = .ok kw ∧ omegaStep k kw = .ok kw' ∧
      ReadKw args l kw' kw'.cfg ∧
      (o.cls.isAnalog = false → kw'.cfg = none) ∧
      (o.cls.isAnalog = true → ∀ c d s, o.cfg = some d → d.cls = .known s → mk s = .ok c →
        kw'.cfg = some (afterCfg f32 k o c)) := by
  have hn := written_names layerAttr_name hw
  have hl : ∀ a ∈ l, a.name ∈ args.map (·.1) := by
    intro a ha
    rw [← hn]
    exact List.mem_map.mpr ⟨a, ha, rfl⟩
  have hnd : (l.map (·.name)).Nodup := hn ▸ F.nodup
  have hNamed := written_named layerAttr_name hw
  have hmk : ∀ a ∈ l, a.name = "rpu_config" → ∃ c, mk a.s = .ok c := by
    intro a ha hr
    have hb := F.rpu
    by_cases hA : o.cls.isAnalog = true
    · rw [if_pos hA] at hb
      obtain ⟨c, hc⟩ := mc hA
      have hg := get_of_mem F.nodup hb
      rcases hNamed "rpu_config" with ⟨h, _⟩ | ⟨ty, a', h1, h2, h3⟩
      · rw [hg] at h; cases h
      · rw [hg] at h1
        cases h1
        have ha' : a' ∈ l := List.mem_of_find?_eq_some h2
        have e : a'.name = a.name := (layerAttr_name _ _ h3).trans hr.symm
        have : a' = a := List.inj_on_of_nodup_map hnd ha' ha e
        subst this
        obtain ⟨d, hd1, hd2, _⟩ := cfg_written h3
        exact ⟨c, hc d _ hd1 hd2⟩
    · rw [if_neg hA] at hb
      exact absurd (hr ▸ hl a ha) hb
  obtain ⟨kw, r1, r2, r3, r4⟩ := readArgs_ok k mk args l hl hnd hmk ⟨[], none⟩
  have r3' : ∀ p ∈ kw.plain, p.1 ∈ args.map (·.1) ∧ p.1 ≠ "rpu_config" := by
    intro p hp
    rcases r3 p hp with ⟨h, h'⟩ | h
    · exact ⟨hn ▸ h, h'⟩
    · simp at h
  have r2' : ∀ n, n ≠ "rpu_config" → get kw.plain n =
      (named l n).bind fun a => (get args n).map fun ty => load ty a := by
    intro n h
    rw [r2 n h]
    have : get ([] : List (String × Val)) n = none := rfl
    rw [this]
    cases ((named l n).bind fun a => (get args n).map fun ty => load ty a) <;> rfl
  have r4' : kw.cfg = (named l "rpu_config").bind fun a => (mk a.s).toOption := by
    rw [r4]
    cases ((named l "rpu_config").bind fun a => (mk a.s).toOption) <;> rfl
  by_cases hA : o.cls.isAnalog = true
  · have hrp := F.rpu
    rw [if_pos hA] at hrp
    have hg := get_of_mem F.nodup hrp
    obtain ⟨ra, hra1, hra2⟩ : ∃ a, named l "rpu_config" = some a ∧
        layerAttr f32 k o ("rpu_config", .str) = .ok a := by
      rcases hNamed "rpu_config" with ⟨h, _⟩ | ⟨ty, a', h1, h2, h3⟩
      · rw [hg] at h; cases h
      · rw [hg] at h1; cases h1; exact ⟨a', h2, h3⟩
    obtain ⟨d, hd1, hd2, hd3⟩ := cfg_written hra2
    obtain ⟨c, hc⟩ := mc hA
    have hcc := hc d _ hd1 hd2
    have hkc : kw.cfg = some c := by rw [r4', hra1]; simp [hcc, Except.toOption]
    cases k with
    | inference =>
      refine ⟨kw, kw, r1, rfl, ⟨fun n h _ => r2' n h, fun p hp => ⟨(r3' p hp).1, (r3' p hp).2, ?_⟩, rfl⟩,
        fun h => absurd hA (by rw [h]; decide), fun _ c' d' s' h1 h2 h3 => ?_⟩
      · have ho := F.omega
        rw [if_neg (by simp)] at ho
        intro e
        exact ho (e ▸ (r3' p hp).1)
      · rw [hd1] at h1; cases h1
        rw [hd2] at h2; cases h2
        rw [hcc] at h3; cases h3
        rw [hkc]
        rfl
    | training =>
      have ho := F.omega
      rw [if_pos ⟨hA, rfl⟩] at ho
      have hgo := get_of_mem F.nodup ho
      obtain ⟨oa, ho1, ho2⟩ : ∃ a, named l "weight_scaling_omega" = some a ∧
          layerAttr f32 .training o ("weight_scaling_omega", .float) = .ok a := by
        rcases hNamed "weight_scaling_omega" with ⟨h, _⟩ | ⟨ty, a', h1, h2, h3⟩
        · rw [hgo] at h; cases h
        · rw [hgo] at h1; cases h1; exact ⟨a', h2, h3⟩
      obtain ⟨d', hd1', hf⟩ := omega_written ho2
      rw [hd1] at hd1'
      cases hd1'
      have hgp : get kw.plain "weight_scaling_omega" = some (.float oa.f) := by
        rw [r2' _ (by decide), ho1, hgo]; rfl
      refine ⟨kw, ⟨kw.plain.filter fun p => p.1 ≠ "weight_scaling_omega",
        some { c with stray := some oa.f }⟩, r1, ?_, ⟨fun n h h' => ?_, fun p hp => ?_, rfl⟩,
        fun h => absurd hA (by rw [h]; decide), fun _ c' d' s' h1 h2 h3 => ?_⟩
      · unfold omegaStep legacyOmega
        rw [if_pos rfl, hgp, hkc]
        rfl
      · simp only
        rw [get_filter, if_neg h', r2' n h]
      · simp only [List.mem_filter, decide_eq_true_eq] at hp
        exact ⟨(r3' p hp.1).1, (r3' p hp.1).2, hp.2⟩
      · rw [hd1] at h1; cases h1
        rw [hd2] at h2; cases h2
        rw [hcc] at h3; cases h3
        simp [afterCfg, hd1, hf]
  · have hb : o.cls.isAnalog = false := by simpa using hA
    have hrp := F.rpu
    rw [if_neg hA] at hrp
    have ho := F.omega
    rw [if_neg (fun h => hA h.1)] at ho
    have hnr : named l "rpu_config" = none := by
      rcases hNamed "rpu_config" with ⟨_, h⟩ | ⟨ty, a', h1, h2, h3⟩
      · exact h
      · exact absurd (List.mem_map.mpr ⟨_, mem_of_get h1, rfl⟩) hrp
    have hno : named l "weight_scaling_omega" = none := by
      rcases hNamed "weight_scaling_omega" with ⟨_, h⟩ | ⟨ty, a', h1, h2, h3⟩
      · exact h
      · exact absurd (List.mem_map.mpr ⟨_, mem_of_get h1, rfl⟩) ho
    have hkc : kw.cfg = none := by rw [r4', hnr]; rfl
    refine ⟨kw, kw, r1, ?_, ⟨fun n h _ => r2' n h, fun p hp => ⟨(r3' p hp).1, (r3' p hp).2, ?_⟩, rfl⟩,
      fun _ => hkc, fun h => absurd h hA⟩
    · unfold omegaStep legacyOmega
      rw [r2' _ (by decide), hno]
      cases k <;> rfl
    · intro e
      exact ho (e ▸ (r3' p hp).1)

end Aihw.Cloud
