import Verif.Cloud.Layer

/-! # One item of the network: writing and reading (C79, C80) -/
namespace Aihw.Cloud
open Aihw

/-- The one way in which the constructor of a written layer can fail: `AnalogConv2dMapped` with bias and
a configuration without digital bias. -/
def Refused (o : Obj) (cfg : Option Cfg) : Prop :=
  o.cls = .analogConv2dMapped ∧ writesBias o = true ∧ ∃ c, cfg = some c ∧ c.digitalBias = false

theorem checks_eq {f32 : ℚ → ℚ} {k : Kind} {args : List (String × Ty)} {o : Obj} {l : List Attr} {kw : Kw}
    (F : Facts k o.cls args) (hw : Written (layerAttr f32 k o) args l) (R : ReadKw args l kw kw.cfg)
    (cfg : Option Cfg) :
    (Refused o cfg → checks o.cls kw.plain cfg = .error (.py .analogBias)) ∧
      (¬ Refused o cfg → checks o.cls kw.plain cfg = .ok ()) := by
  have hNamed := written_named layerAttr_name hw
  have none_of : ∀ n, n ∉ args.map (·.1) → n ≠ "rpu_config" → n ≠ "weight_scaling_omega" →
      get kw.plain n = none := by
    intro n h h1 h2
    rw [R.get n h1 h2, get_none_of_not_mem h]
    cases named l n <;> rfl
  have hg := none_of "groups" F.nogroups.1 (by decide) (by decide)
  have hp := none_of "padding_mode" F.nogroups.2 (by decide) (by decide)
  have h1 : ¬ ((o.cls = .analogConv2d ∨ o.cls = .analogConv2dMapped) ∧
      ((get kw.plain "groups").getD (.int 1) ≠ .int 1 ∨
        (get kw.plain "padding_mode").getD (.str "zeros") ≠ .str "zeros")) := by
    rw [hg, hp]
    simp
  have key : (o.cls = .analogConv2dMapped ∧ truthy ((get kw.plain "bias").getD (.bool true)) = true ∧
      (cfg.map (·.digitalBias)) = some false) ↔ Refused o cfg := by
    constructor
    · rintro ⟨h, hb, hc⟩
      refine ⟨h, ?_, ?_⟩
      · have hbF := F.bias
        rw [h] at hbF
        rw [if_pos (by rfl)] at hbF
        have hga := get_of_mem F.nodup hbF.1
        rcases hNamed "bias" with ⟨h', _⟩ | ⟨ty, a, h1, h2, h3⟩
        · rw [hga] at h'; cases h'
        · rw [hga] at h1; cases h1
          rw [R.get _ (by decide) (by decide), h2, hga] at hb
          obtain ⟨v, hv, hs⟩ := layerAttr_ok h3
          unfold layerField at hv
          rw [if_pos rfl] at hv
          cases hv
          have := (store_ok hs).2.1 (by decide)
          rcases this with ⟨b, e1, e2⟩ | ⟨i, e1, _⟩
          · simp only [Option.bind_some, Option.map_some, Option.getD_some] at hb
            rw [e2] at hb
            cases e1
            exact hb
          · cases e1
      · cases cfg with
        | none => cases hc
        | some c => exact ⟨c, rfl, by simpa using hc⟩
    · rintro ⟨h, hb, c, rfl, hc⟩
      refine ⟨h, ?_, by simp [hc]⟩
      have hbF := F.bias
      rw [h] at hbF
      rw [if_pos (by rfl)] at hbF
      have hga := get_of_mem F.nodup hbF.1
      rcases hNamed "bias" with ⟨h', _⟩ | ⟨ty, a, h1, h2, h3⟩
      · rw [hga] at h'; cases h'
      · rw [hga] at h1; cases h1
        rw [R.get _ (by decide) (by decide), h2, hga]
        obtain ⟨v, hv, hs⟩ := layerAttr_ok h3
        unfold layerField at hv
        rw [if_pos rfl] at hv
        cases hv
        have := (store_ok hs).2.1 (by decide)
        rcases this with ⟨b, e1, e2⟩ | ⟨i, e1, _⟩
        · simp only [Option.bind_some, Option.map_some, Option.getD_some]
          rw [e2]
          cases e1
          exact hb
        · cases e1
  unfold checks
  rw [if_neg h1]
  constructor
  · intro h; rw [if_pos (key.mpr h)]
  · intro h; rw [if_neg (fun h' => h (key.mp h'))]

theorem make_reloaded {f32 : ℚ → ℚ} {dflt : String → Cfg} {k : Kind} {args : List (String × Ty)} {o : Obj}
    {l : List Attr} {kw : Kw} (F : Facts k o.cls args) (hw : Written (layerAttr f32 k o) args l)
    (R : ReadKw args l kw kw.cfg) (hc : kw.cfg.isSome = o.cls.isAnalog) :
    (Refused o kw.cfg → make dflt o.cls kw.plain kw.cfg = .error (.py .analogBias)) ∧
      (¬ Refused o kw.cfg → ∃ o', make dflt o.cls kw.plain kw.cfg = .ok o' ∧ Reloaded f32 o o' kw.cfg) := by
  have hNamed := written_named layerAttr_name hw
  have hunk : ¬ unknownArg o.cls kw.plain kw.cfg := by
    rintro (⟨p, hp, hn⟩ | ⟨h1, h2⟩)
    · obtain ⟨h1, h2, h3⟩ := R.mem p hp
      obtain ⟨q, hq, e⟩ := List.mem_map.mp h1
      exact hn (e ▸ F.insig q hq (by rw [e]; exact h2) (by rw [e]; exact h3))
    · rw [hc, h2] at h1; cases h1
  have hcfg : cfgArg dflt o.cls kw.cfg = kw.cfg := by
    unfold cfgArg
    cases hk : kw.cfg with
    | none =>
      rw [hk] at hc
      have : o.cls.isAnalog = false := by rw [← hc]; rfl
      rw [this]; rfl
    | some c =>
      rw [hk] at hc
      have : o.cls.isAnalog = true := by rw [← hc]; rfl
      rw [this]; rfl
  -- carried attributes among the arguments
  have hcar : ∀ n ty, (n, ty) ∈ carried o.cls → ∃ v a, get o.attrs n = some v ∧
      get kw.plain n = some (load ty a) ∧ Survives f32 ty v (load ty a) := by
    intro n ty h
    obtain ⟨c1, c2, c3, c4, c5, c6, c7⟩ := F.carriedArgs _ h
    have hga := get_of_mem F.nodup c1
    rcases hNamed n with ⟨h', _⟩ | ⟨ty', a, h1, h2, h3⟩
    · rw [hga] at h'; cases h'
    · rw [hga] at h1; cases h1
      obtain ⟨v, hv, hs⟩ := layerAttr_ok h3
      rw [layerField_plain k o c2 c3 c4] at hv
      cases hv
      have hS := (store_ok hs).2.1 c7
      cases hg : get o.attrs n with
      | none =>
        exfalso
        have e : plainField o n = .none := by simp [plainField, hg]
        rw [e] at hS
        cases ty <;> simp [Survives] at hS c7
      | some v =>
        have e : plainField o n = v := by simp [plainField, hg]
        rw [e] at hS
        exact ⟨v, a, rfl, by rw [R.get n c3 c4, h2, hga]; rfl, hS⟩
  obtain ⟨a, ha⟩ := attrs_total o.cls kw.plain (sig o.cls) (by
    intro p hp hnone
    obtain ⟨q, hq, e⟩ := List.mem_map.mp (F.required p hp hnone)
    obtain ⟨_, b, _, h, _⟩ := hcar q.1 q.2 hq
    exact ⟨_, e ▸ h⟩)
  have hget := attrs_get ha
  -- no change by the pool rule
  have hpool : poolStride o.cls a = a := by
    unfold poolStride
    rw [if_neg]
    rintro ⟨h1, h2⟩
    obtain ⟨v, b, _, h3, _⟩ := hcar "stride" .int (F.pool h1)
    rw [hget, h3, h1] at h2
    revert h2
    simp [sig, get, norm, isPair, load, List.find?]
  obtain ⟨hr1, hr2⟩ := checks_eq F hw R kw.cfg
  constructor
  · intro h
    unfold make
    rw [if_neg hunk, ha, hcfg]
    simp only [bind, Except.bind]
    rw [hr1 h]
  · intro h
    refine ⟨⟨o.cls, a, kw.cfg⟩, ?_, rfl, ?_, ?_, ?_, rfl⟩
    · unfold make
      rw [if_neg hunk, ha, hcfg]
      simp only [bind, Except.bind]
      rw [hr2 h, hpool]
    · intro n ty hm
      obtain ⟨c1, c2, c3, c4, c5, c6, c7⟩ := F.carriedArgs _ hm
      obtain ⟨v, b, h1, h2, h3⟩ := hcar n ty hm
      refine ⟨v, load ty b, h1, ?_, h3⟩
      obtain ⟨d, hd⟩ := get_some_of_mem c5
      show get a n = _
      rw [hget n, hd, h2]
      simp [norm_carried c2 c6]
    · intro hb
      have hbF := F.bias
      rw [if_pos hb] at hbF
      have hga := get_of_mem F.nodup hbF.1
      obtain ⟨d, hd⟩ := get_some_of_mem hbF.2
      show get a "bias" = _
      rcases hNamed "bias" with ⟨h', _⟩ | ⟨ty, b, h1, h2, h3⟩
      · rw [hga] at h'; cases h'
      · rw [hga] at h1; cases h1
        obtain ⟨v, hv, hs⟩ := layerAttr_ok h3
        unfold layerField at hv
        rw [if_pos rfl] at hv
        cases hv
        have hS := (store_ok hs).2.1 (by decide)
        rw [hget "bias", hd, R.get _ (by decide) (by decide), h2, hga]
        rcases hS with ⟨b', e1, e2⟩ | ⟨i, e1, _⟩
        · simp only [Option.bind_some, Option.map_some]
          rw [e2]
          cases e1
          show some (norm o.cls "bias" _) = _
          unfold norm
          rw [if_pos rfl]
          rfl
        · cases e1
    · intro n hn hb
      show get a n = _
      rw [hget n]
      unfold defaultAttr
      cases hs : get (sig o.cls) n with
      | none => rfl
      | some d =>
        have hsp := F.notspecial _ (mem_of_get hs)
        have : get kw.plain n = none := by
          rw [R.get n hsp.1 hsp.2]
          have : get args n = none := by
            apply get_none_of_not_mem
            intro hm
            obtain ⟨q, hq, e⟩ := List.mem_map.mp hm
            rcases F.others q hq with h' | ⟨h', h''⟩ | h' | h'
            · exact hn (List.mem_map.mpr ⟨q, h', e⟩)
            · exact hb h'' (e ▸ h')
            · exact hsp.1 (e ▸ h')
            · exact hsp.2 (e ▸ h')
          rw [this]
          cases named l n <;> rfl
        rw [this]
        simp

/-! ## Items -/

theorem inverse_layer {k : Kind} {c : Cls} {args : List (String × Ty)} (h : layerArgs k c = some args) :
    inverse (layerArgs k) c.id = some c := by
  cases k <;> cases c <;> first
    | rfl
    | (simp [layerArgs] at h; done)

theorem inverse_act {c : Cls} {args : List (String × Ty)} (h : actArgs c = some args) :
    inverse actArgs c.id = some c := by
  cases c <;> first
    | rfl
    | (simp [actArgs] at h; done)

theorem act_plain {c : Cls} {args : List (String × Ty)} (h : actArgs c = some args) :
    ∀ p ∈ args, p.1 ≠ "bias" ∧ p.1 ≠ "rpu_config" ∧ p.1 ≠ "weight_scaling_omega" := by
  cases c <;> first
    | (simp only [actArgs, reduceCtorEq] at h; done)
    | (simp only [actArgs, Option.some.injEq] at h; subst h; decide)

theorem plain_written {f32 : ℚ → ℚ} {k : Kind} {o : Obj} {args : List (String × Ty)} {l : List Attr}
    (hp : ∀ p ∈ args, p.1 ≠ "bias" ∧ p.1 ≠ "rpu_config" ∧ p.1 ≠ "weight_scaling_omega")
    (hf : List.Forall₂ (fun p a => store f32 p.1 p.2 (plainField o p.1) = .ok a) args l) :
    Written (layerAttr f32 k o) args l := by
  unfold Written
  induction hf with
  | nil => exact .nil
  | @cons p a args l h1 _ ih =>
    refine .cons ?_ (ih fun q hq => hp q (by simp [hq]))
    obtain ⟨h2, h3, h4⟩ := hp p (by simp)
    unfold layerAttr
    rw [layerField_plain k o h2 h3 h4]
    exact h1

theorem item_written {f32 : ℚ → ℚ} {k : Kind} {o : Obj} {it : Item} (h : itemOf f32 k o = .ok it) :
    ∃ args l, (layerArgs k o.cls = some args ∨ actArgs o.cls = some args) ∧
      Written (layerAttr f32 k o) args l ∧
      ∀ dflt mk, itemFromProto dflt k mk it = objFromProto dflt k mk args o.cls l := by
  unfold itemOf at h
  cases hl : layerArgs k o.cls with
  | some args =>
    rw [hl] at h
    simp only [layerToProto] at h
    cases hm : args.mapM (layerAttr f32 k o) with
    | error e => rw [hm] at h; cases h
    | ok l =>
      rw [hm] at h
      cases h
      refine ⟨args, l, .inl rfl, mapM_forall₂ hm, fun dflt mk => ?_⟩
      simp only [itemFromProto, inverse_layer hl, hl, Option.getD_some]
  | none =>
    rw [hl] at h
    simp only at h
    cases ha : actArgs o.cls with
    | none => rw [ha] at h; cases h
    | some args =>
      rw [ha] at h
      simp only [actToProto] at h
      cases hm : args.mapM (fun p => store f32 p.1 p.2 (plainField o p.1)) with
      | error e => rw [hm] at h; cases h
      | ok l =>
        rw [hm] at h
        cases h
        refine ⟨args, l, .inr rfl, ?_, fun dflt mk => ?_⟩
        · exact plain_written (act_plain ha) (mapM_forall₂ hm)
        · simp only [itemFromProto, inverse_act ha, ha, Option.getD_some]

/-- Reading a written layer. -/
theorem item_reload {f32 : ℚ → ℚ} {dflt : String → Cfg} {k : Kind} {mk : MkCfg} {o : Obj} {it : Item}
    (h : itemOf f32 k o = .ok it) :
    (o.cls.isAnalog = false → ∃ o', itemFromProto dflt k mk it = .ok o' ∧ Reloaded f32 o o' none) ∧
    (o.cls.isAnalog = true → ∃ d s, o.cfg = some d ∧ d.cls = .known s ∧ s ∈ presets k ∧
      (∀ e, mk s = .error e → itemFromProto dflt k mk it = .error e) ∧
      (∀ c, mk s = .ok c →
        (Refused o (some c) → itemFromProto dflt k mk it = .error (.py .analogBias)) ∧
        (¬ Refused o (some c) → ∃ o', itemFromProto dflt k mk it = .ok o' ∧
          Reloaded f32 o o' (some (afterCfg f32 k o c))))) := by
  obtain ⟨args, l, hargs, hw, hread⟩ := item_written h
  have F := facts hargs
  rw [hread]
  constructor
  · intro hA
    obtain ⟨kw, kw', r1, r2, R, r3, _⟩ := read_ok (mk := mk) F hw (fun h => by rw [hA] at h; cases h)
    have hc := r3 hA
    have hR := (make_reloaded (dflt := dflt) F hw R (by rw [hc, hA]; rfl)).2 (by
      rintro ⟨h1, _⟩
      rw [h1] at hA
      cases hA)
    obtain ⟨o', h1, h2⟩ := hR
    refine ⟨o', ?_, hc ▸ h2⟩
    unfold objFromProto
    rw [r1]
    simp only [bind, Except.bind, r2]
    exact h1
  · intro hA
    have hrp := F.rpu
    rw [if_pos hA] at hrp
    have hg := get_of_mem F.nodup hrp
    obtain ⟨ra, hra1, hra2⟩ : ∃ a, named l "rpu_config" = some a ∧
        layerAttr f32 k o ("rpu_config", .str) = .ok a := by
      rcases written_named layerAttr_name hw "rpu_config" with ⟨h, _⟩ | ⟨ty, a', h1, h2, h3⟩
      · rw [hg] at h; cases h
      · rw [hg] at h1; cases h1; exact ⟨a', h2, h3⟩
    obtain ⟨d, hd1, hd2, hd3⟩ := cfg_written hra2
    refine ⟨d, ra.s, hd1, hd2, hd3, fun e he => ?_, fun c hc => ?_⟩
    · unfold objFromProto
      rw [readArgs_error k mk args l ?_ hra1 he]
      · rfl
      · intro a ha
        rw [← written_names layerAttr_name hw]
        exact List.mem_map.mpr ⟨a, ha, rfl⟩
    · obtain ⟨kw, kw', r1, r2, R, _, r4⟩ := read_ok (mk := mk) F hw (fun _ => ⟨c, fun d' s' h1 h2 => by
        rw [hd1] at h1; cases h1
        rw [hd2] at h2; cases h2
        exact hc⟩)
      have hk := r4 hA c d _ hd1 hd2 hc
      have hdb : (afterCfg f32 k o c).digitalBias = c.digitalBias := by
        unfold afterCfg
        cases k <;> rfl
      have hiff : Refused o kw'.cfg ↔ Refused o (some c) := by
        rw [hk]
        constructor <;> rintro ⟨h1, h2, c', h3, h4⟩ <;> cases h3
        · exact ⟨h1, h2, c, rfl, hdb ▸ h4⟩
        · exact ⟨h1, h2, _, rfl, hdb.trans h4⟩
      obtain ⟨m1, m2⟩ := make_reloaded (dflt := dflt) F hw R (by rw [hk, hA]; rfl)
      have hobj : objFromProto dflt k mk args o.cls l = make dflt o.cls kw'.plain kw'.cfg := by
        unfold objFromProto
        rw [r1]
        simp only [bind, Except.bind, r2]
      rw [hobj]
      refine ⟨fun hr => m1 (hiff.mpr hr), fun hr => ?_⟩
      obtain ⟨o', h1, h2⟩ := m2 (fun h => hr (hiff.mp h))
      exact ⟨o', h1, hk ▸ h2⟩

end Aihw.Cloud
