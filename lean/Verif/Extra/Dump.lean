import Verif.Extra.Lemmas

/-!
# What the dump contains
-/
namespace Aihw.Extra

theorem dumps_nil {extra : Dict} (hw : WF extra) (p : Key) : Dumps (.ok extra) extra p [] := by
  refine ⟨extra, rfl, hw, fun q => ?_⟩
  cases strip p q <;> rfl

theorem dec_not_mem {L : List Key} (hL : ∀ n ∈ L, ¬ Digits n) (k : Nat) : dec k ∉ L := fun h => hL _ h (dec_digits k)

def driftNames : List Key := [key "active", key "current_t", key "previous_weights", key "w0", key "t", key "nu"]

def Drift.spec (s : Drift) : Dict := [(key "active", [encB s.active]), (key "current_t", [s.curT]), (key "previous_weights", s.prev),
    (key "w0", s.w0), (key "t", s.t), (key "nu", s.nu)]

theorem Drift.dump_ok (o : Order) (s : Drift) {extra : Dict} (hw : WF extra) {B : Key → Prop} (hb : Heads extra B) {p : Key}
    (hd : ∀ h ∈ driftNames, ¬ B h) (hp : NoDot p) (hpn : p ∉ driftNames) : Dumps (s.dump o extra p) extra p s.spec := by
  refine fields_ok o hw s.spec (?_ : List.Nodup driftNames) (A := fun h => h ∈ driftNames) ?_ hb hd hp hpn
  · decide
  · apply heads_fields
    show ∀ x ∈ [head (key "active"), head (key "current_t"), head (key "previous_weights"), head (key "w0"), head (key "t"), head (key "nu")],
      x ∈ driftNames
    decide

def fbKeys : List Key := [key "fwd.v_offset", key "fwd.w_asymmetry", key "fwd.out_nonlinearity", key "fwd.out_nonlinearity_factor",
  key "fwd.out_noise_values", key "bwd.v_offset", key "bwd.w_asymmetry", key "bwd.out_nonlinearity", key "bwd.out_nonlinearity_factor",
  key "bwd.out_noise_values"]

def fbNames : List Key := [key "fwd", key "bwd", key "aux_nm_value"]

def FbPass.spec1 (s : FbPass) : Dict := [(key "fwd.v_offset", s.fwd.vOffset), (key "fwd.w_asymmetry", s.fwd.wAsym),
    (key "fwd.out_nonlinearity", s.fwd.outNl), (key "fwd.out_nonlinearity_factor", [s.fwd.outNlFactor]),
    (key "fwd.out_noise_values", s.fwd.outNoise),
    (key "bwd.v_offset", s.bwd.vOffset), (key "bwd.w_asymmetry", s.bwd.wAsym),
    (key "bwd.out_nonlinearity", s.bwd.outNl), (key "bwd.out_nonlinearity_factor", [s.bwd.outNlFactor]),
    (key "bwd.out_noise_values", s.bwd.outNoise)]

def FbPass.spec (s : FbPass) : Dict := [(key "aux_nm_value", [s.aux])] ++ s.spec1

theorem FbPass.heads1 (s : FbPass) : Heads s.spec1 (fun h => h = key "fwd" ∨ h = key "bwd") := by
  apply heads_fields
  show ∀ x ∈ fbKeys.map head, x = key "fwd" ∨ x = key "bwd"
  decide

theorem FbPass.dump_ok (o : Order) (s : FbPass) {extra : Dict} (hw : WF extra) {B : Key → Prop} (hb : Heads extra B) {p : Key}
    (hd : ∀ h ∈ fbNames, ¬ B h) (hp : NoDot p) (hpn : p ∉ fbNames) : Dumps (s.dump o extra p) extra p s.spec := by
  have hB := hd (key "fwd") (by decide)
  have hB2 := hd (key "bwd") (by decide)
  have hB3 := hd (key "aux_nm_value") (by decide)
  unfold fbNames at hpn
  simp only [List.mem_cons, List.not_mem_nil, or_false, not_or] at hpn
  refine dumps_bind (fields_ok o hw s.spec1 (?_ : List.Nodup fbKeys) (FbPass.heads1 s) hb ?_ hp ?_) ?_
  · decide
  · rintro h (rfl | rfl)
    · exact hB
    · exact hB2
  · rintro (e | e)
    · exact hpn.1 e
    · exact hpn.2.1 e
  · intro e we ge
    refine fields_ok o we [(key "aux_nm_value", [s.aux])] (List.nodup_singleton _) (A := fun h => h = key "aux_nm_value") ?_
      (dumps_heads hp hb ge) ?_ hp (fun e => hpn.2.2 e)
    · apply heads_fields
      show ∀ x ∈ [head (key "aux_nm_value")], x = key "aux_nm_value"
      decide
    · rintro h rfl (h2 | h2)
      · exact hB3 h2
      · exact hpn.2.2 h2.symm

def pwuNames : List Key := [key "containers_allocated", key "d_noz", key "x_noz"]

def Pwu.spec (s : Pwu) : Dict :=
  [(key "containers_allocated", [encB s.alloc]), (key "d_noz", [encI s.dNoz]), (key "x_noz", [encI s.xNoz])]

theorem Pwu.dump_ok (o : Order) (s : Pwu) {extra : Dict} (hw : WF extra) {B : Key → Prop} (hb : Heads extra B) {p : Key}
    (hd : ∀ h ∈ pwuNames, ¬ B h) (hp : NoDot p) (hpn : p ∉ pwuNames) : Dumps (s.dump o extra p) extra p s.spec := by
  refine fields_ok o hw s.spec (?_ : List.Nodup pwuNames) (A := fun h => h ∈ pwuNames) ?_ hb hd hp hpn
  · decide
  · apply heads_fields
    show ∀ x ∈ pwuNames.map head, x ∈ pwuNames
    decide

/-! ## Devices -/

def driftSpec : Option Drift → Dict
  | none => []
  | some s => prefixed (key "wdrifter") s.spec

theorem find_nil (k : Key) : find [] k = none := rfl

/-- A dump into an empty map. -/
theorem dumps_empty {r : Except PyErr Dict} {p : Key} {spec : Dict} (h : Dumps r [] p spec) :
    ∃ e, r = .ok e ∧ WF e ∧ ∀ q, find e q = find (prefixed p spec) q := by
  obtain ⟨e, h1, h2, h3⟩ := h
  refine ⟨e, h1, h2, fun q => ?_⟩
  rw [h3 q, find_prefixed, find_nil, Option.or_none]

theorem dumps_into {r : Except PyErr Dict} {st : Dict} {p : Key} {spec : Dict} (h : Dumps r st p spec) :
    ∃ e, r = .ok e ∧ WF e ∧ ∀ q, find e q = find (prefixed p spec ++ st) q := by
  obtain ⟨e, h1, h2, h3⟩ := h
  refine ⟨e, h1, h2, fun q => ?_⟩
  rw [h3 q, find_append, find_prefixed]

theorem heads_congr {a b : Dict} {S : Key → Prop} (h : ∀ q, find a q = find b q) (hb : Heads b S) : Heads a S :=
  fun k hk => hb k (by rw [← h k]; exact hk)

theorem dumpDrift_ok (o : Order) (d : Option Drift) {extra : Dict} (hw : WF extra) {B : Key → Prop} (hb : Heads extra B) {p : Key}
    (hd : ¬ B (key "wdrifter")) (hp : NoDot p) (hpn : p ≠ key "wdrifter") : Dumps (dumpDrift o d extra p) extra p (driftSpec d) := by
  cases d with
  | none => exact dumps_nil hw p
  | some s =>
    obtain ⟨e, h1, h2, h3⟩ := dumps_empty (s.dump_ok o wf_nil (heads_nil (fun _ => False)) (p := key "wdrifter")
      (fun _ _ h => h) (by decide) (by decide))
    unfold dumpDrift
    show Dumps (s.dump o [] (key "wdrifter") >>= fun st => insertWithPrefix o extra st p) extra p _
    rw [h1, ok_bind']
    exact insert_heads o hw h2 h3 (heads_congr h3 (heads_prefixed (by decide) _)) hb (by rintro h rfl; exact hd) hp hpn

def baseNames : List Key := [key "wdrifter", key "num_states", key "weight_granularity"]

def Base.spec (b : Base) : Dict := [(key "num_states", [b.numStates]), (key "weight_granularity", [b.gran])] ++ driftSpec b.drift

theorem Base.dump_ok (o : Order) (b : Base) {extra : Dict} (hw : WF extra) {B : Key → Prop} (hb : Heads extra B) {p : Key}
    (hd : ∀ h ∈ baseNames, ¬ B h) (hp : NoDot p) (hpn : p ∉ baseNames) : Dumps (b.dump o extra p) extra p b.spec := by
  have hB := hd (key "wdrifter") (by decide)
  have hB2 := hd (key "num_states") (by decide)
  have hB3 := hd (key "weight_granularity") (by decide)
  unfold baseNames at hpn
  simp only [List.mem_cons, List.not_mem_nil, or_false, not_or] at hpn
  refine dumps_bind (dumpDrift_ok o b.drift hw hb hB hp hpn.1) ?_
  intro e we ge
  refine fields_ok o we [(key "num_states", [b.numStates]), (key "weight_granularity", [b.gran])]
    (?_ : List.Nodup [key "num_states", key "weight_granularity"]) (A := fun h => h = key "num_states" ∨ h = key "weight_granularity") ?_
      (dumps_heads hp hb ge) ?_ hp ?_
  · decide
  · apply heads_fields
    show ∀ x ∈ [head (key "num_states"), head (key "weight_granularity")], x = key "num_states" ∨ x = key "weight_granularity"
    decide
  · rintro h (rfl | rfl) (h2 | h2)
    · exact hB2 h2
    · exact hpn.2.1 h2.symm
    · exact hB3 h2
    · exact hpn.2.2 h2.symm
  · rintro (e | e)
    · exact hpn.2.1 e
    · exact hpn.2.2 e

/-- The dump of the devices of a cell, all of them single devices. -/
def subsSpec : List Base → Nat → Dict
  | [], _ => []
  | b :: bs, k => subsSpec bs (k + 1) ++ prefixed (dec k) b.spec

theorem subs_ok (o : Order) (bs : List Base) : ∀ (k : Nat) (st : Dict), WF st → Heads st Digits →
    ∃ e, dumpSubs o (bs.map .leaf) k st = .ok e ∧ WF e ∧ Heads e Digits ∧ ∀ q, find e q = find (subsSpec bs k ++ st) q := by
  induction bs with
  | nil => intro k st hw hh; exact ⟨st, rfl, hw, hh, fun q => rfl⟩
  | cons b bs ih =>
    intro k st hw hh
    have hN : ∀ n ∈ baseNames, ¬ Digits n := by decide
    have hd : Dumps (b.dump o st (dec k)) st (dec k) b.spec :=
      b.dump_ok o hw hh hN (dec_noDot k) (dec_not_mem hN k)
    obtain ⟨e1, a1, a2, a3⟩ := hd
    have hh1 : Heads e1 Digits := heads_mono (dumps_heads (dec_noDot k) hh a3) (by
      rintro x (h | rfl)
      · exact h
      · exact dec_digits k)
    obtain ⟨e2, b1, b2, b3, b4⟩ := ih (k + 1) e1 a2 hh1
    refine ⟨e2, ?_, b2, b3, ?_⟩
    · show (Dev.dump o (.leaf b) st (dec k) >>= fun st => dumpSubs o (bs.map .leaf) (k + 1) st) = _
      have : Dev.dump o (.leaf b) st (dec k) = .ok e1 := by rw [Dev.dump, a1]
      rw [this, ok_bind', b1]
    · intro q
      rw [b4 q, find_append, a3 q]
      show _ = find ((subsSpec bs (k + 1) ++ prefixed (dec k) b.spec) ++ st) q
      rw [find_append, find_append, find_prefixed, Option.or_assoc]

def vecNames : List Key := [key "reduce_weightening", key "current_device_idx", key "current_update_idx"]

def VecSt.spec (v : VecSt) : Dict := [(key "reduce_weightening", v.reduce), (key "current_device_idx", [encI v.devIdx]),
      (key "current_update_idx", [encI v.updIdx])]

def chopNames : List Key := [key "in_chopper", key "out_chopper", key "tmp_count_lr", key "m_x", key "m_d", key "d_sparsity",
  key "transfer_counter"]

def ChopSt.spec (c : ChopSt) : Dict := [(key "in_chopper", c.inChop.map encB), (key "out_chopper", c.outChop.map encB),
    (key "tmp_count_lr", [c.countLr]), (key "m_x", [c.mX]), (key "m_d", [c.mD]), (key "d_sparsity", [c.dSparsity]),
    (key "transfer_counter", [encI c.counter])]

theorem ChopSt.dump_ok (o : Order) (s : ChopSt) {extra : Dict} (hw : WF extra) {B : Key → Prop} (hb : Heads extra B) {p : Key}
    (hd : ∀ h ∈ chopNames, ¬ B h) (hp : NoDot p) (hpn : p ∉ chopNames) : Dumps (s.dump o extra p) extra p s.spec := by
  refine fields_ok o hw s.spec (?_ : List.Nodup chopNames) (A := fun h => h ∈ chopNames) ?_ hb hd hp hpn
  · decide
  · apply heads_fields
    show ∀ x ∈ chopNames.map head, x ∈ chopNames
    decide

def dynNames : List Key := [key "in_chopper_switched", key "count_lr_scale", key "feedback_data", key "feedback_data_idx"]

def DynSt.spec (s : DynSt) : Dict := [(key "in_chopper_switched", s.switched.map encB), (key "count_lr_scale", [s.countLrScale]),
    (key "feedback_data", s.feedback), (key "feedback_data_idx", [encI s.feedbackIdx])]

theorem DynSt.dump_ok (o : Order) (s : DynSt) {extra : Dict} (hw : WF extra) {B : Key → Prop} (hb : Heads extra B) {p : Key}
    (hd : ∀ h ∈ dynNames, ¬ B h) (hp : NoDot p) (hpn : p ∉ dynNames) : Dumps (s.dump o extra p) extra p s.spec := by
  refine fields_ok o hw s.spec (?_ : List.Nodup dynNames) (A := fun h => h ∈ dynNames) ?_ hb hd hp hpn
  · decide
  · apply heads_fields
    show ∀ x ∈ dynNames.map head, x ∈ dynNames
    decide

def optSpec {α : Type} (f : α → Dict) : Option α → Dict
  | none => []
  | some a => f a

/-- Names of the transfer layer. -/
def transNames : List Key := [key "current_slice_indices", key "transfer_every", key "transfer_fb_pass", key "transfer_pwu"]

def TransSt.fields (t : TransSt) : Dict := [(key "current_slice_indices", t.slices.map encI), (key "transfer_every", t.every)]

/-- The transfer layer. -/
def TransSt.own (t : TransSt) : Dict := prefixed (key "transfer_pwu") t.pwu.spec ++ (prefixed (key "transfer_fb_pass") t.fb.spec ++ t.fields)

def TransSt.spec (t : TransSt) : Dict := optSpec DynSt.spec t.dyn ++ (optSpec ChopSt.spec t.chop ++ t.own)

theorem TransSt.fields_heads (t : TransSt) : Heads t.fields (fun h => h ∈ transNames) := by
  apply heads_fields
  show ∀ x ∈ [head (key "current_slice_indices"), head (key "transfer_every")], x ∈ transNames
  decide

theorem TransSt.own_heads (t : TransSt) : Heads t.own (fun h => h ∈ transNames) := by
  apply heads_append
  · exact heads_mono (heads_prefixed (by decide) _) (by rintro k rfl; decide)
  · apply heads_append
    · exact heads_mono (heads_prefixed (by decide) _) (by rintro k rfl; decide)
    · exact t.fields_heads

theorem TransSt.dump_ok (o : Order) (t : TransSt) {extra : Dict} (hw : WF extra) {B : Key → Prop} (hb : Heads extra B) {p : Key}
    (hd : ∀ h ∈ transNames ++ chopNames ++ dynNames, ¬ B h) (hp : NoDot p) (hpn : p ∉ transNames ++ chopNames ++ dynNames) :
    Dumps (t.dump o extra p) extra p t.spec := by
  simp only [List.mem_append, not_or] at hpn
  have hd1 : ∀ h ∈ transNames, ¬ B h := fun h hh => hd h (by simp [hh])
  have hd2 : ∀ h ∈ chopNames, ¬ B h := fun h hh => hd h (by simp [hh])
  have hd3 : ∀ h ∈ dynNames, ¬ B h := fun h hh => hd h (by simp [hh])
  obtain ⟨f1, f2⟩ := fill_spec t.fields [] wf_nil
  have f3 : ∀ q, find (fill [] t.fields) q = find t.fields q := by
    intro q
    rw [f2 (by show List.Nodup [key "current_slice_indices", key "transfer_every"]; decide) q, find_nil, Option.or_none]
  have fh : Heads (fill [] t.fields) (fun h => h ∈ transNames) := heads_congr f3 t.fields_heads
  obtain ⟨e1, a1, a2, a3⟩ := t.fb.dump_ok o f1 (heads_congr f3 (show Heads t.fields (fun h => h = key "current_slice_indices" ∨
      h = key "transfer_every") by
        apply heads_fields
        show ∀ x ∈ [head (key "current_slice_indices"), head (key "transfer_every")], _
        decide)) (p := key "transfer_fb_pass") (by decide) (by decide) (by decide)
  have a4 : ∀ q, find e1 q = find (prefixed (key "transfer_fb_pass") t.fb.spec ++ t.fields) q := by
    intro q; rw [a3 q, find_append, find_prefixed, f3]
  have h1 : Heads e1 (fun h => h = key "transfer_fb_pass" ∨ h = key "current_slice_indices" ∨ h = key "transfer_every") := by
    refine heads_congr a4 ?_
    apply heads_append
    · exact heads_mono (heads_prefixed (by decide) _) (fun k hk => Or.inl hk)
    · apply heads_fields
      show ∀ x ∈ [head (key "current_slice_indices"), head (key "transfer_every")], _
      decide
  obtain ⟨e2, b1, b2, b3⟩ := t.pwu.dump_ok o a2 h1 (p := key "transfer_pwu") (by decide) (by decide) (by decide)
  have b4 : ∀ q, find e2 q = find t.own q := by
    intro q
    unfold TransSt.own
    rw [b3 q, find_append, find_prefixed, a4]
  have e : t.dump o extra p = (insertWithPrefix o extra e2 p >>= fun extra =>
      (dumpOpt (fun c e q => ChopSt.dump o c e q) t.chop extra p >>= fun extra => dumpOpt (fun c e q => DynSt.dump o c e q) t.dyn extra p)) := by
    unfold TransSt.dump
    have a1' : t.fb.dump o (fill [] [(key "current_slice_indices", t.slices.map encI), (key "transfer_every", t.every)])
      (key "transfer_fb_pass") = .ok e1 := a1
    simp only [a1', ok_bind', b1]
  rw [e]
  unfold TransSt.spec
  have key1 : Dumps (insertWithPrefix o extra e2 p) extra p t.own :=
    insert_heads o hw b2 b4 (heads_congr b4 t.own_heads) hb hd1 hp hpn.1.1
  rw [← bind_assoc]
  refine dumps_bind (dumps_bind key1 ?_) ?_
  · intro x wx gx
    cases hc : t.chop with
    | none => exact dumps_nil wx p
    | some c =>
      refine c.dump_ok o wx (dumps_heads hp hb gx) ?_ hp hpn.1.2
      rintro h hh (h2 | h2)
      · exact hd2 h hh h2
      · rw [h2] at hh; exact hpn.1.2 hh
  · intro x wx gx
    cases hc : t.dyn with
    | none => exact dumps_nil wx p
    | some c =>
      refine c.dump_ok o wx (dumps_heads hp hb gx) ?_ hp hpn.2
      rintro h hh (h2 | h2)
      · exact hd3 h hh h2
      · rw [h2] at hh; exact hpn.2 hh

/-- All names at the top level of a cell. -/
def CellHead (h : Key) : Prop := Digits h ∨ h ∈ baseNames ++ vecNames ++ transNames ++ chopNames ++ dynNames

instance (h : Key) : Decidable (CellHead h) := by unfold CellHead; infer_instance

/-- The vector layer. -/
def cellOwn (bs : List Base) (v : VecSt) : Dict := v.spec ++ subsSpec bs 0

def cellSpec (b : Base) (bs : List Base) (v : VecSt) (t : Option TransSt) : Dict := optSpec TransSt.spec t ++ (cellOwn bs v ++ b.spec)

theorem cell_ok (o : Order) (b : Base) (bs : List Base) (v : VecSt) (t : Option TransSt) {extra : Dict} (hw : WF extra) {B : Key → Prop}
    (hb : Heads extra B) {p : Key} (hd : ∀ h, CellHead h → ¬ B h) (hp : NoDot p) (hpn : ¬ CellHead p) :
    Dumps (Dev.dump o (.cell b (bs.map .leaf) v t) extra p) extra p (cellSpec b bs v t) := by
  unfold CellHead at hpn
  simp only [List.mem_append, not_or] at hpn
  obtain ⟨hp0, ⟨⟨⟨hp1, hp2⟩, hp3⟩, hp4⟩, hp5⟩ := hpn
  have hin : ∀ h, h ∈ baseNames ++ vecNames ++ transNames ++ chopNames ++ dynNames → ¬ B h := fun h hh => hd h (Or.inr hh)
  obtain ⟨s1, c1, c2, c3, c4⟩ := subs_ok o bs 0 [] wf_nil (heads_nil _)
  obtain ⟨f1, f2⟩ := fill_spec v.spec s1 c2
  have f3 : ∀ q, find (fill s1 v.spec) q = find (cellOwn bs v) q := by
    intro q
    unfold cellOwn
    rw [f2 (by show List.Nodup vecNames; decide) q, c4 q, List.append_nil, find_append]
  have own_heads : Heads (fill s1 v.spec) (fun h => Digits h ∨ h ∈ vecNames) := by
    intro k hk
    rw [f2 (by show List.Nodup vecNames; decide) k] at hk
    cases hf : find v.spec k with
    | none => rw [hf] at hk; exact Or.inl (c3 k hk)
    | some x =>
      right
      have : Heads v.spec (fun h => h ∈ vecNames) := by
        apply heads_fields
        show ∀ x ∈ vecNames.map head, x ∈ vecNames
        decide
      exact this k (by rw [hf]; rfl)
  have e : Dev.dump o (.cell b (bs.map .leaf) v t) extra p = ((b.dump o extra p >>= fun extra => insertWithPrefix o extra (fill s1 v.spec) p)
      >>= fun extra => dumpOpt (fun s e q => TransSt.dump o s e q) t extra p) := by
    rw [Dev.dump]
    simp only [c1, ok_bind', bind_assoc]
    rfl
  rw [e]
  unfold cellSpec
  refine dumps_bind (dumps_bind (b.dump_ok o hw hb (fun h hh => hin h (by simp [hh])) hp hp1) ?_) ?_
  · intro x wx gx
    refine insert_heads o wx f1 f3 own_heads (dumps_heads hp hb gx) ?_ hp ?_
    · rintro h hh (h2 | h2)
      · rcases hh with hh | hh
        · exact hd h (Or.inl hh) h2
        · exact hin h (by simp [hh]) h2
      · rw [h2] at hh
        rcases hh with hh | hh
        · exact hp0 hh
        · exact hp2 hh
    · rintro (hh | hh)
      · exact hp0 hh
      · exact hp2 hh
  · intro x wx gx
    cases t with
    | none => exact dumps_nil wx p
    | some s =>
      refine s.dump_ok o wx (dumps_heads hp hb gx) ?_ hp ?_
      · rintro h hh (h2 | h2)
        · exact hin h (by simp only [List.mem_append] at hh ⊢; tauto) h2
        · rw [h2] at hh
          simp only [List.mem_append] at hh
          tauto
      · simp only [List.mem_append]; tauto

end Aihw.Extra
