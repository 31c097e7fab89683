import Verif.Extra.Dump

/-!
# What the dump contains: whole devices and tiles
-/
namespace Aihw.Extra

/-- The own parameters of a device. -/
def Dev.base : Dev → Base
  | .leaf b => b
  | .cell b _ _ _ => b

/-- Cells contain single devices only. -/
def Dev.Flat : Dev → Prop
  | .leaf _ => True
  | .cell _ subs _ _ => ∀ d ∈ subs, ∃ b, d = .leaf b

def Dev.trans : Dev → Option TransSt
  | .leaf _ => none
  | .cell _ _ _ t => t

def Dev.spec : Dev → Dict
  | .leaf b => b.spec
  | .cell b subs v t => cellSpec b (subs.map Dev.base) v t

theorem flat_subs {subs : List Dev} (h : ∀ d ∈ subs, ∃ b, d = Dev.leaf b) : subs = (subs.map Dev.base).map Dev.leaf := by
  induction subs with
  | nil => rfl
  | cons d ds ih =>
    obtain ⟨b, rfl⟩ := h d List.mem_cons_self
    rw [List.map_cons, List.map_cons, ← ih (fun d hd => h d (List.mem_cons_of_mem _ hd))]
    rfl

theorem Dev.dump_ok (o : Order) (d : Dev) (hf : d.Flat) {extra : Dict} (hw : WF extra) {B : Key → Prop}
    (hb : Heads extra B) {p : Key} (hd : ∀ h, CellHead h → ¬ B h) (hp : NoDot p) (hpn : ¬ CellHead p) :
    Dumps (Dev.dump o d extra p) extra p d.spec := by
  cases d with
  | leaf b =>
    rw [Dev.dump]
    refine b.dump_ok o hw hb (fun h hh => hd h (Or.inr (by simp [hh]))) hp (fun hh => hpn (Or.inr (by simp [hh])))
  | cell b subs v t =>
    have e := flat_subs hf
    rw [e]
    have : (Dev.cell b ((subs.map Dev.base).map Dev.leaf) v t).spec = cellSpec b (subs.map Dev.base) v t := by
      show cellSpec b _ v t = _
      rw [← e]
    rw [this]
    exact cell_ok o b _ v t hw hb hd hp hpn

/-! ## Names -/

theorem driftSpec_heads (d : Option Drift) : Heads (driftSpec d) (fun h => h = key "wdrifter") := by
  cases d with
  | none => exact heads_nil _
  | some s => exact heads_prefixed (by decide) _

theorem Base.heads (b : Base) : Heads b.spec (fun h => h ∈ baseNames) := by
  apply heads_append
  · apply heads_fields
    show ∀ x ∈ [head (key "num_states"), head (key "weight_granularity")], _
    decide
  · exact heads_mono (driftSpec_heads _) (by rintro k rfl; decide)

theorem subsSpec_heads (bs : List Base) : ∀ k, Heads (subsSpec bs k) Digits := by
  induction bs with
  | nil => intro k; exact heads_nil _
  | cons b bs ih =>
    intro k
    refine heads_append (ih _) (heads_mono (heads_prefixed (dec_noDot k) _) ?_)
    rintro x rfl
    exact dec_digits k

theorem VecSt.heads (v : VecSt) : Heads v.spec (fun h => h ∈ vecNames) := by
  apply heads_fields
  show ∀ x ∈ vecNames.map head, x ∈ vecNames
  decide

theorem ChopSt.heads (v : ChopSt) : Heads v.spec (fun h => h ∈ chopNames) := by
  apply heads_fields
  show ∀ x ∈ chopNames.map head, x ∈ chopNames
  decide

theorem DynSt.heads (v : DynSt) : Heads v.spec (fun h => h ∈ dynNames) := by
  apply heads_fields
  show ∀ x ∈ dynNames.map head, x ∈ dynNames
  decide

theorem heads_opt {α : Type} (f : α → Dict) (a : Option α) {S : Key → Prop} (h : ∀ a, Heads (f a) S) : Heads (optSpec f a) S := by
  cases a with
  | none => exact heads_nil _
  | some a => exact h a

theorem TransSt.heads (t : TransSt) : Heads t.spec (fun h => h ∈ transNames ++ chopNames ++ dynNames) := by
  refine heads_append (heads_opt _ _ fun a => heads_mono a.heads (by intro k hk; simp [hk])) ?_
  refine heads_append (heads_opt _ _ fun a => heads_mono a.heads (by intro k hk; simp [hk])) ?_
  exact heads_mono t.own_heads (by intro k hk; simp [hk])

/-- Names of a device without transfer. -/
def PlainHead (h : Key) : Prop := Digits h ∨ h ∈ baseNames ++ vecNames

instance (h : Key) : Decidable (PlainHead h) := by unfold PlainHead; infer_instance

theorem cellOwn_heads (bs : List Base) (v : VecSt) : Heads (cellOwn bs v) (fun h => Digits h ∨ h ∈ vecNames) :=
  heads_append (heads_mono v.heads fun _ h => Or.inr h) (heads_mono (subsSpec_heads _ _) fun _ h => Or.inl h)

theorem Dev.heads_plain (d : Dev) (h : d.trans = none) : Heads d.spec PlainHead := by
  cases d with
  | leaf b => exact heads_mono b.heads (fun k hk => Or.inr (by simp [hk]))
  | cell b subs v t =>
    cases (show t = none from h)
    refine heads_append (heads_nil _) (heads_append (heads_mono (cellOwn_heads _ _) ?_) (heads_mono b.heads (fun k hk => Or.inr (by simp [hk]))))
    rintro k (hk | hk)
    · exact Or.inl hk
    · exact Or.inr (by simp [hk])

theorem plain_cell {h : Key} (hh : PlainHead h) : CellHead h := by
  rcases hh with hh | hh
  · exact Or.inl hh
  · exact Or.inr (by simp only [List.mem_append] at hh ⊢; tauto)

theorem Dev.heads (d : Dev) : Heads d.spec CellHead := by
  cases d with
  | leaf b => exact heads_mono b.heads (fun k hk => Or.inr (by simp [hk]))
  | cell b subs v t =>
    refine heads_append (heads_opt _ _ fun a => heads_mono a.heads ?_) (heads_append (heads_mono (cellOwn_heads _ _) ?_)
      (heads_mono b.heads (fun k hk => Or.inr (by simp [hk]))))
    · intro k hk
      exact Or.inr (by simp only [List.mem_append] at hk ⊢; tauto)
    · rintro k (hk | hk)
      · exact Or.inl hk
      · exact Or.inr (by simp [hk])

/-! ## Tile device -/

def MixSt.fields (m : MixSt) : Dict := [(key "granularity", [m.gran]), (key "transfer_tmp", m.tmp), (key "current_row_index", [encI m.row]),
      (key "current_update_index", [encI m.upd]), (key "avg_sparsity", [m.sparsity])]

def mixFieldNames : List Key := [key "granularity", key "transfer_tmp", key "current_row_index", key "current_update_index", key "avg_sparsity"]

def intNames : List Key := [key "md", key "mx"]

def intSpec (i : ℚ × ℚ) : Dict := [(key "md", [i.1]), (key "mx", [i.2])]

def mixOwn (d : Dev) (m : MixSt) : Dict := m.fields ++ (prefixed (key "transfer_pwu") m.pwu.spec ++ prefixed (key "rpu_device") d.spec)

def Top.spec : Top → Dict
  | .simple dr => driftSpec dr
  | .pulsed d => d.spec
  | .mixed d m => optSpec intSpec m.int ++ mixOwn d m

/-- No cell inside a cell; mixed precision not around a transfer device. -/
def Top.Plain : Top → Prop
  | .simple _ => True
  | .pulsed d => d.Flat
  | .mixed d _ => d.Flat ∧ d.trans = none

theorem MixSt.heads (m : MixSt) : Heads m.fields (fun h => h ∈ mixFieldNames) := by
  apply heads_fields
  show ∀ x ∈ mixFieldNames.map head, x ∈ mixFieldNames
  decide

theorem intSpec_heads (i : ℚ × ℚ) : Heads (intSpec i) (fun h => h ∈ intNames) := by
  apply heads_fields
  show ∀ x ∈ intNames.map head, x ∈ intNames
  decide

def MixHead (h : Key) : Prop := h ∈ mixFieldNames ∨ h = key "transfer_pwu" ∨ h = key "rpu_device"

instance (h : Key) : Decidable (MixHead h) := by unfold MixHead; infer_instance

theorem mixOwn_heads (d : Dev) (m : MixSt) : Heads (mixOwn d m) MixHead := by
  refine heads_append (heads_mono m.heads fun _ h => Or.inl h) (heads_append (heads_mono (heads_prefixed (by decide) _) ?_)
    (heads_mono (heads_prefixed (by decide) _) ?_))
  · rintro k rfl; exact Or.inr (Or.inl rfl)
  · rintro k rfl; exact Or.inr (Or.inr rfl)

theorem plain_not_mix {h : Key} (hp : PlainHead h) (hm : MixHead h) : False := by
  have hN : ∀ n ∈ baseNames ++ vecNames, ¬ MixHead n := by decide
  have hM : ∀ n ∈ mixFieldNames, ¬ Digits n := by decide
  rcases hp with hp | hp
  · rcases hm with hm | rfl | rfl
    · exact hM h hm hp
    · revert hp; decide
    · revert hp; decide
  · exact hN h hp hm

/-- The own layer of the mixed precision device before it is inserted. -/
theorem mix_st (o : Order) (d : Dev) (hf : d.Flat) (m : MixSt) : ∃ e1 e2, d.dump o [] (key "rpu_device") = .ok e1 ∧
    m.pwu.dump o e1 (key "transfer_pwu") = .ok e2 ∧ WF (fill e2 m.fields) ∧ ∀ q, find (fill e2 m.fields) q = find (mixOwn d m) q := by
  obtain ⟨e1, a1, a2, a3⟩ := dumps_empty (d.dump_ok o hf wf_nil (heads_nil (fun _ => False)) (p := key "rpu_device")
    (fun _ _ h => h) (by decide) (by decide))
  obtain ⟨e2, b1, b2, b3⟩ := dumps_into (m.pwu.dump_ok o a2 (heads_congr a3 (heads_prefixed (p := key "rpu_device") (by decide) _))
    (p := key "transfer_pwu") (by decide) (by decide) (by decide))
  obtain ⟨f1, f2⟩ := fill_spec m.fields e2 b2
  refine ⟨e1, e2, a1, b1, f1, fun q => ?_⟩
  rw [f2 (by show List.Nodup mixFieldNames; decide) q, b3 q]
  unfold mixOwn
  rw [find_append, find_append, find_append, a3 q]

theorem Top.dump_ok (o : Order) (d : Top) (hf : d.Plain) {extra : Dict} (hw : WF extra) 
    (hb : Heads extra fun h => h = key "fb_pass" ∨ h = key "pwu") :
    Dumps (d.dump o extra (key "rpu_device")) extra (key "rpu_device") d.spec := by
  cases d with
  | simple dr => exact dumpDrift_ok o dr hw hb (by decide) (by decide) (by decide)
  | pulsed d =>
    refine d.dump_ok o hf hw hb ?_ (by decide) (by decide)
    rintro h hh (rfl | rfl)
    · revert hh; decide
    · revert hh; decide
  | mixed d m =>
    obtain ⟨e1, e2, a1, b1, f1, f2⟩ := mix_st o d hf.1 m
    have e : (Top.mixed d m).dump o extra (key "rpu_device") = (insertWithPrefix o extra (fill e2 m.fields) (key "rpu_device") >>= fun extra =>
        dumpOpt (fun i e q => dumpInt o i e q) m.int extra (key "rpu_device")) := by
      unfold Top.dump
      simp only [a1, ok_bind', b1]
      rfl
    rw [e]
    have hh : Heads (fill e2 m.fields) MixHead := heads_congr f2 (mixOwn_heads d m)
    refine dumps_bind (insert_ok o hw f1 f2 ?_ ?_) ?_
    · intro k hk
      refine find_none_of_heads hb ?_
      have := hh k hk
      revert this
      generalize head k = x
      rintro hm (rfl | rfl)
      · revert hm; decide
      · revert hm; decide
    · rintro k k' hk hk' rfl
      have h1 : (find d.spec k').isSome := by
        rw [f2, mixOwn, find_append, find_append, find_prefixed, find_prefixed, strip_sub,
          strip_other (by decide) (by decide) (by decide),
          find_none_of_heads m.heads (by rw [head_sub (by decide)]; decide)] at hk
        exact hk
      exact plain_not_mix (d.heads_plain hf.2 k' h1) (hh k' hk')
    · intro x wx gx
      cases hi : m.int with
      | none => exact dumps_nil wx _
      | some i =>
        refine fields_ok o wx (intSpec i) (?_ : List.Nodup intNames) (intSpec_heads i) (dumps_heads (by decide) hb gx) (by decide) (by decide)
          (by decide)
        decide

/-! ## Tiles -/

def Modif.spec (s : Modif) : Dict := [(key "saved_bias", s.savedBias), (key "enable_during_test", [encB s.inTest])]

def fbSpec : Option (Vec × Modif) → Dict
  | none => []
  | some (w, m) => prefixed (key "fb_weight_modifier") m.spec ++ [(key "fb_weights", w)]

def bufSpec (delayed : Bool) (b : Vec) : Dict := if delayed then [(key "weights_buffer", b)] else []

def Tile.fields (t : Tile) : Dict := [(key "learning_rate", [t.lr]), (key "flicker_probs", t.flickerP), (key "flicker_states", t.flickerS.map encI),
    (key "use_delayed_update", [encB t.delayed]), (key "last_update_m_batch", [encI t.lastM]), (key "fwd_alpha", [t.fwdAlpha]),
    (key "bwd_alpha", [t.bwdAlpha])]

def tileNames : List Key := [key "learning_rate", key "flicker_probs", key "flicker_states", key "use_delayed_update",
  key "last_update_m_batch", key "fwd_alpha", key "bwd_alpha"]

def Tile.simpleSpec (t : Tile) : Dict := t.fields ++ (driftSpec t.drift ++ (bufSpec t.delayed t.wbuf ++ fbSpec t.fb))

def PulsedSt.spec (s : PulsedSt) : Dict :=
  prefixed (key "rpu_device") s.dev.spec ++ (prefixed (key "fb_pass") s.fb.spec ++ prefixed (key "pwu") s.pwu.spec)

def Tile.spec (t : Tile) : Dict := optSpec PulsedSt.spec t.pulsed ++ t.simpleSpec

def SimpleHead (h : Key) : Prop := h ∈ tileNames ++ [key "wdrifter", key "weights_buffer", key "fb_weights", key "fb_weight_modifier"]

instance (h : Key) : Decidable (SimpleHead h) := by unfold SimpleHead; infer_instance

theorem fbSpec_heads (f : Option (Vec × Modif)) : Heads (fbSpec f) (fun h => h = key "fb_weights" ∨ h = key "fb_weight_modifier") := by
  cases f with
  | none => exact heads_nil _
  | some x =>
    refine heads_append (heads_mono (heads_prefixed (by decide) _) fun _ h => Or.inr h) ?_
    apply heads_fields
    show ∀ y ∈ [head (key "fb_weights")], _
    decide

theorem bufSpec_heads (d : Bool) (b : Vec) : Heads (bufSpec d b) (fun h => h = key "weights_buffer") := by
  cases d with
  | false => exact heads_nil _
  | true =>
    apply heads_fields
    show ∀ y ∈ [head (key "weights_buffer")], _
    decide

theorem Tile.fields_heads (t : Tile) : Heads t.fields (fun h => h ∈ tileNames) := by
  apply heads_fields
  show ∀ x ∈ tileNames.map head, x ∈ tileNames
  decide

theorem Tile.simple_heads (t : Tile) : Heads t.simpleSpec SimpleHead := by
  refine heads_append (heads_mono t.fields_heads fun _ h => ?_) (heads_append (heads_mono (driftSpec_heads _) ?_)
    (heads_append (heads_mono (bufSpec_heads _ _) ?_) (heads_mono (fbSpec_heads _) ?_)))
  · unfold SimpleHead; simp [h]
  · rintro k rfl; decide
  · rintro k rfl; decide
  · rintro k (rfl | rfl) <;> decide

theorem dumpFb_ok (o : Order) (f : Option (Vec × Modif)) : ∃ e, dumpFb o f [] = .ok e ∧ WF e ∧ ∀ q, find e q = find (fbSpec f) q := by
  cases f with
  | none => exact ⟨[], rfl, wf_nil, fun _ => rfl⟩
  | some x =>
    obtain ⟨w, m⟩ := x
    have hh : Heads [(key "fb_weights", w)] (fun h => h = key "fb_weights") := by
      apply heads_fields
      show ∀ y ∈ [head (key "fb_weights")], _
      decide
    have hm : Heads m.spec (fun h => h = key "saved_bias" ∨ h = key "enable_during_test") := by
      apply heads_fields
      show ∀ y ∈ [head (key "saved_bias"), head (key "enable_during_test")], _
      decide
    exact dumps_into (fields_ok o (extra := [(key "fb_weights", w)]) (List.nodup_singleton _) m.spec
      (by show List.Nodup [key "saved_bias", key "enable_during_test"]; decide) hm hh (p := key "fb_weight_modifier")
      (by rintro h (rfl | rfl) <;> decide) (by decide) (by decide))

/-- The own layer of a tile before it is inserted. -/
theorem Tile.simple_ok (o : Order) (t : Tile) : Dumps (t.dumpSimple o [] (key "rpu")) [] (key "rpu") t.simpleSpec := by
  obtain ⟨e1, a1, a2, a3⟩ := dumpFb_ok o t.fb
  obtain ⟨e2, he2, b2, b3⟩ : ∃ e2, e2 = (if t.delayed then insert e1 (key "weights_buffer") t.wbuf else e1) ∧ WF e2 ∧
      ∀ q, find e2 q = find (bufSpec t.delayed t.wbuf ++ fbSpec t.fb) q := by
    refine ⟨_, rfl, ?_, ?_⟩
    · split
      · exact wf_insert a2 _ _
      · exact a2
    · intro q
      unfold bufSpec
      split
      · rw [find_insert, a3 q]
        show _ = if key "weights_buffer" = q then some t.wbuf else find (fbSpec t.fb) q
        rfl
      · exact a3 q
  obtain ⟨e3, c1, c2, c3⟩ : ∃ e3, dumpOpt (fun d e q => Drift.dump o d e q) t.drift e2 (key "wdrifter") = .ok e3 ∧ WF e3 ∧
      ∀ q, find e3 q = find (driftSpec t.drift ++ (bufSpec t.delayed t.wbuf ++ fbSpec t.fb)) q := by
    cases hd : t.drift with
    | none => exact ⟨e2, rfl, b2, b3⟩
    | some s =>
      have hh : Heads e2 (fun h => h = key "weights_buffer" ∨ h = key "fb_weights" ∨ h = key "fb_weight_modifier") := by
        refine heads_congr b3 (heads_append ?_ ?_)
        · exact heads_mono (bufSpec_heads _ _) fun _ h => Or.inl h
        · exact heads_mono (fbSpec_heads _) fun _ h => Or.inr h
      obtain ⟨e3, d1, d2, d3⟩ := dumps_into (s.dump_ok o b2 hh (p := key "wdrifter") (by decide) (by decide) (by decide))
      refine ⟨e3, d1, d2, fun q => ?_⟩
      rw [d3 q, find_append, find_append, b3 q]
      rfl
  obtain ⟨f1, f2⟩ := fill_spec t.fields e3 c2
  have f3 : ∀ q, find (fill e3 t.fields) q = find t.simpleSpec q := by
    intro q
    rw [f2 (by show List.Nodup tileNames; decide) q, c3 q]
    unfold Tile.simpleSpec
    rw [find_append t.fields]
  have e : t.dumpSimple o [] (key "rpu") = insertWithPrefix o [] (fill e3 t.fields) (key "rpu") := by
    unfold Tile.dumpSimple
    simp only [a1, ok_bind', ← he2, c1]
    rfl
  rw [e]
  exact insert_heads o wf_nil f1 f3 (heads_congr f3 t.simple_heads) (heads_nil (fun _ => False)) (fun _ _ h => h) (by decide) (by decide)

def PulsedHead (h : Key) : Prop := h = key "rpu_device" ∨ h = key "fb_pass" ∨ h = key "pwu"

instance (h : Key) : Decidable (PulsedHead h) := by unfold PulsedHead; infer_instance

theorem PulsedSt.heads (s : PulsedSt) : Heads s.spec PulsedHead := by
  refine heads_append (heads_mono (heads_prefixed (by decide) _) fun _ h => Or.inl h)
    (heads_append (heads_mono (heads_prefixed (by decide) _) fun _ h => Or.inr (Or.inl h))
      (heads_mono (heads_prefixed (by decide) _) fun _ h => Or.inr (Or.inr h)))

theorem PulsedSt.dump_ok (o : Order) (s : PulsedSt) (hf : s.dev.Plain) {extra : Dict} (hw : WF extra)
    (hb : Heads extra fun h => h = key "rpu") : Dumps (s.dump o extra (key "rpu")) extra (key "rpu") s.spec := by
  obtain ⟨e1, a1, a2, a3⟩ := dumps_empty (s.pwu.dump_ok o wf_nil (heads_nil (fun _ => False)) (p := key "pwu") (fun _ _ h => h)
    (by decide) (by decide))
  have h1 : Heads e1 (fun h => h = key "pwu") := heads_congr a3 (heads_prefixed (by decide) _)
  obtain ⟨e2, b1, b2, b3⟩ := dumps_into (s.fb.dump_ok o a2 h1 (p := key "fb_pass") (by decide) (by decide) (by decide))
  have b4 : ∀ q, find e2 q = find (prefixed (key "fb_pass") s.fb.spec ++ prefixed (key "pwu") s.pwu.spec) q := by
    intro q; rw [b3 q, find_append, find_append, a3 q]
  have h2 : Heads e2 (fun h => h = key "fb_pass" ∨ h = key "pwu") := by
    refine heads_congr b4 (heads_append (heads_mono (heads_prefixed (by decide) _) fun _ h => Or.inl h)
      (heads_mono (heads_prefixed (by decide) _) fun _ h => Or.inr h))
  obtain ⟨e3, c1, c2, c3⟩ := dumps_into (s.dev.dump_ok o hf b2 h2)
  have c4 : ∀ q, find e3 q = find s.spec q := by
    intro q; unfold PulsedSt.spec; rw [c3 q, find_append, find_append, b4 q]
  have e : s.dump o extra (key "rpu") = insertWithPrefix o extra e3 (key "rpu") := by
    unfold PulsedSt.dump
    simp only [a1, ok_bind', b1, c1]
  rw [e]
  exact insert_heads o hw c2 c4 (heads_congr c4 s.heads) hb (by rintro h (rfl | rfl | rfl) <;> decide) (by decide) (by decide)

/-- No cell inside a cell; mixed precision not around a transfer device. -/
def Tile.Plain (t : Tile) : Prop := ∀ s, t.pulsed = some s → s.dev.Plain

theorem Tile.dump_ok (o : Order) (t : Tile) (h : t.Plain) :
    ∃ e, t.dumpExtra o = .ok e ∧ WF e ∧ ∀ q, find e q = find (prefixed (key "rpu") t.spec) q := by
  apply dumps_empty
  unfold Tile.dumpExtra Tile.spec
  refine dumps_bind (t.simple_ok o) ?_
  intro e we ge
  cases hp : t.pulsed with
  | none => exact dumps_nil we _
  | some s =>
    refine s.dump_ok o (h s hp) we (heads_mono (dumps_heads (by decide) (heads_nil (fun _ => False)) ge) ?_)
    rintro k (hk | hk)
    · exact hk.elim
    · exact hk

end Aihw.Extra
