import Verif.Extra.Strict

/-!
# C73: the extra state of C++ tiles

Specification: `Tile.Plain` (Dump2), `Tile.Alike`, `Tile.restored` (Load2), `Tile.passes`, `Tile.replaced`, `Known`, `Fits`, `MvPar.named`
(Pars), `Dev.Nested` (Nested), `MayMiss`, `Tile.touched` (Strict).
-/
namespace Aihw.Extra

/-- The dump of a tile without nested compounds never raises, in whatever order the maps are visited; every key occurs once. -/
theorem C73_dump_total (o : Order) (t : Tile) (h : t.Plain) : ∃ e, t.dumpExtra o = .ok e ∧ (e.map (·.1)).Nodup := by
  obtain ⟨e, h1, h2, _⟩ := t.dump_ok o h
  exact ⟨e, h1, h2⟩

/-- The content does not depend on the order. -/
theorem C73_dump_order (o o' : Order) (t : Tile) (h : t.Plain) {e e' : Dict} (he : t.dumpExtra o = .ok e) (he' : t.dumpExtra o' = .ok e') :
    e.Perm e' := by
  obtain ⟨a, h1, h2, h3⟩ := t.dump_ok o h
  obtain ⟨b, g1, g2, g3⟩ := t.dump_ok o' h
  rw [he] at h1
  rw [he'] at g1
  injection h1 with h1
  injection g1 with g1
  subst h1 g1
  exact perm_of_find g2 h2 fun q => by rw [h3 q, g3 q]

/-- Loading a dump (its items in any order, strict or not) into a tile built from the same configuration restores the state. -/
theorem C73_round_trip (o : Order) (new : Drift) (junk strict : Bool) (s r : Tile) (hp : s.Plain) (ha : s.Alike r) {e e' : Dict}
    (he : s.dumpExtra o = .ok e) (hperm : e'.Perm e) : r.loadExtra new junk strict e' = .ok (s.restored r) := by
  obtain ⟨a, h1, h2, h3⟩ := s.dump_ok o hp
  rw [he] at h1
  injection h1 with h1
  subst h1
  exact Tile.load_of s r new junk strict ha fun q => by rw [find_perm h2 hperm, h3 q]

/-- Loading its own dump does not change a tile. -/
theorem C73_self (o : Order) (new : Drift) (junk strict : Bool) (t : Tile) (hp : t.Plain) {e : Dict} (he : t.dumpExtra o = .ok e) :
    t.loadExtra new junk strict e = .ok t := by
  have h0 : t.replaced true [] = t := by
    have h1 : ∀ f : FbPass, f.replaced true [] = f := fun f => rfl
    have h2 : ∀ x : TransSt, x.replaced true [] = x := fun f => rfl
    have h3 : ∀ d : Dev, d.replaced true [] = d := by
      intro d
      cases d with
      | leaf b => rfl
      | cell b subs v x =>
        cases x with
        | none => rfl
        | some x => rfl
    have h4 : ∀ d : Top, d.replaced true [] = d := by
      intro d
      cases d with
      | simple b => rfl
      | pulsed d => show Top.pulsed (d.replaced true []) = _; rw [h3]
      | mixed d m => rfl
    unfold Tile.replaced
    have h5 : (fun s : PulsedSt => s.replaced true []) = id := by
      funext s
      unfold PulsedSt.replaced
      rw [h1, h4]
      rfl
    rw [h5, Option.map_id_fun]
    rfl
  have ha := replaced_alike true [] t hp
  have hr := restored_replaced true [] t
  rw [h0] at ha hr
  have := C73_round_trip o new junk strict t t hp ha he (List.Perm.refl _)
  rw [hr] at this
  exact this

/-- Not restored: the drift state of the tile (it is saved, but not loaded). -/
theorem C73_drift_lost (o : Order) (new : Drift) (junk strict : Bool) (s r r' : Tile) (hp : s.Plain) (ha : s.Alike r) {e : Dict}
    (he : s.dumpExtra o = .ok e) (hl : r.loadExtra new junk strict e = .ok r') : r'.drift = r.drift := by
  rw [C73_round_trip o new junk strict s r hp ha he (List.Perm.refl _)] at hl
  injection hl with hl
  rw [← hl]
  rfl

/-- The saved drift state is in the dump. -/
theorem C73_drift_saved (o : Order) (s : Tile) (hp : s.Plain) {d : Drift} (hd : s.drift = some d) {e : Dict} (he : s.dumpExtra o = .ok e) :
    find e (key "rpu.wdrifter.nu") = some d.nu ∧ find e (key "rpu.wdrifter.current_t") = some [d.curT] := by
  obtain ⟨a, h1, h2, h3⟩ := s.dump_ok o hp
  rw [he] at h1
  injection h1 with h1
  subst h1
  have hh := has_of_find (wf_prefixed (key "rpu") s.wf) (fun _ => rfl)
  have hm : ∀ x ∈ d.spec, (sub (key "rpu") (sub (key "wdrifter") x.1), x.2) ∈ prefixed (key "rpu") s.spec := by
    intro x hx
    refine List.mem_map.2 ⟨(sub (key "wdrifter") x.1, x.2), ?_, rfl⟩
    refine List.mem_append_right _ (List.mem_append_right _ (List.mem_append_left _ ?_))
    rw [hd]
    exact List.mem_map.2 ⟨x, hx, rfl⟩
  constructor
  · rw [h3]
    exact hh _ (hm (key "nu", d.nu) (by unfold Drift.spec; simp))
  · rw [h3]
    exact hh _ (hm (key "current_t", [d.curT]) (by unfold Drift.spec; simp))

/-- Not restored: the flag and the saved bias of the weight modifier. -/
theorem C73_modifier_lost (o : Order) (new : Drift) (junk strict : Bool) (s r r' : Tile) (hp : s.Plain) (ha : s.Alike r) {e : Dict} {w : Vec}
    {m : Modif} (hs : s.fb = some (w, m)) (hw : w ≠ []) (hr : r.fb = none) (he : s.dumpExtra o = .ok e)
    (hl : r.loadExtra new junk strict e = .ok r') : r'.fb = some (w, ⟨[], false⟩) := by
  rw [C73_round_trip o new junk strict s r hp ha he (List.Perm.refl _)] at hl
  injection hl with hl
  rw [← hl]
  show fbRestored s.fb r.fb = _
  rw [hs, hr]
  show (if w = [] then _ else _) = _
  rw [if_neg hw]
  rfl

/-- A compound inside a compound: the dump raises, in whatever order the maps are visited. -/
theorem C73_nested_raises (o : Order) (t : Tile) {s : PulsedSt} (hs : t.pulsed = some s) {d : Dev} (hd : s.dev.dev? = some d) (hn : d.Nested) :
    t.dumpExtra o = .error .runtimeError :=
  t.fails o hs fun extra _ _ => Top.nested_fails o s.dev hd hn extra _

/-- Mixed precision around a transfer compound: the dump raises for some order of the maps. -/
theorem C73_mixed_transfer_raises (t : Tile) {s : PulsedSt} (hs : t.pulsed = some s) {d : Dev} {m : MixSt} (hd : s.dev = .mixed d m)
    (hf : d.Flat) (ht : d.trans.isSome) : ∃ o : Order, t.dumpExtra o = .error .runtimeError := by
  obtain ⟨x, hx⟩ := Option.isSome_iff_exists.1 ht
  refine ⟨pwuFirst, t.fails pwuFirst hs fun extra _ _ => ?_⟩
  rw [hd]
  exact mixed_fails d hf m hx extra

/-- A strict load raises if an entry of the tile's own dump is missing, except for those listed in `MayMiss`. -/
theorem C73_strict_complete (o : Order) (new : Drift) (junk : Bool) (t t' : Tile) (hp : t.Plain) {e extra : Dict} (he : t.dumpExtra o = .ok e)
    (hl : t.loadExtra new junk true extra = .ok t') (k : Key) (hk : (find e (sub (key "rpu") k)).isSome) (hm : ¬ MayMiss k) :
    (find extra (sub (key "rpu") k)).isSome := by
  obtain ⟨a, h1, h2, h3⟩ := t.dump_ok o hp
  rw [he] at h1
  injection h1 with h1
  subst h1
  rw [h3, find_prefixed, strip_sub] at hk
  obtain ⟨v, hv⟩ := t.needed_of hp hk hm
  have := Tile.present hp hl (k, v) hv
  rwa [find_select] at this

/-- A load that is not strict and finds nothing changes nothing but allocation flags (the flag is set from an uninitialised variable). -/
theorem C73_missing_all (new : Drift) (junk : Bool) (t : Tile) {extra : Dict} (h : ∀ k, find extra (sub (key "rpu") k) = none) :
    t.loadExtra new junk false extra = .ok (t.touched junk) :=
  t.load_none new junk fun k => by rw [find_select]; exact h k

/-- `set_forward_parameters` / `set_backward_parameters` with known names and unchanged lengths: exactly the named parameters are
replaced, in all analog passes of the tile. -/
theorem C73_set_parameters (o : Order) (new : Drift) (junk fwd : Bool) (dic : Dict) (t : Tile) (hp : t.Plain) (hk : Known fwd t dic)
    (hf : Fits fwd t dic) : t.setPars new junk o (sidePre fwd) dic = .ok (t.replaced fwd dic) :=
  (t.setPars_eq o new junk fwd dic hp).1 hk hf

/-- Otherwise an argument error. -/
theorem C73_set_rejected (o : Order) (new : Drift) (junk fwd : Bool) (dic : Dict) (t : Tile) (hp : t.Plain)
    (h : ¬ (Known fwd t dic ∧ Fits fwd t dic)) : t.setPars new junk o (sidePre fwd) dic = .error .argumentError :=
  (t.setPars_eq o new junk fwd dic hp).2 h

/-- `get_forward_parameters` / `get_backward_parameters` of a tile with one analog pass: its parameters, by name. -/
theorem C73_get_parameters (o : Order) (fwd : Bool) (t : Tile) (hp : t.Plain) {m : MvPar} (hm : t.passes fwd = [m]) :
    ∃ d, t.getPars o (sidePre fwd) = .ok d ∧ ∀ k, find d k = find m.named k := by
  obtain ⟨d, h1, h2, h3⟩ := t.getPars_eq o fwd hp
  have hw : WF m.named := by
    show List.Nodup [key "v_offset", key "w_asymmetry", key "out_nonlinearity", key "out_nonlinearity_factor", key "out_noise_values"]
    decide
  refine ⟨d, h1, fun k => ?_⟩
  rw [hm] at h2 h3
  cases hf : find d k with
  | some v =>
    obtain ⟨m', hm', hv⟩ := h2 k v hf
    rw [List.mem_singleton] at hm'
    subst hm'
    exact ((find_eq_some_iff hw k v).2 hv).symm
  | none =>
    cases hn : find m.named k with
    | none => rfl
    | some v =>
      have := h3 m List.mem_cons_self (k, v) ((find_eq_some_iff hw k v).1 hn)
      rw [hf] at this
      cases this

/-- With a transfer device there are two passes with the same names: each name is reported once, with the value of one of them. -/
theorem C73_get_ambiguous (o : Order) (fwd : Bool) (t : Tile) (hp : t.Plain) : ∃ d, t.getPars o (sidePre fwd) = .ok d ∧
    (∀ k v, find d k = some v → ∃ m ∈ t.passes fwd, (k, v) ∈ m.named) ∧ ∀ m ∈ t.passes fwd, ∀ x ∈ m.named, (find d x.1).isSome :=
  t.getPars_eq o fwd hp

/-- Reading after writing, one analog pass. -/
theorem C73_get_after_set (o : Order) (new : Drift) (junk fwd : Bool) (dic : Dict) (t : Tile) (hp : t.Plain) {m : MvPar}
    (hm : t.passes fwd = [m]) (hk : Known fwd t dic) (hf : Fits fwd t dic) :
    ∃ t' d, t.setPars new junk o (sidePre fwd) dic = .ok t' ∧ t'.getPars o (sidePre fwd) = .ok d ∧
      ∀ x ∈ m.named, find d x.1 = some ((find dic x.1).getD x.2) := by
  have hpass : (t.replaced fwd dic).passes fwd = [m.replaced dic] := by
    unfold Tile.passes at hm ⊢
    unfold Tile.replaced
    cases hs : t.pulsed with
    | none => rw [hs] at hm; cases hm
    | some s =>
      rw [hs] at hm
      injection hm with h1 h2
      have ht : s.dev.trans = none := by
        cases hd : s.dev.trans with
        | none => rfl
        | some x => simp [hd] at h2
      have h3 : (s.dev.replaced fwd dic).trans = none := by
        cases hd : s.dev with
        | simple b => rfl
        | mixed d m => rfl
        | pulsed d =>
          rw [hd] at ht
          cases d with
          | leaf b => rfl
          | cell b subs v x =>
            cases (show x = none from ht)
            rfl
      have h4 : (s.fb.replaced fwd dic).side fwd = (s.fb.side fwd).replaced dic := by
        cases fwd <;> rfl
      show (s.fb.replaced fwd dic).side fwd :: ((s.dev.replaced fwd dic).trans.map fun x => x.fb.side fwd).toList = _
      rw [h3, h4, h1]
      rfl
  have hplain : (t.replaced fwd dic).Plain := by
    intro s' hs'
    unfold Tile.replaced at hs'
    cases hs : t.pulsed with
    | none => simp [hs] at hs'
    | some s =>
      simp only [hs, Option.map_some, Option.some.injEq] at hs'
      have := hp s hs
      rw [← hs']
      show (s.dev.replaced fwd dic).Plain
      cases hd : s.dev with
      | simple b => trivial
      | mixed d m => rw [hd] at this; exact this
      | pulsed d =>
        rw [hd] at this
        cases d with
        | leaf b => trivial
        | cell b subs v x => exact this
  obtain ⟨d, h1, h2⟩ := C73_get_parameters o fwd (t.replaced fwd dic) hplain hpass
  refine ⟨_, d, C73_set_parameters o new junk fwd dic t hp hk hf, h1, ?_⟩
  intro x hx
  have hlen : ∀ x ∈ m.named, ∀ v, find dic x.1 = some v → v.length = x.2.length := hf m (by rw [hm]; exact List.mem_cons_self)
  rw [h2, named_replaced hlen]
  refine (find_eq_some_iff ?_ _ _).2 (List.mem_map.2 ⟨x, hx, rfl⟩)
  show List.Nodup [key "v_offset", key "w_asymmetry", key "out_nonlinearity", key "out_nonlinearity_factor", key "out_noise_values"]
  decide

end Aihw.Extra
