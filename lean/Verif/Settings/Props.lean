import Verif.Settings.Frames

/-!
# C93: which settings a tile uses
-/
namespace Aihw.Settings
open Aihw

variable {V : Type}

theorem used_forward (sem : Sem V) (w : World V) (t : ℕ) (ht : t < w.nt) :
    usedBy sem w (.forward t) = ((w.tile t).setConfig w.heap).forwardUses w.heap := by
  show (step sem w (.forward t)).2 = _
  simp only [step]
  rw [if_pos ht]

theorem used_backward (sem : Sem V) (w : World V) (t : ℕ) (ht : t < w.nt) :
    usedBy sem w (.backward t) = (w.tile t).backwardUses w.heap := by
  show (step sem w (.backward t)).2 = _
  simp only [step]
  rw [if_pos ht]

theorem used_update (sem : Sem V) (w : World V) (t : ℕ) (ht : t < w.nt) :
    usedBy sem w (.update t) = (w.tile t).updateUses w.heap := by
  show (step sem w (.update t)).2 = _
  simp only [step]
  rw [if_pos ht]

theorem used_readout (sem : Sem V) (w : World V) (t : ℕ) (ht : t < w.nt) :
    usedBy sem w (.readout t) = (w.tile t).readoutUses w.heap := by
  show (step sem w (.readout t)).2 = _
  simp only [step]
  rw [if_pos ht]

/-! ## Own settings -/

/-- The settings of a tile's configuration change only by changing that very configuration object
(or by loading a state into the tile or replacing its configuration): whatever else is done with
other configurations and other tiles does not reach them. -/
theorem C93_isolated (sem : Sem V) (w : World V) (hw : Reached sem w) (t : ℕ) (ht : t < w.nt) (p : Part)
    (l : List (Op V)) (h1 : ∀ o ∈ l, ¬ Rebinds t o) (h2 : ∀ o ∈ l, ¬ Edits (w.tile t).own p o) :
    (run sem w l).ownNow t p = w.ownNow t p := by
  unfold World.ownNow
  rw [(run_own sem l t w ht h1).1]
  exact run_read sem l _ p w hw.inv (hw.inv.own t ht) h2

/-- Changing the configuration object of a tile, in place or by assigning another part, changes
the tile's setting. -/
theorem C93_edit (sem : Sem V) (w : World V) (hw : Reached sem w) (t : ℕ) (ht : t < w.nt) (p : Part) (v : V) :
    (step sem w (.setPart (w.tile t).own p v)).1.ownNow t p = v ∧
    (step sem w (.assign (w.tile t).own p v)).1.ownNow t p = v := by
  have hc := hw.inv.own t ht
  constructor
  · simp only [step]
    rw [if_pos hc]
    exact read_setPart_self _ _ _
  · simp only [step]
    rw [if_pos hc]
    exact read_assign_self _ _ _

/-- A new tile, a tile after `replace_with` and a copied tile have a configuration object of their
own, with the settings of the given one. -/
theorem C93_fresh (sem : Sem V) (w : World V) (hw : Reached sem w) :
    (∀ k c, c < w.heap.nc →
      let w' := (step sem w (.construct k c)).1
      w'.nt = w.nt + 1 ∧ (∀ p, w'.ownNow w.nt p = w.heap.read c p) ∧ w.heap.nc ≤ (w'.tile w.nt).own ∧
      ∀ t, t < w.nt → (w'.tile t).own < w.heap.nc) ∧
    (∀ t c, t < w.nt → c < w.heap.nc → (w.tile t).kind ≠ .transfer →
      let w' := (step sem w (.replace t c)).1
      (∀ p, w'.ownNow t p = w.heap.read c p) ∧ w.heap.nc ≤ (w'.tile t).own ∧
      w'.heap.cls (w'.tile t).own = w.heap.cls (w.tile t).own ∧
      ∀ u, u < w.nt → u ≠ t → (w'.tile u).own < w.heap.nc) ∧
    (∀ t, t < w.nt →
      let w' := (step sem w (.copy t)).1
      w'.nt = w.nt + 1 ∧ (∀ p, w'.ownNow w.nt p = w.ownNow t p) ∧ w.heap.nc ≤ (w'.tile w.nt).own ∧
      ∀ u, u < w.nt → (w'.tile u).own < w.heap.nc) := by
  have i := hw.inv
  refine ⟨?_, ?_, ?_⟩
  · intro k c hc
    have e : (step sem w (.construct k c)).1.tile = fun j => if j = w.nt then
        Tile.create ⟨k, w.heap.nc, w.heap.read c, w.heap.cfg c, fun _ => none⟩ (w.heap.deepcopy c) c else w.tile j := by
      simp only [step]; rw [if_pos hc]
    have e2 : (step sem w (.construct k c)).1.heap = w.heap.deepcopy c := by
      simp only [step]; rw [if_pos hc]
    have e3 : (step sem w (.construct k c)).1.nt = w.nt + 1 := by
      simp only [step]; rw [if_pos hc]
    refine ⟨e3, ?_, ?_, ?_⟩
    · intro p
      unfold World.ownNow
      rw [e, e2]; beta_reduce; rw [if_pos rfl]
      exact read_copied c p
    · rw [e]; beta_reduce; rw [if_pos rfl]; exact le_refl _
    · intro t ht
      rw [e]
      show (if t = w.nt then _ else w.tile t).own < _
      rw [if_neg (by omega)]
      exact i.own t ht
  · intro t c ht hc hk
    have e : (step sem w (.replace t c)).1.tile = fun j => if j = t then
        Tile.recreate { (w.tile t).dropTmp with own := w.heap.nc }
          ((w.heap.deepcopy c).setClass w.heap.nc (w.heap.cls (w.tile t).own)) else w.tile j := by
      simp only [step]; rw [if_pos ⟨ht, hc⟩, if_neg hk]; rfl
    have e2 : (step sem w (.replace t c)).1.heap =
        (w.heap.deepcopy c).setClass w.heap.nc (w.heap.cls (w.tile t).own) := by
      simp only [step]; rw [if_pos ⟨ht, hc⟩, if_neg hk]
    refine ⟨?_, ?_, ?_, ?_⟩
    · intro p
      unfold World.ownNow
      rw [e, e2]; beta_reduce; rw [if_pos rfl, recreate_own]
      exact read_copied c p
    · rw [e]; beta_reduce; rw [if_pos rfl, recreate_own]
    · rw [e, e2]; beta_reduce; rw [if_pos rfl, recreate_own]
      show (if w.heap.nc = w.heap.nc then _ else _) = _
      rw [if_pos rfl]
    · intro u hu hne
      rw [e]
      show (if u = t then _ else w.tile u).own < _
      rw [if_neg hne]
      exact i.own u hu
  · intro t ht
    have e : (step sem w (.copy t)).1.tile = fun j => if j = w.nt then
        Tile.recreate { (w.tile t).dropTmp with
          own := w.heap.nc, ref := fun p => w.heap.np + (w.tile t).ref p } (w.heap.deepcopy (w.tile t).own)
        else if j = t then (w.tile t).dropTmp else w.tile j := by
      simp only [step]; rw [if_pos ht]; rfl
    have e2 : (step sem w (.copy t)).1.heap = w.heap.deepcopy (w.tile t).own := by
      simp only [step]; rw [if_pos ht]
    have e3 : (step sem w (.copy t)).1.nt = w.nt + 1 := by
      simp only [step]; rw [if_pos ht]
    refine ⟨e3, ?_, ?_, ?_⟩
    · intro p
      unfold World.ownNow
      rw [e, e2]; beta_reduce; rw [if_pos rfl, recreate_own]
      exact read_copied _ p
    · rw [e]; beta_reduce; rw [if_pos rfl, recreate_own]
    · intro u hu
      rw [e]
      show (if u = w.nt then _ else if u = t then _ else w.tile u).own < _
      rw [if_neg (by omega)]
      split_ifs with h
      · exact i.own t ht
      · exact i.own u hu

/-! ## Passes -/

/-- The forward pass of torch tiles uses the tile's own settings as they are now. -/
theorem C93_torch_passes (sem : Sem V) (w : World V) (t : ℕ) (ht : t < w.nt) :
    ((w.tile t).kind = .torch → usedBy sem w (.forward t) =
      [(.prePost, w.ownNow t .prePost), (.forward, w.ownNow t .forward), (.modifier, w.ownNow t .modifier)]) ∧
    ((w.tile t).kind = .custom → usedBy sem w (.forward t) =
      [(.prePost, w.ownNow t .prePost), (.forward, w.ownNow t .forward)]) ∧
    ((w.tile t).kind = .custom →
      usedBy sem (step sem w (.forward t)).1 (.backward t) = [(.backward, w.ownNow t .backward)] ∧
      usedBy sem (step sem w (.forward t)).1 (.update t) = [(.update, w.ownNow t .update)]) := by
  refine ⟨?_, ?_, ?_⟩
  · intro hk
    rw [used_forward sem w t ht]
    unfold Tile.forwardUses
    rw [setConfig_kind, hk, setConfig_own]
    unfold Tile.setConfig
    rw [hk]
    rfl
  · intro hk
    rw [used_forward sem w t ht]
    unfold Tile.forwardUses
    rw [setConfig_kind, hk, setConfig_own]
    unfold Tile.setConfig
    rw [hk]
    rfl
  · intro hk
    have e : (step sem w (.forward t)).1 = w.put t ((w.tile t).setConfig w.heap) := by
      simp only [step]; rw [if_pos ht]
    have e2 : (w.put t ((w.tile t).setConfig w.heap)).tile t = (w.tile t).setConfig w.heap := if_pos rfl
    have ht' : t < (w.put t ((w.tile t).setConfig w.heap)).nt := ht
    rw [e, used_backward sem _ t ht', used_update sem _ t ht', e2]
    unfold Tile.backwardUses Tile.updateUses
    rw [setConfig_kind, hk]
    unfold Tile.setConfig
    rw [hk]
    exact ⟨rfl, rfl⟩

/-- The passes of C++ tiles use what was set when the simulator tile was made: no program without
loading into the tile or replacing its configuration changes it, whatever happens to the
configuration.  Only the settings of the digital input processing are read anew. -/
theorem C93_frozen (sem : Sem V) (w : World V) (t : ℕ) (ht : t < w.nt) (hk : (w.tile t).kind = .cpp)
    (l : List (Op V)) (hl : ∀ o ∈ l, ¬ Rebinds t o) :
    let w' := run sem w l
    ∃ f, usedBy sem w (.forward t) = [(.prePost, w.ownNow t .prePost), (.forward, f)] ∧
      usedBy sem w' (.forward t) = [(.prePost, w'.ownNow t .prePost), (.forward, f)] ∧
      usedBy sem w' (.backward t) = usedBy sem w (.backward t) ∧
      usedBy sem w' (.update t) = usedBy sem w (.update t) := by
  intro w'
  have ht' : t < w'.nt := lt_of_lt_of_le ht (run_nt sem l w)
  have hk' : (w'.tile t).kind = .cpp := (run_kind sem l t w ht).trans hk
  have hs : (w'.tile t).sim = (w.tile t).sim := (run_own sem l t w ht hl).2
  refine ⟨(w.tile t).sim .forward, ?_, ?_, ?_, ?_⟩
  · rw [used_forward sem w t ht]
    unfold Tile.forwardUses
    rw [setConfig_kind, hk, setConfig_own, setConfig_sim]
    rfl
  · rw [used_forward sem w' t ht']
    unfold Tile.forwardUses
    rw [setConfig_kind, hk', setConfig_own, setConfig_sim, hs]
    rfl
  · rw [used_backward sem w t ht, used_backward sem w' t ht']
    unfold Tile.backwardUses
    rw [hk, hk', hs]
  · rw [used_update sem w t ht, used_update sem w' t ht']
    unfold Tile.updateUses
    rw [hk, hk', hs]

/-- The passes of a C++ tile use its own settings as they are now. -/
def Current (sem : Sem V) (w : World V) (t : ℕ) : Prop :=
  usedBy sem w (.forward t) = [(.prePost, w.ownNow t .prePost), (.forward, w.ownNow t .forward)] ∧
  usedBy sem w (.backward t) = [(.backward, w.ownNow t .backward)] ∧
  usedBy sem w (.update t) = [(.update, w.ownNow t .update), (.device, w.ownNow t .device)]

theorem current_of (sem : Sem V) (w : World V) (t : ℕ) (ht : t < w.nt) (hk : (w.tile t).kind = .cpp)
    (hs : ∀ p, (w.tile t).sim p = w.ownNow t p) : Current sem w t := by
  refine ⟨?_, ?_, ?_⟩
  · rw [used_forward sem w t ht]
    unfold Tile.forwardUses
    rw [setConfig_kind, hk, setConfig_own, setConfig_sim, hs]
    rfl
  · rw [used_backward sem w t ht]
    unfold Tile.backwardUses
    rw [hk, hs]
  · rw [used_update sem w t ht]
    unfold Tile.updateUses
    rw [hk]
    dsimp only
    rw [hs, hs]

/-- Making a C++ tile, loading a state into it, replacing its configuration and copying it makes
the simulator tile from the tile's settings at that moment. -/
theorem C93_made (sem : Sem V) (w : World V) (hw : Reached sem w) :
    (∀ c, c < w.heap.nc → Current sem (step sem w (.construct .cpp c)).1 w.nt) ∧
    (∀ t, t < w.nt → (w.tile t).kind = .cpp →
      (∀ s b, s < w.ns → Current sem (step sem w (.load t s b)).1 t) ∧
      (∀ c, c < w.heap.nc → Current sem (step sem w (.replace t c)).1 t) ∧
      Current sem (step sem w (.copy t)).1 w.nt) := by
  have i := hw.inv
  refine ⟨?_, ?_⟩
  · intro c hc
    have e : (step sem w (.construct .cpp c)).1.tile w.nt =
        Tile.create ⟨.cpp, w.heap.nc, w.heap.read c, w.heap.cfg c, fun _ => none⟩ (w.heap.deepcopy c) c := by
      simp only [step]; rw [if_pos hc]; exact if_pos rfl
    have e2 : (step sem w (.construct .cpp c)).1.heap = w.heap.deepcopy c := by
      simp only [step]; rw [if_pos hc]
    have e3 : (step sem w (.construct .cpp c)).1.nt = w.nt + 1 := by
      simp only [step]; rw [if_pos hc]
    refine current_of sem _ _ ?_ ?_ ?_
    · rw [e3]; exact Nat.lt_succ_self _
    · rw [e]; rfl
    · intro p
      unfold World.ownNow
      rw [e, e2]
      show (w.heap.deepcopy c).read c p = (w.heap.deepcopy c).read w.heap.nc p
      rw [read_deepcopy i.heap c c p hc, read_copied]
  · intro t ht hk
    refine ⟨?_, ?_, ?_⟩
    · intro s b hs
      have hk' : ¬ (w.tile t).kind = .transfer := by rw [hk]; decide
      have e : (step sem w (.load t s b)).1.tile t =
          Tile.recreate { w.tile t with own := w.loadedConfig t s b }
            (w.heap.setClass (w.loadedConfig t s b) (w.heap.cls (w.tile t).own)) := by
        simp only [step]; rw [if_pos ⟨ht, hs⟩, if_neg hk']; exact if_pos rfl
      have e2 : (step sem w (.load t s b)).1.heap =
          w.heap.setClass (w.loadedConfig t s b) (w.heap.cls (w.tile t).own) := by
        simp only [step]; rw [if_pos ⟨ht, hs⟩, if_neg hk']
      refine current_of sem _ _ ?_ ?_ ?_
      · exact lt_of_lt_of_le ht (nt_frame sem w _)
      · rw [kind_frame sem w _ t ht, hk]
      · intro p
        unfold World.ownNow
        rw [e, e2, recreate_own]
        unfold Tile.recreate
        rw [hk]
        rfl
    · intro c hc
      have hk' : ¬ (w.tile t).kind = .transfer := by rw [hk]; decide
      have e : (step sem w (.replace t c)).1.tile t =
          Tile.recreate { (w.tile t).dropTmp with own := w.heap.nc }
            ((w.heap.deepcopy c).setClass w.heap.nc (w.heap.cls (w.tile t).own)) := by
        simp only [step]; rw [if_pos ⟨ht, hc⟩, if_neg hk']; exact if_pos rfl
      have e2 : (step sem w (.replace t c)).1.heap =
          (w.heap.deepcopy c).setClass w.heap.nc (w.heap.cls (w.tile t).own) := by
        simp only [step]; rw [if_pos ⟨ht, hc⟩, if_neg hk']
      refine current_of sem _ _ ?_ ?_ ?_
      · exact lt_of_lt_of_le ht (nt_frame sem w _)
      · rw [kind_frame sem w _ t ht, hk]
      · intro p
        unfold World.ownNow
        rw [e, e2, recreate_own]
        unfold Tile.recreate
        rw [show (w.tile t).dropTmp.kind = .cpp from hk]
        rfl
    · have e : (step sem w (.copy t)).1.tile w.nt =
          Tile.recreate { (w.tile t).dropTmp with
            own := w.heap.nc, ref := fun p => w.heap.np + (w.tile t).ref p } (w.heap.deepcopy (w.tile t).own) := by
        simp only [step]; rw [if_pos ht]; exact if_pos rfl
      have e2 : (step sem w (.copy t)).1.heap = w.heap.deepcopy (w.tile t).own := by
        simp only [step]; rw [if_pos ht]
      have e3 : (step sem w (.copy t)).1.nt = w.nt + 1 := by
        simp only [step]; rw [if_pos ht]
      refine current_of sem _ _ ?_ ?_ ?_
      · rw [e3]; exact Nat.lt_succ_self _
      · rw [e, recreate_kind]; exact hk
      · intro p
        unfold World.ownNow
        rw [e, e2, recreate_own]
        unfold Tile.recreate
        rw [show (w.tile t).dropTmp.kind = .cpp from hk]
        rfl

end Aihw.Settings
