import Verif.Settings.Props2

/-!
# C93: shared and foreign settings
-/
namespace Aihw.Settings
open Aihw

variable {V : Type}

/-- Loading a state with its configuration makes the loading tile use the very configuration object
of the tile the state was taken from: from then on (until one of them gets another configuration)
a change for one is a change for both, also the passes of the loading tile see it.  The attribute
`tile_class` of that object is overwritten by that of the loading tile. -/
theorem C93_load_shares (sem : Sem V) (w : World V) (hw : Reached sem w) (t u : ℕ) (ht : t < w.nt) (hu : u < w.nt)
    (l₁ l₂ : List (Op V)) (h₁ : ∀ o ∈ l₁, ¬ Rebinds t o) (h₂ : ∀ o ∈ l₂, ¬ Rebinds t o ∧ ¬ Rebinds u o) (htu : t ≠ u) :
    let w₁ := run sem (step sem w (.save t)).1 l₁
    let w₂ := (step sem w₁ (.load u w.ns true)).1
    let w₃ := run sem w₂ l₂
    (∀ p, w₃.ownNow u p = w₃.ownNow t p) ∧
    (∀ p v, (step sem w₃ (.setPart (w₃.tile t).own p v)).1.ownNow u p = v) ∧
    ((w.tile u).kind ≠ .transfer → w₂.heap.cls (w₂.tile t).own = w₁.heap.cls (w₁.tile u).own) := by
  intro w₁ w₂ w₃
  have i := hw.inv
  -- the state refers to the configuration of `t`
  have hn0 : (step sem w (.save t)).1.ns = w.ns + 1 := by simp only [step]; rw [if_pos ht]
  have hs0 : (step sem w (.save t)).1.saved w.ns = (w.tile t).own := by
    simp only [step]; rw [if_pos ht]; exact if_pos rfl
  have hnt0 : (step sem w (.save t)).1.nt = w.nt := by simp only [step]; rw [if_pos ht]; rfl
  have hown0 := own_frame sem w (.save t) t ht (fun h => h)
  -- programs keep the state dictionaries
  have keep : ∀ (l : List (Op V)) (x : World V) (s : ℕ), s < x.ns →
      s < (run sem x l).ns ∧ (run sem x l).saved s = x.saved s := by
    intro l
    induction l with
    | nil => exact fun _ _ h => ⟨h, rfl⟩
    | cons o l ih =>
      intro x s hs
      have hstep : s < (step sem x o).1.ns ∧ (step sem x o).1.saved s = x.saved s := by
        cases o with
        | save t₀ =>
          simp only [step]
          split_ifs
          · refine ⟨Nat.lt_succ_of_lt hs, ?_⟩
            show (if s = x.ns then _ else x.saved s) = _
            rw [if_neg (by omega)]
          · exact ⟨hs, rfl⟩
        | _ =>
          simp only [step]
          (try split_ifs) <;> first | exact ⟨hs, rfl⟩ | exact ⟨hs, trivial⟩
      obtain ⟨a, b⟩ := ih _ s hstep.1
      exact ⟨a, b.trans hstep.2⟩
  obtain ⟨hn1, hs1⟩ := keep l₁ (step sem w (.save t)).1 w.ns (by rw [hn0]; exact Nat.lt_succ_self _)
  have hnt1 : w.nt ≤ w₁.nt := by
    have := run_nt sem l₁ (step sem w (.save t)).1
    rw [hnt0] at this
    exact this
  have ht1 : t < w₁.nt := lt_of_lt_of_le ht hnt1
  have hu1 : u < w₁.nt := lt_of_lt_of_le hu hnt1
  have ho1 : (w₁.tile t).own = (w.tile t).own :=
    (run_own sem l₁ t _ (by rw [hnt0]; exact ht) h₁).1.trans hown0.1
  have hkw1 : (w₁.tile u).kind = (w.tile u).kind :=
    (run_kind sem l₁ u _ (by rw [hnt0]; exact hu)).trans (kind_frame sem w _ u hu)
  have hlc : w₁.loadedConfig u w.ns true = (w₁.tile t).own := by
    show w₁.saved w.ns = _
    rw [hs1, hs0, ho1]
  have hnt2 : t < w₂.nt ∧ u < w₂.nt :=
    ⟨lt_of_lt_of_le ht1 (nt_frame sem w₁ _), lt_of_lt_of_le hu1 (nt_frame sem w₁ _)⟩
  have ho2 : (w₂.tile u).own = (w₁.tile t).own := by
    show ((step sem w₁ (.load u w.ns true)).1.tile u).own = _
    simp only [step]
    rw [if_pos ⟨hu1, hn1⟩]
    split_ifs
    · show (if u = u then _ else w₁.tile u).own = _
      rw [if_pos rfl]; exact hlc
    · show (if u = u then _ else w₁.tile u).own = _
      rw [if_pos rfl, recreate_own]; exact hlc
  have ho2t : (w₂.tile t).own = (w₁.tile t).own :=
    (own_frame sem w₁ (.load u w.ns true) t ht1 (fun h => htu h.symm)).1
  have ho3 : (w₃.tile u).own = (w₃.tile t).own := by
    rw [(run_own sem l₂ u w₂ hnt2.2 fun o h => (h₂ o h).2).1, (run_own sem l₂ t w₂ hnt2.1 fun o h => (h₂ o h).1).1, ho2, ho2t]
  refine ⟨?_, ?_, ?_⟩
  · intro p
    unfold World.ownNow
    rw [ho3]
  · intro p v
    have i0 : Inv w₁ := run_inv sem l₁ (step_inv sem i _)
    have i3 : Inv w₃ := run_inv sem l₂ (step_inv sem i0 _)
    have ht3 : t < w₃.nt := lt_of_lt_of_le hnt2.1 (run_nt sem l₂ w₂)
    simp only [step]
    rw [if_pos (i3.own t ht3)]
    show (w₃.heap.setPart _ _ _).read (w₃.tile u).own p = v
    rw [ho3]
    exact read_setPart_self _ _ _
  · intro hk
    rw [← hkw1] at hk
    rw [ho2t]
    show (step sem w₁ (.load u w.ns true)).1.heap.cls _ = _
    simp only [step]
    rw [if_pos ⟨hu1, hn1⟩, if_neg hk]
    show (if (w₁.tile t).own = w₁.loadedConfig u w.ns true then _ else _) = _
    rw [if_pos hlc.symm]

/-- The torch implementation of transfer compounds takes the settings of its device from the
configuration object handed to the constructor, as they are now, and never from its own
configuration; the settings of the passes are those at construction. -/
theorem C93_transfer (sem : Sem V) (w : World V) (hw : Reached sem w) (c : ℕ) (hc : c < w.heap.nc) (l : List (Op V))
    (hl : ∀ o ∈ l, ¬ Rebinds w.nt o) (ha : ∀ o ∈ l, ¬ Assigns c .device o) :
    let w' := run sem (step sem w (.construct .transfer c)).1 l
    usedBy sem w' (.update w.nt) = [(.update, w.heap.read c .update), (.device, w'.heap.read c .device)] ∧
    usedBy sem w' (.forward w.nt) =
      [(.prePost, w'.ownNow w.nt .prePost), (.forward, w.heap.read c .forward)] := by
  intro w'
  have i := hw.inv
  have e : (step sem w (.construct .transfer c)).1.tile w.nt =
      Tile.create ⟨.transfer, w.heap.nc, w.heap.read c, w.heap.cfg c, fun _ => none⟩ (w.heap.deepcopy c) c := by
    simp only [step]; rw [if_pos hc]; exact if_pos rfl
  have e2 : (step sem w (.construct .transfer c)).1.heap = w.heap.deepcopy c := by
    simp only [step]; rw [if_pos hc]
  have e3 : (step sem w (.construct .transfer c)).1.nt = w.nt + 1 := by
    simp only [step]; rw [if_pos hc]
  have ht : w.nt < (step sem w (.construct .transfer c)).1.nt := by rw [e3]; exact Nat.lt_succ_self _
  have hc1 : c < (step sem w (.construct .transfer c)).1.heap.nc := lt_of_lt_of_le hc (nc_frame sem w _)
  have ht' : w.nt < w'.nt := lt_of_lt_of_le ht (run_nt sem l _)
  have hk1 : ((step sem w (.construct .transfer c)).1.tile w.nt).kind = .transfer := by rw [e]; rfl
  have hk' : (w'.tile w.nt).kind = .transfer := (run_kind sem l w.nt _ ht).trans hk1
  have hs : ∀ p, (w'.tile w.nt).sim p = w.heap.read c p := by
    intro p
    rw [(run_own sem l w.nt _ ht hl).2, e]
    exact read_deepcopy i.heap c c p hc
  have hr : (w'.tile w.nt).ref .device = w'.heap.cfg c .device := by
    rw [run_ref sem l w.nt .device _ ht (.inl hk1), run_cfg sem l c .device _ hc1 ha, e, e2]
    rfl
  constructor
  · rw [used_update sem w' w.nt ht']
    unfold Tile.updateUses
    rw [hk']
    dsimp only
    rw [hs, hr]
    rfl
  · rw [used_forward sem w' w.nt ht']
    unfold Tile.forwardUses
    rw [setConfig_kind, hk', setConfig_own, setConfig_sim, hs]
    rfl

/-- A torch inference tile that never did a forward pass reads out (for drift compensation and
programming) with the forward settings of the configuration object handed to its constructor; with
time-dependent IR drop, the converter of the noise model stays that of this object forever. -/
theorem C93_foreign (sem : Sem V) (w : World V) (c : ℕ) (hc : c < w.heap.nc) (l : List (Op V)) (k : Kind)
    (hk : k = .torch ∨ k = .torchIR) :
    let w' := run sem (step sem w (.construct k c)).1 l
    ((∀ o ∈ l, ¬ Assigns c .forward o) → (∀ o ∈ l, ¬ IsForward w.nt o) →
      (.forward, w'.heap.read c .forward) ∈ usedBy sem w' (.readout w.nt)) ∧
    ((∀ o ∈ l, ¬ Assigns c .noise o) → k = .torchIR →
      (.noise, w'.heap.read c .noise) ∈ usedBy sem w' (.forward w.nt) ∧
      (.noise, w'.heap.read c .noise) ∈ usedBy sem w' (.readout w.nt)) ∧
    (.noise, w'.ownNow w.nt .noise) ∈ usedBy sem w' (.readout w.nt) ∧
    (.drift, w'.ownNow w.nt .drift) ∈ usedBy sem w' (.readout w.nt) := by
  intro w'
  have e : (step sem w (.construct k c)).1.tile w.nt =
      Tile.create ⟨k, w.heap.nc, w.heap.read c, w.heap.cfg c, fun _ => none⟩ (w.heap.deepcopy c) c := by
    simp only [step]; rw [if_pos hc]; exact if_pos rfl
  have e2 : (step sem w (.construct k c)).1.heap = w.heap.deepcopy c := by
    simp only [step]; rw [if_pos hc]
  have e3 : (step sem w (.construct k c)).1.nt = w.nt + 1 := by
    simp only [step]; rw [if_pos hc]
  have ht : w.nt < (step sem w (.construct k c)).1.nt := by rw [e3]; exact Nat.lt_succ_self _
  have hc1 : c < (step sem w (.construct k c)).1.heap.nc := lt_of_lt_of_le hc (nc_frame sem w _)
  have ht' : w.nt < w'.nt := lt_of_lt_of_le ht (run_nt sem l _)
  have hk1 : ((step sem w (.construct k c)).1.tile w.nt).kind = k := by rw [e]; rfl
  have hk' : (w'.tile w.nt).kind = k := (run_kind sem l w.nt _ ht).trans hk1
  have hr : ∀ p, (∀ o ∈ l, ¬ Assigns c p o) → ((∃ o ∈ l, IsForward w.nt o) → p ≠ .forward ∧ p ≠ .modifier) →
      w'.heap.val ((w'.tile w.nt).ref p) = w'.heap.read c p := by
    intro p ha hf
    have : (w'.tile w.nt).ref p = w'.heap.cfg c p := by
      rw [run_ref sem l w.nt p _ ht (.inr ⟨by rw [hk1]; exact hk, hf⟩), run_cfg sem l c p _ hc1 ha, e, e2]
      rfl
    rw [this]
    rfl
  refine ⟨?_, ?_, ?_, ?_⟩
  · intro ha hf
    have := hr .forward ha (fun ⟨o, h1, h2⟩ => absurd h2 (hf o h1))
    rw [used_readout sem w' w.nt ht']
    unfold Tile.readoutUses
    rw [hk', ← this]
    rcases hk with rfl | rfl <;> simp
  · intro ha he
    subst he
    have := hr .noise ha (fun _ => ⟨by decide, by decide⟩)
    constructor
    · rw [used_forward sem w' w.nt ht']
      unfold Tile.forwardUses
      rw [setConfig_kind, hk', ← this]
      have hsc : ((w'.tile w.nt).setConfig w'.heap).ref .noise = (w'.tile w.nt).ref .noise := by
        unfold Tile.setConfig
        rw [hk']
        rfl
      rw [hsc]
      simp
    · rw [used_readout sem w' w.nt ht']
      unfold Tile.readoutUses
      rw [hk', ← this]
      simp
  · rw [used_readout sem w' w.nt ht']
    unfold Tile.readoutUses World.ownNow
    rw [hk']
    rcases hk with rfl | rfl <;> simp
  · rw [used_readout sem w' w.nt ht']
    unfold Tile.readoutUses World.ownNow
    rw [hk']
    rcases hk with rfl | rfl <;> simp

/-- After a forward pass the torch tile's read-out uses its own forward settings, as they are
now, until it is given another configuration or another forward part is assigned. -/
theorem C93_readout (sem : Sem V) (w : World V) (hw : Reached sem w) (t : ℕ) (ht : t < w.nt)
    (hk : (w.tile t).kind = .torch) (l : List (Op V)) (hl : ∀ o ∈ l, ¬ Rebinds t o)
    (ha : ∀ o ∈ l, ¬ Assigns (w.tile t).own .forward o) :
    let w' := run sem (step sem w (.forward t)).1 l
    usedBy sem w' (.readout t) =
      [(.noise, w'.ownNow t .noise), (.drift, w'.ownNow t .drift), (.forward, w'.ownNow t .forward)] := by
  intro w'
  have i := hw.inv
  -- the reference and the configuration agree in every state on the way
  have key : ∀ (l : List (Op V)) (x : World V), Inv x → t < x.nt → (x.tile t).kind = .torch →
      (x.tile t).ref .forward = x.heap.cfg (x.tile t).own .forward → (∀ o ∈ l, ¬ Rebinds t o) →
      (∀ o ∈ l, ¬ Assigns (x.tile t).own .forward o) →
      ((run sem x l).tile t).ref .forward = (run sem x l).heap.cfg ((run sem x l).tile t).own .forward := by
    intro l
    induction l with
    | nil => exact fun _ _ _ _ h _ _ => h
    | cons o l ih =>
      intro x ix htx hkx hx hl ha
      have ho := (own_frame sem x o t htx (hl o (List.mem_cons_self ..))).1
      refine ih _ (step_inv sem ix o) (lt_of_lt_of_le htx (nt_frame sem x o)) ?_ ?_
        (fun o' h => hl o' (List.mem_cons_of_mem _ h)) ?_
      · rw [kind_frame sem x o t htx]; exact hkx
      · rw [ho, cfg_frame sem x o _ .forward (ix.own t htx) (ha o (List.mem_cons_self ..))]
        by_cases hf : IsForward t o
        · cases o with
          | forward t₀ =>
            have : t₀ = t := hf
            subst this
            have e : (step sem x (.forward t₀)).1.tile t₀ = (x.tile t₀).setConfig x.heap := by
              simp only [step]; rw [if_pos htx]; exact if_pos rfl
            rw [e]
            unfold Tile.setConfig
            rw [hkx]
            rfl
          | _ => exact absurd hf (fun h => h)
        · rw [ref_frame sem x o t htx .forward (.inr ⟨.inl hkx, fun h => absurd h hf⟩)]
          exact hx
      · rw [ho]
        exact fun o' h => ha o' (List.mem_cons_of_mem _ h)
  have e1 : (step sem w (.forward t)).1.tile t = (w.tile t).setConfig w.heap := by
    simp only [step]; rw [if_pos ht]; exact if_pos rfl
  have e2 : (step sem w (.forward t)).1.heap = w.heap := by
    simp only [step]; rw [if_pos ht]; rfl
  have ht1 : t < (step sem w (.forward t)).1.nt := lt_of_lt_of_le ht (nt_frame sem w _)
  have ho : ((step sem w (.forward t)).1.tile t).own = (w.tile t).own := by rw [e1, setConfig_own]
  have hk1 : ((step sem w (.forward t)).1.tile t).kind = .torch := by rw [e1, setConfig_kind, hk]
  have hr := key l _ (step_inv sem i _) ht1 hk1
    (by
      rw [e2, ho, e1]
      unfold Tile.setConfig
      rw [hk]
      rfl) hl (by rw [ho]; exact ha)
  have ht' : t < w'.nt := lt_of_lt_of_le ht1 (run_nt sem l _)
  have hk' : (w'.tile t).kind = .torch := (run_kind sem l t _ ht1).trans hk1
  rw [used_readout sem w' t ht']
  unfold Tile.readoutUses World.ownNow
  rw [hk']
  dsimp only
  have : w'.heap.val ((w'.tile t).ref .forward) = w'.heap.read (w'.tile t).own .forward := by
    show w'.heap.val _ = w'.heap.val _
    rw [hr]
  rw [this]

end Aihw.Settings
