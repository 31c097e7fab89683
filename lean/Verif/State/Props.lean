import Verif.State.Model

/-!
# C28: checkpoint round trip, C44: context identity — theorems
-/
namespace Aihw.State

variable {σ W H E A : Type}

/-! ## Specification -/

/-- Two registered tensors have the same name, presence and shape. -/
def SameSlot (p q : String × Option Ten) : Prop :=
  p.1 = q.1 ∧ p.2.map Ten.shape = q.2.map Ten.shape

/-- Source and destination tile register the same tensors. -/
def SameLayout (src dst : Tile σ A) : Prop :=
  List.Forall₂ SameSlot src.params dst.params ∧ (src.params.map Prod.fst).Nodup ∧
  ∀ n ∈ src.noneAttrs, n ∉ src.params.map Prod.fst

/-- The simulator tile that `load_state_dict` fills for `dst`. -/
def blank (S : SimOps σ W H E) (c : Cfg) (dst : Tile σ A) (seed : Nat) : σ :=
  if dst.torchTile then dst.sim else S.create c dst.xSize dst.dSize seed

/-- Filling the blank simulator tile from the state of `src` succeeds and gives a simulator state
related to the saved one by `R` (see `State/Device.lean` for which `R` holds for which device). -/
def Restorable (S : SimOps σ W H E) (R : σ → σ → Prop) (c : Cfg) (src dst : Tile σ A) : Prop :=
  ∀ seed, S.names (blank S c dst seed) = S.names src.sim ∧
    ∀ seed', ∃ s', restoreSim S (getAnalogState S src) seed' (blank S c dst seed) = .ok s' ∧
      R src.sim s'

/-- What a successful load must have done to `dst`, giving `t`: weights and device state from the
source, all parameters and buffers, flags untouched; the attributes that are not part of the state
dictionary keep the values of the destination. -/
structure Loaded (R : σ → σ → Prop) (src dst t : Tile σ A) : Prop where
  sim : R src.sim t.sim
  params : t.params = src.params
  cls : t.cls = dst.cls
  sizes : t.xSize = dst.xSize ∧ t.dSize = dst.dSize
  unsaved : t.lrScale = dst.lrScale ∧ t.aux = dst.aux
  flags : t.loadCfg = dst.loadCfg ∧ t.strictCfg = dst.strictCfg

/-! ## Lemmas -/

theorem squeeze_same (old new : Ten) (h : new.shape = old.shape) : squeeze old new = new := by
  unfold squeeze
  rw [if_neg]
  rintro ⟨h1, h2⟩
  rw [h, h1] at h2
  simp at h2

theorem compat_self (c : Cfg) : c.compatibleWith c.tileClass = true := by
  simp [Cfg.compatibleWith]

theorem setTileClass_same (w : World) (r : Nat) (c : String) (h : (w.cfgs r).tileClass = c) :
    w.setTileClass r c = w := by
  unfold World.setTileClass
  have : (fun k => if k = r then { w.cfgs k with tileClass := c } else w.cfgs k) = w.cfgs := by
    funext k
    split_ifs with hk
    · subst hk; rw [← h]
    · rfl
  rw [this]

theorem noneOut_id (names : List String) (ps : List (String × Option Ten))
    (h : ∀ n ∈ names, n ∉ ps.map Prod.fst) : noneOut names ps = ps := by
  unfold noneOut
  conv_rhs => rw [← List.map_id ps]
  apply List.map_congr_left
  intro p hp
  rw [if_neg, id]
  intro hc
  exact h p.1 (by simpa using hc) (List.mem_map_of_mem hp)

theorem lookup_filterMap (ps : List (String × Option Ten)) (hn : (ps.map Prod.fst).Nodup)
    (p : String × Option Ten) (hp : p ∈ ps) :
    lookup p.1 (ps.filterMap fun q => q.2.map fun v => (q.1, v)) = p.2 := by
  induction ps with
  | nil => cases hp
  | cons q ps ih =>
    simp only [List.map_cons, List.nodup_cons] at hn
    have hnot : ∀ n, n ∉ ps.map Prod.fst →
        lookup n (ps.filterMap fun q => q.2.map fun v => (q.1, v)) = none := by
      intro n hnn
      clear ih hn hp
      induction ps with
      | nil => rfl
      | cons r ps ih2 =>
        simp only [List.map_cons, List.mem_cons, not_or] at hnn
        rcases r with ⟨rn, rv⟩
        cases rv with
        | none => simpa using ih2 hnn.2
        | some v =>
          simp only [List.filterMap_cons, Option.map_some, lookup]
          rw [if_neg (fun h => hnn.1 h.symm)]
          exact ih2 hnn.2
    rcases List.mem_cons.1 hp with rfl | hp'
    · rcases p with ⟨pn, pv⟩
      cases pv with
      | none => simpa using hnot pn hn.1
      | some v => simp [lookup]
    · have hne : q.1 ≠ p.1 := fun h => hn.1 (h ▸ List.mem_map_of_mem hp')
      rcases q with ⟨qn, qv⟩
      cases qv with
      | none => simpa using ih hn.2 hp'
      | some v =>
        simp only [List.filterMap_cons, Option.map_some, lookup]
        rw [if_neg hne]
        exact ih hn.2 hp'

/-- Loading the saved values into tensors of the same layout restores them all. -/
theorem loadParam_all (ps qs : List (String × Option Ten)) (hn : (ps.map Prod.fst).Nodup)
    (hs : List.Forall₂ SameSlot ps qs) :
    let vals := ps.filterMap fun q => q.2.map fun v => (q.1, v)
    qs.map (loadParam vals) = ps ∧ qs.any (shapeBad vals) = false ∧
      qs.any (missing vals) = false ∧ vals.any (unexpected qs) = false := by
  intro vals
  have hl : ∀ p ∈ ps, lookup p.1 vals = p.2 := fun p hp => lookup_filterMap ps hn p hp
  have hu : vals.any (unexpected qs) = false := by
    rw [List.any_eq_false]
    intro v hv
    obtain ⟨p, hp, hpv⟩ := List.mem_filterMap.1 hv
    rcases p with ⟨pn, pv⟩
    cases pv with
    | none => simp at hpv
    | some x =>
      simp only [Option.map_some, Option.some.injEq] at hpv
      subst hpv
      have : ∃ q ∈ qs, q.1 = pn ∧ q.2.isSome = true := by
        clear hl hn hv
        induction hs with
        | nil => cases hp
        | @cons a b l1 l2 hab _ ih =>
          rcases List.mem_cons.1 hp with rfl | hp
          · refine ⟨b, List.mem_cons_self .., hab.1.symm, ?_⟩
            have := hab.2
            cases hb : b.2 <;> simp_all
          · obtain ⟨q, hq, h⟩ := ih hp
            exact ⟨q, List.mem_cons_of_mem _ hq, h⟩
      obtain ⟨q, hq, h1, h2⟩ := this
      simp only [unexpected, Bool.and_eq_true, Bool.not_eq_true', not_and, Bool.not_eq_false]
      intro _
      rw [List.any_eq_true]
      exact ⟨q, hq, by simp [h1, h2]⟩
  refine ⟨?_, ?_, ?_, hu⟩
  · clear hu
    generalize vals = vals at hl
    induction hs with
    | nil => rfl
    | @cons a b l1 l2 hab hr ih =>
      simp only [List.map_cons, List.nodup_cons] at hn
      rw [List.map_cons, ih hn.2 (fun p hp => hl p (List.mem_cons_of_mem _ hp))]
      congr 1
      have ha := hl a (List.mem_cons_self ..)
      rcases a with ⟨an, av⟩
      rcases b with ⟨bn, bv⟩
      obtain ⟨e1, e2⟩ := hab
      simp only at e1 e2 ha
      subst e1
      unfold loadParam
      simp only [ha]
      cases av <;> cases bv <;> simp_all [squeeze_same]
  · rw [List.any_eq_false]
    clear hu
    generalize vals = vals at hl
    induction hs with
    | nil => simp
    | @cons a b l1 l2 hab hr ih =>
      simp only [List.map_cons, List.nodup_cons] at hn
      intro x hx
      rcases List.mem_cons.1 hx with rfl | hx
      · have ha := hl a (List.mem_cons_self ..)
        rcases a with ⟨an, av⟩
        rcases x with ⟨bn, bv⟩
        obtain ⟨e1, e2⟩ := hab
        simp only at e1 e2 ha
        subst e1
        unfold shapeBad
        simp only [ha]
        cases av <;> cases bv <;> simp_all [squeeze_same]
      · exact ih hn.2 (fun p hp => hl p (List.mem_cons_of_mem _ hp)) x hx
  · rw [List.any_eq_false]
    clear hu
    generalize vals = vals at hl
    induction hs with
    | nil => simp
    | @cons a b l1 l2 hab hr ih =>
      simp only [List.map_cons, List.nodup_cons] at hn
      intro x hx
      rcases List.mem_cons.1 hx with rfl | hx
      · have ha := hl a (List.mem_cons_self ..)
        rcases a with ⟨an, av⟩
        rcases x with ⟨bn, bv⟩
        obtain ⟨e1, e2⟩ := hab
        simp only at e1 e2 ha
        subst e1
        unfold missing
        simp only [ha]
        cases av <;> cases bv <;> simp_all
      · exact ih hn.2 (fun p hp => hl p (List.mem_cons_of_mem _ hp)) x hx

/-- One tile: analog state and tensors are restored. -/
theorem loadTile_ok (S : SimOps σ W H E) (isa : String → String → Bool) (R : σ → σ → Prop)
    (w : World) (src dst : Tile σ A) (r : Nat) (seed : Nat) (hl : dst.loadCfg = true)
    (hc : src.cls = dst.cls) (ht : (w.cfgs dst.cfg).tileClass = dst.cls)
    (hs : (w.cfgs r).tileClass = src.cls) (hlay : SameLayout src dst)
    (hr : Restorable S R (w.cfgs r) src dst) :
    ∃ t, loadTile S isa ⟨some { getAnalogState S src with cfg := r },
        (stateDict S src).vals⟩ seed w dst =
        (.ok ⟨false, false⟩, { w with nextCtx := w.nextCtx + 1 }, t) ∧
      Loaded R src dst t ∧ t.cfg = r ∧
      t.ctx = ⟨w.nextCtx, [], false, false⟩ := by
  obtain ⟨hn, hrest⟩ := hr seed
  obtain ⟨s', hs', hR⟩ := hrest (seed + 1)
  obtain ⟨h1, h2, h3⟩ := hlay
  have hnames : dst.params.map Prod.fst = src.params.map Prod.fst := by
    clear h2 h3
    generalize hp : src.params = ps at h1
    generalize hq : dst.params = qs at h1
    clear hp hq hn hrest hs' hR hs
    induction h1 with
    | nil => rfl
    | cons hab _ ih => simp [hab.1, ih]
  have hno : noneOut src.noneAttrs dst.params = dst.params :=
    noneOut_id _ _ (fun n hm => hnames ▸ h3 n hm)
  have hset : setState S { getAnalogState S src with cfg := r } none seed w dst =
      (.ok (), { w with nextCtx := w.nextCtx + 1 },
        { dst with cfg := r, nonBlocking := false, sim := s',
                   ctx := ⟨w.nextCtx, [], false, false⟩ }) := by
    unfold setState
    have e1 : (w.cfgs dst.cfg).compatibleWith src.cls = true := by
      rw [hc, ← ht]; exact compat_self _
    have e2 : w.setTileClass r (w.cfgs dst.cfg).tileClass = w :=
      setTileClass_same _ _ _ (by rw [hs, hc, ht])
    have e3 : adopt S { getAnalogState S src with cfg := r } none seed w dst =
        { dst with cfg := r, nonBlocking := false, sim := blank S (w.cfgs r) dst seed } := by
      simp only [adopt, getAnalogState, hno, blank, Option.getD_none]
    have e4 : restoreSim S { getAnalogState S src with cfg := r } (seed + 1)
        (blank S (w.cfgs r) dst seed) = .ok s' := by
      rw [← hs']; rfl
    simp only [getAnalogState, Option.getD_some] at e1 e3 e4 ⊢
    simp only [e1, e2, e3, e4, Bool.true_eq_false, if_false, hn, ne_eq, not_true_eq_false, and_false,
      newCtx]
  obtain ⟨p1, p2, p3, p4⟩ := loadParam_all src.params dst.params h2 h1
  refine ⟨{ dst with cfg := r, nonBlocking := false, sim := s', ctx := ⟨w.nextCtx, [], false, false⟩,
                     params := src.params }, ?_, ?_, rfl, rfl⟩
  · unfold loadTile
    simp only [preHook, hl, if_true, hset]
    simp only [stateDict, p1, p2, p3, p4, Bool.or_self]
  · exact ⟨hR, rfl, rfl, ⟨rfl, rfl⟩, ⟨rfl, rfl⟩, ⟨rfl, rfl⟩⟩

/-! ## Round trip -/

/-- **C28 (round trip).**  For every model (any number of tiles), every simulator and every destination
model of the same structure (same tile classes, same registered tensors) loading the state
dictionary of the source in any mode succeeds, and afterwards every tile has the source's
configuration object, restored simulator state and all parameters and buffers (bias, mapping
scales, learned scales, input range, drift factor, …) of the source; all other attributes are the
destination's own. -/
theorem C28_round_trip (S : SimOps σ W H E) (isa : String → String → Bool) (R : σ → σ → Prop)
    (src dst : List (Tile σ A)) (w : World) (legacy strict : Bool) (lc st : Option Bool) (seed : Nat)
    (hlen : src.length = dst.length)
    (hload : ∀ d ∈ dst, (lc.getD d.loadCfg) = true)
    (hpair : ∀ p ∈ src.zip dst, p.1.cls = p.2.cls ∧ (w.cfgs p.2.cfg).tileClass = p.2.cls ∧
      (w.cfgs p.1.cfg).tileClass = p.1.cls ∧ SameLayout p.1 p.2 ∧
      Restorable S R (w.cfgs p.1.cfg) p.1 p.2) :
    ∃ ts, loadStateDict S isa (src.map (stateDict S)) legacy strict lc st seed w dst =
        (.ok (), { w with nextCtx := w.nextCtx + dst.length }, ts) ∧
      ts.length = dst.length ∧
      ∀ i s d t, src[i]? = some s → dst[i]? = some d → ts[i]? = some t →
        Loaded R s (setFlags lc st d) t ∧ t.cfg = s.cfg ∧ t.ctx = ⟨w.nextCtx + i, [], false, false⟩ := by
  have main : ∀ (src dst : List (Tile σ A)) (k seed : Nat), src.length = dst.length →
      (∀ d ∈ dst, d.loadCfg = true) →
      (∀ p ∈ src.zip dst, p.1.cls = p.2.cls ∧ (w.cfgs p.2.cfg).tileClass = p.2.cls ∧
        (w.cfgs p.1.cfg).tileClass = p.1.cls ∧ SameLayout p.1 p.2 ∧
        Restorable S R (w.cfgs p.1.cfg) p.1 p.2) →
      ∃ ts, loadAll S isa (src.map (stateDict S)) seed { w with nextCtx := k } dst =
          (.ok ⟨false, false⟩, { w with nextCtx := k + dst.length }, ts) ∧
        ts.length = dst.length ∧
        ∀ i s d t, src[i]? = some s → dst[i]? = some d → ts[i]? = some t →
          Loaded R s d t ∧ t.cfg = s.cfg ∧ t.ctx = ⟨k + i, [], false, false⟩ := by
    intro src
    induction src with
    | nil =>
      intro dst k seed hl _ _
      have : dst = [] := List.length_eq_zero_iff.1 (by simpa using hl.symm)
      subst this
      exact ⟨[], by simp [loadAll], rfl, fun i s d t h => by simp at h⟩
    | cons s src ih =>
      intro dst k seed hl hld hp
      cases dst with
      | nil => simp at hl
      | cons d dst =>
        obtain ⟨a1, a2, a3, a4, a5⟩ := hp (s, d) (by simp)
        obtain ⟨t, ht, hL, hcfg, hctx⟩ := loadTile_ok S isa R { w with nextCtx := k } s d s.cfg seed
          (hld d (List.mem_cons_self ..)) a1 a2 a3 a4 a5
        obtain ⟨ts, hts, hlen', hall⟩ := ih dst (k + 1) (seed + 3) (by simpa using hl)
          (fun x hx => hld x (List.mem_cons_of_mem _ hx))
          (fun p hp' => hp p (by simpa using Or.inr hp'))
        refine ⟨t :: ts, ?_, by simp [hlen'], ?_⟩
        · have e : stateDict S s = ⟨some { getAnalogState S s with cfg := s.cfg },
              (stateDict S s).vals⟩ := rfl
          rw [List.map_cons, e, loadAll, ht]
          simp only [hts, Bool.or_self, List.length_cons]
          rw [show k + 1 + dst.length = k + (dst.length + 1) from by omega]
        · intro i s' d' t' h1 h2 h3
          cases i with
          | zero =>
            simp only [List.getElem?_cons_zero, Option.some.injEq] at h1 h2 h3
            subst h1 h2 h3
            exact ⟨hL, hcfg, hctx⟩
          | succ i =>
            simp only [List.getElem?_cons_succ] at h1 h2 h3
            have := hall i s' d' t' h1 h2 h3
            rw [show k + 1 + i = k + (i + 1) from by omega] at this
            exact this
  have hz : ∀ p ∈ src.zip (dst.map (setFlags lc st)), ∃ d, p.2 = setFlags lc st d ∧
      (p.1, d) ∈ src.zip dst := by
    intro p hp
    rw [List.zip_map_right] at hp
    obtain ⟨q, hq, rfl⟩ := List.mem_map.1 hp
    exact ⟨q.2, rfl, hq⟩
  obtain ⟨ts, h1, h2, h3⟩ := main src (dst.map (setFlags lc st)) w.nextCtx seed (by simp [hlen])
    (by
      intro d hd
      obtain ⟨d', hd', rfl⟩ := List.mem_map.1 hd
      exact hload d' hd')
    (by
      intro p hp
      obtain ⟨d, hd, hm⟩ := hz p hp
      rw [hd]
      exact hpair _ hm)
  refine ⟨ts, ?_, by simpa using h2, ?_⟩
  · unfold loadStateDict
    have : ({ w with nextCtx := w.nextCtx } : World) = w := rfl
    rw [this] at h1
    rw [h1]
    simp
  · intro i s d t hs hd ht
    exact h3 i s (setFlags lc st d) t hs (by rw [List.getElem?_map, hd]; rfl) ht

end Aihw.State
