import Verif.Container.Props
import Verif.Periphery.Props

/-!
# C60: weights, drift, programming, checkpoints of containers
-/
namespace Aihw.Container

variable {σ W : Type}

/-- The registered tiles. -/
def Tiles (s : Sys σ) (root i : Nat) : Prop := Registered s root i ∧ ∃ a b, (s.heap i).kind = .tile a b

theorem mem_tiles {s : Sys σ} (hw : WF s) {root : Nat} (hr : root < s.size) {q : String × Nat}
    (hq : q ∈ namedTiles s root) : Tiles s root q.2 :=
  ((C60_tiles_once s hw root hr).all q.2).1 (List.mem_map_of_mem hq)

theorem tiles_mem {s : Sys σ} (hw : WF s) {root : Nat} (hr : root < s.size) {i : Nat}
    (h : Tiles s root i) : ∃ q ∈ namedTiles s root, q.2 = i :=
  List.mem_map.1 (((C60_tiles_once s hw root hr).all i).2 h)

theorem names_inj {s : Sys σ} (hw : WF s) {root : Nat} (hr : root < s.size) {q q' : String × Nat}
    (hq : q ∈ namedTiles s root) (hq' : q' ∈ namedTiles s root) (h : q.1 = q'.1) : q = q' := by
  have L := C60_tiles_once s hw root hr
  exact (List.nodup_map_iff_inj_on (nodup_of_map L.names)).1 L.names q hq q' hq' h

/-! ## Reading -/

theorem mapM_get {T : TileOps σ W} {st : Nat → σ} {l : List (String × Nat)} {d : List (String × W)}
    (h : (l.mapM fun p => (T.get (st p.2)).map fun w => (p.1, w)) = .ok d) :
    List.Forall₂ (fun p q => q.1 = p.1 ∧ T.get (st p.2) = .ok q.2) l d := by
  have := mapM_ok_forall₂ h
  refine this.imp ?_
  intro p q hq
  cases hg : T.get (st p.2) with
  | error e => rw [hg] at hq; cases hq
  | ok w => rw [hg] at hq; cases hq; exact ⟨rfl, rfl⟩

theorem get_mapM {T : TileOps σ W} {st : Nat → σ} {l : List (String × Nat)} {d : List (String × W)}
    (h : List.Forall₂ (fun p q => q.1 = p.1 ∧ T.get (st p.2) = .ok q.2) l d) :
    (l.mapM fun p => (T.get (st p.2)).map fun w => (p.1, w)) = .ok d := by
  apply forall₂_mapM_ok
  refine h.imp ?_
  rintro p q ⟨h1, h2⟩
  rw [h2]
  show Except.ok (p.1, q.2) = .ok q
  rw [← h1]

theorem forall₂_names {T : TileOps σ W} {st : Nat → σ} {l : List (String × Nat)}
    {d : List (String × W)}
    (h : List.Forall₂ (fun p q => q.1 = p.1 ∧ T.get (st p.2) = .ok q.2) l d) :
    d.map Prod.fst = l.map Prod.fst := by
  induction h with
  | nil => rfl
  | cons h _ ih => rw [List.map_cons, List.map_cons, ih, h.1]

theorem forall₂_look {T : TileOps σ W} {st : Nat → σ} {l : List (String × Nat)}
    {d : List (String × W)} (hn : (l.map Prod.fst).Nodup)
    (h : List.Forall₂ (fun p q => q.1 = p.1 ∧ T.get (st p.2) = .ok q.2) l d) :
    ∀ q ∈ l, ∃ w, look q.1 d = some w ∧ T.get (st q.2) = .ok w := by
  have hd : (d.map Prod.fst).Nodup := by rw [forall₂_names h]; exact hn
  intro q hq
  obtain ⟨z, hz, h1, h2⟩ : ∃ z ∈ d, z.1 = q.1 ∧ T.get (st q.2) = .ok z.2 := by
    clear hn hd
    induction h with
    | nil => cases hq
    | cons h _ ih =>
      rcases List.mem_cons.1 hq with rfl | hq
      · exact ⟨_, List.mem_cons_self .., h⟩
      · obtain ⟨z, hz, e⟩ := ih hq
        exact ⟨z, List.mem_cons_of_mem _ hz, e⟩
  exact ⟨z.2, look_of_mem hd (by rw [← h1]; exact hz), h2⟩

/-- **C60 (reading all weights).**  `get_weights` of a container succeeds exactly if reading every
registered tile does; the keys are the tile names in order, and the value under a name is what the
tile of that name returns. -/
theorem C60_get_weights (T : TileOps σ W) (s : Sys σ) (hw : WF s) (root : Nat) (hr : root < s.size) :
    ((∃ d, getWeights T root s = .ok d) ↔ ∀ i, Tiles s root i → ∃ w, T.get (s.st i) = .ok w) ∧
    ∀ d, getWeights T root s = .ok d → d.map Prod.fst = (namedTiles s root).map Prod.fst ∧
      ∀ q ∈ namedTiles s root, ∃ w, look q.1 d = some w ∧ T.get (s.st q.2) = .ok w := by
  have L := C60_tiles_once s hw root hr
  constructor
  · constructor
    · rintro ⟨d, hd⟩ i hi
      obtain ⟨q, hq, rfl⟩ := tiles_mem hw hr hi
      obtain ⟨w, -, h⟩ := forall₂_look L.names (mapM_get hd) q hq
      exact ⟨w, h⟩
    · intro h
      have : ∀ l : List (String × Nat), (∀ q ∈ l, ∃ w, T.get (s.st q.2) = .ok w) →
          ∃ d : List (String × W), List.Forall₂ (fun (p : String × Nat) (q : String × W) =>
            q.1 = p.1 ∧ T.get (s.st p.2) = .ok q.2) l d := by
        intro l
        induction l with
        | nil => intro _; exact ⟨[], List.Forall₂.nil⟩
        | cons q l ih =>
          intro h
          obtain ⟨w, hw⟩ := h q (List.mem_cons_self ..)
          obtain ⟨d, hd⟩ := ih fun z hz => h z (List.mem_cons_of_mem _ hz)
          exact ⟨(q.1, w) :: d, List.Forall₂.cons ⟨rfl, hw⟩ hd⟩
      obtain ⟨d, hd⟩ := this (namedTiles s root) fun q hq => h q.2 (mem_tiles hw hr hq)
      exact ⟨d, get_mapM hd⟩
  · intro d hd
    have hF := mapM_get hd
    exact ⟨forall₂_names hF, forall₂_look L.names hF⟩

/-! ## Writing -/

/-- **C60 (writing all weights).**  If the dictionary has an entry for every tile name and every tile
accepts its entry, `set_weights` succeeds: every tile has been written once with its own entry, nothing
else changes, further entries of the dictionary are ignored. -/
theorem C60_set_weights (T : TileOps σ W) (s : Sys σ) (hw : WF s) (root : Nat) (hr : root < s.size)
    (d : List (String × W))
    (hd : ∀ q ∈ namedTiles s root, ∃ w, look q.1 d = some w ∧ (T.set w (s.st q.2)).1 = .ok ()) :
    (setWeights T d root s).1 = .ok () ∧ (setWeights T d root s).2.heap = s.heap ∧
    (∀ q ∈ namedTiles s root, ∀ w, look q.1 d = some w →
      (setWeights T d root s).2.st q.2 = (T.set w (s.st q.2)).2) ∧
    ∀ i, ¬ Tiles s root i → (setWeights T d root s).2.st i = s.st i := by
  have L := C60_tiles_once s hw root hr
  have R := tileLoop_spec (fun n _ c => match look n d with
    | none => (.error .moduleError, c)
    | some w => T.set w c) (namedTiles s root) L.ids s
  obtain ⟨r1, r2⟩ := R.ok (fun q hq => by
    obtain ⟨w, h1, h2⟩ := hd q hq
    simp only [h1]; exact h2)
  refine ⟨r1, R.heap.1, ?_, fun i hi => R.other i fun hc => hi ((L.all i).1 hc)⟩
  intro q hq w hlook
  have := r2 q hq
  simp only [hlook] at this
  exact this

/-- **C60 (missing entry: not atomic).**  If `set_weights` raises, it stopped at the first tile without
an entry (`ModuleError`) or at the first tile refusing it; the tiles before it have been written, those
behind it have not. In particular a dictionary without an entry for some tile always raises. -/
theorem C60_set_weights_raises (T : TileOps σ W) (s : Sys σ) (hw : WF s) (root : Nat)
    (hr : root < s.size) (d : List (String × W)) :
    (∀ e, (setWeights T d root s).1 = .error e → ∃ l₁ q l₂, namedTiles s root = l₁ ++ q :: l₂ ∧
      (∀ z ∈ l₁, ∃ w, look z.1 d = some w ∧
        (setWeights T d root s).2.st z.2 = (T.set w (s.st z.2)).2) ∧
      (look q.1 d = none ∧ e = .moduleError ∧ (setWeights T d root s).2.st q.2 = s.st q.2 ∨
        ∃ w, look q.1 d = some w ∧ (T.set w (s.st q.2)).1 = .error e) ∧
      ∀ z ∈ l₂, (setWeights T d root s).2.st z.2 = s.st z.2) ∧
    ((∃ q ∈ namedTiles s root, look q.1 d = none) → ∃ e, (setWeights T d root s).1 = .error e) := by
  have L := C60_tiles_once s hw root hr
  have R := tileLoop_spec (fun n _ c => match look n d with
    | none => (.error .moduleError, c)
    | some w => T.set w c) (namedTiles s root) L.ids s
  have first : ∀ e, (setWeights T d root s).1 = .error e → ∃ l₁ q l₂,
      namedTiles s root = l₁ ++ q :: l₂ ∧
      (∀ z ∈ l₁, ∃ w, look z.1 d = some w ∧
        (setWeights T d root s).2.st z.2 = (T.set w (s.st z.2)).2) ∧
      (look q.1 d = none ∧ e = .moduleError ∧ (setWeights T d root s).2.st q.2 = s.st q.2 ∨
        ∃ w, look q.1 d = some w ∧ (T.set w (s.st q.2)).1 = .error e) ∧
      ∀ z ∈ l₂, (setWeights T d root s).2.st z.2 = s.st z.2 := by
    intro e he
    obtain ⟨l₁, q, l₂, h1, h2, h3, h4, h5⟩ := R.raised e he
    refine ⟨l₁, q, l₂, h1, ?_, ?_, h5⟩
    · intro z hz
      obtain ⟨a, b⟩ := h2 z hz
      cases hk : look z.1 d with
      | none => simp only [hk] at a; cases a
      | some w =>
        simp only [hk] at b
        exact ⟨w, rfl, b⟩
    · cases hk : look q.1 d with
      | none =>
        simp only [hk] at h3 h4
        cases h3
        exact Or.inl ⟨rfl, rfl, h4⟩
      | some w =>
        simp only [hk] at h3
        exact Or.inr ⟨w, rfl, h3⟩
  refine ⟨first, ?_⟩
  rintro ⟨q, hq, hn⟩
  cases hres : (setWeights T d root s).1 with
  | error e => exact ⟨e, rfl⟩
  | ok u =>
    exfalso
    have key : ∀ (l : List (String × Nat)) (s : Sys σ), q ∈ l →
        (tileLoop (fun n _ c => match look n d with
          | none => (.error .moduleError, c)
          | some w => T.set w c) l s).1 ≠ .ok () := by
      intro l
      induction l with
      | nil => intro _ h; cases h
      | cons z l ih =>
        intro s hz
        unfold tileLoop
        simp only
        cases hk : look z.1 d with
        | none => simp
        | some w =>
          simp only
          rcases List.mem_cons.1 hz with rfl | hz
          · rw [hn] at hk; cases hk
          · cases (T.set w (s.st z.2)).1 with
            | error e => simp
            | ok _ => exact ih _ hz
    exact key (namedTiles s root) s hq hres

/-- **C60 (round trip).**  If every tile accepts the weights read from it and then returns the same,
`set_weights(get_weights())` succeeds and leaves the weights of the model unchanged. -/
theorem C60_round_trip (T : TileOps σ W) (s : Sys σ) (hw : WF s) (root : Nat) (hr : root < s.size)
    (ht : ∀ i, Tiles s root i → ∃ w, T.get (s.st i) = .ok w ∧ (T.set w (s.st i)).1 = .ok () ∧
      T.get (T.set w (s.st i)).2 = .ok w) :
    ∃ d, getWeights T root s = .ok d ∧ (setWeights T d root s).1 = .ok () ∧
      getWeights T root (setWeights T d root s).2 = .ok d := by
  have L := C60_tiles_once s hw root hr
  obtain ⟨g1, g2⟩ := C60_get_weights T s hw root hr
  obtain ⟨d, hd⟩ := g1.2 fun i hi => by
    obtain ⟨w, h, -⟩ := ht i hi; exact ⟨w, h⟩
  obtain ⟨-, hlook⟩ := g2 d hd
  have hset : ∀ q ∈ namedTiles s root, ∃ w, look q.1 d = some w ∧ (T.set w (s.st q.2)).1 = .ok () := by
    intro q hq
    obtain ⟨w, h1, h2⟩ := hlook q hq
    obtain ⟨w', h3, h4, -⟩ := ht q.2 (mem_tiles hw hr hq)
    rw [h2] at h3; cases h3
    exact ⟨w, h1, h4⟩
  obtain ⟨r1, r2, r3, -⟩ := C60_set_weights T s hw root hr d hset
  refine ⟨d, hd, r1, ?_⟩
  have hsz : (setWeights T d root s).2.size = s.size :=
    (tileLoop_spec _ (namedTiles s root) L.ids s).heap.2
  have hnt : namedTiles (setWeights T d root s).2 root = namedTiles s root := by
    unfold namedTiles namedModules; rw [r2, hsz]
  unfold getWeights
  rw [hnt]
  apply get_mapM
  have hF := mapM_get hd
  have : ∀ (l : List (String × Nat)) (d' : List (String × W)),
      List.Forall₂ (fun p q => q.1 = p.1 ∧ T.get (s.st p.2) = .ok q.2) l d' →
      (∀ q ∈ l, q ∈ namedTiles s root) →
      List.Forall₂ (fun p q => q.1 = p.1 ∧
        T.get ((setWeights T d root s).2.st p.2) = .ok q.2) l d' := by
    intro l d' h
    induction h with
    | nil => intro _; exact List.Forall₂.nil
    | @cons p q l d' h _ ih =>
      intro hl
      refine List.Forall₂.cons ⟨h.1, ?_⟩ (ih fun z hz => hl z (List.mem_cons_of_mem _ hz))
      have hp := hl p (List.mem_cons_self ..)
      obtain ⟨w, h1, h2⟩ := hlook p hp
      obtain ⟨w', h3, -, h5⟩ := ht p.2 (mem_tiles hw hr hp)
      rw [h2] at h3; cases h3
      rw [r3 p hp w h1, h5, ← h2, h.2]
  exact this _ _ hF fun q hq => hq

/-- **C60 (copying between models).**  Weights read from model `a` and written to model `b`: if every
tile name of `b` is one of `a` and the tiles accept and return the weights, the write succeeds and every
tile of `b` returns what the tile of the same name of `a` returns; tiles of `a` without a counterpart
are silently ignored. If some tile name of `b` is not one of `a`, the write raises. -/
theorem C60_copy (T : TileOps σ W) (a b : Sys σ) (ha : WF a) (hb : WF b) (ra rb : Nat)
    (hra : ra < a.size) (hrb : rb < b.size) (d : List (String × W)) (hd : getWeights T ra a = .ok d)
    (ht : ∀ n i j w, (n, i) ∈ namedTiles a ra → (n, j) ∈ namedTiles b rb → T.get (a.st i) = .ok w →
      (T.set w (b.st j)).1 = .ok () ∧ T.get (T.set w (b.st j)).2 = .ok w) :
    ((∀ q ∈ namedTiles b rb, q.1 ∈ (namedTiles a ra).map Prod.fst) →
      (setWeights T d rb b).1 = .ok () ∧ ∀ n i j, (n, i) ∈ namedTiles a ra → (n, j) ∈ namedTiles b rb →
        T.get ((setWeights T d rb b).2.st j) = T.get (a.st i)) ∧
    ((∃ q ∈ namedTiles b rb, q.1 ∉ (namedTiles a ra).map Prod.fst) →
      ∃ e, (setWeights T d rb b).1 = .error e) := by
  obtain ⟨hk, hl⟩ := (C60_get_weights T a ha ra hra).2 d hd
  constructor
  · intro hsub
    have hset : ∀ q ∈ namedTiles b rb, ∃ w, look q.1 d = some w ∧ (T.set w (b.st q.2)).1 = .ok () := by
      intro q hq
      obtain ⟨⟨n, i⟩, hz, hzq⟩ := List.mem_map.1 (hsub q hq)
      obtain ⟨w, h1, h2⟩ := hl (n, i) hz
      obtain ⟨m, j⟩ := q
      simp only at hzq
      subst hzq
      exact ⟨w, h1, (ht n i j w hz hq h2).1⟩
    obtain ⟨r1, -, r3, -⟩ := C60_set_weights T b hb rb hrb d hset
    refine ⟨r1, ?_⟩
    intro n i j hi hj
    obtain ⟨w, h1, h2⟩ := hl (n, i) hi
    rw [r3 (n, j) hj w h1, h2]
    exact (ht n i j w hi hj h2).2
  · rintro ⟨q, hq, hn⟩
    exact (C60_set_weights_raises T b hb rb hrb d).2 ⟨q, hq, look_none (by rw [hk]; exact hn)⟩

/-! ## With the tiles of the periphery model -/

/-- `get_weights()` and `set_weights(w, b)` of the modelled tile (the other functions are not used
here). -/
def periOps : TileOps Periphery.Tile (Mat × Option Vec) where
  get t := Periphery.getWeights t true
  set w t := Periphery.setWeights w.1 w.2 true none t
  drift _ t := (.ok (), t)
  program _ t := (.ok (), t)
  remap o t := Periphery.remapWeights o t
  setLoadFlags _ _ t := t

/-- **C60 (round trip of a whole model of modelled tiles).**  Every registered tile has an arbitrary
valid history and weight scaling switched on (positive omega, within the device range). -/
theorem C60_model_round_trip (s : Sys Periphery.Tile) (hw : WF s) (root : Nat) (hr : root < s.size)
    (ht : ∀ i, Tiles s root i → ∃ (c : Periphery.Cfg) (calls : List Periphery.Call)
      (m : Periphery.MappingPars) (o : ℚ), c.Valid ∧ (∀ k ∈ calls, k.Valid c) ∧
      s.st i = Periphery.run c calls ∧ c.mapping = some m ∧ m.omega = some o ∧ 0 < o ∧
      ∀ B, c.devBound = some B → o ≤ B) :
    ∃ d, getWeights periOps root s = .ok d ∧ (setWeights periOps d root s).1 = .ok () ∧
      getWeights periOps root (setWeights periOps d root s).2 = .ok d := by
  apply C60_round_trip periOps s hw root hr
  intro i hi
  obtain ⟨c, calls, m, o, hc, hcalls, hst, hm, ho, hpos, hdev⟩ := ht i hi
  obtain ⟨wb, hg⟩ : ∃ wb, Periphery.getWeights (Periphery.run c calls) true = .ok wb :=
    ⟨_, Periphery.getWeights_scaled hc (Periphery.run_good hc hcalls)⟩
  obtain ⟨h1, h2, -⟩ := Periphery.C12_remap c hc calls hcalls m hm none o
    (by simp [Periphery.effOmega, ho]) hpos hdev
  rw [hst]
  refine ⟨wb, hg, ?_⟩
  have hre : Periphery.remapWeights none (Periphery.run c calls) =
      periOps.set wb (Periphery.run c calls) := by
    unfold Periphery.remapWeights
    simp only [Bind.bind, Periphery.Op.bind, Periphery.Op.get, Periphery.Op.lift]
    rw [hg]
    rfl
  rw [hre] at h1 h2
  exact ⟨h1, by rw [show periOps.get _ = _ from h2, hg]⟩

/-! ## Drift, programming, remapping -/

/-- **C60 (remapping).**  If no tile raises, `remap_analog_weights(omega)` remaps every registered tile
exactly once, with the given omega, and changes nothing else. -/
theorem C60_remap (T : TileOps σ W) (s : Sys σ) (hw : WF s) (root : Nat) (hr : root < s.size)
    (omega : Option ℚ) (hok : ∀ i, Tiles s root i → (T.remap omega (s.st i)).1 = .ok ()) :
    (remapWeights T omega root s).1 = .ok () ∧ (remapWeights T omega root s).2.heap = s.heap ∧ ∀ i,
      (Tiles s root i → (remapWeights T omega root s).2.st i = (T.remap omega (s.st i)).2) ∧
      (¬Tiles s root i → (remapWeights T omega root s).2.st i = s.st i) := by
  have L := C60_tiles_once s hw root hr
  unfold remapWeights
  have R := tileLoop_spec (fun (_ : String) (_ : Nat) (c : σ) => T.remap omega c)
    (namedTiles s root) L.ids s
  obtain ⟨r1, r2⟩ := R.ok (fun q hq => hok q.2 (mem_tiles hw hr hq))
  refine ⟨r1, R.heap.1, fun i => ⟨fun hi => ?_, fun hn => R.other i fun hc => hn ((L.all i).1 hc)⟩⟩
  obtain ⟨q, hq, rfl⟩ := tiles_mem hw hr hi
  exact r2 q hq

/-- **C60 (drift).**  In training mode `drift_analog_weights` raises before any tile is touched.
Otherwise, if no tile raises, every registered inference tile has drifted exactly once and nothing else
has changed; the training flags of the submodules do not matter. -/
theorem C60_drift (T : TileOps σ W) (s : Sys σ) (hw : WF s) (root : Nat) (hr : root < s.size) (t : ℚ) :
    ((s.heap root).training = true → driftWeights T t root s = (.error .moduleError, s)) ∧
    ((s.heap root).training = false →
      (∀ i ddp, Registered s root i → (s.heap i).kind = .tile true ddp → (T.drift t (s.st i)).1 = .ok ()) →
      (driftWeights T t root s).1 = .ok () ∧ ∀ i,
        ((Registered s root i ∧ ∃ ddp, (s.heap i).kind = .tile true ddp) →
          (driftWeights T t root s).2.st i = (T.drift t (s.st i)).2) ∧
        (¬(Registered s root i ∧ ∃ ddp, (s.heap i).kind = .tile true ddp) →
          (driftWeights T t root s).2.st i = s.st i)) := by
  constructor
  · intro h; unfold driftWeights; rw [if_pos h]
  · intro htr hok
    have L := C60_tiles_once s hw root hr
    unfold driftWeights
    rw [if_neg (by simp [htr])]
    have R := tileLoop_spec (fun (_ : String) (i : Nat) (c : σ) => match (s.heap i).kind with
      | .tile true _ => T.drift t c
      | _ => (.ok (), c)) (namedTiles s root) L.ids s
    obtain ⟨r1, r2⟩ := R.ok (fun q hq => by
      obtain ⟨hreg, a, b, hk⟩ := mem_tiles hw hr hq
      cases a with
      | true => simp only [hk]; exact hok q.2 b hreg hk
      | false => simp only [hk])
    refine ⟨r1, fun i => ⟨?_, ?_⟩⟩
    · rintro ⟨hreg, ddp, hk⟩
      obtain ⟨q, hq, rfl⟩ := tiles_mem hw hr ⟨hreg, true, ddp, hk⟩
      have := r2 q hq
      simp only [hk] at this
      exact this
    · intro hn
      by_cases hi : Tiles s root i
      · obtain ⟨q, hq, rfl⟩ := tiles_mem hw hr hi
        have := r2 q hq
        obtain ⟨hreg, a, b, hk⟩ := hi
        cases a with
        | true => exact absurd ⟨hreg, b, hk⟩ hn
        | false => simp only [hk] at this; exact this
      · exact R.other i fun hc => hi ((L.all i).1 hc)

/-- **C60 (programming).**  In training mode `program_analog_weights` raises before any tile is touched.
Otherwise with inference tiles only (and none raising) every registered tile is programmed exactly once.
Finding: with any other registered tile it always raises, also without a noise model (the tile's method
does not know the argument), possibly after some tiles have been programmed. -/
theorem C60_program (T : TileOps σ W) (s : Sys σ) (hw : WF s) (root : Nat) (hr : root < s.size)
    (noise : Option Nat) :
    ((s.heap root).training = true → programWeights T noise root s = (.error .moduleError, s)) ∧
    ((s.heap root).training = false →
      (∀ i, Tiles s root i → (∃ ddp, (s.heap i).kind = .tile true ddp) ∧
        (T.program noise (s.st i)).1 = .ok ()) →
      (programWeights T noise root s).1 = .ok () ∧ ∀ i,
        (Tiles s root i → (programWeights T noise root s).2.st i = (T.program noise (s.st i)).2) ∧
        (¬ Tiles s root i → (programWeights T noise root s).2.st i = s.st i)) ∧
    ((∃ i ddp, Registered s root i ∧ (s.heap i).kind = .tile false ddp) →
      ∃ e, (programWeights T noise root s).1 = .error e) := by
  have L := C60_tiles_once s hw root hr
  refine ⟨fun h => by unfold programWeights; rw [if_pos h], ?_, ?_⟩
  · intro htr hok
    unfold programWeights
    rw [if_neg (by simp [htr])]
    have R := tileLoop_spec (fun (_ : String) (i : Nat) (c : σ) => match (s.heap i).kind with
      | .tile true _ => T.program noise c
      | _ => (.error .typeError, c)) (namedTiles s root) L.ids s
    obtain ⟨r1, r2⟩ := R.ok (fun q hq => by
      obtain ⟨⟨b, hk⟩, h⟩ := hok q.2 (mem_tiles hw hr hq)
      simp only [hk]; exact h)
    refine ⟨r1, fun i => ⟨?_, fun hi => R.other i fun hc => hi ((L.all i).1 hc)⟩⟩
    intro hi
    obtain ⟨⟨b, hk⟩, h⟩ := hok i hi
    obtain ⟨q, hq, rfl⟩ := tiles_mem hw hr hi
    have := r2 q hq
    simp only [hk] at this
    exact this
  · rintro ⟨i, ddp, hreg, hk⟩
    unfold programWeights
    by_cases htr : (s.heap root).training = true
    · rw [if_pos htr]; exact ⟨_, rfl⟩
    · rw [if_neg htr]
      obtain ⟨q, hq, rfl⟩ := tiles_mem hw hr ⟨hreg, false, ddp, hk⟩
      have key : ∀ (l : List (String × Nat)) (s' : Sys σ), q ∈ l →
          ∃ e, (tileLoop (fun (_ : String) (i : Nat) (c : σ) => match (s.heap i).kind with
            | .tile true _ => T.program noise c
            | _ => (.error .typeError, c)) l s').1 = .error e := by
        intro l
        induction l with
        | nil => intro _ h; cases h
        | cons z l ih =>
          intro s' hz
          unfold tileLoop
          simp only
          rcases List.mem_cons.1 hz with rfl | hz
          · simp only [hk]; exact ⟨_, rfl⟩
          · split
            · exact ⟨_, rfl⟩
            · exact ih _ hz
      exact key _ s hq

/-- **C60 (tile count).**  The first `analog_tile_count()` returns the number of registered tiles.  After
that, whatever happens to the model, later calls return the same number: the count is not updated when
layers are added, replaced or removed. -/
theorem C60_tile_count (s : Sys σ) (hw : WF s) (root : Nat) (hr : root < s.size)
    (h0 : (s.heap root).counter = none) :
    (∃ l : List Nat, l.Nodup ∧ (∀ i, i ∈ l ↔ Tiles s root i) ∧ (tileCount s root).1 = l.length) ∧
    ∀ edits : List (Sys σ → Sys σ),
      (∀ e ∈ edits, ∀ z : Sys σ, ((e z).heap root).counter = (z.heap root).counter) →
      (tileCount (edits.foldl (fun z e => e z) (tileCount s root).2) root).1 = (tileCount s root).1 := by
  have L := C60_tiles_once s hw root hr
  constructor
  · refine ⟨(namedTiles s root).map Prod.snd, L.ids, L.all, ?_⟩
    unfold tileCount
    rw [h0]
    simp
  · intro edits he
    have hc : (((tileCount s root).2).heap root).counter = some (tileCount s root).1 := by
      unfold tileCount; rw [h0]; simp
    generalize (tileCount s root).2 = z at hc
    induction edits generalizing z with
    | nil => simp only [List.foldl_nil]; rw [tileCount, hc]
    | cons e edits ih =>
      rw [List.foldl_cons]
      exact ih (fun e' h => he e' (List.mem_cons_of_mem _ h)) _
        (by rw [he e (List.mem_cons_self ..) z, hc])

/-! ## Checkpoints and distributed training -/

/-- An entry of an old checkpoint: a scalar whose name ends with `analog_ctx`. -/
def OldCtx (p : String × Ten) : Prop := (∃ a, p.1 = a ++ "analog_ctx") ∧ p.2.dim = 0

theorem emptyCtx_iff (p : String × Ten) : emptyCtx p = true ↔ OldCtx p := by
  unfold emptyCtx OldCtx
  simp only [Bool.and_eq_true, decide_eq_true_eq]
  apply and_congr_left
  intro _
  constructor
  · rintro ⟨t, ht⟩
    refine ⟨String.ofList t, ?_⟩
    apply String.toList_inj.1
    rw [String.toList_append, ← ht]
    simp
  · rintro ⟨a, ha⟩
    exact ⟨a.toList, by rw [ha, String.toList_append]⟩

/-- **C60 (loading a checkpoint).**  Without entries of old checkpoints the dictionary of the caller and
`strict` stay as they are.  With any such entry, all of them (and nothing else) are *deleted from the
dictionary of the caller*, and the load is not strict any more, whatever the caller asked for: unrelated
missing or unexpected keys go unreported.  The flags reach every registered tile. -/
theorem C60_load (T : TileOps σ W) (s : Sys σ) (hw : WF s) (root : Nat) (hr : root < s.size)
    (sd : List (String × Ten)) (hsd : (sd.map Prod.fst).Nodup) (strict : Bool) (cfg chk : Option Bool) :
    let r := loadStateDict T sd strict cfg chk root s
    ((∀ p ∈ sd, ¬ OldCtx p) → r.1 = sd ∧ r.2.1 = strict) ∧
    ((∃ p ∈ sd, OldCtx p) → r.2.1 = false ∧ (∃ p ∈ sd, p ∉ r.1)) ∧
    (∀ p, p ∈ r.1 ↔ p ∈ sd ∧ ¬ OldCtx p) ∧ r.1.Sublist sd ∧
    ∀ i, (Tiles s root i → r.2.2.st i = T.setLoadFlags cfg chk (s.st i)) ∧
      (¬ Tiles s root i → r.2.2.st i = s.st i) := by
  intro r
  have L := C60_tiles_once s hw root hr
  have hlen : 0 < ((sd.filter emptyCtx).map Prod.fst).length ↔ ∃ p ∈ sd, OldCtx p := by
    rw [List.length_pos_iff_exists_mem]
    constructor
    · rintro ⟨n, hn⟩
      obtain ⟨p, hp, -⟩ := List.mem_map.1 hn
      rw [List.mem_filter] at hp
      exact ⟨p, hp.1, (emptyCtx_iff p).1 hp.2⟩
    · rintro ⟨p, hp, ho⟩
      exact ⟨p.1, List.mem_map_of_mem (List.mem_filter.2 ⟨hp, (emptyCtx_iff p).2 ho⟩)⟩
  have hmem : ∀ p, p ∈ r.1 ↔ p ∈ sd ∧ ¬ OldCtx p := by
    intro p
    show p ∈ (if 0 < ((sd.filter emptyCtx).map Prod.fst).length then _ else sd) ↔ _
    by_cases h : 0 < ((sd.filter emptyCtx).map Prod.fst).length
    · rw [if_pos h, List.mem_filter]
      apply and_congr_right
      intro hp
      simp only [Bool.not_eq_true', decide_eq_false_iff_not]
      apply not_congr
      constructor
      · intro hn
        obtain ⟨z, hz, hzn⟩ := List.mem_map.1 hn
        rw [List.mem_filter] at hz
        have : z = p := (List.nodup_map_iff_inj_on (nodup_of_map hsd)).1 hsd z hz.1 p hp hzn
        rw [← this]
        exact (emptyCtx_iff z).1 hz.2
      · intro ho
        exact List.mem_map_of_mem (List.mem_filter.2 ⟨hp, (emptyCtx_iff p).2 ho⟩)
    · rw [if_neg h]
      rw [hlen] at h
      push Not at h
      exact ⟨fun hp => ⟨hp, h p hp⟩, fun hp => hp.1⟩
  refine ⟨?_, ?_, hmem, ?_, ?_⟩
  · intro h
    have hn : ¬ 0 < ((sd.filter emptyCtx).map Prod.fst).length := by
      rw [hlen]; rintro ⟨p, hp, ho⟩; exact h p hp ho
    constructor
    · show (if 0 < ((sd.filter emptyCtx).map Prod.fst).length then _ else sd) = sd
      rw [if_neg hn]
    · show (if 0 < ((sd.filter emptyCtx).map Prod.fst).length then _ else strict) = strict
      rw [if_neg hn]
  · intro h
    constructor
    · show (if 0 < ((sd.filter emptyCtx).map Prod.fst).length then false else strict) = false
      rw [if_pos (hlen.2 h)]
    · obtain ⟨p, hp, ho⟩ := h
      exact ⟨p, hp, fun hc => ((hmem p).1 hc).2 ho⟩
  · show (if 0 < ((sd.filter emptyCtx).map Prod.fst).length then _ else sd).Sublist sd
    split_ifs
    · exact List.filter_sublist
    · exact List.Sublist.refl _
  · have R := tileLoop_spec (fun (_ : String) (_ : Nat) (c : σ) =>
      ((.ok (), T.setLoadFlags cfg chk c) : Except PyErr Unit × σ)) (namedTiles s root) L.ids s
    obtain ⟨-, r2⟩ := R.ok (fun q hq => rfl)
    intro i
    refine ⟨fun hi => ?_, fun hi => R.other i fun hc => hi ((L.all i).1 hc)⟩
    obtain ⟨q, hq, rfl⟩ := tiles_mem hw hr hi
    exact r2 q hq

theorem contains_iff (w p : String) : contains w p = true ↔ ∃ a b, p = a ++ w ++ b := by
  unfold contains
  rw [decide_eq_true_eq]
  constructor
  · rintro ⟨a, b, h⟩
    refine ⟨String.ofList a, String.ofList b, ?_⟩
    apply String.toList_inj.1
    rw [String.toList_append, String.toList_append, ← h]
    simp
  · rintro ⟨a, b, h⟩
    exact ⟨a.toList, b.toList, by rw [h, String.toList_append, String.toList_append]⟩

/-- **C60 (distributed training).**  `prepare_for_ddp` raises exactly if some registered tile does not
support it.  Otherwise the parameters to ignore are exactly the entries of the state dictionary whose
name contains `analog_ctx` or `analog_tile_state`, each once and in order, for both orders of the set of
words — provided no entry is called exactly like one of the words. -/
theorem C60_ddp (s : Sys σ) (hw : WF s) (root : Nat) (hr : root < s.size)
    (hroot : (s.heap root).kind = .layer ∨ (s.heap root).kind = .container)
    (words : List String) (hwords : words.Perm ["analog_ctx", "analog_tile_state"])
    (keys : List String) :
    ((∃ e, prepareDdp words keys root s = .error e) ↔
      ∃ i a, Registered s root i ∧ (s.heap i).kind = .tile a false) ∧
    ∀ l, prepareDdp words keys root s = .ok l →
      "analog_ctx" ∉ keys → "analog_tile_state" ∉ keys →
      l.Sublist keys ∧ ∀ k,
        (((∃ a b, k = a ++ "analog_ctx" ++ b) ∨ (∃ a b, k = a ++ "analog_tile_state" ++ b)) →
          l.count k = keys.count k) ∧
        (¬ ((∃ a b, k = a ++ "analog_ctx" ++ b) ∨ (∃ a b, k = a ++ "analog_tile_state" ++ b)) →
          k ∉ l) := by
  have L := C60_tiles_once s hw root hr
  have hcond : ((namedModules s root).any fun p => (s.heap p.2).kind.isAnalog &&
      (namedTiles s p.2).any fun q => (s.heap q.2).kind.noDdp) = true ↔ ∃ i a, Registered s root i ∧ (s.heap i).kind = .tile a false := by
    rw [List.any_eq_true]
    constructor
    · rintro ⟨p, hp, h⟩
      rw [Bool.and_eq_true, List.any_eq_true] at h
      obtain ⟨-, q, hq, hd⟩ := h
      have hp' := (modules_all hw hr p.2).1 (List.mem_map_of_mem hp)
      have hpl : p.2 < s.size := by
        have V := modules_visited hw hr
        refine V.lt s.size hw.kids hr (by intro k hk; cases hk) p.2 ?_
        rw [V.memo_eq]
        simp only [List.append_nil, List.mem_reverse]
        exact List.mem_map_of_mem hp
      obtain ⟨⟨pth, hq1⟩, a, b, hq2⟩ := mem_tiles hw hpl hq
      rw [hq2] at hd
      have hb : b = false := by cases b with
        | false => rfl
        | true => simp [Kind.noDdp] at hd
      subst hb
      obtain ⟨pp, hpp⟩ := hp'
      exact ⟨q.2, a, ⟨pp ++ pth, by rw [resolve_append, hpp]; exact hq1⟩, hq2⟩
    · rintro ⟨i, a, hreg, hk⟩
      obtain ⟨q, hq, rfl⟩ := tiles_mem hw hr ⟨hreg, a, false, hk⟩
      obtain ⟨z, hz, hzr⟩ := List.mem_map.1 ((modules_all hw hr root).2 ⟨[], rfl⟩)
      refine ⟨z, hz, ?_⟩
      rw [Bool.and_eq_true, List.any_eq_true, hzr]
      refine ⟨by rcases hroot with h | h <;> rw [h] <;> rfl, q, hq, ?_⟩
      rw [hk]; rfl
  constructor
  · rw [← hcond]
    unfold prepareDdp
    constructor
    · rintro ⟨e, h⟩
      by_contra hc
      rw [if_neg hc] at h
      cases h
    · intro h; rw [if_pos h]; exact ⟨_, rfl⟩
  · intro l hl h1 h2
    unfold prepareDdp at hl
    split_ifs at hl
    cases hl
    have hsel : ∀ (keys acc : List String), "analog_ctx" ∉ acc → "analog_tile_state" ∉ acc →
        "analog_ctx" ∉ keys → "analog_tile_state" ∉ keys →
        keys.foldl (ddpParam words) acc = acc ++ keys.filter fun k =>
          contains "analog_ctx" k || contains "analog_tile_state" k := by
      intro keys
      induction keys with
      | nil => intro acc _ _ _ _; simp
      | cons k keys ih =>
        intro acc a1 a2 k1 k2
        rw [List.mem_cons, not_or] at k1 k2
        have hstep : ddpParam words acc k =
            acc ++ if contains "analog_ctx" k || contains "analog_tile_state" k then [k] else [] := by
          unfold ddpParam
          have : (words.any fun w => contains w k && !decide (w ∈ acc)) =
              (contains "analog_ctx" k || contains "analog_tile_state" k) := by
            rw [Bool.eq_iff_iff, List.any_eq_true]
            constructor
            · rintro ⟨w, hw, h⟩
              rw [Bool.and_eq_true] at h
              rcases List.mem_cons.1 (hwords.mem_iff.1 hw) with rfl | hw
              · simp [h.1]
              · rw [List.mem_singleton.1 hw] at h; simp [h.1]
            · intro h
              rw [Bool.or_eq_true] at h
              rcases h with h | h
              · exact ⟨"analog_ctx", hwords.mem_iff.2 (by simp), by simp [h, a1]⟩
              · exact ⟨"analog_tile_state", hwords.mem_iff.2 (by simp), by simp [h, a2]⟩
          rw [this]
          split_ifs <;> simp
        rw [List.foldl_cons, hstep]
        by_cases hb : (contains "analog_ctx" k || contains "analog_tile_state" k) = true
        · rw [if_pos hb, ih _ 
            (fun h => (List.mem_append.1 h).elim a1 fun h => k1.1 (List.mem_singleton.1 h))
            (fun h => (List.mem_append.1 h).elim a2 fun h => k2.1 (List.mem_singleton.1 h)) k1.2 k2.2,
            List.filter_cons_of_pos
            (p := fun k => contains "analog_ctx" k || contains "analog_tile_state" k) hb, List.append_assoc]
          rfl
        · rw [if_neg hb, List.append_nil, ih _ a1 a2 k1.2 k2.2, List.filter_cons_of_neg
            (p := fun k => contains "analog_ctx" k || contains "analog_tile_state" k) hb]
    rw [hsel keys [] (by simp) (by simp) h1 h2, List.nil_append]
    refine ⟨List.filter_sublist, ?_⟩
    intro k
    have hb : (contains "analog_ctx" k || contains "analog_tile_state" k) = true ↔
        (∃ a b, k = a ++ "analog_ctx" ++ b) ∨ (∃ a b, k = a ++ "analog_tile_state" ++ b) := by
      rw [Bool.or_eq_true, contains_iff, contains_iff]
    refine ⟨fun h => ?_, fun h => ?_⟩
    · rw [List.count_filter
        (p := fun k => contains "analog_ctx" k || contains "analog_tile_state" k) (hb.2 h)]
    · intro hc
      exact h (hb.1 (List.mem_filter.1 hc).2)

/-- **C60 (finding: an entry called exactly like a word).**  If an earlier entry of the state dictionary
is called exactly `analog_ctx`, later entries containing only this word are not ignored. -/
theorem C60_ddp_finding (words : List String)
    (hwords : words.Perm ["analog_ctx", "analog_tile_state"]) (k : String)
    (hk : ¬ ∃ a b, k = a ++ "analog_tile_state" ++ b) (acc : List String) (ha : "analog_ctx" ∈ acc) :
    ddpParam words acc k = acc := by
  unfold ddpParam
  rw [if_neg]
  rw [List.any_eq_true]
  rintro ⟨w, hw, h⟩
  rw [Bool.and_eq_true] at h
  rcases List.mem_cons.1 (hwords.mem_iff.1 hw) with rfl | hw
  · simp [ha] at h
  · rw [List.mem_singleton.1 hw] at h
    exact hk ((contains_iff _ _).1 h.1)

end Aihw.Container
