import Verif.Fusion.Props

/-!
# C23 — analog bias, failing imports, files
-/
namespace Aihw.Fusion

open Aihw.Periphery (Tile Cfg Call run getWeights setWeights getScales FitsOut)

variable {P : Type}

/-! ## Data of the wrong size -/

/-- The values a layer needs. -/
def needed (ts : List FTile) : Nat := (ts.map fun t => t.tile.cfg.outSize * t.tile.cfg.inSize).sum

theorem setWeights_cfg (w : Mat) (b : Option Vec) (t : Tile) : (setWeights w b false none t).2.cfg = t.cfg := by
  unfold setWeights
  simp only [bind, Periphery.Op.bind, Periphery.Op.modify, Periphery.Op.get, Bool.false_eq_true,
    if_false, pure, Periphery.Op.pure, Periphery.Op.lift]
  cases b with
  | none =>
    simp only [Periphery.Op.pure]
    cases Periphery.combineWeights t.cfg w none <;> rfl
  | some v =>
    simp only
    by_cases hd : t.cfg.digitalBias = true
    · simp only [hd, if_true]
      by_cases h1 : v.length = t.cfg.outSize
      · simp only [h1, if_true, Periphery.Op.bind, Periphery.Op.modify, Periphery.Op.pure]
        cases Periphery.combineWeights t.cfg w none <;> rfl
      · simp only [h1, if_false]
        by_cases h2 : v.length = 1
        · simp only [h2, if_true, Periphery.Op.bind, Periphery.Op.modify, Periphery.Op.pure]
          cases Periphery.combineWeights t.cfg w none <;> rfl
        · simp only [h2, if_false, Periphery.Op.throw]
    · simp only [hd, Bool.false_eq_true, if_false, Periphery.Op.pure]
      cases Periphery.combineWeights t.cfg w (some v) <;> rfl

theorem importTile_cfg (K : Conv P) (data : List ℚ) (params : List P) (last k : Nat) (t : FTile) :
    (importTile K data params last k t).2.tile.cfg = t.tile.cfg := by
  unfold importTile
  split_ifs with h1
  · rfl
  simp only
  split_ifs with h2
  · rfl
  cases params[k]? with
  | none => rfl
  | some p =>
    simp only
    cases K.back _ p with
    | error e => rfl
    | ok w =>
      simp only
      cases getWeights t.tile true with
      | error e => rfl
      | ok q => exact setWeights_cfg w q.2 t.tile

/-- A successful import of a tile has read all its values. -/
theorem importTile_ok {K : Conv P} {data : List ℚ} {params : List P} {last k : Nat} {t t' : FTile}
    (h : importTile K data params last k t = (.ok (), t')) :
    t.tile.cfg.outSize * t.tile.cfg.inSize = 0 ∨
      last + t.tile.cfg.outSize * t.tile.cfg.inSize ≤ data.length := by
  unfold importTile at h
  by_cases h1 : t.inference = false
  · rw [if_pos h1] at h; cases h
  rw [if_neg h1] at h
  simp only at h
  by_cases h2 : ((data.drop last).take (t.tile.cfg.outSize * t.tile.cfg.inSize)).length ≠
      t.tile.cfg.outSize * t.tile.cfg.inSize
  · rw [if_pos h2] at h; cases h
  · push Not at h2
    simp only [List.length_take, List.length_drop] at h2
    omega

theorem importTiles_ok {K : Conv P} {data : List ℚ} {params : List P} :
    ∀ (ts : List FTile) (last k : Nat) (ts' : List FTile), last ≤ data.length →
      importTiles K data params last k ts = (.ok (), ts') → last + needed ts ≤ data.length := by
  intro ts
  induction ts with
  | nil => intro last k ts' hl _; simpa [needed] using hl
  | cons t ts ih =>
    intro last k ts' hl h
    rw [importTiles] at h
    rcases h1 : importTile K data params last k t with ⟨e | u, t1⟩
    · rw [h1] at h; cases h
    rw [h1] at h
    simp only [Prod.mk.injEq] at h
    have hc : t1.tile.cfg = t.tile.cfg := by
      have := importTile_cfg K data params last k t
      rw [h1] at this
      exact this
    have h2 := importTile_ok h1
    rw [hc] at h
    have h3 := ih (last + t.tile.cfg.outSize * t.tile.cfg.inSize) (k + 1) _ (by omega)
      (Prod.ext h.1 rfl)
    simp only [needed, List.map_cons, List.sum_cons] at h3 ⊢
    omega

/-- An import that succeeds has found, for every layer, at least as many values as its tiles have
weights. -/
theorem C23_short_data_raises (K : Conv P) (data : List (String × List ℚ))
    (params : List (String × List P)) (m m'' : List Layer)
    (h : fusionImport K data params m = (.ok (), m'')) :
    ∀ l ∈ m, ∃ d, find l.name data = some d ∧ needed l.tiles ≤ d.length := by
  induction m generalizing m'' with
  | nil => simp
  | cons l m ih =>
    rw [fusionImport] at h
    rcases h1 : importLayer K data params l with ⟨e | u, l1⟩
    · rw [h1] at h; cases h
    rw [h1] at h
    simp only [Prod.mk.injEq] at h
    intro x hx
    rcases List.mem_cons.1 hx with rfl | hx
    · unfold importLayer at h1
      cases hd : find x.name data with
      | none => rw [hd] at h1; cases h1
      | some d =>
        rw [hd] at h1
        simp only at h1
        cases hp : find x.name params with
        | none => rw [hp] at h1; cases h1
        | some p =>
          rw [hp] at h1
          simp only [Prod.mk.injEq] at h1
          refine ⟨d, rfl, ?_⟩
          have := importTiles_ok x.tiles 0 0 _ (Nat.zero_le _) (Prod.ext h1.1 rfl)
          simpa using this
    · exact ih _ (Prod.ext h.1 rfl) x hx

theorem importTile_append {K : Conv P} {data : List ℚ} {params : List P} {last k : Nat} {t : FTile}
    (h : t.tile.cfg.outSize * t.tile.cfg.inSize = 0 ∨
      last + t.tile.cfg.outSize * t.tile.cfg.inSize ≤ data.length) (post : List ℚ) :
    importTile K (data ++ post) params last k t = importTile K data params last k t := by
  have : ((data ++ post).drop last).take (t.tile.cfg.outSize * t.tile.cfg.inSize) =
      (data.drop last).take (t.tile.cfg.outSize * t.tile.cfg.inSize) := by
    rcases h with h | h
    · rw [h]; simp
    · rw [List.drop_append_of_le_length (by omega), List.take_append_of_le_length]
      rw [List.length_drop]; omega
  unfold importTile
  simp only [this]

theorem importTiles_append {K : Conv P} {data : List ℚ} {params : List P} :
    ∀ (ts : List FTile) (last k : Nat), last + needed ts ≤ data.length → ∀ post : List ℚ,
      importTiles K (data ++ post) params last k ts = importTiles K data params last k ts := by
  intro ts
  induction ts with
  | nil => intros; rfl
  | cons t ts ih =>
    intro last k h post
    simp only [needed, List.map_cons, List.sum_cons] at h
    rw [importTiles, importTiles, importTile_append (Or.inr (by omega))]
    rcases h1 : importTile K data params last k t with ⟨e | u, t1⟩
    · rfl
    · have hc : t1.tile.cfg = t.tile.cfg := by
        have := importTile_cfg K data params last k t
        rw [h1] at this
        exact this
      simp only [hc]
      rw [ih _ _ (by simp only [needed]; omega)]

theorem find_map_extra (n : String) (extra : String → List ℚ) (data : List (String × List ℚ)) :
    find n (data.map fun d => (d.1, d.2 ++ extra d.1)) = (find n data).map fun d => d ++ extra n := by
  induction data with
  | nil => rfl
  | cons d data ih =>
    rcases d with ⟨a, d⟩
    simp only [List.map_cons, find]
    by_cases ha : a = n
    · subst ha; simp
    · rw [if_neg ha, if_neg ha]; exact ih

/-- Values beyond what the tiles need are ignored without notice. -/
theorem C23_surplus_ignored (K : Conv P) (data : List (String × List ℚ))
    (params : List (String × List P)) (m m'' : List Layer) (extra : String → List ℚ)
    (h : fusionImport K data params m = (.ok (), m'')) :
    fusionImport K (data.map fun d => (d.1, d.2 ++ extra d.1)) params m = (.ok (), m'') := by
  have hfind := fun n => find_map_extra n extra data
  have hshort := C23_short_data_raises K data params m m'' h
  have : ∀ a, (∀ l ∈ a, l ∈ m) →
      fusionImport K (data.map fun d => (d.1, d.2 ++ extra d.1)) params a = fusionImport K data params a := by
    intro a
    induction a with
    | nil => intro _; rfl
    | cons l a ih =>
      intro ha
      have hl : importLayer K (data.map fun d => (d.1, d.2 ++ extra d.1)) params l =
          importLayer K data params l := by
        obtain ⟨d, hd, hlen⟩ := hshort l (ha l (List.mem_cons_self ..))
        unfold importLayer
        rw [hfind, hd]
        simp only [Option.map_some]
        cases find l.name params with
        | none => rfl
        | some p =>
          simp only
          rw [importTiles_append l.tiles 0 0 (by simpa using hlen)]
      rw [fusionImport, fusionImport, hl, ih fun x hx => ha x (List.mem_cons_of_mem _ hx)]
  rw [this m fun _ h => h]
  exact h

/-! ## Failing imports -/

/-- A failing import is not atomic: the layers before the failing one are imported, the later ones
unchanged; in the failing layer the tiles before the failing one are imported, the later ones
unchanged. -/
theorem C23_failed_import (K : Conv P) (data : List (String × List ℚ))
    (params : List (String × List P)) (m m'' : List Layer) (e : PyErr)
    (h : fusionImport K data params m = (.error e, m'')) :
    ∃ (a a'' : List Layer) (l l'' : Layer) (b : List Layer), m = a ++ l :: b ∧ m'' = a'' ++ l'' :: b ∧
      fusionImport K data params a = (.ok (), a'') ∧ l''.name = l.name ∧
      (l'' = l ∨ ∃ (x x'' : List FTile) (t t'' : FTile) (y : List FTile) (d : List ℚ) (p : List P),
        find l.name data = some d ∧ find l.name params = some p ∧
        l.tiles = x ++ t :: y ∧ l''.tiles = x'' ++ t'' :: y ∧
        importTiles K d p 0 0 x = (.ok (), x'')) := by
  have tiles : ∀ (d : List ℚ) (p : List P) (ts ts'' : List FTile) (last k : Nat),
      importTiles K d p last k ts = (.error e, ts'') → ∃ (x x'' : List FTile) (t t'' : FTile)
        (y : List FTile), ts = x ++ t :: y ∧ ts'' = x'' ++ t'' :: y ∧
        importTiles K d p last k x = (.ok (), x'') := by
    intro d p ts
    induction ts with
    | nil => intro ts'' last k h; cases h
    | cons t ts ih =>
      intro ts'' last k h
      rw [importTiles] at h
      rcases h1 : importTile K d p last k t with ⟨e1 | u, t1⟩
      · rw [h1] at h
        simp only [Prod.mk.injEq] at h
        exact ⟨[], [], t, t1, ts, rfl, h.2.symm, rfl⟩
      · rw [h1] at h
        simp only [Prod.mk.injEq] at h
        obtain ⟨x, x'', u, u'', y, q1, q2, q3⟩ := ih _ _ _ (Prod.ext h.1 rfl)
        refine ⟨t :: x, t1 :: x'', u, u'', y, by rw [q1]; rfl, ?_, ?_⟩
        · rw [← h.2]; exact congrArg (t1 :: ·) q2
        · rw [importTiles, h1]
          simp only [q3]
  induction m generalizing m'' with
  | nil => cases h
  | cons l m ih =>
    rw [fusionImport] at h
    rcases h1 : importLayer K data params l with ⟨e1 | u, l1⟩
    · rw [h1] at h
      simp only [Prod.mk.injEq, Except.error.injEq] at h
      obtain ⟨rfl, rfl⟩ := h
      refine ⟨[], [], l, l1, m, rfl, rfl, rfl, ?_⟩
      unfold importLayer at h1
      cases hd : find l.name data with
      | none => rw [hd] at h1; cases h1; exact ⟨rfl, Or.inl rfl⟩
      | some d =>
        rw [hd] at h1
        simp only at h1
        cases hp : find l.name params with
        | none => rw [hp] at h1; cases h1; exact ⟨rfl, Or.inl rfl⟩
        | some p =>
          rw [hp] at h1
          simp only [Prod.mk.injEq] at h1
          obtain ⟨h2, rfl⟩ := h1
          obtain ⟨x, x'', t, t'', y, q1, q2, q3⟩ := tiles d p l.tiles _ 0 0 (Prod.ext h2 rfl)
          exact ⟨rfl, Or.inr ⟨x, x'', t, t'', y, d, p, rfl, rfl, q1, q2, q3⟩⟩
    · rw [h1] at h
      simp only [Prod.mk.injEq] at h
      obtain ⟨a, a'', l2, l2'', b, q1, q2, q3, q4, q5⟩ := ih _ (Prod.ext h.1 rfl)
      refine ⟨l :: a, l1 :: a'', l2, l2'', b, by rw [q1]; rfl, by rw [← h.2]; exact congrArg (l1 :: ·) q2, ?_, q4, q5⟩
      rw [fusionImport, h1]
      simp only [q3]

/-- With a converter that uses more (or fewer) than one conductance matrix per weight, no model with a
tile can be imported. -/
theorem C23_other_converters (K : Conv P) (hK : ∀ g p, ∃ e, K.back [g] p = .error e)
    (data : List (String × List ℚ)) (params : List (String × List P)) (m : List Layer)
    (hm : ∃ l ∈ m, l.tiles ≠ []) : (fusionImport K data params m).1 ≠ .ok () := by
  induction m with
  | nil => obtain ⟨l, hl, _⟩ := hm; cases hl
  | cons l m ih =>
    rw [fusionImport]
    rcases h1 : importLayer K data params l with ⟨e1 | u, l1⟩
    · simp
    · simp only
      obtain ⟨x, hx, hne⟩ := hm
      rcases List.mem_cons.1 hx with rfl | hx
      · exfalso
        unfold importLayer at h1
        cases hd : find x.name data with
        | none => rw [hd] at h1; cases h1
        | some d =>
          rw [hd] at h1
          simp only at h1
          cases hp : find x.name params with
          | none => rw [hp] at h1; cases h1
          | some p =>
            rw [hp] at h1
            simp only [Prod.mk.injEq] at h1
            obtain ⟨t, ts, hts⟩ := List.exists_cons_of_ne_nil hne
            have h2 := h1.1
            rw [hts, importTiles] at h2
            rcases h3 : importTile K d p 0 0 t with ⟨e | u, t1⟩
            · rw [h3] at h2; cases h2
            · unfold importTile at h3
              by_cases c1 : t.inference = false
              · rw [if_pos c1] at h3; cases h3
              rw [if_neg c1] at h3
              simp only at h3
              by_cases c2 : ((d.drop 0).take (t.tile.cfg.outSize * t.tile.cfg.inSize)).length ≠
                  t.tile.cfg.outSize * t.tile.cfg.inSize
              · rw [if_pos c2] at h3; cases h3
              · rw [if_neg c2] at h3
                cases hk : p[0]? with
                | none => rw [hk] at h3; cases h3
                | some q =>
                  rw [hk] at h3
                  obtain ⟨e, he⟩ := hK (toMat t.tile.cfg.outSize t.tile.cfg.inSize
                    (List.take (t.tile.cfg.outSize * t.tile.cfg.inSize) (List.drop 0 d))) q
                  simp only [he] at h3
                  cases h3
      · exact ih ⟨x, hx, hne⟩

/-- The single-pair converter of `inference/converter/conductance.py` (C20) on matrices. -/
def pairConv (gMax gMin : ℚ) : Conv ℚ where
  toG w := (Inference.singleTo gMax gMin w.flatten).map fun r =>
    (r.1.map fun g => toMat w.length ((w.headD []).length) g, r.2)
  back gs p := (Inference.singleBack gMin (gs.map List.flatten) (some p)).map fun v => [v]

/-- Export accepts the single-pair converter (and writes two matrices per tile), import cannot use it. -/
theorem C23_pair_converter_unusable (gMax gMin : ℚ) (data : List (String × List ℚ))
    (params : List (String × List ℚ)) (m : List Layer) (hm : ∃ l ∈ m, l.tiles ≠ []) :
    (fusionImport (pairConv gMax gMin) data params m).1 ≠ .ok () :=
  C23_other_converters _ (fun _ _ => ⟨.valueError, rfl⟩) data params m hm

/-! ## Tiles that are no inference tiles -/

/-- A model with another kind of tile is rejected with `TileError` and not exported. -/
theorem C23_not_inference (gMax : ℚ) (hg : 0 < gMax) (m : List Layer)
    (hm : ∀ l ∈ m, ∀ t ∈ l.tiles, Ready t ∨ t.inference = false)
    (hx : ∃ l ∈ m, ∃ t ∈ l.tiles, t.inference = false) :
    fusionExport (fusionConv gMax) m = .error .tileError := by
  have hK := fusionConv_oneMatrix hg
  set K := fusionConv gMax
  have tile : ∀ t, (Ready t ∨ t.inference = false) →
      (t.inference = false ∧ exportTile K t = .error .tileError) ∨ ∃ r, exportTile K t = .ok r := by
    intro t ht
    rcases ht with ht | ht
    · obtain ⟨g, p, w', h1, _⟩ := export_tile hK ht
      exact Or.inr ⟨_, h1⟩
    · exact Or.inl ⟨ht, by unfold exportTile; rw [if_pos ht]⟩
  have tiles : ∀ ts : List FTile, (∀ t ∈ ts, Ready t ∨ t.inference = false) →
      ((∃ t ∈ ts, t.inference = false) → ts.mapM (exportTile K) = .error .tileError) ∧
      ((ts.mapM (exportTile K) = .error .tileError) ∨ ∃ r, ts.mapM (exportTile K) = .ok r) := by
    intro ts
    induction ts with
    | nil => intro _; exact ⟨(by rintro ⟨t, ht, _⟩; cases ht), Or.inr ⟨[], rfl⟩⟩
    | cons t ts ih =>
      intro h
      obtain ⟨i1, i2⟩ := ih fun u hu => h u (List.mem_cons_of_mem _ hu)
      rcases tile t (h t (List.mem_cons_self ..)) with ⟨_, ht⟩ | ⟨r, hr⟩
      · have : (t :: ts).mapM (exportTile K) = .error .tileError := by
          rw [List.mapM_cons, ht]; rfl
        exact ⟨fun _ => this, Or.inl this⟩
      · constructor
        · rintro ⟨u, hu, hui⟩
          rcases List.mem_cons.1 hu with rfl | hu
          · exfalso
            unfold exportTile at hr
            rw [if_pos hui] at hr
            cases hr
          · rw [List.mapM_cons, hr, i1 ⟨u, hu, hui⟩]; rfl
        · rcases i2 with i2 | ⟨q, i2⟩
          · left; rw [List.mapM_cons, hr, i2]; rfl
          · right; exact ⟨r :: q, by rw [List.mapM_cons, hr, i2]; rfl⟩
  have layers : ∀ a : List Layer, (∀ l ∈ a, ∀ t ∈ l.tiles, Ready t ∨ t.inference = false) →
      (∃ l ∈ a, ∃ t ∈ l.tiles, t.inference = false) → a.mapM (exportLayer K) = .error .tileError := by
    intro a
    induction a with
    | nil => rintro _ ⟨l, hl, _⟩; cases hl
    | cons l a ih =>
      intro h hx
      obtain ⟨t1, t2⟩ := tiles l.tiles (h l (List.mem_cons_self ..))
      rcases t2 with t2 | ⟨r, t2⟩
      · rw [List.mapM_cons]
        simp only [exportLayer, t2]
        rfl
      · obtain ⟨x, hx, hxt⟩ := hx
        rcases List.mem_cons.1 hx with rfl | hx
        · rw [t1 hxt] at t2; cases t2
        · rw [List.mapM_cons]
          simp only [exportLayer, t2]
          rw [ih (fun y hy => h y (List.mem_cons_of_mem _ hy)) ⟨x, hx, hxt⟩]
          rfl
  unfold fusionExport
  rw [layers m hm hx]

/-! ## Analog bias -/

/-- The bias column after a round trip is the stored bias times the output scales: with a mapping scale
different from one an analog bias is changed by export and import of the unmodified data. -/
theorem C23_analog_bias (R : Mat → Mat → Prop) (t t' t'' : FTile) (h : Imported R t t' t'')
    (hr : Ready t') (ha : t'.tile.cfg.analogBias = true) :
    ∃ (W W' : Mat) (b b' : Vec), getWeights t'.tile false = .ok (W, some b) ∧
      getWeights t''.tile false = .ok (W', some b') ∧ b.length = t'.tile.cfg.outSize ∧
      b' = List.zipWith (· * ·) b (Periphery.rowFactors t'.tile) := by
  obtain ⟨_, _, _, _, _, _, W, W', W2, b, b', h1, h2, h3, h4⟩ := h
  obtain ⟨c, hc, _, hg⟩ := ready_good hr
  have hcfg := hg.cfg
  rw [hcfg] at ha
  have hd : c.digitalBias = false := by
    cases hd : c.digitalBias with
    | false => rfl
    | true => exact (hc.bias_excl ⟨ha, hd⟩).elim
  have hs : Periphery.storedBias t'.tile = some (t'.tile.w.map fun r => r.getLastD 0) := by
    unfold Periphery.storedBias
    rw [hcfg, hd, ha]
    simp
  rw [Periphery.getWeights_scaled hc hg, ha, hs] at h4
  simp only [if_true, Option.map_some, Except.ok.injEq, Prod.mk.injEq] at h4
  refine ⟨_, W', _, _, by rw [Periphery.getWeights_raw, hs], by rw [h2, ← h4.2], ?_, rfl⟩
  rw [hcfg]
  simpa using hg.w.1

/-! ## Concrete models -/

/-- Two tiles in one layer (a tile array), one tile with analog bias and a mapping scale in another. -/
def exA : FTile := ⟨true, run { outSize := 2, inSize := 2 } [.setWeights [[1, -2], [3, 3]] none false none]⟩
def exB : FTile := ⟨true, run { outSize := 2, inSize := 1 } [.setWeights [[1], [5]] none false none]⟩
def exC : FTile := ⟨true, run { outSize := 1, inSize := 2, analogBias := true, mapping := some { omega := some 1 } }
  [.setWeights [[4, -2]] (some [2]) true none]⟩
def exModel : List Layer := [⟨"l1", [exA, exB]⟩, ⟨"l2", [exC]⟩]

theorem exReady : ∀ l ∈ exModel, ∀ t ∈ l.tiles, Ready t := by
  intro l hl t ht
  simp only [exModel, List.mem_cons, List.not_mem_nil, or_false] at hl
  rcases hl with rfl | rfl
  · simp only [List.mem_cons, List.not_mem_nil, or_false] at ht
    rcases ht with rfl | rfl
    · exact ⟨rfl, _, _, ⟨by decide, by decide, by decide⟩, rfl, by simp [Call.Valid], rfl⟩
    · exact ⟨rfl, _, _, ⟨by decide, by decide, by decide⟩, rfl, by simp [Call.Valid], rfl⟩
  · simp only [List.mem_cons, List.not_mem_nil, or_false] at ht
    subst ht
    exact ⟨rfl, _, _, ⟨by decide, by decide, by decide⟩, rfl, by simp [Call.Valid], rfl⟩

/-- The hypotheses of `C23_round_trip` hold of this model and itself. -/
example : (exModel.map Layer.name).Nodup ∧ List.Forall₂
    (fun l l' => l'.name = l.name ∧ List.Forall₂ SameSize l.tiles l'.tiles) exModel exModel :=
  ⟨by decide, List.forall₂_same.2 fun _ _ => ⟨rfl, List.forall₂_same.2 fun _ _ => ⟨rfl, rfl⟩⟩⟩

/-- Crossbar weights and biases of all tiles. -/
def weightsOf (m : List Layer) : List (List (Option (Mat × Option Vec))) :=
  m.map fun l => l.tiles.map fun t => (getWeights t.tile false).toOption

/-- After the round trip: constant rows are zero (in particular all rows of a tile with one input), the
analog bias `1/2` with scale `4` has become `2`. -/
example : weightsOf exModel =
      [[some ([[1, -2], [3, 3]], none), some ([[1], [5]], none)], [some ([[1, -1/2]], some [1/2])]] ∧
    (match fusionExport (fusionConv 40) exModel with
      | .error _ => []
      | .ok (d, p) => weightsOf (fusionImport (fusionConv 40) d p exModel).2) =
      [[some ([[1, -2], [0, 0]], none), some ([[0], [0]], none)], [some ([[1, -1/2]], some [2])]] := by
  constructor <;> decide +kernel

/-! ## Files -/

theorem mapM_toFloat (l : List ℚ) : (l.map Field.float).mapM toFloat = .ok l := by
  induction l with
  | nil => rfl
  | cons a l ih => rw [List.map_cons, List.mapM_cons, ih]; rfl

theorem checkHeader_append (h file : List (List Field)) : checkHeader h (h ++ file) = .ok file := by
  induction h with
  | nil => rfl
  | cons a h ih => simp [checkHeader, ih]

theorem find_append_none {β : Type} {n : String} {l : List (String × β)} (h : n ∉ l.map Prod.fst) :
    find n l = none := by
  induction l with
  | nil => rfl
  | cons a l ih =>
    rcases a with ⟨m, u⟩
    simp only [List.map_cons, List.mem_cons, not_or] at h
    rw [find, if_neg (fun hh => h.1 hh.symm)]
    exact ih h.2

theorem readRows_spec (data : List (String × List ℚ)) : ∀ d : List (String × List ℚ),
    ((d ++ data).map Prod.fst).Nodup →
    readRows (data.map Prod.fst) (data.map fun x => x.2.map .float) d = .ok (d ++ data) := by
  induction data with
  | nil => intro d _; simp [readRows]
  | cons a data ih =>
    rcases a with ⟨n, v⟩
    intro d hd
    simp only [List.map_cons, readRows, mapM_toFloat]
    have hn : n ∉ d.map Prod.fst := by
      intro hh
      simp only [List.map_append, List.map_cons, List.nodup_append] at hd
      exact hd.2.2 n hh n (List.mem_cons_self ..) rfl
    have : dictSet d n v = d ++ [(n, v)] := by
      unfold dictSet
      rw [find_append_none hn]
      rfl
    rw [this, ih]
    · simp
    · simpa using hd

/-- Writing the conductance data to a file and reading it with the same model returns it exactly. -/
theorem C23_csv_round_trip (data : List (String × List ℚ)) (mods : List Kind)
    (hn : (data.map Prod.fst).Nodup) :
    loadCsv (saveCsv data (csvHeader mods)) (csvHeader mods) = .ok data := by
  unfold loadCsv saveCsv
  rw [List.append_assoc, checkHeader_append]
  simp only [List.cons_append, List.nil_append, List.map_map]
  have e : (data.map fun d => toName (Field.str d.1)) = data.map Prod.fst := rfl
  have := readRows_spec data [] (by simpa using hn)
  simp only [List.nil_append] at this
  exact this

/-- What a model has: its analog layers in order with class name and weight size, and the number of
modules before each of them (tiles and containers not counted). -/
def analogLayers (mods : List Kind) : List (String × List Nat) :=
  mods.filterMap fun
    | .analog c s => some (c, s)
    | _ => none

theorem infos_analog (mods : List Kind) : ∀ idx,
    (layerInfos idx mods).map (fun i => (i.2.1, i.2.2)) = analogLayers mods := by
  induction mods with
  | nil => intro _; rfl
  | cons k mods ih =>
    intro idx
    cases k with
    | skipped => simpa [layerInfos, analogLayers] using ih idx
    | digital => simpa [layerInfos, analogLayers] using ih (idx + 1)
    | analog c s =>
      have := ih (idx + 1)
      simp only [layerInfos, analogLayers, List.map_cons, List.filterMap_cons] at this ⊢
      rw [this]

theorem checkHeader_mismatch : ∀ (h h' file : List (List Field)), h.length = h'.length → h ≠ h' →
    checkHeader h (h' ++ file) = .error .exportError := by
  intro h
  induction h with
  | nil =>
    intro h' file hl hne
    cases h' with
    | nil => exact absurd rfl hne
    | cons a h' => simp at hl
  | cons a h ih =>
    intro h' file hl hne
    cases h' with
    | nil => simp at hl
    | cons b h' =>
      simp only [List.cons_append, checkHeader]
      split_ifs with hab
      · subst hab
        exact ih h' file (by simpa using hl) (fun hh => hne (by rw [hh]))
      · rfl

theorem map_field_inj {α : Type} {f g : α → Nat} : ∀ {a b : List α},
    (a.map fun x => Field.num (f x)) = (b.map fun x => Field.num (g x)) → a.map f = b.map g := by
  intro a
  induction a with
  | nil => intro b h; cases b with
    | nil => rfl
    | cons y b => simp at h
  | cons x a ih =>
    intro b h
    cases b with
    | nil => simp at h
    | cons y b =>
      simp only [List.map_cons, List.cons.injEq, Field.num.injEq] at h ⊢
      exact ⟨h.1, ih h.2⟩

/-- A file is rejected with `FusionExportError` by every model whose analog layers differ in number,
class, number of weights, height or width from those of the exporting model. -/
theorem C23_csv_mismatch (data : List (String × List ℚ)) (mods mods' : List Kind)
    (hne : (analogLayers mods).map (fun a => (a.1, a.2.prod, a.2.headD 0, a.2.tail.prod)) ≠
      (analogLayers mods').map (fun a => (a.1, a.2.prod, a.2.headD 0, a.2.tail.prod))) :
    loadCsv (saveCsv data (csvHeader mods)) (csvHeader mods') = .error .exportError := by
  unfold loadCsv saveCsv
  rw [List.append_assoc, checkHeader_mismatch _ _ _ (by simp [csvHeader])]
  intro hh
  apply hne
  rw [← infos_analog mods 0, ← infos_analog mods' 0]
  simp only [csvHeader, List.cons.injEq, and_true] at hh
  obtain ⟨h0, h2', h3', h4', h5'⟩ := hh
  clear h0
  have h3 := map_field_inj h3'
  have h4 := map_field_inj h4'
  have h5 := map_field_inj h5'
  have hstr : ∀ (a b : List (Nat × String × List Nat)),
      (a.map fun i => Field.str i.2.1) = (b.map fun i => Field.str i.2.1) →
      (a.map fun i => i.2.1) = b.map fun i => i.2.1 := by
    intro a
    induction a with
    | nil => intro b h; cases b with
      | nil => rfl
      | cons y b => simp at h
    | cons x a ih =>
      intro b h
      cases b with
      | nil => simp at h
      | cons y b =>
        simp only [List.map_cons, List.cons.injEq, Field.str.injEq] at h ⊢
        exact ⟨h.1, ih b h.2⟩
  have h2 := hstr _ _ h2'.symm
  generalize layerInfos 0 mods = a at *
  generalize layerInfos 0 mods' = b at *
  clear hstr h2' h3' h4' h5' hne
  induction a generalizing b with
  | nil =>
    cases b with
    | nil => rfl
    | cons y b => simp at h2
  | cons x a ih =>
    cases b with
    | nil => simp at h2
    | cons y b =>
      simp only [List.map_cons, List.cons.injEq] at h2 h3 h4 h5 ⊢
      refine ⟨?_, ih b h3.2 h4.2 h5.2 h2.2⟩
      simp only [Prod.mk.injEq]
      exact ⟨h2.1, h3.1.symm, h4.1.symm, h5.1.symm⟩

/-- Layer names are not part of the check: a file of a model with the same layers under other names passes
it, and the import then fails with `KeyError` at the first unknown name. -/
theorem C23_renamed_key_error (K : Conv P) (data : List (String × List ℚ)) (mods : List Kind)
    (params : List (String × List P)) (l : Layer) (m : List Layer)
    (hn : (data.map Prod.fst).Nodup) (hl : l.name ∉ data.map Prod.fst) :
    fusionImportFile K (saveCsv data (csvHeader mods)) mods params (l :: m) = (.error .keyError, l :: m) := by
  unfold fusionImportFile
  rw [C23_csv_round_trip data mods hn]
  simp only [fusionImport, importLayer, find_append_none hl]

end Aihw.Fusion
