import Verif.Fusion.Converter
import Verif.Periphery.Props6
import Verif.Inference.Converter
import Mathlib.Data.List.Nodup

/-!
# C23 — export and import of models
-/
namespace Aihw.Fusion

open Aihw.Periphery (Tile Cfg Call run getWeights setWeights getScales FitsOut)

variable {P : Type}

/-! ## Specification -/

/-- A tile that can be exported: an inference tile (its device has no weight bound) reached by any
sequence of API calls. -/
def Ready (t : FTile) : Prop :=
  t.inference = true ∧ ∃ (c : Cfg) (calls : List Call), c.Valid ∧ c.devBound = none ∧
    (∀ k ∈ calls, k.Valid c) ∧ t.tile = run c calls

/-- Same tile sizes. -/
def SameSize (t t' : FTile) : Prop :=
  t'.tile.cfg.outSize = t.tile.cfg.outSize ∧ t'.tile.cfg.inSize = t.tile.cfg.inSize

/-- The tile `t'` after importing what was exported from `t`: crossbar weights restored row by row,
scales and digital bias unchanged, nothing but the weights touched. -/
def Imported (R : Mat → Mat → Prop) (t t' t'' : FTile) : Prop :=
  t''.inference = t'.inference ∧ t''.tile.cfg = t'.tile.cfg ∧
  t''.tile.mappingScales = t'.tile.mappingScales ∧ t''.tile.learned = t'.tile.learned ∧
  t''.tile.inputRange = t'.tile.inputRange ∧ t''.tile.bias = t'.tile.bias ∧
  ∃ (W W' W2 : Mat) (b b' : Option Vec),
    getWeights t.tile false = .ok (W, b) ∧ getWeights t''.tile false = .ok (W', b') ∧ R W W' ∧
    getWeights t'.tile true = .ok (W2, b')

/-- All rows restored. -/
def RowsRestored (W W' : Mat) : Prop :=
  W'.length = W.length ∧ ∀ (i : Nat) (r : Vec), W[i]? = some r → ∃ r' : Vec, W'[i]? = some r' ∧ Restored r r'

/-- A converter with one matrix per tile that keeps shapes and restores weights up to `R`. -/
def OneMatrix (K : Conv P) (R : Mat → Mat → Prop) : Prop :=
  ∀ (o n : Nat) (w : Mat), IsMat o n w → 0 < n → ∃ (g : Mat) (p : P) (w' : Mat),
    K.toG w = .ok ([g], p) ∧ IsMat o n g ∧ K.back [g] p = .ok w' ∧ IsMat o n w' ∧ R w w'

/-! ## Lemmas -/

theorem fusionConv_oneMatrix {gMax : ℚ} (hg : 0 < gMax) : OneMatrix (fusionConv gMax) RowsRestored := by
  intro o n w hw hn
  have hne : ∀ r ∈ w, r ≠ [] := by
    rintro r hr rfl
    have := hw.2 _ hr
    simp at this
    omega
  refine ⟨w.map (rowTo gMax), w, List.zipWith rowBack (w.map (rowTo gMax)) w, ?_, ?_, ?_, ?_, ?_⟩
  · simp only [fusionConv, fusionTo]
    rw [if_neg]
    simp only [List.any_eq_true, List.isEmpty_iff, not_exists, not_and]
    exact hne
  · refine ⟨by simpa using hw.1, ?_⟩
    intro r hr
    obtain ⟨r', hr', rfl⟩ := List.mem_map.1 hr
    rw [rowTo_length]; exact hw.2 _ hr'
  · simp only [fusionConv, fusionBack]
    rw [if_pos]
    rw [List.map_map]
    exact List.map_congr_left fun r _ => rowTo_length _ _
  · refine ⟨by simpa using hw.1, ?_⟩
    intro r hr
    obtain ⟨i, hi, rfl⟩ := List.getElem_of_mem hr
    have hi' : i < w.length := by simpa using hi
    simp only [List.getElem_zipWith, List.getElem_map]
    rw [rowBack_length _ _ (rowTo_length _ _)]
    exact hw.2 _ (List.getElem_mem hi')
  · refine ⟨by simp, ?_⟩
    intro i r hr
    obtain ⟨hi, rfl⟩ := List.getElem?_eq_some_iff.1 hr
    refine ⟨_, List.getElem?_eq_some_iff.2 ⟨by simpa using hi, rfl⟩, ?_⟩
    simp only [List.getElem_zipWith, List.getElem_map]
    exact row_round_trip_one hg _

theorem toMat_flatten : ∀ (g : Mat) (o n : Nat), IsMat o n g → toMat o n g.flatten = g := by
  intro g
  induction g with
  | nil =>
    rintro o n ⟨h, _⟩
    simp only [List.length_nil] at h
    subst h
    rfl
  | cons r g ih =>
    rintro o n ⟨h1, h2⟩
    cases o with
    | zero => simp at h1
    | succ o =>
      have hr : r.length = n := h2 r (List.mem_cons_self ..)
      have hg : IsMat o n g := ⟨by simpa using h1, fun r' h => h2 r' (List.mem_cons_of_mem _ h)⟩
      have := ih o n hg
      unfold toMat at this ⊢
      rw [List.range_succ_eq_map, List.map_cons, List.map_map, List.flatten_cons]
      congr 1
      · simp [hr]
      · rw [← this]
        apply List.map_congr_left
        intro i _
        simp only [Function.comp, Nat.succ_mul]
        have e : i * n + n = r.length + i * n := by rw [hr]; ring
        rw [e, ← List.drop_drop, List.drop_left, this]

theorem flatten_length {o n : Nat} {g : Mat} (h : IsMat o n g) : g.flatten.length = o * n := by
  obtain ⟨h1, h2⟩ := h
  rw [List.length_flatten]
  have : g.map List.length = List.replicate o n := by
    rw [List.eq_replicate_iff]
    refine ⟨by simpa using h1, ?_⟩
    intro x hx
    obtain ⟨r, hr, rfl⟩ := List.mem_map.1 hx
    exact h2 r hr
  rw [this]
  simp

theorem ready_good {t : FTile} (h : Ready t) :
    ∃ c : Cfg, c.Valid ∧ c.devBound = none ∧ Periphery.Good c t.tile := by
  obtain ⟨_, c, calls, h1, h2, h3, h4⟩ := h
  exact ⟨c, h1, h2, by rw [h4]; exact Periphery.run_good h1 h3⟩

theorem export_tile {K : Conv P} {R : Mat → Mat → Prop} (hK : OneMatrix K R) {t : FTile} (ht : Ready t) :
    ∃ (g : Mat) (p : P) (w' : Mat), exportTile K t = .ok (g.flatten, p) ∧
      IsMat t.tile.cfg.outSize t.tile.cfg.inSize g ∧ K.back [g] p = .ok w' ∧
      IsMat t.tile.cfg.outSize t.tile.cfg.inSize w' ∧
      ∃ (W : Mat) (b : Option Vec), getWeights t.tile false = .ok (W, b) ∧ R W w' := by
  obtain ⟨c, hc, _, hg⟩ := ready_good ht
  have hw := Periphery.storedWeights_isMat hg
  rw [← hg.cfg] at hw
  obtain ⟨g, p, w', h1, h2, h3, h4, h5⟩ := hK _ _ _ hw (by rw [hg.cfg]; exact hc.in_pos)
  refine ⟨g, p, w', ?_, h2, h3, h4, _, _, Periphery.getWeights_raw _, h5⟩
  unfold exportTile
  rw [if_neg (by rw [ht.1]; simp), Periphery.getWeights_raw]
  simp only [h1]
  simp

/-- Importing one tile. -/
theorem import_tile {K : Conv P} {t' : FTile} (ht' : Ready t') {g : Mat} {p : P} {w' : Mat}
    (hg : IsMat t'.tile.cfg.outSize t'.tile.cfg.inSize g) (hb : K.back [g] p = .ok w')
    (hw' : IsMat t'.tile.cfg.outSize t'.tile.cfg.inSize w') (pre post : List ℚ) (params : List P) (k : Nat)
    (hp : params[k]? = some p) :
    ∃ t'' : FTile, importTile K (pre ++ g.flatten ++ post) params pre.length k t' = (.ok (), t'') ∧
      t''.inference = t'.inference ∧ t''.tile.cfg = t'.tile.cfg ∧
      t''.tile.mappingScales = t'.tile.mappingScales ∧ t''.tile.learned = t'.tile.learned ∧
      t''.tile.inputRange = t'.tile.inputRange ∧ t''.tile.bias = t'.tile.bias ∧
      ∃ (W2 : Mat) (b' : Option Vec), getWeights t''.tile false = .ok (w', b') ∧
        getWeights t'.tile true = .ok (W2, b') := by
  obtain ⟨c, hc, hdev, hgood⟩ := ready_good ht'
  have hcfg := hgood.cfg
  rw [hcfg] at hg hw'
  have hlen := flatten_length hg
  have hslice : ((pre ++ g.flatten ++ post).drop pre.length).take (c.outSize * c.inSize) = g.flatten := by
    rw [List.append_assoc, List.drop_left, ← hlen, List.take_left]
  have hread := Periphery.getWeights_scaled hc hgood
  set b' : Option Vec := if c.analogBias then (Periphery.storedBias t'.tile).map
      fun b => List.zipWith (· * ·) b (Periphery.rowFactors t'.tile) else Periphery.storedBias t'.tile with hb'
  have hbias : Periphery.BiasOk c b' := by
    have hrf : (Periphery.rowFactors t'.tile).length = c.outSize := by simp [Periphery.rowFactors, hcfg]
    rw [hb']
    cases ha : c.analogBias with
    | false =>
      simp only [Bool.false_eq_true, if_false]
      cases hs : Periphery.storedBias t'.tile with
      | none => exact ha
      | some v => exact fun _ => Periphery.storedBias_length hgood v hs
    | true =>
      simp only [if_true]
      have hd : c.digitalBias = false := by
        cases hd : c.digitalBias with
        | false => rfl
        | true => exact (hc.bias_excl ⟨ha, hd⟩).elim
      cases hs : Periphery.storedBias t'.tile with
      | none => simp [Periphery.storedBias, hcfg, ha, hd] at hs
      | some v =>
        intro _
        simp [Periphery.storedBias_length hgood v hs, hrf]
  have hset := Periphery.setWeights_off (s := false) (arg := none) hc hgood (Or.inl rfl) hw' hbias
  set tt : Tile := { t'.tile with reference := none, bias := Periphery.newBias c t'.tile.bias b',
                                  w := Periphery.devWrite c (Periphery.joined c w' b') } with htt
  have hnb : Periphery.newBias c t'.tile.bias b' = t'.tile.bias := by
    unfold Periphery.newBias
    cases hd : c.digitalBias with
    | false => simp
    | true =>
      have ha : c.analogBias = false := by
        cases ha : c.analogBias with
        | false => rfl
        | true => exact (hc.bias_excl ⟨ha, hd⟩).elim
      simp [hb', ha, Periphery.storedBias, hcfg, hd]
  refine ⟨{ t' with tile := tt }, ?_, rfl, rfl, rfl, rfl, rfl, hnb, _, b', ?_, hread⟩
  · unfold importTile
    rw [if_neg (by rw [ht'.1]; simp)]
    simp only [hcfg, hslice]
    rw [if_neg (by rw [hlen]; simp), hp]
    simp only [toMat_flatten g _ _ hg, hb, hread, hset]
  · rw [Periphery.getWeights_raw]
    have hwj : tt.w = Periphery.joined c w' b' := by
      rw [htt]
      simp only [Periphery.devWrite, hdev]
    obtain ⟨e1, e2⟩ := Periphery.joined_split hw' hbias tt hcfg hwj
    rw [e1]
    congr 2
    show Periphery.storedBias tt = b'
    unfold Periphery.storedBias
    have hc' : tt.cfg = c := hcfg
    rw [hc']
    cases ha : c.analogBias with
    | true =>
      have hd : c.digitalBias = false := by
        cases hd : c.digitalBias with
        | false => rfl
        | true => exact (hc.bias_excl ⟨ha, hd⟩).elim
      rw [hd]
      simp only [Bool.false_eq_true, if_false, if_true]
      exact e2 ha
    | false =>
      have e3 : b' = Periphery.storedBias t'.tile := by rw [hb', ha]; rfl
      rw [e3]
      unfold Periphery.storedBias
      rw [hcfg, ha]
      cases hd : c.digitalBias with
      | false => rfl
      | true =>
        simp only [if_true]
        exact congrArg some hnb

/-- Importing the tiles of a layer. -/
theorem import_tiles {K : Conv P} {R : Mat → Mat → Prop} (hK : OneMatrix K R) :
    ∀ (ts ts' : List FTile), (∀ t ∈ ts, Ready t) → (∀ t ∈ ts', Ready t) → List.Forall₂ SameSize ts ts' →
    ∃ r, ts.mapM (exportTile K) = .ok r ∧ ∀ (pre post : List ℚ) (pp qq : List P),
      ∃ ts'', importTiles K (pre ++ (r.map Prod.fst).flatten ++ post) (pp ++ r.map Prod.snd ++ qq)
          pre.length pp.length ts' = (.ok (), ts'') ∧ ts''.length = ts'.length ∧
        ∀ (k : Nat) (t t' : FTile), ts[k]? = some t → ts'[k]? = some t' →
          ∃ t'', ts''[k]? = some t'' ∧ Imported R t t' t'' := by
  intro ts ts' h1 h2 hf
  induction hf with
  | nil =>
    refine ⟨[], rfl, fun pre post pp qq => ⟨[], rfl, rfl, ?_⟩⟩
    intro k t t' h
    simp at h
  | @cons t t' ts ts' hs hf ih =>
    obtain ⟨r, e1, e2⟩ := ih (fun t h => h1 t (List.mem_cons_of_mem _ h))
      (fun t h => h2 t (List.mem_cons_of_mem _ h))
    obtain ⟨g, p, w', x1, x2, x3, x4, W, b, x5, x6⟩ := export_tile hK (h1 t (List.mem_cons_self ..))
    rw [← hs.1, ← hs.2] at x2 x4
    refine ⟨(g.flatten, p) :: r, ?_, ?_⟩
    · rw [List.mapM_cons, x1, e1]; rfl
    · intro pre post pp qq
      obtain ⟨t'', y1, y2, y3, y4, y5, y6, y7, W2, b', y8, y9⟩ := import_tile (K := K)
        (h2 t' (List.mem_cons_self ..)) x2 x3 x4 pre ((r.map Prod.fst).flatten ++ post)
        (pp ++ p :: (r.map Prod.snd ++ qq)) pp.length (by simp)
      obtain ⟨ts'', z1, z2, z3⟩ := e2 (pre ++ g.flatten) post (pp ++ [p]) qq
      refine ⟨t'' :: ts'', ?_, by simp [z2], ?_⟩
      · simp only [List.map_cons, List.flatten_cons, List.append_assoc, List.cons_append,
          List.nil_append, List.length_append, List.length_cons, List.length_nil, Nat.zero_add]
          at y1 z1 ⊢
        rw [importTiles, y1]
        simp only
        rw [y3, ← flatten_length x2, z1]
      · intro k u u' hu hu'
        cases k with
        | zero =>
          simp only [List.getElem?_cons_zero, Option.some.injEq] at hu hu'
          subst hu hu'
          exact ⟨t'', by simp, y2, y3, y4, y5, y6, y7, W, w', W2, b, b', x5, y8, x6, y9⟩
        | succ k =>
          simp only [List.getElem?_cons_succ] at hu hu' ⊢
          exact z3 k u u' hu hu'

theorem find_of_mem {β : Type} {n : String} {v : β} : ∀ {l : List (String × β)},
    (l.map Prod.fst).Nodup → (n, v) ∈ l → find n l = some v := by
  intro l
  induction l with
  | nil => intro _ h; cases h
  | cons a l ih =>
    rcases a with ⟨m, u⟩
    intro hn h
    simp only [List.map_cons, List.nodup_cons] at hn
    rcases List.mem_cons.1 h with h | h
    · cases h; simp [find]
    · have hne : m ≠ n := by
        rintro rfl
        exact hn.1 (List.mem_map_of_mem (f := Prod.fst) h)
      rw [find, if_neg hne]
      exact ih hn.2 h

theorem fusionExport_spec {K : Conv P} : ∀ (m : List Layer) (f : Layer → List (List ℚ × P)),
    (∀ l ∈ m, l.tiles.mapM (exportTile K) = .ok (f l)) →
    fusionExport K m = .ok (m.map fun l => (l.name, ((f l).map Prod.fst).flatten),
      m.map fun l => (l.name, (f l).map Prod.snd)) := by
  intro m f h
  have : m.mapM (exportLayer K) =
      .ok (m.map fun l => (l.name, ((f l).map Prod.fst).flatten, (f l).map Prod.snd)) := by
    induction m with
    | nil => rfl
    | cons l m ih =>
      rw [List.mapM_cons, ih fun l hl => h l (List.mem_cons_of_mem _ hl)]
      simp only [exportLayer, h l (List.mem_cons_self ..)]
      rfl
  unfold fusionExport
  rw [this]
  simp [List.map_map, Function.comp_def]

/-! ## C23: export and import of a model -/

/-- Exporting a model and importing the unmodified data — into the model itself or any model with the same
layer names and tile sizes, whatever its weights — restores the crossbar weights of every tile of every
layer (constant rows become zero), and keeps scales and digital biases.  An analog bias is replaced by
the value `get_weights()` reports for it, i.e. it is multiplied by the output scales. -/
theorem C23_round_trip (gMax : ℚ) (hg : 0 < gMax) (m m' : List Layer)
    (hm : ∀ l ∈ m, ∀ t ∈ l.tiles, Ready t) (hm' : ∀ l ∈ m', ∀ t ∈ l.tiles, Ready t)
    (hn : (m.map Layer.name).Nodup)
    (hs : List.Forall₂ (fun l l' => l'.name = l.name ∧ List.Forall₂ SameSize l.tiles l'.tiles) m m') :
    ∃ data params m'', fusionExport (fusionConv gMax) m = .ok (data, params) ∧
      fusionImport (fusionConv gMax) data params m' = (.ok (), m'') ∧ m''.length = m'.length ∧
      ∀ (i : Nat) (l l' : Layer), m[i]? = some l → m'[i]? = some l' →
        ∃ l'', m''[i]? = some l'' ∧ l''.name = l'.name ∧ l''.tiles.length = l'.tiles.length ∧
          ∀ (k : Nat) (t t' : FTile), l.tiles[k]? = some t → l'.tiles[k]? = some t' →
            ∃ t'', l''.tiles[k]? = some t'' ∧ Imported RowsRestored t t' t'' := by
  have hK := fusionConv_oneMatrix hg
  set K := fusionConv gMax
  -- the tile exports of every layer
  have hself : ∀ l ∈ m, ∃ r, l.tiles.mapM (exportTile K) = .ok r := by
    intro l hl
    have : List.Forall₂ SameSize l.tiles l.tiles := List.forall₂_same.2 fun _ _ => ⟨rfl, rfl⟩
    obtain ⟨r, hr, _⟩ := import_tiles hK l.tiles l.tiles (hm l hl) (hm l hl) this
    exact ⟨r, hr⟩
  let f : Layer → List (List ℚ × Mat) := fun l =>
    match l.tiles.mapM (exportTile K) with
    | .ok r => r
    | .error _ => []
  have hf : ∀ l ∈ m, l.tiles.mapM (exportTile K) = .ok (f l) := by
    intro l hl
    obtain ⟨r, hr⟩ := hself l hl
    simp only [f, hr]
  set data : List (String × List ℚ) := m.map fun l => (l.name, ((f l).map Prod.fst).flatten)
  set params : List (String × List Mat) := m.map fun l => (l.name, (f l).map Prod.snd)
  have hexp := fusionExport_spec m f hf
  have hdata : ∀ l ∈ m, find l.name data = some ((f l).map Prod.fst).flatten := by
    intro l hl
    apply find_of_mem
    · have : data.map Prod.fst = m.map Layer.name := by simp [data, List.map_map, Function.comp_def]
      rw [this]; exact hn
    · exact List.mem_map_of_mem (f := fun l : Layer => (l.name, ((f l).map Prod.fst).flatten)) hl
  have hpar : ∀ l ∈ m, find l.name params = some ((f l).map Prod.snd) := by
    intro l hl
    apply find_of_mem
    · have : params.map Prod.fst = m.map Layer.name := by simp [params, List.map_map, Function.comp_def]
      rw [this]; exact hn
    · exact List.mem_map_of_mem (f := fun l : Layer => (l.name, (f l).map Prod.snd)) hl
  -- one layer
  have layer : ∀ l l', l ∈ m → l' ∈ m' → l'.name = l.name → List.Forall₂ SameSize l.tiles l'.tiles →
      ∃ l'', importLayer K data params l' = (.ok (), l'') ∧ l''.name = l'.name ∧
        l''.tiles.length = l'.tiles.length ∧
        ∀ (k : Nat) (t t' : FTile), l.tiles[k]? = some t → l'.tiles[k]? = some t' →
            ∃ t'', l''.tiles[k]? = some t'' ∧ Imported RowsRestored t t' t'' := by
    intro l l' hl hl' hname hsz
    obtain ⟨r, hr, himp⟩ := import_tiles hK l.tiles l'.tiles (hm l hl) (hm' l' hl') hsz
    have hrf : r = f l := by
      have := hf l hl
      rw [hr] at this
      cases this; rfl
    subst hrf
    obtain ⟨ts'', a1, a2, a3⟩ := himp [] [] [] []
    simp only [List.nil_append, List.append_nil, List.length_nil] at a1
    refine ⟨{ l' with tiles := ts'' }, ?_, rfl, a2, a3⟩
    unfold importLayer
    rw [hname, hdata l hl, hpar l hl]
    simp only [a1]
  -- the loop over the layers
  have loop : ∀ (a a' : List Layer), List.Forall₂
      (fun l l' => l'.name = l.name ∧ List.Forall₂ SameSize l.tiles l'.tiles) a a' →
      (∀ l ∈ a, l ∈ m) → (∀ l ∈ a', l ∈ m') →
      ∃ a'', fusionImport K data params a' = (.ok (), a'') ∧ a''.length = a'.length ∧
        ∀ (i : Nat) (l l' : Layer), a[i]? = some l → a'[i]? = some l' →
        ∃ l'', a''[i]? = some l'' ∧ l''.name = l'.name ∧ l''.tiles.length = l'.tiles.length ∧
          ∀ (k : Nat) (t t' : FTile), l.tiles[k]? = some t → l'.tiles[k]? = some t' →
            ∃ t'', l''.tiles[k]? = some t'' ∧ Imported RowsRestored t t' t'' := by
    intro a a' hfa
    induction hfa with
    | nil =>
      intro _ _
      exact ⟨[], rfl, rfl, fun i l l' h => by simp at h⟩
    | @cons l l' a a' hll hfa ih =>
      intro ha ha'
      obtain ⟨a'', b1, b2, b3⟩ := ih (fun x hx => ha x (List.mem_cons_of_mem _ hx))
        (fun x hx => ha' x (List.mem_cons_of_mem _ hx))
      obtain ⟨l'', c1, c2, c3, c4⟩ := layer l l' (ha l (List.mem_cons_self ..))
        (ha' l' (List.mem_cons_self ..)) hll.1 hll.2
      refine ⟨l'' :: a'', ?_, by simp [b2], ?_⟩
      · rw [fusionImport, c1]
        simp only [b1]
      · intro i u u' hu hu'
        cases i with
        | zero =>
          simp only [List.getElem?_cons_zero, Option.some.injEq] at hu hu'
          subst hu hu'
          exact ⟨l'', by simp, c2, c3, c4⟩
        | succ i =>
          simp only [List.getElem?_cons_succ] at hu hu' ⊢
          exact b3 i u u' hu hu'
  obtain ⟨m'', d1, d2, d3⟩ := loop m m' hs (fun _ h => h) (fun _ h => h)
  exact ⟨data, params, m'', hexp, d1, d2, d3⟩

end Aihw.Fusion
