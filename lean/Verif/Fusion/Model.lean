import Verif.Periphery.Model

/-!
# Export to and import from the fusion chip

Models utils/export.py:29-226 and inference/converter/fusion.py:19-77.

Simplifications (stated once):
* a model is the list of its analog layers (`named_analog_layers`) with their tiles (`analog_tiles`), for
  the CSV header also the list of `named_modules`; the tile is the periphery model (`Periphery.Tile`);
* `sklearn.LinearRegression` on one regressor is ordinary least squares with intercept, coefficient 0
  for a constant regressor (minimum-norm solution of the centred problem);
* the CSV text is a list of rows of typed fields: decimal text of numbers is read back exactly, class and
  layer names contain nothing that needs special treatment by `csv` (which quotes it anyway);
* `load_state_dict` of an optional state dictionary is C28; here `state_dict=None`;
* devices, dtypes and training flags are not modelled.
-/
namespace Aihw.Fusion

open Aihw.Periphery (Tile getWeights setWeights)

/-! ## Converter -/

/-- inference/converter/fusion.py:19. -/
def zeroClip : ℚ := 1 / 10000000000

/-- fusion.py:45-49 `__init__`. -/
def fusionInit (gMax : ℚ) : Except PyErr Unit :=
  if gMax < 10 ∨ gMax > 40 then .error .argumentError else .ok ()

/-- One row of `convert_to_conductances` (fusion.py:55-60). -/
def rowTo (gMax : ℚ) (r : Vec) : Vec :=
  let ratio := gMax / max (absMax r) zeroClip
  r.map fun x => clamp 0 gMax |x * ratio|

/-- fusion.py:55-61 `convert_to_conductances`: one conductance matrix, and the weights as parameters.
`max(dim=1)` of an empty row raises. -/
def fusionTo (gMax : ℚ) (w : Mat) : Except PyErr (List Mat × Mat) :=
  if w.any (fun r => r.isEmpty) then .error .indexError
  else .ok ([w.map (rowTo gMax)], w)

/-- `torch.sign`. -/
def sgn (x : ℚ) : ℚ := if 0 < x then 1 else if x < 0 then -1 else 0

/-- `LinearRegression().fit(x, y).coef_` (see header). -/
def slope (x y : Vec) : ℚ :=
  let mx := x.sum / x.length
  let my := y.sum / y.length
  let sxx := (x.map fun a => (a - mx) * (a - mx)).sum
  let sxy := (List.zipWith (fun a b => (a - mx) * (b - my)) x y).sum
  if sxx = 0 then 0 else sxy / sxx

/-- One row of `convert_back_to_weights` (fusion.py:69-75). -/
def rowBack (g w : Vec) : Vec :=
  let v := List.zipWith (fun a b => a * sgn b) g w
  v.map fun a => a * slope v w

/-- fusion.py:62-77 `convert_back_to_weights`.  Simplification: matrices of different shapes are an error
(torch would broadcast shapes of size one). -/
def fusionBack (gs : List Mat) (w : Mat) : Except PyErr Mat :=
  match gs with
  | [g] =>
    if g.map List.length = w.map List.length then .ok (List.zipWith rowBack g w)
    else .error .runtimeError
  | _ => .error .valueError

/-- A conductance converter as used by export and import: parameters of type `P`. -/
structure Conv (P : Type) where
  toG : Mat → Except PyErr (List Mat × P)
  back : List Mat → P → Except PyErr Mat

/-- The default converter (export.py:129, 188). -/
def fusionConv (gMax : ℚ) : Conv Mat := ⟨fusionTo gMax, fusionBack⟩

/-! ## Models -/

/-- An analog tile and whether it is an `InferenceTile`. -/
structure FTile where
  inference : Bool
  tile : Tile

/-- An analog layer: its name and its tiles. -/
structure Layer where
  name : String
  tiles : List FTile

variable {P : Type}

/-! ## Export -/

/-- export.py:136-144: one tile. -/
def exportTile (K : Conv P) (t : FTile) : Except PyErr (List ℚ × P) :=
  if t.inference = false then .error .tileError
  else match getWeights t.tile false with
    | .error e => .error e
    | .ok (w, _) =>
      match K.toG w with
      | .error e => .error e
      | .ok (gs, p) => .ok ((gs.map List.flatten).flatten, p)

/-- export.py:133-147: one layer; the values of all tiles in one list, the parameters of every tile. -/
def exportLayer (K : Conv P) (l : Layer) : Except PyErr (String × List ℚ × List P) :=
  match l.tiles.mapM (exportTile K) with
  | .error e => .error e
  | .ok r => .ok (l.name, (r.map Prod.fst).flatten, r.map Prod.snd)

/-- export.py:104-153 `fusion_export`: conductance data and parameters by layer name. -/
def fusionExport (K : Conv P) (m : List Layer) :
    Except PyErr (List (String × List ℚ) × List (String × List P)) :=
  match m.mapM (exportLayer K) with
  | .error e => .error e
  | .ok r => .ok (r.map fun x => (x.1, x.2.1), r.map fun x => (x.1, x.2.2))

/-! ## Import -/

/-- Dictionary lookup. -/
def find {β : Type} (n : String) : List (String × β) → Option β
  | [] => none
  | (m, v) :: l => if m = n then some v else find n l

/-- `Tensor(values).reshape([out, in])` of exactly `out * in` values. -/
def toMat (out inn : Nat) (v : List ℚ) : Mat :=
  (List.range out).map fun i => (v.drop (i * inn)).take inn

/-- export.py:203-224: one tile, reading the values from `last`; returns the tile afterwards. -/
def importTile (K : Conv P) (data : List ℚ) (params : List P) (last k : Nat) (t : FTile) :
    Except PyErr Unit × FTile :=
  if t.inference = false then (.error .tileError, t)
  else
    let n := t.tile.cfg.outSize * t.tile.cfg.inSize
    let v := (data.drop last).take n
    if v.length ≠ n then (.error .runtimeError, t)
    else match params[k]? with
      | none => (.error .indexError, t)
      | some p =>
        match K.back [toMat t.tile.cfg.outSize t.tile.cfg.inSize v] p with
        | .error e => (.error e, t)
        | .ok w =>
          match getWeights t.tile true with
          | .error e => (.error e, t)
          | .ok (_, b) =>
            let r := setWeights w b false none t.tile
            (r.1, { t with tile := r.2 })

/-- export.py:200-224: the loop over the tiles of a layer. -/
def importTiles (K : Conv P) (data : List ℚ) (params : List P) :
    Nat → Nat → List FTile → Except PyErr Unit × List FTile
  | _, _, [] => (.ok (), [])
  | last, k, t :: ts =>
    match importTile K data params last k t with
    | (.error e, t) => (.error e, t :: ts)
    | (.ok (), t) =>
      let r := importTiles K data params (last + t.tile.cfg.outSize * t.tile.cfg.inSize) (k + 1) ts
      (r.1, t :: r.2)

/-- export.py:197-224: one layer. -/
def importLayer (K : Conv P) (data : List (String × List ℚ)) (params : List (String × List P))
    (l : Layer) : Except PyErr Unit × Layer :=
  match find l.name data with
  | none => (.error .keyError, l)
  | some d =>
    match find l.name params with
    | none => (.error .keyError, l)
    | some p =>
      let r := importTiles K d p 0 0 l.tiles
      (r.1, { l with tiles := r.2 })

/-- export.py:156-226 `fusion_import` from a data dictionary: the model is changed in place, also when
the call raises. -/
def fusionImport (K : Conv P) (data : List (String × List ℚ)) (params : List (String × List P)) :
    List Layer → Except PyErr Unit × List Layer
  | [] => (.ok (), [])
  | l :: ls =>
    match importLayer K data params l with
    | (.error e, l) => (.error e, l :: ls)
    | (.ok (), l) =>
      let r := fusionImport K data params ls
      (r.1, l :: r.2)

/-! ## CSV file -/

/-- A field of a CSV row. -/
inductive Field where
  | num (n : Nat)
  | str (s : String)
  | float (q : ℚ)
  deriving DecidableEq

/-- What `named_modules` yields: skipped (tile modules, simulator tiles, module lists, analog containers),
digital, or an analog layer with its class name and the size of its weight tensor. -/
inductive Kind where
  | skipped
  | digital
  | analog (cls : String) (shape : List Nat)
  deriving DecidableEq

/-- The entries of the header: id, class name, weight size (export.py:75-96). -/
def layerInfos : Nat → List Kind → List (Nat × String × List Nat)
  | _, [] => []
  | idx, .skipped :: l => layerInfos idx l
  | idx, .digital :: l => layerInfos (idx + 1) l
  | idx, .analog c s :: l => (idx + 1, c, s) :: layerInfos (idx + 1) l

/-- export.py:66-101 `_fusion_get_csv_header`: ids, classes, numbers of weights, heights, widths.
(`size()[0]` of a tensor without dimensions raises; weights have two or more.) -/
def csvHeader (mods : List Kind) : List (List Field) :=
  let infos := layerInfos 0 mods
  [infos.map fun i => .num i.1,
   infos.map fun i => .str i.2.1,
   infos.map fun i => .num i.2.2.prod,
   infos.map fun i => .num (i.2.2.headD 0),
   infos.map fun i => .num i.2.2.tail.prod]

/-- export.py:29-39 `_fusion_save_csv`. -/
def saveCsv (data : List (String × List ℚ)) (header : List (List Field)) : List (List Field) :=
  header ++ [data.map fun d => .str d.1] ++ data.map fun d => d.2.map .float

/-- `d[k] = v` of a dictionary. -/
def dictSet {β : Type} (d : List (String × β)) (k : String) (v : β) : List (String × β) :=
  if (find k d).isSome then d.map fun p => if p.1 = k then (k, v) else p else d ++ [(k, v)]

/-- `float(x)`; a name is no number. -/
def toFloat : Field → Except PyErr ℚ
  | .float q => .ok q
  | .num n => .ok n
  | .str _ => .error .valueError

/-- `str(x)` of a field that is used as layer name. -/
def toName : Field → String
  | .str s => s
  | .num n => toString n
  | .float q => toString q

/-- export.py:53-58: the header check; a missing row is `StopIteration`. -/
def checkHeader : List (List Field) → List (List Field) → Except PyErr (List (List Field))
  | [], file => .ok file
  | _ :: _, [] => .error .other
  | h :: hs, r :: file => if r = h then checkHeader hs file else .error .exportError

/-- export.py:60-62: one row per layer name. -/
def readRows : List String → List (List Field) → List (String × List ℚ) →
    Except PyErr (List (String × List ℚ))
  | [], _, d => .ok d
  | _ :: _, [], _ => .error .other
  | n :: ns, r :: file, d =>
    match r.mapM toFloat with
    | .error e => .error e
    | .ok v => readRows ns file (dictSet d n v)

/-- export.py:42-63 `_fusion_load_csv`. -/
def loadCsv (file header : List (List Field)) : Except PyErr (List (String × List ℚ)) :=
  match checkHeader header file with
  | .error e => .error e
  | .ok [] => .error .other
  | .ok (names :: rows) => readRows (names.map toName) rows []

/-- `fusion_import` from a file name (export.py:192-194), then as from a dictionary. -/
def fusionImportFile (K : Conv P) (file : List (List Field)) (mods : List Kind)
    (params : List (String × List P)) (m : List Layer) : Except PyErr Unit × List Layer :=
  match loadCsv file (csvHeader mods) with
  | .error e => (.error e, m)
  | .ok data => fusionImport K data params m

end Aihw.Fusion
