import Verif.Legacy.Props

/-!
# C85: weight templates of inference experiments (`BasicInferencing.get_model`,
experiments/experiments/inferencing.py:155-199)

* Files, the template directory and the server are an explicit world.  The server answers any address with
  some content (an error page is content too) or raises.  Reading a checkpoint from content, loading it into
  the model and remapping are arbitrary functions; the conversion of checkpoints is the one of C78.
* Moving the model to a device is not modelled; the model that is passed is a copy of the experiment's.
-/
namespace Aihw.Exper
open Aihw Aihw.Legacy

/-- The world: files, whether the template directory exists, where files can be written, and the server. -/
structure World (C : Type) where
  files : Str → Option C
  dir : Bool
  writable : Str → Bool
  server : Str → Option C

/-- The operations on models: `load` of a file's content, the part of the model the conversion sees and may
change, `load_state_dict(·, load_rpu_config=False)` and `remap_analog_weights`. -/
structure Ops (C M : Type) where
  parse : C → Except PyErr Chk
  view : M → LModel
  setView : M → LModel → M
  load : M → Chk → Except PyErr M
  remap : M → M

/-- `template_dir + "/" + weight_template_id + ".pth"` (inferencing.py:174-180). -/
def templatePath (tid : Str) : Str := "/tmp/weight_templates".toList ++ "/".toList ++ tid ++ ".pth".toList

/-- `WEIGHT_TEMPLATE_URL + weight_template_id + ".pth"` (inferencing.py:31, 181). -/
def templateUrl (tid : Str) : Str :=
  "https://github.com/IBM-AI-Hardware-Center/Composer/raw/main/".toList ++ tid ++ ".pth".toList

/-- `download` (inferencing.py:34-38): the status of the answer is not checked. -/
def download {C : Type} (w : World C) (url dest : Str) : Except PyErr Unit × World C :=
  match w.server url with
  | none => (.error .other, w)
  | some c => if w.writable dest then (.ok (), { w with files := fun p => if p = dest then some c else w.files p })
    else (.error .other, w)

/-- `mkdir` of the template directory (inferencing.py:183-184). -/
def makeDir {C : Type} (w : World C) : World C := { w with dir := true }

/-- `load`, `convert_legacy_checkpoint`, `load_state_dict` (inferencing.py:190-192).  The conversion may
change the model before it raises; the changed copy is lost then. -/
def loadFile {C M : Type} (o : Ops C M) (m : M) (c : C) : Except PyErr M := do
  let chk ← o.parse c
  let r ← (convert chk (some (o.view m))).1
  o.load (match (convert chk (some (o.view m))).2 with
    | some v => o.setView m v
    | none => m) r.1

/-- The part after the path is known (inferencing.py:188-197). -/
def fromPath {C M : Type} (o : Ops C M) (remap : Bool) (w : World C) (m : M) (p : Str) : Except PyErr M :=
  let r := match w.files p with
    | some c => loadFile o m c
    | none => .ok m
  r.map fun m => if remap then o.remap m else m

/-- `get_model` (inferencing.py:155-199) of a copy `m` of the experiment's model. -/
def getModel {C M : Type} (o : Ops C M) (remap : Bool) (tid : Str) (w : World C) (m : M) :
    Except PyErr M × World C :=
  if tid = [] then (.ok m, w)
  else if tid.take 1 = ".".toList ∨ tid.take 1 = "/".toList then (fromPath o remap w m tid, w)
  else if "http".toList.isPrefixOf tid then (.error .unboundLocal, makeDir w)
  else
    let w := makeDir w
    match w.files (templatePath tid) with
    | some _ => (fromPath o remap w m (templatePath tid), w)
    | none => match download w (templateUrl tid) (templatePath tid) with
      | (.error e, w) => (.error e, w)
      | (.ok _, w) => (fromPath o remap w m (templatePath tid), w)

/-- Several calls, one after the other, with an arbitrary server at each call. -/
def calls {C M : Type} (o : Ops C M) : List (Bool × Str × M × (Str → Option C)) → World C → World C
  | [], w => w
  | c :: cs, w => calls o cs (getModel o c.1 c.2.1 { w with server := c.2.2.2 } c.2.2.1).2

end Aihw.Exper
