import Verif.Bind.Props3

/-!
# C74: concrete configurations
-/
namespace Aihw.Bind

/-- A small library: two modules' worth of classes, float and double. -/
def exLib : Lib where
  hasModule m := decide (m = "devices")
  hasTyped m t := decide (m = "devices") && decide (t = "double")
  cls _ dt s :=
    if s = "Io" ∨ s = "Const" ∨ s = "Soft" ∨ s = "Vec" ∨ s = "Tile" then
      some (if dt = .float then s else s ++ "Double") else none
  tilesEnum c := if c = "BoundManagementType" then some ["NONE", "ITERATIVE"] else none
  devEnum c := if c = "PulseType" then some ["NONE", "STOCHASTIC"] else none
  accepts _ n _ := if n = "secret" then some .attributeError else none
  pulsedBase c := decide (c = "Const" ∨ c = "Soft")
  pulsed c := decide (c = "Const" ∨ c = "Soft")
  mixDevice c := decide (c = "Const")

/-- Read parameters with an ignored field. -/
def exIoHead : Head where
  cname := "IOParameters"
  bcls := .str "Io"
  module := "devices"
  ignore := ["adc_frequency"]
  flds := [⟨"inp_res", .float, false⟩, ⟨"bound_management", .cls "BoundManagementType", false⟩,
    ⟨"adc_frequency", .float, false⟩]

/-- `IOParameters(inp_res=1, bound_management=ITERATIVE)`. -/
def exIo : Val := .data exIoHead (.cons "inp_res" (.int 1) (.cons "bound_management"
  (.enum "BoundManagementType" "ITERATIVE") (.cons "adc_frequency" (.float (3 / 2)) .nil)))

/-- A tile configuration with `forward` and an unbound dataclass. -/
def exTileHead : Head where
  cname := "SingleRPUConfig"
  bcls := .str "Tile"
  module := "devices"
  ignore := []
  flds := [⟨"mapping", .cls "MappingParameter", false⟩, ⟨"forward", .cls "IOParameters", true⟩]

/-- Its `__dict__`. -/
def exTileDict : Dict := .cons "mapping" (.other "MappingParameter") (.cons "forward" exIo .nil)

/-- A device with a nested read parameter. -/
def exTrHead : Head where
  cname := "TransferCompound"
  bcls := .str "Vec"
  module := "devices"
  ignore := []
  flds := [⟨"transfer_every", .float, false⟩, ⟨"transfer_forward", .cls "IOParameters", false⟩,
    ⟨"unit_cell_devices", .list, false⟩]

def exTrDict : Dict := .cons "unit_cell_devices" (.list []) (.cons "transfer_every" (.int 2)
  (.cons "transfer_forward" exIo .nil))

example : ∃ b : BVal, paramsToB exLib .float true exTrHead exTrDict = .ok b :=
  (C74_accepted_iff exLib .float true exTrHead exTrDict "Vec" (by decide +kernel)).2
    ⟨by
      intro _ k hk
      left
      have : k ∈ ["unit_cell_devices", "transfer_every", "transfer_forward"] := hk
      simp only [List.mem_cons, List.not_mem_nil, or_false] at this
      rcases this with rfl | rfl | rfl <;> decide +kernel, by
      intro f hf
      have hf' : f = ⟨"transfer_every", .float, false⟩ ∨ f = ⟨"transfer_forward", .cls "IOParameters", false⟩ ∨
        f = ⟨"unit_cell_devices", .list, false⟩ := by simpa [exTrHead] using hf
      rcases hf' with rfl | rfl | rfl
      · refine ⟨.int 2, rfl, fun _ => ⟨Or.inr ⟨2, rfl⟩, .raw (.int 2), ?_, rfl⟩⟩
        rw [conv] <;> intros <;> simp_all
      · exact ⟨exIo, rfl, fun _ => ⟨trivial, .obj "Io" [("inp_res", .raw (.int 1)),
          ("bound_management", .enum "BoundManagementType" "ITERATIVE")], rfl, rfl⟩⟩
      · exact ⟨.list [], rfl, fun hm => absurd (by decide) hm.1⟩⟩

/-- The nested setting `transfer_forward.bound_management` meets the path hypotheses. -/
example : Travels (.data exTrHead exTrDict) ["transfer_forward", "bound_management"] ∧
    (Val.data exTrHead exTrDict).at ["transfer_forward", "bound_management"]
      = some (.enum "BoundManagementType" "ITERATIVE") := by
  refine ⟨⟨by decide, by decide, by decide, exIo, rfl, by unfold exIo Declares exIoHead; simp, ?_⟩, rfl⟩
  exact ⟨by decide, by decide, by decide, .enum "BoundManagementType" "ITERATIVE", rfl, trivial, trivial⟩

example : tileToB exLib .float exTileHead exTileDict = .ok (.obj "Tile"
    [("forward_io", .obj "Io" [("inp_res", .raw (.int 1)),
      ("bound_management", .enum "BoundManagementType" "ITERATIVE")])]) := rfl

/-- In double precision the nested object is of the double class too. -/
example : tileToB exLib (.other "double") exTileHead exTileDict = .ok (.obj "TileDouble"
    [("forward_io", .obj "IoDouble" [("inp_res", .raw (.int 1)),
      ("bound_management", .enum "BoundManagementType" "ITERATIVE")])]) := rfl

/-- Simple devices of two classes. -/
def exDev (c : String) (w : ℚ) : DevC :=
  .node .simple ⟨c, .str c, "devices", [], [⟨"w_max", .float, false⟩]⟩ (.cons "w_max" (.float w) .nil) false []

/-- Three different devices in a transfer compound: the third is replaced by the second. -/
example : asB exLib .float (.node .transfer exTrHead exTrDict true [exDev "Const" 1, exDev "Soft" 2, exDev "Const" 3])
    = .ok (.node (.obj "Vec" [("transfer_every", .raw (.int 2)), ("transfer_forward", .obj "Io"
        [("inp_res", .raw (.int 1)), ("bound_management", .enum "BoundManagementType" "ITERATIVE")])])
      [.node (.obj "Const" [("w_max", .raw (.float 1))]) [], .node (.obj "Soft" [("w_max", .raw (.float 2))]) [],
       .node (.obj "Soft" [("w_max", .raw (.float 2))]) []]) := rfl

/-- A one-sided cell with two different classes is refused. -/
example : asB exLib .float (.node .oneSided exTrHead exTrDict true [exDev "Const" 1, exDev "Soft" 2])
    = .error .configError := rfl

/-- A misspelt attribute of a device is refused. -/
example : paramsToB exLib .float true exTrHead (.cons "transfer_evry" (.int 3) exTrDict) = .error .configError :=
  C74_typo_refused exLib .float exTrHead _ "Vec" "transfer_evry" rfl (by
    intro f hf
    have hf' : f = ⟨"transfer_every", .float, false⟩ ∨ f = ⟨"transfer_forward", .cls "IOParameters", false⟩ ∨
      f = ⟨"unit_cell_devices", .list, false⟩ := by simpa [exTrHead] using hf
    rcases hf' with rfl | rfl | rfl
    · exact ⟨.int 2, rfl⟩
    · exact ⟨exIo, rfl⟩
    · exact ⟨.list [], rfl⟩) (List.mem_cons_self) (by decide) (by decide)

end Aihw.Bind
