import Verif.Extra.Every
import Verif.Extra.Examples

/-!
# A concrete case for `C73_every_optional`
-/
namespace Aihw.Extra

def oldSpec : Dict := exTrans.spec.filter fun x => decide (x.1 ≠ key "transfer_every")

example : TransSt.load false (prefixed (key "d") oldSpec) (key "d") true { exTrans with every := [5], slices := [0] } =
    .ok { exTrans with every := [5] } := by
  refine C73_every_optional exTrans { exTrans with every := [5], slices := [0] } false rfl rfl true ?_ ?_ ?_
  · intro x hx hn
    rw [find_select, find_prefixed, strip_sub]
    show find oldSpec x.1 = _
    unfold oldSpec
    rw [find_filter_ne _ _ _ hn]
    exact (find_eq_some_iff exTrans.wf _ _).2 hx
  · decide +kernel
  · decide +kernel

end Aihw.Extra
