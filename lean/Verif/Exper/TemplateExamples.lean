import Verif.Exper.TemplateProps

/-!
# C85: concrete cases
-/
namespace Aihw.Exper
open Aihw Aihw.Legacy

/-- A named template, a local file and an address. -/
example : NameId "lenet".toList := by
  refine ⟨by decide, ?_, ?_⟩
  · rintro ⟨r, h | h⟩ <;> simp at h
  · rintro ⟨r, h⟩; simp at h
example : LocalId "./w.pth".toList := ⟨"/w.pth".toList, Or.inl (by decide)⟩
example : HttpId "https://x".toList := ⟨"s://x".toList, by decide⟩

/-- Contents are checkpoints, models are counters of operations: loading adds 10, remapping 1. -/
def exOps : Ops Chk ℕ := ⟨fun c => .ok c, fun _ => ⟨[], []⟩, fun m _ => m, fun m _ => .ok (m + 10), fun m => m + 1⟩

def exWorld : World Chk := ⟨fun _ => none, false, fun _ => true, fun _ => some []⟩

/-- A missing local file is not an error; the model is remapped. -/
example : (getModel exOps true "./w.pth".toList exWorld 5).1.toOption = some 6 := by decide +kernel

/-- An answer without tile states is stored although it cannot be loaded (`C85_cache` then applies). -/
example : (getModel exOps true "lenet".toList exWorld 5).1.toOption = none ∧
    ((getModel exOps true "lenet".toList exWorld 5).2.files (placeOf "lenet".toList)).isSome = true := by
  decide +kernel

end Aihw.Exper
