import Verif.Periphery.Model
import Mathlib.Logic.Function.Basic

/-!
# Scale tensors by reference (C38)

`set_mapping_scales` / `set_scales` / `get_scales` / `set_learned_out_scales`
(src/aihwkit/simulator/tiles/periphery.py:498-534, 688-727, 757-783) with tensors as references into a heap:
`flatten().to(device)` of a one-dimensional tensor on the right device is the same tensor (no copy), `x[:] = v`
writes in place.  Only tensors of the right device and dtype; the config has a `mapping` attribute; learning-rate
compensation off.
-/
namespace Aihw.Periphery.Alias

/-- The heap of tensors and the two scale attributes of a tile. -/
structure St where
  heap : Nat → Vec
  next : Nat
  mapping : Option Nat
  learned : Option Nat

/-- Current value of a tensor. -/
def St.val (s : St) (l : Nat) : Vec := s.heap l

/-- A new tensor. -/
def St.alloc (s : St) (v : Vec) : Nat × St := (s.next, { s with heap := Function.update s.heap s.next v, next := s.next + 1 })

/-- `tensor[:] = v` with broadcasting of a single element (a length mismatch raises in torch; here the heap is
left unchanged). -/
def St.write (s : St) (l : Nat) (v : Vec) : St :=
  if v.length = 1 then { s with heap := Function.update s.heap l ((s.val l).map fun _ => v.headD 0) }
  else if v.length = (s.val l).length then { s with heap := Function.update s.heap l v }
  else s

/-- periphery.py:510-534 with a tensor argument `a`. -/
def setMappingScales (a : Nat) (s : St) : St :=
  match s.mapping with
  | some m => if (s.val a).length = 1 then s.write m (s.val a) else { s with mapping := some a }
  | none => { s with mapping := some a }

/-- periphery.py:757-783. -/
def setLearned (v : Vec) (s : St) : St :=
  match s.learned with
  | some l => s.write l v
  | none => s

/-- periphery.py:688-699 with a tensor argument. -/
def setScales (a : Nat) (s : St) : St := setLearned [1] (setMappingScales a s)

/-- torch broadcasting product, the empty tensor standing for the raised size error. -/
def prod (a b : Vec) : Vec := match bmul a b with | .ok v => v | .error _ => []

/-- periphery.py:701-716: an existing tensor is returned by reference, a product is a new tensor. -/
def getScales (s : St) : Option Nat × St :=
  match s.mapping, s.learned with
  | none, none => (none, s)
  | none, some l => (some l, s)
  | some m, none => (some m, s)
  | some m, some l => let (r, s) := s.alloc (prod (s.val m) (s.val l)); (some r, s)

/-- src/aihwkit/simulator/tiles/module.py:242-246, the last lines of `TileModule.to(dtype=...)`. -/
def toDtype (s : St) : St :=
  match getScales s with
  | (none, s) => s
  | (some l, s) => setScales l s

/-- What the caller of the tile can do. Tensor arguments are either fresh tensors with the given content
(`Fresh`) or a reference obtained before. -/
inductive Op where
  | setScalesFresh (v : Vec) | setScalesRef (l : Nat) | setLearned (v : Vec) | getScales | toDtype
  | callerWrite (l : Nat) (v : Vec)

def step (s : St) : Op → St
  | .setScalesFresh v => let (l, s) := s.alloc v; setScales l s
  | .setScalesRef l => setScales l s
  | .setLearned v => setLearned v s
  | .getScales => (getScales s).2
  | .toDtype => toDtype s
  | .callerWrite l v => s.write l v

/-- The values visible through the tile. -/
def St.view (s : St) : Option Vec × Option Vec := (s.mapping.map s.val, s.learned.map s.val)

/-- What `get_scales()` would show now. -/
def St.scales (s : St) : Option Vec := let (r, s') := getScales s; r.map s'.val

/-! ## By-value semantics -/

/-- In-place write on values. -/
def assign (old v : Vec) : Vec :=
  if v.length = 1 then old.map fun _ => v.headD 0 else if v.length = old.length then v else old

/-- By-value `set_scales`. -/
def setScalesV (v : Vec) (p : Option Vec × Option Vec) : Option Vec × Option Vec :=
  (some (match p.1 with
    | some m => if v.length = 1 then assign m v else v
    | none => v), p.2.map (assign · [1]))

/-- By-value product of the scales. -/
def scalesV (p : Option Vec × Option Vec) : Option Vec :=
  match p with
  | (none, none) => none
  | (none, some l) => some l
  | (some m, none) => some m
  | (some m, some l) => some (prod m l)

/-- By-value step; `none` for the operations that only exist by reference. -/
def stepV (p : Option Vec × Option Vec) : Op → Option Vec × Option Vec
  | .setScalesFresh v => setScalesV v p
  | .setLearned v => (p.1, p.2.map (assign · v))
  | .getScales => p
  | .toDtype => match scalesV p with
    | none => p
    | some v => setScalesV v p
  | .setScalesRef _ => p
  | .callerWrite _ _ => p

/-! ## Separation invariant -/

/-- The two scale tensors exist and are different tensors. -/
structure Sep (s : St) : Prop where
  m : ∀ l, s.mapping = some l → l < s.next
  l : ∀ l, s.learned = some l → l < s.next
  ne : ∀ a b, s.mapping = some a → s.learned = some b → a ≠ b

theorem write_heap (s : St) (l : Nat) (v : Vec) :
    s.write l v = { s with heap := Function.update s.heap l (assign (s.val l) v) } := by
  unfold St.write assign
  split_ifs
  · rfl
  · rfl
  · unfold St.val; rw [Function.update_eq_self]

theorem sep_alloc {s : St} (h : Sep s) (v : Vec) : Sep (s.alloc v).2 := by
  refine ⟨?_, ?_, h.ne⟩
  · intro l hl; have := h.m l hl; show l < s.next + 1; omega
  · intro l hl; have := h.l l hl; show l < s.next + 1; omega

theorem val_alloc (s : St) (v : Vec) (k : Nat) (hk : k < s.next) : (s.alloc v).2.val k = s.val k :=
  Function.update_of_ne (by omega) _ _

theorem val_alloc_new (s : St) (v : Vec) : (s.alloc v).2.val s.next = v := Function.update_self _ _ _

theorem view_alloc {s : St} (h : Sep s) (v : Vec) : (s.alloc v).2.view = s.view := by
  show (s.mapping.map (s.alloc v).2.val, s.learned.map (s.alloc v).2.val) = (s.mapping.map s.val, s.learned.map s.val)
  rw [Prod.mk.injEq]
  constructor
  · cases hm : s.mapping with
    | none => rfl
    | some l => simp only [Option.map_some, val_alloc s v l (h.m l hm)]
  · cases hm : s.learned with
    | none => rfl
    | some l => simp only [Option.map_some, val_alloc s v l (h.l l hm)]

theorem setLearned_sep {s : St} (h : Sep s) (v : Vec) :
    Sep (setLearned v s) ∧ (setLearned v s).view = (s.view.1, s.view.2.map (assign · v)) := by
  unfold setLearned
  cases hl : s.learned with
  | none => exact ⟨h, by simp [St.view, hl]⟩
  | some l =>
    simp only
    rw [write_heap s l v]
    refine ⟨⟨h.m, h.l, h.ne⟩, ?_⟩
    unfold St.view
    simp only [hl, Option.map_some, St.val, Function.update_self, Prod.mk.injEq, and_true]
    cases hm : s.mapping with
    | none => rfl
    | some m =>
      simp only [Option.map_some, St.val, Function.update_of_ne (h.ne m l hm hl)]

theorem setMapping_sep {s : St} (h : Sep s) (a : Nat) (ha : a < s.next)
    (hne : ∀ b, s.learned = some b → a ≠ b) :
    Sep (setMappingScales a s) ∧ (setMappingScales a s).view = (some (match s.view.1 with
      | some m => if (s.val a).length = 1 then assign m (s.val a) else s.val a
      | none => s.val a), s.view.2) := by
  have set : Sep { s with mapping := some a } :=
    ⟨fun l hl => by cases hl; exact ha, h.l, fun x b hx hb => by cases hx; exact hne b hb⟩
  unfold setMappingScales
  cases hm : s.mapping with
  | none =>
    refine ⟨set, ?_⟩
    unfold St.view; rw [hm]; rfl
  | some m =>
    simp only
    split_ifs with h1
    · rw [write_heap s m _]
      refine ⟨⟨h.m, h.l, h.ne⟩, ?_⟩
      unfold St.view
      simp only [hm, Option.map_some, h1, if_true, Prod.mk.injEq]
      refine ⟨by simp only [St.val, Function.update_self], ?_⟩
      cases hl : s.learned with
      | none => rfl
      | some l =>
        simp only [Option.map_some, St.val, Function.update_of_ne (h.ne m l hm hl).symm]
    · refine ⟨set, ?_⟩
      unfold St.view; rw [hm]; simp only [Option.map_some, h1, if_false]; rfl

theorem setScales_sep {s : St} (h : Sep s) (a : Nat) (ha : a < s.next)
    (hne : ∀ b, s.learned = some b → a ≠ b) :
    Sep (setScales a s) ∧ (setScales a s).view = setScalesV (s.val a) s.view := by
  obtain ⟨h1, h2⟩ := setMapping_sep h a ha hne
  obtain ⟨h3, h4⟩ := setLearned_sep h1 [1]
  refine ⟨h3, ?_⟩
  unfold setScales
  rw [h4, h2]
  rfl

theorem getScales_sep {s : St} (h : Sep s) :
    Sep (getScales s).2 ∧ (getScales s).2.view = s.view ∧ s.scales = scalesV s.view := by
  unfold St.scales getScales
  cases hm : s.mapping with
  | none =>
    cases hl : s.learned with
    | none => exact ⟨h, rfl, by simp [scalesV, St.view, hm, hl]⟩
    | some l => exact ⟨h, rfl, by simp [scalesV, St.view, hm, hl]⟩
  | some m =>
    cases hl : s.learned with
    | none => exact ⟨h, rfl, by simp [scalesV, St.view, hm, hl]⟩
    | some l =>
      refine ⟨sep_alloc h _, view_alloc h _, ?_⟩
      show some ((s.alloc _).2.val s.next) = _
      rw [val_alloc_new]
      simp [scalesV, St.view, hm, hl]

/-- Operations by fresh tensors only, and `to(dtype)` only when mapping scales exist or no learned scales do. -/
def Unshared (s : St) : Op → Prop
  | .setScalesRef _ => False
  | .callerWrite _ _ => False
  | .toDtype => s.mapping.isSome ∨ s.learned = none
  | _ => True

theorem step_sep {s : St} (h : Sep s) {o : Op} (ho : Unshared s o) :
    Sep (step s o) ∧ (step s o).view = stepV s.view o := by
  cases o with
  | setScalesFresh v =>
    have hs := sep_alloc h v
    have := setScales_sep (s := (s.alloc v).2) hs s.next (by show s.next < s.next + 1; omega)
      (fun b hb => by have := h.l b hb; omega)
    refine ⟨this.1, this.2.trans ?_⟩
    rw [view_alloc h, val_alloc_new]; rfl
  | setScalesRef l => exact ho.elim
  | callerWrite l v => exact ho.elim
  | setLearned v => exact setLearned_sep h v
  | getScales => exact ⟨(getScales_sep h).1, (getScales_sep h).2.1⟩
  | toDtype =>
    show Sep (toDtype s) ∧ (toDtype s).view = _
    unfold toDtype getScales stepV
    cases hm : s.mapping with
    | none =>
      cases hl : s.learned with
      | none => exact ⟨h, by simp [scalesV, St.view, hm, hl]⟩
      | some l => rcases ho with ho | ho
                  · rw [hm] at ho; cases ho
                  · rw [hl] at ho; cases ho
    | some m =>
      cases hl : s.learned with
      | none =>
        have := setScales_sep h m (h.m m hm) (fun b hb => by rw [hl] at hb; cases hb)
        refine ⟨this.1, this.2.trans ?_⟩
        simp [scalesV, St.view, hm, hl]
      | some l =>
        have hs := sep_alloc h (prod (s.val m) (s.val l))
        have := setScales_sep hs s.next (by show s.next < s.next + 1; omega) (fun b hb => by
          have := h.l b hb; omega)
        refine ⟨this.1, this.2.trans ?_⟩
        rw [view_alloc h, val_alloc_new]
        simp [scalesV, St.view, hm, hl]

/-- A freshly constructed tile: optional initial tensors. -/
def fresh (m l : Option Vec) : St where
  heap := fun k => if k = 0 then m.getD [] else l.getD []
  next := 2
  mapping := m.map fun _ => 0
  learned := l.map fun _ => 1

theorem fresh_sep (m l : Option Vec) : Sep (fresh m l) ∧ (fresh m l).view = (m, l) := by
  refine ⟨⟨?_, ?_, ?_⟩, ?_⟩
  · intro k hk; cases m <;> simp [fresh] at hk ⊢; omega
  · intro k hk; cases l <;> simp [fresh] at hk ⊢; omega
  · intro a b ha hb; cases m <;> cases l <;> simp [fresh] at ha hb; omega
  · cases m <;> cases l <;> rfl

/-- A history every operation of which is unshared in the state it meets. -/
def AllUnshared : St → List Op → Prop
  | _, [] => True
  | s, o :: os => Unshared s o ∧ AllUnshared (step s o) os

/-! ## C38 -/

/-- **C38** (refinement). For every history that passes only fresh tensors (and does not call `to(dtype)` on a
tile that has learned but no mapping scales), the by-reference program and the by-value program agree on mapping
scales, learned scales and `get_scales()`. -/
theorem C38_value_semantics (m l : Option Vec) (ops : List Op) (h : AllUnshared (fresh m l) ops) :
    let s := ops.foldl step (fresh m l)
    let p := ops.foldl stepV (m, l)
    s.view = p ∧ s.scales = scalesV p := by
  intro s p
  suffices H : ∀ (ops : List Op) (s : St), Sep s → AllUnshared s ops →
      Sep (ops.foldl step s) ∧ (ops.foldl step s).view = ops.foldl stepV s.view by
    obtain ⟨h1, h2⟩ := H ops _ (fresh_sep m l).1 h
    rw [(fresh_sep m l).2] at h2
    refine ⟨h2, ?_⟩
    rw [(getScales_sep h1).2.2]
    show scalesV (ops.foldl step (fresh m l)).view = scalesV (ops.foldl stepV (m, l))
    rw [h2]
  intro ops
  induction ops with
  | nil => intro s hs _; exact ⟨hs, rfl⟩
  | cons o os ih =>
    intro s hs hu
    obtain ⟨h1, h2⟩ := step_sep hs hu.1
    obtain ⟨h3, h4⟩ := ih _ h1 hu.2
    refine ⟨h3, ?_⟩
    simp only [List.foldl_cons]
    rw [h4, h2]

/-- **C38** (`to(dtype)` resets learned scales). On every tile with learned scales and no mapping scales,
`to(dtype=...)` - which re-sets the scales to the ones just read - turns the total scale into all ones. -/
theorem C38_to_dtype_resets (s : St) (l : Nat) (hm : s.mapping = none) (hl : s.learned = some l) :
    s.scales = some (s.val l) ∧
    (toDtype s).scales = some ((s.val l).map fun _ => 1) := by
  refine ⟨by simp [St.scales, getScales, hm, hl], ?_⟩
  have e : toDtype s =
      { s with mapping := some l, heap := Function.update s.heap l ((s.val l).map fun _ => 1) } := by
    unfold toDtype getScales
    simp only [hm, hl]
    unfold setScales setMappingScales setLearned
    simp only [hm, hl]
    rw [write_heap]
    rfl
  rw [e]
  have hp : prod ((s.val l).map fun _ => (1 : ℚ)) ((s.val l).map fun _ => 1) = (s.val l).map fun _ => 1 := by
    unfold prod bmul
    rw [if_pos rfl]
    simp
  unfold St.scales getScales
  simp only [hl, Option.map_some]
  rw [show ∀ (s : St) (v : Vec), (s.alloc v).2.val (s.alloc v).1 = v from val_alloc_new]
  simp only [St.val, Function.update_self]
  exact congrArg some hp

/-- **C38** (returned scales change later). If a tile has mapping scales only, the tensor returned by
`get_scales()` is changed by a later `set_scales` with a one-element tensor (e.g. a layer-wise weight write). -/
theorem C38_returned_scales_change (s : St) (hs : Sep s) (m : Nat) (hm : s.mapping = some m)
    (hl : s.learned = none) (q : ℚ) :
    (getScales s).1 = some m ∧ (step s (.setScalesFresh [q])).val m = (s.val m).map fun _ => q := by
  have hlt := hs.m m hm
  refine ⟨by simp [getScales, hm, hl], ?_⟩
  show (setScales s.next (s.alloc [q]).2).val m = _
  have hm' : (s.alloc [q]).2.mapping = some m := hm
  have hl' : (s.alloc [q]).2.learned = none := hl
  unfold setScales setMappingScales setLearned
  simp only [hm', val_alloc_new, List.length_singleton, if_true]
  rw [write_heap]
  simp only [hl']
  show Function.update _ m _ m = _
  rw [Function.update_self, val_alloc s _ m hlt]
  rfl

/-- **C38** (arguments stay shared). After `set_scales(v)` with a tensor of more than one element, a later in-place
write by the caller to its own tensor changes the scales of the tile. -/
theorem C38_argument_stays_shared (s : St) (hl : s.learned = none) (v u : Vec)
    (hv : v.length ≠ 1) (hu : u.length = v.length) :
    let a := s.next
    ((step s (.setScalesFresh v)).scales = some v) ∧
    ((step (step s (.setScalesFresh v)) (.callerWrite a u)).scales = some u) := by
  intro a
  have e : step s (.setScalesFresh v) = { (s.alloc v).2 with mapping := some a } := by
    show setScales a (s.alloc v).2 = _
    have hl' : (s.alloc v).2.learned = none := hl
    unfold setScales setMappingScales setLearned
    cases hm : (s.alloc v).2.mapping with
    | none => simp only [hl']
    | some m => simp only [a, val_alloc_new, hv, if_false, hl']
  rw [e]
  have hl' : (s.alloc v).2.learned = none := hl
  constructor
  · simp only [St.scales, getScales, hl', Option.map_some]
    exact congrArg some (val_alloc_new s v)
  · show (St.write { (s.alloc v).2 with mapping := some a } a u).scales = _
    rw [write_heap]
    have hva : (s.alloc v).2.heap a = v := val_alloc_new s v
    simp only [St.scales, getScales, hl', Option.map_some, St.val, Function.update_self]
    simp [assign, hu, hv, hva]

/-- Non-vacuity: learned scales [2, 3] without mapping scales are lost by `to(dtype)`; with mapping scales present the
product survives. -/
example :
    (fresh none (some [2, 3])).scales = some [2, 3] ∧
    (step (fresh none (some [2, 3])) .toDtype).scales = some [1, 1] ∧
    AllUnshared (fresh (some [5]) (some [2, 3])) [.setScalesFresh [7, 8], .setLearned [2, 2], .toDtype] ∧
    ([Op.setScalesFresh [7, 8], .setLearned [2, 2], .toDtype].foldl step
      (fresh (some [5]) (some [2, 3]))).scales = some [14, 16] := by
  refine ⟨by decide +kernel, by decide +kernel, ⟨trivial, trivial, Or.inl rfl, trivial⟩, by decide +kernel⟩

end Aihw.Periphery.Alias
