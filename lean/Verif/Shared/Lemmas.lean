import Verif.Shared.Spec

namespace Aihw.Shared

open Aihw

variable {K : Type} [Inhabited K]

theorem sameShape_iff (b : Buf K) (d x : ℕ) : b.sameShape d x = true ↔ Fits b d x := by
  simp [Buf.sameShape, Fits]

/-- What holds of a wrapper at any time. -/
structure Inv (w : Wrap) (h : Heap K) : Prop where
  cpp : w.tile.native = true → w.bound = some w.tile.ptr ∧ w.tile.shared = true
  py : w.tile.native = false → w.bound = none ∧ w.param = none
  live : w.tile.ptr < h.next ∧ w.tile.ptr ∉ h.dead
  fits : Fits (h.mem w.tile.ptr) w.tile.d w.tile.x
  context : w.ctx < h.next ∧ w.ctx ∉ h.dead
  param : ∀ p, w.param = some p → p < h.next ∧ p ∉ h.dead
  old : ∀ a ∈ h.dead, a < h.next

/-- The heap is one in which every deleted address is old (the fresh ones never are). -/
def Good (h : Heap K) : Prop := ∀ a ∈ h.dead, a < h.next

theorem write_mem (h : Heap K) (i a : ℕ) (v : List K) :
    (h.write i v).mem a = if a = i then { h.mem i with val := v } else h.mem a := by
  simp [Heap.write, Function.update_apply]

theorem write_next (h : Heap K) (i : ℕ) (v : List K) : (h.write i v).next = h.next := rfl
theorem write_dead (h : Heap K) (i : ℕ) (v : List K) : (h.write i v).dead = h.dead := rfl

theorem alloc_mem (h : Heap K) (b : Buf K) (a : ℕ) :
    (h.alloc b).mem a = if a = h.next then b else h.mem a := by
  simp [Heap.alloc, Function.update_apply]

theorem alloc_next (h : Heap K) (b : Buf K) : (h.alloc b).next = h.next + 1 := rfl
theorem alloc_dead (h : Heap K) (b : Buf K) : (h.alloc b).dead = h.dead := rfl

theorem write_fits (h : Heap K) (i a d x : ℕ) (v : List K) :
    Fits ((h.write i v).mem a) d x ↔ Fits (h.mem a) d x := by
  rw [write_mem]
  by_cases e : a = i
  · subst e
    simp [Fits]
  · simp [e]

theorem inv_write {w : Wrap} {h : Heap K} (H : Inv w h) (i : ℕ) (v : List K) :
    Inv w (h.write i v) :=
  ⟨H.cpp, H.py, H.live, (write_fits ..).2 H.fits, H.context, H.param, H.old⟩

theorem ref_eq {w : Wrap} {h : Heap K} (H : Inv w h) : ref w = w.tile.ptr := by
  cases e : w.tile.native with
  | true => simp [ref, (H.cpp e).1]
  | false => simp [ref, (H.py e).1]

theorem sync_eq {w : Wrap} {h : Heap K} (H : Inv w h) :
    sync w = { w with ctx := w.tile.ptr } := by
  simp only [sync, ref_eq H]
  by_cases e : w.ctx = w.tile.ptr
  · simp only [e, bne_self_eq_false, Bool.false_eq_true, if_false]
    rw [← e]
  · simp [e]

theorem inv_ctx {w : Wrap} {h : Heap K} (H : Inv w h) : Inv { w with ctx := w.tile.ptr } h :=
  ⟨H.cpp, H.py, H.live, H.fits, H.live, H.param, H.old⟩

/-- Handing a tensor to a tile that already works on foreign memory. -/
theorem setShared_shared {t : Tile} {h : Heap K} {i : ℕ} (s : t.shared = true) :
    (Fits (h.mem i) t.d t.x ∧ setShared t h i = (none, { t with ptr := i }, h)) ∨
    (¬ Fits (h.mem i) t.d t.x ∧ setShared t h i = (some .runtimeError, t, h)) := by
  by_cases f : (h.mem i).sameShape t.d t.x = true
  · left
    exact ⟨(sameShape_iff ..).1 f, by simp [setShared, f, s]⟩
  · right
    refine ⟨fun g => f ((sameShape_iff ..).2 g), ?_⟩
    simp at f
    simp [setShared, f]

/-- The effect of `ensure` on a wrapper with parameter. -/
theorem ensure_cases {w : Wrap} {h : Heap K} {p : ℕ} {arg : Option ℕ} (H : Inv w h)
    (hp : w.param.isSome = true) (e : (arg <|> w.param) = some p) :
    (Fits (h.mem p) w.tile.d w.tile.x ∧
      ensure w h arg = (none, { w with tile := { w.tile with ptr := p }, bound := some p, param := some p }, h)) ∨
    (¬ Fits (h.mem p) w.tile.d w.tile.x ∧
      ensure w h arg = (some .runtimeError, { w with param := some p }, h)) := by
  have n : w.tile.native = true := by
    cases e : w.tile.native with
    | true => rfl
    | false => rw [(H.py e).2] at hp; simp at hp
  have c : (arg.isSome && w.param.isNone) = false := by
    cases a : w.param with
    | none => rw [a] at hp; simp at hp
    | some q => simp
  rcases setShared_shared (t := w.tile) (h := h) (i := p) (H.cpp n).2 with ⟨f, s⟩ | ⟨f, s⟩
  · left
    refine ⟨f, ?_⟩
    simp only [ensure, c, e, s]
    simp
  · right
    refine ⟨f, ?_⟩
    simp only [ensure, c, e, s]
    simp

theorem inv_rebind {w : Wrap} {h : Heap K} {p : ℕ} (H : Inv w h) (n : w.tile.native = true)
    (live : p < h.next ∧ p ∉ h.dead) (f : Fits (h.mem p) w.tile.d w.tile.x) :
    Inv { w with tile := { w.tile with ptr := p }, bound := some p, param := some p } h :=
  ⟨fun _ => ⟨rfl, (H.cpp n).2⟩, fun e => by simp [n] at e, live, f, H.context,
    fun q e => by cases e; exact live, H.old⟩

theorem inv_param {w : Wrap} {h : Heap K} {p : ℕ} (H : Inv w h) (n : w.tile.native = true)
    (live : p < h.next ∧ p ∉ h.dead) : Inv { w with param := some p } h :=
  ⟨fun e => H.cpp e, fun e => by simp [n] at e, H.live, H.fits, H.context,
    fun q e => by cases e; exact live, H.old⟩

theorem native_of_param {w : Wrap} {h : Heap K} (H : Inv w h) (hp : w.param.isSome = true) :
    w.tile.native = true := by
  cases e : w.tile.native with
  | true => rfl
  | false => rw [(H.py e).2] at hp; simp at hp

/-- The fresh tile bound to a fresh tensor. -/
theorem bind_new (zero : K) (native : Bool) (d x : ℕ) (init : List K) (w : Wrap) (h : Heap K)
    (bn : w.bound = none) :
    let t := (newTile native d x init h).1
    let h1 := (newTile native d x init h).2
    ∃ (w' : Wrap) (h' : Heap K), bind zero { w with tile := t } h1 = (none, w', h') ∧
      w'.param = w.param ∧ w'.ctx = w.ctx ∧ w'.tile.native = native ∧ w'.tile.d = d ∧ w'.tile.x = x ∧
      (native = true → w'.bound = some w'.tile.ptr ∧ w'.tile.shared = true) ∧
      (native = false → w'.bound = none) ∧
      h.next ≤ w'.tile.ptr ∧ w'.tile.ptr < h'.next ∧ (Good h → w'.tile.ptr ∉ h'.dead) ∧
      h'.mem w'.tile.ptr = ⟨d, x, init⟩ ∧ h.next ≤ h'.next ∧
      (∀ a, a < h.next → h'.mem a = h.mem a) ∧ (∀ a, a ∈ h'.dead → a ∈ h.dead ∨ h.next ≤ a ∧ a < h'.next) ∧
      (∀ a, a ∈ h.dead → a ∈ h'.dead) := by
  intro t h1
  cases native with
  | false =>
    refine ⟨{ w with tile := t }, h1, by simp [bind, t, newTile], rfl, rfl, rfl, rfl, rfl, by simp,
      fun _ => bn, ?_⟩
    refine ⟨le_refl _, Nat.lt_succ_self _, fun g hd => absurd (g _ hd) (lt_irrefl _), ?_,
      Nat.le_succ _, ?_, fun a ha => Or.inl ha, fun a ha => ha⟩
    · simp [t, h1, newTile, alloc_mem]
    · intro a ha
      simp [h1, newTile, alloc_mem, ne_of_lt ha]
  | true =>
    have hs : ((h1.alloc ⟨d, x, List.replicate (d * x) zero⟩).mem h1.next).sameShape d x = true := by
      simp [alloc_mem, Buf.sameShape]
    refine ⟨{ w with tile := { t with ptr := h1.next, shared := true }, bound := some h1.next },
      { (h1.alloc ⟨d, x, List.replicate (d * x) zero⟩).write h1.next
          ((h1.alloc ⟨d, x, List.replicate (d * x) zero⟩).mem t.ptr).val with
        dead := t.ptr :: (h1.alloc ⟨d, x, List.replicate (d * x) zero⟩).dead }, ?_, rfl, rfl, rfl, rfl, rfl,
      fun _ => ⟨rfl, rfl⟩, by simp, ?_⟩
    · simp only [bind, setShared, t, newTile, Bool.false_eq_true] at hs ⊢
      simp [hs]
    · have hn : h1.next = h.next + 1 := rfl
      have hp : t.ptr = h.next := rfl
      refine ⟨by simp [hn], by simp [write_next, alloc_next], ?_, ?_, ?_, ?_, ?_, ?_⟩
      · intro g hd
        simp only [hp, hn, alloc_dead, List.mem_cons] at hd
        rcases hd with hd | hd
        · omega
        · have := g _ hd
          omega
      · simp [write_mem, alloc_mem, hp, h1, newTile, alloc_next]
      · simp [write_next, alloc_next, hn]; omega
      · intro a ha
        have e1 : a ≠ h1.next := by omega
        have e2 : a ≠ h.next := by omega
        show ((h1.alloc _).write h1.next _).mem a = _
        rw [write_mem, if_neg e1, alloc_mem, if_neg e1]
        simp [h1, newTile, alloc_mem, e2]
      · intro a ha
        simp only [List.mem_cons, hp] at ha
        rcases ha with ha | ha
        · right
          subst ha
          exact ⟨le_refl _, by simp [write_next, alloc_next, hn]; omega⟩
        · exact Or.inl ha
      · intro a ha
        exact List.mem_cons_of_mem _ ha

end Aihw.Shared
