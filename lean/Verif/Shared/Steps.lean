import Verif.Shared.Lemmas

namespace Aihw.Shared

open Aihw

variable {K : Type} [Inhabited K]

/-- What every call guarantees: the invariant again, and what it leaves alone. -/
structure Post (w : Wrap) (h : Heap K) (args : List ℕ) (r : Res K) : Prop where
  inv : Inv r.2.1 r.2.2
  same : r.2.1.tile.native = w.tile.native ∧ r.2.1.tile.d = w.tile.d ∧ r.2.1.tile.x = w.tile.x
  frame : ∀ a, a < h.next → a ≠ w.tile.ptr → w.param ≠ some a → r.2.2.mem a = h.mem a
  knows : ∀ a, Knows r.2.1 a → Knows w a ∨ h.next ≤ a ∨ a ∈ args
  mono : h.next ≤ r.2.2.next
  dead : ∀ a, a ∈ r.2.2.dead → a ∈ h.dead ∨ h.next ≤ a

theorem Inv.knows_live {w : Wrap} {h : Heap K} (H : Inv w h) {a : ℕ} (k : Knows w a) :
    a < h.next ∧ a ∉ h.dead := by
  rcases k with k | k | k | k
  · rw [k]; exact H.live
  · cases e : w.tile.native with
    | true => rw [(H.cpp e).1] at k; injection k with k; rw [← k]; exact H.live
    | false => rw [(H.py e).1] at k; cases k
  · exact H.param a k
  · rw [k]; exact H.context

/-- The ways a restoring ends. -/
theorem restore_cases (zero : K) (w : Wrap) (init : List K) (v : Buf K) (h : Heap K)
    (good : Good h) (py : w.tile.native = false → w.param = none)
    (hp : ∀ p, w.param = some p → p < h.next ∧ p ∉ h.dead) (hc : w.ctx < h.next ∧ w.ctx ∉ h.dead) :
    let r := restore zero w init v h
    Post { w with tile := { w.tile with ptr := h.next }, bound := none } h [] r ∧
    ((r.1 = none ∧ Fits v w.tile.d w.tile.x ∧ r.2.1.ctx = r.2.1.tile.ptr ∧
        r.2.2.mem r.2.1.tile.ptr = v ∧
        (w.param = none ∧ r.2.1.param = none ∧ h.next ≤ r.2.1.tile.ptr ∨
         ∃ p, w.param = some p ∧ r.2.1.param = some r.2.1.tile.ptr ∧
          (Fits (h.mem p) w.tile.d w.tile.x ∧ r.2.1.tile.ptr = p ∨
           ¬ Fits (h.mem p) w.tile.d w.tile.x ∧ Fits (h.mem p) w.tile.x w.tile.d ∧ h.next ≤ r.2.1.tile.ptr))) ∨
     (r.1 = some .runtimeError ∧ ¬ Fits v w.tile.d w.tile.x ∧ h.next ≤ r.2.1.tile.ptr ∧ r.2.1.ctx = w.ctx ∧
        r.2.1.param = w.param ∧ r.2.2.mem r.2.1.tile.ptr = ⟨w.tile.d, w.tile.x, init⟩) ∨
     (r.1 = some .tileError ∧ Fits v w.tile.d w.tile.x ∧ h.next ≤ r.2.1.tile.ptr ∧ r.2.1.ctx = w.ctx ∧
        r.2.1.param = w.param ∧ r.2.2.mem r.2.1.tile.ptr = v ∧
        ∃ p, w.param = some p ∧ ¬ Fits (h.mem p) w.tile.d w.tile.x ∧ ¬ Fits (h.mem p) w.tile.x w.tile.d)) := by
  intro r
  obtain ⟨w1, h1, b1, bp, bc, bn, bd, bx, bcpp, bpy, bge, blt, bdead, bmem, bmono, bframe, bsub, bsup⟩ :=
    bind_new zero w.tile.native w.tile.d w.tile.x init { w with bound := none } h rfl
  have hbd : w1.tile.ptr ∉ h1.dead := bdead good
  have lift : ∀ a, a < h.next ∧ a ∉ h.dead → a < h1.next ∧ a ∉ h1.dead := by
    intro a ha
    refine ⟨by omega, fun q => ?_⟩
    rcases bsub a q with q | q
    · exact ha.2 q
    · omega
  have good1 : ∀ a ∈ h1.dead, a < h1.next := by
    intro a q
    rcases bsub a q with q | q
    · have := good a q
      omega
    · exact q.2
  -- the state after binding
  have inv1 : Inv w1 h1 := by
    refine ⟨fun e => bcpp (bn ▸ e), fun e => ⟨bpy (bn ▸ e), by rw [bp]; exact py (bn ▸ e)⟩, ⟨blt, hbd⟩, ?_, ?_, ?_, good1⟩
    · rw [bmem, bd, bx]; exact ⟨rfl, rfl⟩
    · rw [bc]; exact lift _ hc
    · intro p e; rw [bp] at e; exact lift _ (hp p e)
  have ebind : bind zero { w with tile := (newTile w.tile.native w.tile.d w.tile.x init h).1, bound := none }
      (newTile w.tile.native w.tile.d w.tile.x init h).2 = (none, w1, h1) := b1
  have er : r = restore zero w init v h := rfl
  -- the facts shared by all outcomes
  have mkPost : ∀ (r' : Res K), Inv r'.2.1 r'.2.2 → r'.2.1.tile.native = w.tile.native →
      r'.2.1.tile.d = w.tile.d → r'.2.1.tile.x = w.tile.x →
      (∀ a, a < h.next → w.param ≠ some a → r'.2.2.mem a = h.mem a) →
      (∀ a, Knows r'.2.1 a → a = w.ctx ∨ w.param = some a ∨ h.next ≤ a) → h.next ≤ r'.2.2.next →
      r'.2.2.dead = h1.dead →
      Post { w with tile := { w.tile with ptr := h.next }, bound := none } h [] r' := by
    intro r' i1 i2 i3 i4 i5 i6 i7 i8
    refine ⟨i1, ⟨i2, i3, i4⟩, fun a ha _ hq => i5 a ha hq, ?_, i7, ?_⟩
    · intro a k
      rcases i6 a k with k | k | k
      · exact Or.inl (Or.inr (Or.inr (Or.inr k)))
      · exact Or.inl (Or.inr (Or.inr (Or.inl k)))
      · exact Or.inr (Or.inl k)
    · intro a q
      rw [i8] at q
      rcases bsub a q with q | q
      · exact Or.inl q
      · exact Or.inr q.1
  have kn1 : ∀ a, Knows w1 a → a = w.ctx ∨ w.param = some a ∨ h.next ≤ a := by
    intro a k
    rcases k with k | k | k | k
    · right; right; omega
    · cases e : w.tile.native with
      | true => rw [(bcpp e).1] at k; injection k with k; right; right; omega
      | false => rw [bpy e] at k; cases k
    · rw [bp] at k; exact Or.inr (Or.inl k)
    · rw [bc] at k; exact Or.inl k
  by_cases fv : Fits v w.tile.d w.tile.x
  swap
  · -- the loaded weights do not fit
    have s1 : v.sameShape w1.tile.d w1.tile.x = false := by
      rw [bd, bx, ← Bool.not_eq_true, sameShape_iff]; exact fv
    have : r = (some .runtimeError, w1, h1) := by
      rw [er]
      simp only [restore]
      rw [ebind]
      simp [tileSet, s1]
    rw [this]
    refine ⟨mkPost _ inv1 bn bd bx (fun a ha _ => bframe a ha) kn1 bmono rfl, Or.inr (Or.inl ⟨rfl, fv, bge, bc, bp, bmem⟩)⟩
  have s1 : v.sameShape w1.tile.d w1.tile.x = true := by
    rw [bd, bx, sameShape_iff]; exact fv
  -- the state after writing the weights (twice, to the same memory)
  let h2 := h1.write w1.tile.ptr v.val
  have h2ptr : h2.mem w1.tile.ptr = v := by
    simp only [h2, write_mem, if_true, bmem]
    obtain ⟨e1, e2⟩ := fv
    rw [← e1, ← e2]
  have copy1 : ∃ h3 : Heap K, copyTo h2 w1.bound v = (none, h3) ∧ h3.mem = h2.mem ∧ h3.next = h2.next ∧ h3.dead = h2.dead := by
    cases e : w.tile.native with
    | false => rw [bpy e]; exact ⟨h2, rfl, rfl, rfl, rfl⟩
    | true =>
      rw [(bcpp e).1]
      have : (h2.mem w1.tile.ptr).sameShape v.d v.x = true := by rw [h2ptr]; simp [Buf.sameShape]
      refine ⟨h2.write w1.tile.ptr v.val, by simp [copyTo, this], ?_, rfl, rfl⟩
      funext a
      rw [write_mem]
      by_cases c : a = w1.tile.ptr
      · rw [if_pos c, c]
        rw [h2ptr]
      · rw [if_neg c]
  obtain ⟨h3, c3, m3, n3, d3⟩ := copy1
  have h3ptr : h3.mem w1.tile.ptr = v := by rw [m3]; exact h2ptr
  have h3n : h3.next = h1.next := n3
  have h3d : h3.dead = h1.dead := d3
  have h3frame : ∀ a, a < h.next → h3.mem a = h.mem a := by
    intro a ha
    rw [m3]
    show (h1.write _ _).mem a = _
    rw [write_mem, if_neg (by omega), bframe a ha]
  have inv3 : Inv w1 h3 := by
    refine ⟨inv1.cpp, inv1.py, by rw [h3n, h3d]; exact inv1.live, ?_, by rw [h3n, h3d]; exact inv1.context,
      by rw [h3n, h3d]; exact inv1.param, by rw [h3n, h3d]; exact inv1.old⟩
    rw [h3ptr, bd, bx]; exact fv
  have hrest : r = (let q := copyToParam w1 h3 v
        if q.1.isSome then q
        else
          let e := if q.2.1.param.isSome then ensure q.2.1 q.2.2 none else q
          if e.1.isSome then e
          else (none, { e.2.1 with ctx := ref e.2.1 }, e.2.2)) := by
    rw [er]
    simp only [restore]
    rw [ebind]
    simp only [tileSet, s1, if_true, Option.isSome_none, Bool.false_eq_true, if_false]
    rw [show h1.write w1.tile.ptr v.val = h2 from rfl, c3]
    rfl
  rcases (show w.param = none ∨ ∃ p, w.param = some p by cases w.param <;> simp) with ep | ⟨p, ep⟩
  ·
    have ep1 : w1.param = none := by rw [bp]; exact ep
    have : r = (none, { w1 with ctx := w1.tile.ptr }, h3) := by
      rw [hrest]
      simp only [copyToParam, ep1, Option.isSome_none, Bool.false_eq_true, if_false]
      rw [ref_eq inv3]
    rw [this]
    refine ⟨mkPost _ (inv_ctx inv3) bn bd bx (fun a ha _ => h3frame a ha) ?_ (by rw [h3n]; exact bmono) h3d,
      Or.inl ⟨rfl, fv, rfl, h3ptr, Or.inl ⟨ep, ep1, bge⟩⟩⟩
    intro a k
    rcases k with k | k | k | k
    · exact kn1 a (Or.inl k)
    · exact kn1 a (Or.inr (Or.inl k))
    · exact kn1 a (Or.inr (Or.inr (Or.inl k)))
    · exact kn1 a (Or.inl k)
  ·
    have ep1 : w1.param = some p := by rw [bp]; exact ep
    have nat : w1.tile.native = true := native_of_param inv3 (by rw [ep1]; rfl)
    have hpl := hp p ep
    have mp : h3.mem p = h.mem p := h3frame p hpl.1
    have pl3 : p < h3.next ∧ p ∉ h3.dead := by rw [h3n, h3d]; exact lift p hpl
    obtain ⟨fv1, fv2⟩ := fv
    by_cases f1 : Fits (h.mem p) w.tile.d w.tile.x
    · have sp : (h3.mem p).sameShape v.d v.x = true := by
        rw [mp, sameShape_iff, fv1, fv2]; exact f1
      let h4 := h3.write p v.val
      have m4 : h4.mem p = v := by
        simp only [h4, write_mem, if_true, mp]
        obtain ⟨g1, g2⟩ := f1
        rw [g1, g2, ← fv1, ← fv2]
      have hq : copyToParam w1 h3 v = (none, w1, h4) := by
        simp [copyToParam, ep1, sp, copyTo, h4]
      have inv4 : Inv w1 h4 := inv_write inv3 _ _
      have f4 : Fits (h4.mem p) w1.tile.d w1.tile.x := by rw [m4, bd, bx]; exact ⟨fv1, fv2⟩
      rcases ensure_cases (w := w1) (h := h4) (p := p) (arg := none) inv4 (by rw [ep1]; rfl)
        (by rw [ep1]; rfl) with ⟨_, he⟩ | ⟨nf, _⟩
      swap
      · exact absurd f4 nf
      have : r = (none, { w1 with tile := { w1.tile with ptr := p }, bound := some p, param := some p, ctx := p }, h4) := by
        rw [hrest, hq]
        simp only [Option.isSome_none, Bool.false_eq_true, if_false, ep1, Option.isSome_some, if_true, he]
        rfl
      rw [this]
      have inv5 := inv_ctx (inv_rebind inv4 nat (p := p) ⟨pl3.1, pl3.2⟩ f4)
      refine ⟨mkPost _ inv5 bn bd bx ?_ ?_ (by show h.next ≤ h3.next; rw [h3n]; exact bmono) h3d,
        Or.inl ⟨rfl, ⟨fv1, fv2⟩, rfl, m4, Or.inr ⟨p, ep, rfl, Or.inl ⟨f1, rfl⟩⟩⟩⟩
      · intro a ha hne
        show (h3.write p v.val).mem a = _
        rw [write_mem, if_neg (fun q => hne (by rw [q]; exact ep)), h3frame a ha]
      · intro a k
        have hk : a = p := by
          rcases k with k | k | k | k
          · exact k
          · injection k with k; exact k.symm
          · injection k with k; exact k.symm
          · exact k
        right; left; rw [hk]; exact ep
    · have sp : (h3.mem p).sameShape v.d v.x = false := by
        rw [← Bool.not_eq_true, mp, sameShape_iff, fv1, fv2]; exact f1
      by_cases f2 : Fits (h.mem p) w.tile.x w.tile.d
      · have sp2 : (h3.mem p).sameShape v.x v.d = true := by
          rw [mp, sameShape_iff, fv1, fv2]; exact f2
        let i := h3.next
        let h4 := (h3.alloc v).write i v.val
        have sv : ((h3.alloc v).mem h3.next).sameShape v.d v.x = true := by
          simp [alloc_mem, Buf.sameShape]
        have m4 : h4.mem i = v := by
          simp [h4, write_mem, alloc_mem, i]
        have hq : copyToParam w1 h3 v = (none, { w1 with param := some i }, h4) := by
          simp [copyToParam, ep1, sp, sp2, copyTo, sv, h4, i]
        have hne : w1.tile.ptr ≠ i := by
          show w1.tile.ptr ≠ h3.next
          rw [h3n]; omega
        have old4 : ∀ a, a < h3.next → h4.mem a = h3.mem a := by
          intro a ha
          have : a ≠ i := by show a ≠ h3.next; omega
          simp only [h4]
          rw [write_mem, if_neg this, alloc_mem, if_neg this]
        have n4 : h4.next = h3.next + 1 := rfl
        have d4 : h4.dead = h3.dead := rfl
        have good3 : ∀ a ∈ h3.dead, a < h3.next := by rw [h3d, h3n]; exact good1
        have il : i < h4.next ∧ i ∉ h4.dead := by
          refine ⟨by rw [n4]; exact Nat.lt_succ_self _, fun q => ?_⟩
          rw [d4] at q
          exact absurd (good3 _ q) (lt_irrefl _)
        have inv4' : Inv w1 h4 := by
          refine ⟨inv3.cpp, inv3.py, ⟨by rw [n4]; have := inv3.live.1; omega, inv3.live.2⟩, ?_,
            ⟨by rw [n4]; have := inv3.context.1; omega, inv3.context.2⟩, ?_, ?_⟩
          · rw [old4 _ inv3.live.1]; exact inv3.fits
          · intro q e
            have := inv3.param q e
            exact ⟨by rw [n4]; omega, this.2⟩
          · intro a q
            have := good3 a q
            rw [n4]; omega
        have inv4 : Inv { w1 with param := some i } h4 := inv_param inv4' nat il
        have f4 : Fits (h4.mem i) w1.tile.d w1.tile.x := by rw [m4, bd, bx]; exact ⟨fv1, fv2⟩
        rcases ensure_cases (w := { w1 with param := some i }) (h := h4) (p := i) (arg := none) inv4 rfl rfl with
          ⟨_, he⟩ | ⟨nf, _⟩
        swap
        · exact absurd f4 nf
        have : r = (none, { w1 with tile := { w1.tile with ptr := i }, bound := some i, param := some i, ctx := i }, h4) := by
          rw [hrest, hq]
          simp only [Option.isSome_none, Bool.false_eq_true, if_false, Option.isSome_some, if_true, he]
          rfl
        rw [this]
        have inv5 := inv_ctx (inv_rebind inv4 nat (p := i) il f4)
        have hi : h.next ≤ i := by show h.next ≤ h3.next; rw [h3n]; exact bmono
        refine ⟨mkPost _ inv5 bn bd bx ?_ ?_ (by show h.next ≤ h3.next + 1; rw [h3n]; omega) (by show h3.dead = h1.dead; exact h3d),
          Or.inl ⟨rfl, ⟨fv1, fv2⟩, rfl, m4, Or.inr ⟨p, ep, rfl, Or.inr ⟨f1, f2, hi⟩⟩⟩⟩
        · intro a ha _
          show h4.mem a = h.mem a
          rw [old4 a (by rw [h3n]; omega), h3frame a ha]
        · intro a k
          have hk : a = i := by
            rcases k with k | k | k | k
            · exact k
            · injection k with k; exact k.symm
            · injection k with k; exact k.symm
            · exact k
          right; right; rw [hk]; exact hi
      · have sp2 : (h3.mem p).sameShape v.x v.d = false := by
          rw [← Bool.not_eq_true, mp, sameShape_iff, fv1, fv2]; exact f2
        have hq : copyToParam w1 h3 v = (some .tileError, w1, h3) := by
          simp [copyToParam, ep1, sp, sp2]
        have : r = (some .tileError, w1, h3) := by
          rw [hrest, hq]
          rfl
        rw [this]
        refine ⟨mkPost _ inv3 bn bd bx (fun a ha _ => h3frame a ha) kn1 (by rw [h3n]; exact bmono) h3d,
          Or.inr (Or.inr ⟨rfl, ⟨fv1, fv2⟩, bge, bc, bp, h3ptr, p, ep, f1, f2⟩)⟩

theorem post_self {w w' : Wrap} {h : Heap K} {args : List ℕ} {e : Option PyErr} (i : Inv w' h)
    (s : w'.tile.native = w.tile.native ∧ w'.tile.d = w.tile.d ∧ w'.tile.x = w.tile.x)
    (k : ∀ a, Knows w' a → Knows w a ∨ a ∈ args) : Post w h args (e, w', h) :=
  ⟨i, s, fun _ _ _ _ => rfl, fun a q => (k a q).elim Or.inl (fun q => Or.inr (Or.inr q)), le_refl _,
    fun _ q => Or.inl q⟩

theorem post_write {w w' : Wrap} {h : Heap K} {i : ℕ} {u : List K} {e : Option PyErr} (H : Inv w' h)
    (s : w'.tile.native = w.tile.native ∧ w'.tile.d = w.tile.d ∧ w'.tile.x = w.tile.x)
    (hi : i = w.tile.ptr ∨ w.param = some i) (k : ∀ a, Knows w' a → Knows w a) :
    Post w h [] (e, w', h.write i u) := by
  refine ⟨inv_write H _ _, s, ?_, fun a q => Or.inl (k a q), le_refl _, fun _ q => Or.inl q⟩
  intro a _ h1 h2
  show (h.write i u).mem a = _
  rw [write_mem, if_neg]
  rintro rfl
  rcases hi with hi | hi
  · exact h1 hi
  · exact h2 hi

theorem post_ensure {w : Wrap} {h : Heap K} {arg : Option ℕ} {args : List ℕ} (H : Inv w h)
    (g : ∀ i, arg = some i → (i < h.next ∧ i ∉ h.dead) ∧ (i ∈ args ∨ w.param = some i)) :
    Post w h args (ensure w h arg) := by
  rcases (show w.param = none ∨ ∃ p, w.param = some p by cases w.param <;> simp) with ep | ⟨q, ep⟩
  · cases arg with
    | some i =>
      have : ensure w h (some i) = (some .attributeError, w, h) := by simp [ensure, ep]
      rw [this]
      exact post_self H ⟨rfl, rfl, rfl⟩ (fun a q => Or.inl q)
    | none =>
      have : ensure w h none = (none, w, h) := by
        obtain ⟨t, b, pm, c⟩ := w
        have ep' : pm = none := ep
        subst ep'
        rfl
      rw [this]
      exact post_self H ⟨rfl, rfl, rfl⟩ (fun a q => Or.inl q)
  · have nat : w.tile.native = true := native_of_param H (by rw [ep]; rfl)
    obtain ⟨p, hp, hl, hk⟩ : ∃ p, (arg <|> w.param) = some p ∧ (p < h.next ∧ p ∉ h.dead) ∧
        (p ∈ args ∨ w.param = some p) := by
      cases arg with
      | some i => exact ⟨i, rfl, (g i rfl).1, (g i rfl).2⟩
      | none => exact ⟨q, by rw [ep]; rfl, H.param q ep, Or.inr ep⟩
    rcases ensure_cases (w := w) (h := h) (p := p) (arg := arg) H (by rw [ep]; rfl) hp with ⟨f, e⟩ | ⟨f, e⟩
    · rw [e]
      refine post_self (inv_rebind H nat hl f) ⟨rfl, rfl, rfl⟩ ?_
      intro a k
      have hp' : a = p → Knows w a ∨ a ∈ args := by
        rintro rfl
        rcases hk with hk | hk
        · exact Or.inr hk
        · exact Or.inl (Or.inr (Or.inr (Or.inl hk)))
      rcases k with k | k | k | k
      · exact hp' k
      · injection k with k; exact hp' k.symm
      · injection k with k; exact hp' k.symm
      · exact Or.inl (Or.inr (Or.inr (Or.inr k)))
    · rw [e]
      refine post_self (inv_param H nat hl) ⟨rfl, rfl, rfl⟩ ?_
      intro a k
      rcases k with k | k | k | k
      · exact Or.inl (Or.inl k)
      · exact Or.inl (Or.inr (Or.inl k))
      · injection k with k
        subst k
        rcases hk with hk | hk
        · exact Or.inr hk
        · exact Or.inl (Or.inr (Or.inr (Or.inl hk)))
      · exact Or.inl (Or.inr (Or.inr (Or.inr k)))

theorem post_forward {w : Wrap} {h : Heap K} {arg : Option ℕ} {args : List ℕ} (H : Inv w h)
    (g : ∀ i, arg = some i → (i < h.next ∧ i ∉ h.dead) ∧ i ∈ args) :
    Post w h args (if arg.isSome || w.param.isSome then ensure w h (arg <|> w.param) else (none, w, h)) := by
  by_cases c : (arg.isSome || w.param.isSome) = true
  · rw [if_pos c]
    refine post_ensure H ?_
    intro i e
    cases arg with
    | some j =>
      have : j = i := by simpa using e
      subst this
      exact ⟨(g j rfl).1, Or.inl (g j rfl).2⟩
    | none =>
      have : w.param = some i := by simpa using e
      exact ⟨H.param i this, Or.inr this⟩
  · rw [if_neg c]
    exact post_self H ⟨rfl, rfl, rfl⟩ (fun a q => Or.inl q)

theorem post_reload {zero : K} {w : Wrap} {h : Heap K} (H : Inv w h) (v : Buf K) (init : List K) (no : Bool) :
    Post w h [] (step zero w h (.reload v init no)) := by
  have hsub : ∀ p, (if no then none else w.param) = some p → w.param = some p := by
    intro p e
    cases no <;> simp_all
  have P := (restore_cases zero { w with param := if no then none else w.param } init v h H.old
    (fun e => by have := (H.py e).2; cases no <;> simp [this]) (fun p e => H.param p (hsub p e)) H.context).1
  refine ⟨P.inv, P.same, ?_, ?_, P.mono, P.dead⟩
  · intro a ha _ hq
    exact P.frame a ha (by show a ≠ h.next; omega) (fun e => hq (hsub a e))
  · intro a k
    rcases P.knows a k with k | k | k
    · rcases k with k | k | k | k
      · right; left; exact le_of_eq k.symm
      · cases k
      · exact Or.inl (Or.inr (Or.inr (Or.inl (hsub a k))))
      · exact Or.inl (Or.inr (Or.inr (Or.inr k)))
    · exact Or.inr (Or.inl k)
    · cases k

/-- Every call, with every outcome, guarantees this. -/
theorem step_post (zero : K) {w : Wrap} {h : Heap K} (H : Inv w h) (o : Op K) (g : Given h o) :
    Post w h o.args (step zero w h o) := by
  cases o with
  | setWeights v =>
    simp only [step, tileSet]
    by_cases c : v.sameShape w.tile.d w.tile.x = true
    · simp only [c, if_true, Option.isSome_none, Bool.false_eq_true, if_false]
      rw [sync_eq H]
      refine post_write (inv_ctx H) ⟨rfl, rfl, rfl⟩ (Or.inl rfl) ?_
      intro a k
      rcases k with k | k | k | k
      · exact Or.inl k
      · exact Or.inr (Or.inl k)
      · exact Or.inr (Or.inr (Or.inl k))
      · exact Or.inl k
    · simp only [c, Bool.false_eq_true, if_false, Option.isSome_some, if_true]
      exact post_self H ⟨rfl, rfl, rfl⟩ (fun a q => Or.inl q)
  | rawSet v =>
    simp only [step, tileSet]
    by_cases c : v.sameShape w.tile.d w.tile.x = true
    · simp only [c, if_true]
      exact post_write H ⟨rfl, rfl, rfl⟩ (Or.inl rfl) (fun a k => k)
    · simp only [c, Bool.false_eq_true, if_false]
      exact post_self H ⟨rfl, rfl, rfl⟩ (fun a q => Or.inl q)
  | inPlace f => exact post_write H ⟨rfl, rfl, rfl⟩ (Or.inl rfl) (fun a k => k)
  | optim f =>
    simp only [step]
    cases e : w.param with
    | none => exact post_self H ⟨rfl, rfl, rfl⟩ (fun a q => Or.inl q)
    | some p => exact post_write H ⟨rfl, rfl, rfl⟩ (Or.inr e) (fun a k => k)
  | assign i =>
    simp only [step]
    cases e : w.param with
    | none => exact post_self H ⟨rfl, rfl, rfl⟩ (fun a q => Or.inl q)
    | some p =>
      refine post_self (inv_param H (native_of_param H (by rw [e]; rfl)) (g i (by simp [Op.args]))) ⟨rfl, rfl, rfl⟩ ?_
      intro a k
      rcases k with k | k | k | k
      · exact Or.inl (Or.inl k)
      · exact Or.inl (Or.inr (Or.inl k))
      · injection k with k
        subst k
        exact Or.inr (by simp [Op.args])
      · exact Or.inl (Or.inr (Or.inr (Or.inr k)))
  | forward arg =>
    refine post_forward H ?_
    rintro i rfl
    exact ⟨g i (by simp [Op.args]), by simp [Op.args]⟩
  | backward arg =>
    refine post_forward H ?_
    rintro i rfl
    exact ⟨g i (by simp [Op.args]), by simp [Op.args]⟩
  | reload v init no => exact post_reload H v init no
  | sync =>
    simp only [step]
    rw [sync_eq H]
    refine post_self (inv_ctx H) ⟨rfl, rfl, rfl⟩ ?_
    intro a k
    rcases k with k | k | k | k
    · exact Or.inl (Or.inl k)
    · exact Or.inl (Or.inr (Or.inl k))
    · exact Or.inl (Or.inr (Or.inr (Or.inl k)))
    · exact Or.inl (Or.inl k)

/-- What the construction produces. -/
theorem construct_spec (zero : K) (native shared : Bool) (d x : ℕ) (init : List K) (h : Heap K) (good : Good h) :
    ∃ (w : Wrap) (h' : Heap K), construct zero native shared d x init h = (none, w, h') ∧ Inv w h' ∧
      w.tile.native = native ∧ w.tile.d = d ∧ w.tile.x = x ∧
      (∀ a, Knows w a → h.next ≤ a) ∧ (∀ a, a < h.next → h'.mem a = h.mem a) ∧ h.next ≤ h'.next ∧
      (∀ a, a ∈ h'.dead → a ∈ h.dead ∨ h.next ≤ a) ∧
      h'.mem w.ctx = ⟨d, x, init⟩ ∧
      ((shared && native) = false → w.param = none ∧ w.ctx = w.tile.ptr) ∧
      ((shared && native) = true → w.param = some w.tile.ptr ∧ w.ctx ≠ w.tile.ptr ∧
        h'.mem w.tile.ptr = ⟨d, x, List.replicate (d * x) zero⟩) := by
  obtain ⟨w1, h1, b1, bp, bc, bn, bd, bx, bcpp, bpy, bge, blt, bdead, bmem, bmono, bframe, bsub, bsup⟩ :=
    bind_new zero native d x init ⟨(newTile native d x init h).1, none, none, h.next⟩ h rfl
  have hbd : w1.tile.ptr ∉ h1.dead := bdead good
  have good1 : ∀ a ∈ h1.dead, a < h1.next := by
    intro a q
    rcases bsub a q with q | q
    · have := good a q
      omega
    · exact q.2
  let w2 : Wrap := { w1 with ctx := w1.tile.ptr }
  have inv2 : Inv w2 h1 := by
    refine ⟨fun e => bcpp (bn ▸ e), fun e => ⟨bpy (bn ▸ e), bp⟩, ⟨blt, hbd⟩, ?_, ⟨blt, hbd⟩, ?_, good1⟩
    · show Fits (h1.mem w1.tile.ptr) _ _
      rw [bmem]; exact ⟨bd.symm, bx.symm⟩
    · intro p e
      have : w1.param = some p := e
      rw [bp] at this
      cases this
  have hw2 : ({ w1 with ctx := ref w1 } : Wrap) = w2 := by
    have : ref w1 = w1.tile.ptr := by
      cases e : native with
      | true => simp [ref, (bcpp e).1]
      | false => simp [ref, bpy e]
    simp only [this, w2]
  have e0 : construct zero native shared d x init h =
      (if shared && native then
        ensure { w2 with param := some h1.next } (h1.alloc ⟨d, x, List.replicate (d * x) zero⟩) none
      else (none, w2, h1)) := by
    have b1' : bind zero ⟨(newTile native d x init h).1, none, none, (newTile native d x init h).1.ptr⟩
        (newTile native d x init h).2 = (none, w1, h1) := b1
    simp only [construct]
    rw [b1']
    have hr : ref w1 = w1.tile.ptr := congrArg Wrap.ctx hw2
    simp only [Option.isSome_none, Bool.false_eq_true, if_false, hr]
    rfl
  have kn2 : ∀ a, Knows w2 a → h.next ≤ a := by
    intro a k
    rcases k with k | k | k | k
    · rw [k]; exact bge
    · cases e : native with
      | true => have k' : w1.bound = some a := k; rw [(bcpp e).1] at k'; injection k' with k'; omega
      | false => have k' : w1.bound = some a := k; rw [bpy e] at k'; cases k'
    · have k' : w1.param = some a := k; rw [bp] at k'; cases k'
    · rw [k]; exact bge
  by_cases c : (shared && native) = true
  · rw [e0, if_pos c]
    have nat : w2.tile.native = true := by
      show w1.tile.native = true
      rw [bn]; simp at c; exact c.2
    let h2 := h1.alloc ⟨d, x, List.replicate (d * x) zero⟩
    have n2 : h2.next = h1.next + 1 := rfl
    have m2 : h2.mem h1.next = ⟨d, x, List.replicate (d * x) zero⟩ := by simp [h2, alloc_mem]
    have o2 : ∀ a, a < h1.next → h2.mem a = h1.mem a := by
      intro a ha
      simp [h2, alloc_mem, ne_of_lt ha]
    have pl : h1.next < h2.next ∧ h1.next ∉ h2.dead := by
      refine ⟨by rw [n2]; exact Nat.lt_succ_self _, fun q => ?_⟩
      exact absurd (good1 _ q) (lt_irrefl _)
    have inv2' : Inv w2 h2 := by
      refine ⟨inv2.cpp, inv2.py, ⟨by rw [n2]; have := inv2.live.1; omega, inv2.live.2⟩, ?_,
        ⟨by rw [n2]; have := inv2.context.1; omega, inv2.context.2⟩, ?_, ?_⟩
      · rw [o2 _ inv2.live.1]; exact inv2.fits
      · intro p e
        have := inv2.param p e
        exact ⟨by rw [n2]; omega, this.2⟩
      · intro a q
        have := good1 a q
        rw [n2]; omega
    have inv3 : Inv { w2 with param := some h1.next } h2 := inv_param inv2' nat pl
    have f3 : Fits (h2.mem h1.next) w2.tile.d w2.tile.x := by
      rw [m2]; exact ⟨bd.symm, bx.symm⟩
    rcases ensure_cases (w := { w2 with param := some h1.next }) (h := h2) (p := h1.next) (arg := none) inv3 rfl rfl with
      ⟨_, he⟩ | ⟨nf, _⟩
    swap
    · exact absurd f3 nf
    refine ⟨_, _, he, inv_rebind inv3 nat pl f3, bn, bd, bx, ?_, ?_, by rw [n2]; omega, ?_, ?_, ?_, ?_⟩
    · intro a k
      rcases k with k | k | k | k
      · have k' : a = h1.next := k
        omega
      · injection k with k
        omega
      · injection k with k
        omega
      · have k' : a = w1.tile.ptr := k
        omega
    · intro a ha
      rw [o2 a (by omega), bframe a ha]
    · intro a q
      rcases bsub a q with q | q
      · exact Or.inl q
      · exact Or.inr q.1
    · show h2.mem w1.tile.ptr = _
      rw [o2 _ blt, bmem]
    · intro q; rw [c] at q; cases q
    · intro _
      refine ⟨rfl, ?_, m2⟩
      show w1.tile.ptr ≠ h1.next
      omega
  · rw [e0, if_neg c]
    refine ⟨w2, h1, rfl, inv2, bn, bd, bx, kn2, bframe, bmono, ?_, bmem, ?_, fun q => absurd q c⟩
    · intro a q
      rcases bsub a q with q | q
      · exact Or.inl q
      · exact Or.inr q.1
    · intro _
      exact ⟨bp, rfl⟩

end Aihw.Shared
