import Verif.Optim.Context

/-!
# C27: what can be read from and written through an analog context
-/
namespace Aihw.Optim.Context
open Aihw

/-! ## Lemmas -/

theorem write_other (h : H) (v : List ℚ) (s : CS) (k : Nat) (hk : k ≠ h.sid) :
    (write h v s).heap k = s.heap k := by simp [write, hk]

/-- Everything but the heap and the counter is untouched; the tile memory is untouched. -/
structure Ext (s s' : CS) : Prop where
  tile : s'.heap 0 = s.heap 0
  next : s.next ≤ s'.next
  mode : s'.mode = s.mode
  buf : s'.buf = s.buf
  scales : s'.scales = s.scales
  reqGrad : s'.reqGrad = s.reqGrad
  held : s'.held = s.held

theorem Ext.refl (s : CS) : Ext s s := ⟨rfl, le_rfl, rfl, rfl, rfl, rfl, rfl⟩
theorem Ext.trans {a b c : CS} (h : Ext a b) (g : Ext b c) : Ext a c :=
  ⟨g.tile.trans h.tile, h.next.trans g.next, g.mode.trans h.mode, g.buf.trans h.buf,
   g.scales.trans h.scales, g.reqGrad.trans h.reqGrad, g.held.trans h.held⟩

theorem alloc_ext (v : List ℚ) (c : Cls) (s : CS) (h : 0 < s.next) : Ext s (alloc v c s).2 :=
  ⟨by simp only [alloc]; rw [if_neg (by omega)], by simp [alloc], rfl, rfl, rfl, rfl, rfl⟩

/-- Separation: a tensor object that the user may write never lies in the tile memory. -/
structure Sep (s : CS) : Prop where
  pos : 0 < s.next
  held : ∀ h ∈ s.held, h.sid < s.next ∧ (h.cls ≠ .ro → h.sid ≠ 0)
  buf : ∀ b, s.buf = some b → b.sid < s.next ∧ b.sid ≠ 0 ∧ b.cls = .plain

/-- The operand shows the tile memory itself. -/
def TileAlias (s : CS) (a : Arg) : Prop :=
  match a with
  | .ctx => s.mode = .dataView ∧ s.scales = none
  | .held k => argCls s (.held k) = some .ro

theorem logicalData_spec (t : TileDim) (s : CS) (h : 0 < s.next) :
    Ext s (logicalData t s).2 ∧ (logicalData t s).1.sid < (logicalData t s).2.next ∧
    (logicalData t s).1.cls = .plain ∧ (s.scales ≠ none → (logicalData t s).1.sid ≠ 0) := by
  unfold logicalData
  split
  · rename_i hs
    exact ⟨Ext.refl s, h, rfl, fun hc => absurd hs hc⟩
  · exact ⟨alloc_ext _ _ _ h, by simp [alloc], rfl, fun _ => by simp [alloc]; omega⟩

theorem toPublic_spec (t : TileDim) (n : String) (junk : List ℚ) (a : Arg) (s : CS) (hs : Sep s)
    (h : H) (s' : CS) (e : toPublic t n junk a s = .ok (h, s')) :
    Ext s s' ∧ h.sid < s'.next ∧ (¬ TileAlias s a → h.sid ≠ 0) := by
  cases a with
  | held k =>
    simp only [toPublic] at e
    cases hk : s.held[k]? with
    | none => rw [hk] at e; simp at e
    | some h' =>
      rw [hk] at e
      simp only [Except.ok.injEq, Prod.mk.injEq] at e
      obtain ⟨rfl, rfl⟩ := e
      have hm := hs.held h' (List.mem_of_getElem? hk)
      refine ⟨Ext.refl s, hm.1, fun hn => hm.2 fun hc => hn ?_⟩
      simp [TileAlias, argCls, hk, hc]
  | ctx =>
    simp only [toPublic] at e
    cases hm : s.mode with
    | placeholder =>
      rw [hm] at e
      simp only at e
      split at e
      · have ea : (alloc (emptyVals t junk) .ph s).1 = h := congrArg Prod.fst (Except.ok.inj e)
        have eb : (alloc (emptyVals t junk) .ph s).2 = s' := congrArg Prod.snd (Except.ok.inj e)
        subst ea eb
        have := hs.pos
        exact ⟨alloc_ext _ _ _ hs.pos, by simp [alloc], fun _ => by simp [alloc]; omega⟩
      · simp at e
    | dataView =>
      rw [hm] at e
      simp only [Except.ok.injEq] at e
      have hl := logicalData_spec t s hs.pos
      rw [e] at hl
      refine ⟨hl.1, hl.2.1, fun hn => hl.2.2.2 fun hc => hn ⟨hm, hc⟩⟩
    | buffer =>
      rw [hm] at e
      simp only at e
      cases hb : s.buf with
      | none => rw [hb] at e; simp at e
      | some b =>
        rw [hb] at e
        simp only [Except.ok.injEq, Prod.mk.injEq] at e
        obtain ⟨rfl, rfl⟩ := e
        exact ⟨Ext.refl s, (hs.buf b hb).1, fun _ => (hs.buf b hb).2.1⟩

theorem Sep.ext {s s' : CS} (hs : Sep s) (h : Ext s s') : Sep s' where
  pos := lt_of_lt_of_le hs.pos h.next
  held := by
    rw [h.held]; intro x hx
    exact ⟨lt_of_lt_of_le (hs.held x hx).1 h.next, (hs.held x hx).2⟩
  buf := by
    rw [h.buf]; intro b hb
    exact ⟨lt_of_lt_of_le (hs.buf b hb).1 h.next, (hs.buf b hb).2⟩

theorem tileAlias_ext {s s' : CS} (h : Ext s s') (a : Arg) : TileAlias s' a ↔ TileAlias s a := by
  cases a <;> simp [TileAlias, argCls, h.mode, h.scales, h.held]

theorem toPublicAll_spec (t : TileDim) (n : String) (junk : List ℚ) (l : List Arg) :
    ∀ (s : CS), Sep s → ∀ (hs : List H) (s' : CS), toPublicAll t n junk l s = .ok (hs, s') →
    Ext s s' ∧ List.Forall₂ (fun a h => h.sid < s'.next ∧ (¬ TileAlias s a → h.sid ≠ 0)) l hs := by
  induction l with
  | nil =>
    intro s _ hs s' e
    simp only [toPublicAll, Except.ok.injEq, Prod.mk.injEq] at e
    obtain ⟨rfl, rfl⟩ := e
    exact ⟨Ext.refl _, .nil⟩
  | cons a l ih =>
    intro s hS hs s' e
    simp only [toPublicAll] at e
    cases h1 : toPublic t n junk a s with
    | error x => rw [h1] at e; simp at e
    | ok p =>
      obtain ⟨h, s1⟩ := p
      rw [h1] at e
      simp only at e
      cases h2 : toPublicAll t n junk l s1 with
      | error x => rw [h2] at e; simp at e
      | ok q =>
        obtain ⟨hs2, s2⟩ := q
        rw [h2] at e
        simp only [Except.ok.injEq, Prod.mk.injEq] at e
        obtain ⟨rfl, rfl⟩ := e
        obtain ⟨e1, l1, n1⟩ := toPublic_spec t n junk a s hS h s1 h1
        obtain ⟨e2, f2⟩ := ih s1 (hS.ext e1) _ _ h2
        refine ⟨e1.trans e2, .cons ⟨lt_of_lt_of_le l1 e2.next, n1⟩ ?_⟩
        refine f2.imp fun a h hh => ⟨hh.1, fun hn => hh.2 ?_⟩
        rwa [tileAlias_ext e1]

theorem forall₂_head {α β : Type} {R : α → β → Prop} {l : List α} {l' : List β} {b : β}
    (h : List.Forall₂ R l l') (hb : l'.head? = some b) : ∃ a, l.head? = some a ∧ R a b := by
  cases h with
  | nil => simp at hb
  | cons h1 _ => simp only [List.head?_cons, Option.some.injEq] at hb; subst hb; exact ⟨_, rfl, h1⟩

theorem forall₂_get {α β : Type} {R : α → β → Prop} {l : List α} {l' : List β}
    (h : List.Forall₂ R l l') : ∀ (k : Nat) (b : β), l'[k]? = some b → ∃ a, l[k]? = some a ∧ R a b := by
  induction h with
  | nil => intro k b hb; simp at hb
  | cons h1 _ ih =>
    intro k b hb
    cases k with
    | zero => simp only [List.getElem?_cons_zero, Option.some.injEq] at hb ⊢; subst hb; exact ⟨_, rfl, h1⟩
    | succ k => simp only [List.getElem?_cons_succ] at hb ⊢; exact ih k b hb

/-! ## Writes -/

/-- The operand whose storage the result of the function shares, if any. -/
def sharedArg (fn : TorchFn) : Option Nat :=
  match fn.result with
  | .fresh _ => none
  | .view k _ => some k
  | .first => some 0

/-- torch's naming convention: a function that overwrites its first argument has a name ending in one
underscore. -/
def Conv (fn : TorchFn) : Prop := fn.writesFirst = true → isInplace fn.name = true

theorem write_sep (h : H) (v : List ℚ) (s : CS) (hs : Sep s) : Sep (write h v s) :=
  ⟨hs.pos, hs.held, hs.buf⟩

theorem foldl_write (v : List ℚ) (os : List H) : ∀ (s : CS), (∀ o ∈ os, o.sid ≠ 0) →
    let s' := os.foldl (fun s o => write o v s) s
    s'.heap 0 = s.heap 0 ∧ s'.next = s.next ∧ s'.mode = s.mode ∧ s'.buf = s.buf ∧
    s'.scales = s.scales ∧ s'.reqGrad = s.reqGrad ∧ s'.held = s.held := by
  induction os with
  | nil => intro s _; exact ⟨rfl, rfl, rfl, rfl, rfl, rfl, rfl⟩
  | cons o os ih =>
    intro s h
    have := ih (write o v s) (fun o' ho' => h o' (by simp [ho']))
    simp only [List.foldl_cons]
    refine ⟨this.1.trans (write_other o v s 0 (h o (by simp)).symm), this.2⟩

/-- `apply` does not touch the tile memory if its write targets are elsewhere. -/
theorem apply_spec (fn : TorchFn) (hs os : List H) (s : CS) (hS : Sep s)
    (hl : ∀ h ∈ hs, h.sid < s.next)
    (hw : fn.writesFirst = true → ∀ h, hs.head? = some h → h.sid ≠ 0)
    (ho : ∀ o ∈ os, o.sid ≠ 0)
    (hr : ∀ k, sharedArg fn = some k → ∀ h, hs[k]? = some h → h.sid ≠ 0) :
    (apply fn hs os s).heap 0 = s.heap 0 ∧ Sep (apply fn hs os s) ∧
    (apply fn hs os s).mode = s.mode ∧ (apply fn hs os s).scales = s.scales ∧
    (∃ l, (apply fn hs os s).held = s.held ++ l ∧ ∀ h ∈ l, h.cls ≠ .ro ∧ h.sid ≠ 0) ∧
    (apply fn hs os s).buf = s.buf := by
  unfold apply
  simp only
  set vals := hs.map fun h => read h s
  -- after writing the first argument
  have h1 : ∃ s1, writeFirst fn hs vals s = s1 ∧ s1.heap 0 = s.heap 0 ∧ s1.next = s.next ∧ s1.mode = s.mode ∧
        s1.buf = s.buf ∧ s1.scales = s.scales ∧ s1.held = s.held := by
    refine ⟨_, rfl, ?_⟩
    unfold writeFirst
    cases hf : fn.writesFirst with
    | false => simp
    | true =>
      cases hh : hs.head? with
      | none => simp
      | some h =>
        simp only
        exact ⟨write_other h _ s 0 (hw hf h hh).symm, rfl, rfl, rfl, rfl, rfl⟩
  obtain ⟨s1, e1, a1, a2, a3, a4, a5, a6⟩ := h1
  rw [e1]
  obtain ⟨b1, b2, b3, b4, b5, _, b6⟩ := foldl_write (fn.newOut vals) os s1 ho
  change (pushResult fn hs vals (os.foldl (fun s o => write o (fn.newOut vals) s) s1)).heap 0 = _ ∧
    Sep (pushResult fn hs vals (os.foldl (fun s o => write o (fn.newOut vals) s) s1)) ∧
    (pushResult fn hs vals (os.foldl (fun s o => write o (fn.newOut vals) s) s1)).mode = _ ∧
    (pushResult fn hs vals (os.foldl (fun s o => write o (fn.newOut vals) s) s1)).scales = _ ∧
    (∃ l, (pushResult fn hs vals (os.foldl (fun s o => write o (fn.newOut vals) s) s1)).held = _ ∧ _) ∧
    (pushResult fn hs vals (os.foldl (fun s o => write o (fn.newOut vals) s) s1)).buf = _
  set s2 := os.foldl (fun s o => write o (fn.newOut vals) s) s1
  unfold pushResult
  have hn2 : s2.next = s.next := b2.trans a2
  have hh2 : s2.held = s.held := b6.trans a6
  have hb2 : s2.buf = s.buf := b4.trans a4
  have hS2 : Sep s2 := ⟨by rw [hn2]; exact hS.pos, by rw [hh2, hn2]; exact hS.held, by rw [hb2, hn2]; exact hS.buf⟩
  have ht2 : s2.heap 0 = s.heap 0 := b1.trans a1
  have push : ∀ h : H, h.sid < s2.next → h.cls ≠ .ro → h.sid ≠ 0 →
      Sep { s2 with held := s2.held ++ [h] } := by
    intro h hlt hc hne
    refine ⟨hS2.pos, ?_, hS2.buf⟩
    intro x hx
    rcases List.mem_append.1 hx with hx | hx
    · exact hS2.held x hx
    · simp only [List.mem_singleton] at hx; subst hx; exact ⟨hlt, fun _ => hne⟩
  cases hres : fn.result with
  | fresh f =>
    simp only
    have hA := alloc_ext (f vals) .plain s2 hS2.pos
    refine ⟨hA.tile.trans ht2, ?_, hA.mode.trans (b3.trans a3), hA.scales.trans (b5.trans a5), ?_, hA.buf.trans hb2⟩
    · have hSA := hS2.ext hA
      refine ⟨hSA.pos, ?_, hSA.buf⟩
      intro x hx
      rcases List.mem_append.1 hx with hx | hx
      · exact hSA.held x hx
      · simp only [List.mem_singleton] at hx
        subst hx
        refine ⟨by simp [alloc], fun _ => ?_⟩
        have := hS2.pos
        simp only [alloc]; omega
    · refine ⟨[(alloc (f vals) .plain s2).1], by rw [hA.held, hh2], ?_⟩
      intro x hx
      simp only [List.mem_singleton] at hx
      subst hx
      have := hS2.pos
      refine ⟨by simp [alloc], ?_⟩
      simp only [alloc]; omega
  | view k g =>
    simp only
    cases hk : hs[k]? with
    | none => exact ⟨ht2, hS2, b3.trans a3, b5.trans a5, ⟨[], by simp [hh2]⟩, hb2⟩
    | some h =>
      simp only
      have hne := hr k (by simp [sharedArg, hres]) h hk
      have hlt : h.sid < s2.next := by rw [hn2]; exact hl h (List.mem_of_getElem? hk)
      have hcl : viewCls fn.name h ≠ .ro := by unfold viewCls; split <;> simp
      exact ⟨ht2, push _ hlt hcl hne, b3.trans a3, b5.trans a5,
        ⟨[_], by rw [hh2], by intro x hx; simp only [List.mem_singleton] at hx; subst hx; exact ⟨hcl, hne⟩⟩, hb2⟩
  | first =>
    simp only
    cases hk : hs.head? with
    | none => exact ⟨ht2, hS2, b3.trans a3, b5.trans a5, ⟨[], by simp [hh2]⟩, hb2⟩
    | some h =>
      simp only
      have hk0 : hs[0]? = some h := by rw [← List.head?_eq_getElem?]; exact hk
      have hne := hr 0 (by simp [sharedArg, hres]) h hk0
      have hlt : h.sid < s2.next := by rw [hn2]; exact hl h (List.mem_of_getElem? hk0)
      exact ⟨ht2, push _ hlt (by simp) hne, b3.trans a3, b5.trans a5,
        ⟨[_], by rw [hh2], by intro x hx; simp only [List.mem_singleton] at hx; subst hx; exact ⟨by simp, hne⟩⟩, hb2⟩

theorem readonly_of_alias {s : CS} {a : Arg} (h : TileAlias s a) : isReadonly s a = true := by
  cases a with
  | ctx => simp only [TileAlias] at h; simp [isReadonly, h.1]
  | held k => simp only [TileAlias] at h; simp [isReadonly, h]

theorem torchCall_spec (t : TileDim) (fn : TorchFn) (args outs : List Arg) (junk : List ℚ) (s : CS)
    (hS : Sep s) (hc : Conv fn)
    (hr : ∀ k, sharedArg fn = some k → ∀ a, args[k]? = some a → ¬ TileAlias s a) :
    let s' := (torchCall t fn args outs junk s).2
    s'.heap 0 = s.heap 0 ∧ Sep s' ∧ s'.mode = s.mode ∧ s'.scales = s.scales ∧
    (∃ l, s'.held = s.held ++ l ∧ ∀ h ∈ l, h.cls ≠ .ro ∧ h.sid ≠ 0) ∧ s'.buf = s.buf := by
  simp only [torchCall]
  have triv : s.heap 0 = s.heap 0 ∧ Sep s ∧ s.mode = s.mode ∧ s.scales = s.scales ∧
      (∃ l, s.held = s.held ++ l ∧ ∀ h ∈ l, h.cls ≠ .ro ∧ h.sid ≠ 0) ∧ s.buf = s.buf :=
    ⟨rfl, hS, rfl, rfl, ⟨[], by simp⟩, rfl⟩
  split
  · exact ⟨rfl, ⟨hS.pos, hS.held, hS.buf⟩, rfl, rfl, ⟨[], by simp⟩, rfl⟩
  · cases hg : guard fn args outs s with
    | error e => exact triv
    | ok u =>
      simp only
      cases h1 : toPublicAll t fn.name junk args s with
      | error e => exact triv
      | ok p =>
        obtain ⟨hs, s1⟩ := p
        simp only
        cases h2 : toPublicAll t fn.name junk outs s1 with
        | error e => exact triv
        | ok q =>
          obtain ⟨os, s2⟩ := q
          simp only
          obtain ⟨e1, f1⟩ := toPublicAll_spec t _ junk args s hS hs s1 h1
          obtain ⟨e2, f2⟩ := toPublicAll_spec t _ junk outs s1 (hS.ext e1) os s2 h2
          have e12 := e1.trans e2
          -- the guard rejected read-only write targets
          have hg1 : isInplace fn.name = true → ∀ a, args.head? = some a → ¬ TileAlias s a := by
            intro hin a ha hal
            have hro := readonly_of_alias hal
            simp [guard, hin, ha, hro] at hg
          have hg2 : ∀ o ∈ outs, ¬ TileAlias s o := by
            intro o ho hal
            have hro := readonly_of_alias hal
            have : outs.any (isReadonly s) = true := List.any_eq_true.2 ⟨o, ho, hro⟩
            unfold guard at hg
            rw [this] at hg
            split at hg
            · simp at hg
            · simp at hg
          have key := apply_spec fn hs os s2 (hS.ext e12) ?_ ?_ ?_ ?_
          · obtain ⟨k1, k2, k3, k4, k5, k6⟩ := key
            refine ⟨k1.trans e12.tile, k2, k3.trans e12.mode, k4.trans e12.scales, ?_, k6.trans e12.buf⟩
            rw [e12.held] at k5; exact k5
          · intro h hh
            obtain ⟨k, hk⟩ := List.getElem?_of_mem hh
            obtain ⟨a, _, hR⟩ := forall₂_get f1 k h hk
            exact lt_of_lt_of_le hR.1 e2.next
          · intro hwf h hh
            obtain ⟨a, ha, hR⟩ := forall₂_head f1 hh
            exact hR.2 (hg1 (hc hwf) a ha)
          · intro o ho
            obtain ⟨k, hk⟩ := List.getElem?_of_mem ho
            obtain ⟨a, ha, hR⟩ := forall₂_get f2 k o hk
            refine hR.2 ?_
            rw [tileAlias_ext e1]
            exact hg2 a (List.mem_of_getElem? ha)
          · intro k hk h hh
            obtain ⟨a, ha, hR⟩ := forall₂_get f1 k h hh
            exact hR.2 (hr k hk a ha)

theorem setMode_spec (t : TileDim) (m : Mode) (s : CS) (hS : Sep s) :
    (setMode t m s).heap 0 = s.heap 0 ∧ Sep (setMode t m s) ∧ (setMode t m s).scales = s.scales ∧
    (setMode t m s).held = s.held := by
  cases m with
  | placeholder => exact ⟨rfl, ⟨hS.pos, hS.held, by intro b hb; simp [setMode] at hb⟩, rfl, rfl⟩
  | dataView => exact ⟨rfl, ⟨hS.pos, hS.held, by intro b hb; simp [setMode] at hb⟩, rfl, rfl⟩
  | buffer =>
    have hA := alloc_ext (List.replicate (t.d * cols t) 0) .plain s hS.pos
    have hSA := hS.ext hA
    refine ⟨hA.tile, ⟨hSA.pos, hSA.held, ?_⟩, hA.scales, hA.held⟩
    intro b hb
    simp only [setMode, Option.some.injEq] at hb
    subst hb
    have := hS.pos
    refine ⟨by simp [setMode, alloc], ?_, rfl⟩
    simp only [alloc]; omega

theorem publicData_spec (t : TileDim) (junk : List ℚ) (s : CS) (hS : Sep s) (h : H) (s' : CS)
    (e : publicData t junk s = .ok (h, s')) :
    Ext s s' ∧ h.sid < s'.next ∧ (h.cls ≠ .ro → h.sid ≠ 0) ∧
    (s.mode ≠ .dataView ∨ s.scales ≠ none → h.sid ≠ 0) ∧ (s.mode ≠ .dataView → h.cls ≠ .ro) := by
  unfold publicData at e
  have := hS.pos
  cases hm : s.mode with
  | placeholder =>
    rw [hm] at e
    have ea : (alloc (emptyVals t junk) .ph s).1 = h := congrArg Prod.fst (Except.ok.inj e)
    have eb : (alloc (emptyVals t junk) .ph s).2 = s' := congrArg Prod.snd (Except.ok.inj e)
    subst ea eb
    exact ⟨alloc_ext _ _ _ hS.pos, by simp [alloc], fun _ => by simp only [alloc]; omega,
      fun _ => by simp only [alloc]; omega, fun _ => by simp [alloc]⟩
  | dataView =>
    rw [hm] at e
    simp only [Except.ok.injEq, Prod.mk.injEq] at e
    obtain ⟨rfl, rfl⟩ := e
    have hl := logicalData_spec t s hS.pos
    exact ⟨hl.1, hl.2.1, by simp, fun h => hl.2.2.2 (by simpa using h), by simp⟩
  | buffer =>
    rw [hm] at e
    simp only at e
    cases hb : s.buf with
    | none => rw [hb] at e; simp at e
    | some b =>
      rw [hb] at e
      simp only [Except.ok.injEq, Prod.mk.injEq] at e
      obtain ⟨rfl, rfl⟩ := e
      have h' := hS.buf b hb
      exact ⟨Ext.refl _, h'.1, fun _ => h'.2.1, fun _ => h'.2.1, fun _ => by rw [h'.2.2]; simp⟩

/-! ## C27, part 1: no write path, except through views -/

/-- Operations that do not hand out an unprotected view of the tile memory: torch functions follow the
naming convention and, when they succeed, do not return (a view of) an operand that is the context in
DATA_VIEW mode or a read-only view; `get_data()` is not used in DATA_VIEW mode and the context is not copied. -/
def NoView (t : TileDim) (s : CS) : Cmd → Prop
  | .call fn args outs junk => Conv fn ∧ ((torchCall t fn args outs junk s).1 = .ok () → ∀ k, sharedArg fn = some k → ∀ a, args[k]? = some a →
      ((a = .ctx → s.mode ≠ .dataView) ∧ argCls s a ≠ some .ro))
  | .getDataMethod => s.mode ≠ .dataView
  | .copy => False
  | _ => True

def NoViewRun (t : TileDim) : List Cmd → CS → Prop
  | [], _ => True
  | c :: cs, s => NoView t s c ∧ NoViewRun t cs (exec t c s).2

/-- The tile memory as determined by the tile API alone. -/
def tileApi (w : List ℚ) : List Cmd → List ℚ
  | [] => w
  | .tileWrite w' :: cs => tileApi w' cs
  | _ :: cs => tileApi w cs

theorem sep_push {s : CS} (hS : Sep s) (h : H) (hl : h.sid < s.next) (hn : h.cls ≠ .ro → h.sid ≠ 0) :
    Sep { s with held := s.held ++ [h] } := by
  refine ⟨hS.pos, ?_, hS.buf⟩
  intro x hx
  rcases List.mem_append.1 hx with hx | hx
  · exact hS.held x hx
  · simp only [List.mem_singleton] at hx; subst hx; exact ⟨hl, hn⟩

/-- A torch call that raises changes nothing. -/
theorem torchCall_error (t : TileDim) (fn : TorchFn) (args outs : List Arg) (junk : List ℚ) (s : CS)
    (h : (torchCall t fn args outs junk s).1 ≠ .ok ()) : (torchCall t fn args outs junk s).2 = s := by
  unfold torchCall at h ⊢
  split
  · rename_i h1; rw [if_pos h1] at h; exact absurd rfl h
  · rename_i h1
    rw [if_neg h1] at h
    cases hg : guard fn args outs s with
    | error e => rfl
    | ok u =>
      rw [hg] at h
      simp only at h ⊢
      cases ha : toPublicAll t fn.name junk args s with
      | error e => rfl
      | ok p =>
        rw [ha] at h
        simp only at h ⊢
        cases ho : toPublicAll t fn.name junk outs p.2 with
        | error e => rfl
        | ok q => rw [ho] at h; exact absurd rfl h

theorem exec_noView (t : TileDim) (c : Cmd) (s : CS) (hS : Sep s) (hc : NoView t s c) :
    Sep (exec t c s).2 ∧ (exec t c s).2.heap 0 = tileApi (s.heap 0) [c] := by
  cases c with
  | setMode m =>
    have := setMode_spec t m s hS
    exact ⟨this.2.1, this.1⟩
  | setModeInvalid => exact ⟨hS, rfl⟩
  | getData junk =>
    simp only [exec, getData, tileApi]
    cases h : publicData t junk s with
    | error e => exact ⟨hS, rfl⟩
    | ok p =>
      obtain ⟨hh, s1⟩ := p
      have hp := publicData_spec t junk s hS hh s1 h
      exact ⟨sep_push (hS.ext hp.1) hh hp.2.1 hp.2.2.1, hp.1.tile⟩
  | getDataMethod =>
    simp only [exec, getDataMethod, tileApi]
    split
    · exact ⟨hS, rfl⟩
    · cases h : publicData t [] s with
      | error e => exact ⟨hS, rfl⟩
      | ok p =>
        obtain ⟨hh, s1⟩ := p
        have hp := publicData_spec t [] s hS hh s1 h
        exact ⟨sep_push (hS.ext hp.1) _ hp.2.1 (fun _ => hp.2.2.2.1 (.inl hc)), hp.1.tile⟩
  | call fn args outs junk =>
    by_cases hok : (torchCall t fn args outs junk s).1 = .ok ()
    swap
    · have := torchCall_error t fn args outs junk s hok
      simp only [exec, tileApi]
      rw [this]
      exact ⟨hS, rfl⟩
    have := torchCall_spec t fn args outs junk s hS hc.1 (by
      intro k hk a ha hal
      have := hc.2 hok k hk a ha
      cases a with
      | ctx => exact this.1 rfl hal.1
      | held j => exact this.2 hal)
    exact ⟨this.2.1, this.1⟩
  | requiresGrad v => exact ⟨⟨hS.pos, hS.held, hS.buf⟩, rfl⟩
  | setItem a v =>
    cases a with
    | ctx => exact ⟨hS, rfl⟩
    | held k =>
      simp only [exec, setItem, tileApi]
      cases hk : s.held[k]? with
      | none => exact ⟨hS, rfl⟩
      | some h =>
        simp only
        split
        · rename_i hp
          have := (hS.held h (List.mem_of_getElem? hk)).2 (by rw [hp]; simp)
          exact ⟨write_sep _ _ _ hS, write_other _ _ _ _ this.symm⟩
        · exact ⟨hS, rfl⟩
  | assignData => exact ⟨hS, rfl⟩
  | copy => exact absurd hc (by simp [NoView])
  | tileWrite w => exact ⟨⟨hS.pos, hS.held, hS.buf⟩, by simp [exec, pyOk, tileApi]⟩
  | setScales sc => exact ⟨⟨hS.pos, hS.held, hS.buf⟩, rfl⟩

theorem initCS_sep (w : List ℚ) (sc : Option (List ℚ)) : Sep (initCS w sc) :=
  ⟨by simp [initCS], by simp [initCS], by simp [initCS]⟩

theorem tileApi_cons (w : List ℚ) (c : Cmd) (cs : List Cmd) :
    tileApi w (c :: cs) = tileApi (tileApi w [c]) cs := by
  cases c <;> rfl

/-- **C27.** From a fresh context, no sequence of mode switches, torch operations (reading, in-place,
`out=`), item assignments and `.data` accesses changes the tile weights, as long as no operation
returns a *view* of the data view: the tile memory is determined by the tile API alone. -/
theorem C27_no_write_path (t : TileDim) (w : List ℚ) (sc : Option (List ℚ)) (cs : List Cmd)
    (h : NoViewRun t cs (initCS w sc)) :
    (run t cs (initCS w sc)).heap 0 = tileApi w cs := by
  have gen : ∀ (cs : List Cmd) (s : CS), Sep s → NoViewRun t cs s →
      (run t cs s).heap 0 = tileApi (s.heap 0) cs := by
    intro cs
    induction cs with
    | nil => intro s _ _; rfl
    | cons c cs ih =>
      intro s hS hr
      obtain ⟨h1, h2⟩ := exec_noView t c s hS hr.1
      rw [run, ih _ h1 hr.2, h2, ← tileApi_cons]
  exact gen cs _ (initCS_sep w sc) h

/-- Operations of a tile with output scales: any function following the naming convention, including
those that return views; scales are never removed and the context is not copied. -/
def Scaled : Cmd → Prop
  | .call fn _ _ _ => Conv fn
  | .setScales sc => sc ≠ none
  | .copy => False
  | _ => True

/-- **C27.** If the tile has output scales throughout, there is no write path at all (copying the
context aside): even views returned by torch functions are independent of the tile. -/
theorem C27_no_write_path_scaled (t : TileDim) (w : List ℚ) (sc : List ℚ) (cs : List Cmd)
    (h : ∀ c ∈ cs, Scaled c) :
    (run t cs (initCS w (some sc))).heap 0 = tileApi w cs := by
  have gen : ∀ (cs : List Cmd) (s : CS), (∀ c ∈ cs, Scaled c) → Sep s → s.scales ≠ none →
      (∀ h ∈ s.held, h.sid ≠ 0) → (run t cs s).heap 0 = tileApi (s.heap 0) cs := by
    intro cs
    induction cs with
    | nil => intro s _ _ _ _; rfl
    | cons c cs ih =>
      intro s hc hS hsc hh
      rw [tileApi_cons, run]
      have hcs := fun c' h' => hc c' (List.mem_cons_of_mem _ h')
      have hc0 := hc c (by simp)
      have push : ∀ (s1 : CS) (x : H), Ext s s1 → x.sid < s1.next → x.sid ≠ 0 →
          (run t cs { s1 with held := s1.held ++ [x] }).heap 0 = tileApi (s.heap 0) cs := by
        intro s1 x e hl hn
        have := ih { s1 with held := s1.held ++ [x] } hcs (sep_push (hS.ext e) x hl fun _ => hn)
          (by simp only [e.scales]; exact hsc) (by
            intro y hy
            rcases List.mem_append.1 hy with hy | hy
            · rw [e.held] at hy; exact hh y hy
            · simp only [List.mem_singleton] at hy; subst hy; exact hn)
        rw [this]; simp only [e.tile]
      have ihs : (run t cs s).heap 0 = tileApi (s.heap 0) cs := ih s hcs hS hsc hh
      cases c with
      | setMode m =>
        have := setMode_spec t m s hS
        simp only [exec, pyOk]
        rw [ih _ hcs this.2.1 (by rw [this.2.2.1]; exact hsc) (by rw [this.2.2.2]; exact hh), this.1]
        rfl
      | setModeInvalid => exact ihs
      | getData junk =>
        simp only [exec, getData]
        cases h : publicData t junk s with
        | error e => exact ihs
        | ok p =>
          obtain ⟨x, s1⟩ := p
          have hp := publicData_spec t junk s hS x s1 h
          exact push s1 x hp.1 hp.2.1 (hp.2.2.2.1 (.inr hsc))
      | getDataMethod =>
        simp only [exec, getDataMethod]
        split
        · exact ihs
        · cases h : publicData t [] s with
          | error e => exact ihs
          | ok p =>
            obtain ⟨x, s1⟩ := p
            have hp := publicData_spec t [] s hS x s1 h
            exact push s1 { x with cls := .plain } hp.1 hp.2.1 (hp.2.2.2.1 (.inr hsc))
      | call fn args outs junk =>
        -- read-only handles do not lie in the tile memory here; weaken `Sep` by renaming classes
        have key : (torchCall t fn args outs junk s).2.heap 0 = s.heap 0 ∧
            Sep (torchCall t fn args outs junk s).2 ∧
            (torchCall t fn args outs junk s).2.scales = s.scales ∧
            ∀ h ∈ (torchCall t fn args outs junk s).2.held, h.sid ≠ 0 := by
          simp only [torchCall]
          have triv : s.heap 0 = s.heap 0 ∧ Sep s ∧ s.scales = s.scales ∧ ∀ h ∈ s.held, h.sid ≠ 0 :=
            ⟨rfl, hS, rfl, hh⟩
          split
          · exact ⟨rfl, ⟨hS.pos, hS.held, hS.buf⟩, rfl, hh⟩
          cases hg : guard fn args outs s with
          | error e => exact triv
          | ok u =>
          simp only
          -- every operand resolves outside the tile memory
          have res : ∀ (l : List Arg) (s : CS), Sep s → s.scales ≠ none → (∀ h ∈ s.held, h.sid ≠ 0) →
              ∀ hs s', toPublicAll t fn.name junk l s = .ok (hs, s') → ∀ h ∈ hs, h.sid ≠ 0 := by
            intro l
            induction l with
            | nil =>
              intro s _ _ _ hs s' e
              simp only [toPublicAll, Except.ok.injEq, Prod.mk.injEq] at e
              obtain ⟨rfl, rfl⟩ := e
              simp
            | cons a l ihl =>
              intro s hS hsc hh hs s' e
              simp only [toPublicAll] at e
              cases h1 : toPublic t fn.name junk a s with
              | error x => rw [h1] at e; simp at e
              | ok p =>
                obtain ⟨h, s1⟩ := p
                rw [h1] at e
                simp only at e
                cases h2 : toPublicAll t fn.name junk l s1 with
                | error x => rw [h2] at e; simp at e
                | ok q =>
                  obtain ⟨hs2, s2⟩ := q
                  rw [h2] at e
                  simp only [Except.ok.injEq, Prod.mk.injEq] at e
                  obtain ⟨rfl, rfl⟩ := e
                  obtain ⟨e1, l1, n1⟩ := toPublic_spec t _ junk a s hS h s1 h1
                  have ha : h.sid ≠ 0 := by
                    cases a with
                    | ctx => exact n1 fun hal => hsc hal.2
                    | held k =>
                      simp only [toPublic] at h1
                      cases hk : s.held[k]? with
                      | none => rw [hk] at h1; simp at h1
                      | some h' =>
                        rw [hk] at h1
                        simp only [Except.ok.injEq, Prod.mk.injEq] at h1
                        rw [← h1.1]; exact hh h' (List.mem_of_getElem? hk)
                  have := ihl s1 (hS.ext e1) (by rw [e1.scales]; exact hsc)
                    (by rw [e1.held]; exact hh) _ _ h2
                  intro x hx
                  rcases List.mem_cons.1 hx with rfl | hx
                  · exact ha
                  · exact this x hx
          cases h1 : toPublicAll t fn.name junk args s with
          | error e => exact triv
          | ok p =>
            obtain ⟨hs, s1⟩ := p
            simp only
            cases h2 : toPublicAll t fn.name junk outs s1 with
            | error e => exact triv
            | ok q =>
              obtain ⟨os, s2⟩ := q
              simp only
              obtain ⟨e1, f1⟩ := toPublicAll_spec t _ junk args s hS hs s1 h1
              obtain ⟨e2, f2⟩ := toPublicAll_spec t _ junk outs s1 (hS.ext e1) os s2 h2
              have r1 := res args s hS hsc hh hs s1 h1
              have r2 := res outs s1 (hS.ext e1) (by rw [e1.scales]; exact hsc)
                (by rw [e1.held]; exact hh) os s2 h2
              have e12 := e1.trans e2
              have key := apply_spec fn hs os s2 (hS.ext e12)
                (by
                  intro h hm
                  obtain ⟨k, hk⟩ := List.getElem?_of_mem hm
                  obtain ⟨a, _, hR⟩ := forall₂_get f1 k h hk
                  exact lt_of_lt_of_le hR.1 e2.next)
                (fun _ h hm => r1 h (List.mem_of_mem_head? hm)) r2
                (fun k _ h hm => r1 h (List.mem_of_getElem? hm))
              obtain ⟨k1, k2, _, k4, ⟨l, k5, k6⟩, _⟩ := key
              refine ⟨k1.trans e12.tile, k2, k4.trans e12.scales, ?_⟩
              rw [k5, e12.held]
              intro x hx
              rcases List.mem_append.1 hx with hx | hx
              · exact hh x hx
              · exact (k6 x hx).2
        simp only [exec]
        rw [ih _ hcs key.2.1 (by rw [key.2.2.1]; exact hsc) key.2.2.2, key.1]
        rfl
      | requiresGrad v =>
        exact ih { s with reqGrad := v } hcs ⟨hS.pos, hS.held, hS.buf⟩ hsc hh
      | setItem a v =>
        cases a with
        | ctx => exact ihs
        | held k =>
          simp only [exec, setItem]
          cases hk : s.held[k]? with
          | none => exact ihs
          | some x =>
            simp only
            split
            · have hx := hh x (List.mem_of_getElem? hk)
              simp only [pyOk]
              rw [ih (write x v s) hcs (write_sep _ _ _ hS) hsc hh, write_other _ _ _ _ hx.symm]
              rfl
            · exact ihs
      | assignData => exact ihs
      | copy => exact absurd hc0 (by simp [Scaled])
      | tileWrite w' =>
        have := ih { s with heap := fun k => if k = 0 then w' else s.heap k } hcs
          ⟨hS.pos, hS.held, hS.buf⟩ hsc hh
        simpa [exec, pyOk, tileApi] using this
      | setScales sc' =>
        exact ih { s with scales := sc' } hcs ⟨hS.pos, hS.held, hS.buf⟩ hc0 hh
  exact gen cs _ h (initCS_sep w _) (by simp [initCS]) (by simp [initCS])

/-! ## C27, part 2: the views are not protected -/

/-- A view-returning function such as `detach`, `t`, `view`. -/
def viewFn (n : String) : TorchFn := ⟨n, false, fun _ => [], fun _ => [], .view 0 id⟩
/-- `add_(c)` on a plain tensor. -/
def addFn (c : ℚ) : TorchFn := ⟨"add_", true, fun vs => (vs.headD []).map (· + c), fun _ => [], .first⟩

/-- **C27 (deviation).** On a tile without scales the returned views are writable aliases of the tile
memory: `ctx.detach().add_(c)` in DATA_VIEW mode (likewise `t()`, `view()`, `get_data()`, and
`copy.copy(ctx)` in *every* mode) changes the weights and nothing raises. Stated for all tile
contents, all shapes without analog bias and all `c`. -/
theorem C27_views_write_through (t : TileDim) (hb : t.analogBias = false) (w : List ℚ)
    (hw : w.length = t.d * t.x) (n : String) (hn : isInplace n = false) (c : ℚ) :
    (let cs := [.setMode .dataView, .call (viewFn n) [.ctx] [] [], .call (addFn c) [.held 0] [] []]
     results t cs (initCS w none) = [.ok (), .ok (), .ok ()] ∧
     (run t cs (initCS w none)).heap 0 = w.map (· + c)) ∧
    (let cs := [.setMode .dataView, .getDataMethod, .call (addFn c) [.held 0] [] []]
     results t cs (initCS w none) = [.ok (), .ok (), .ok ()] ∧
     (run t cs (initCS w none)).heap 0 = w.map (· + c)) ∧
    (let cs := [.copy, .call (addFn c) [.held 0] [] []]
     results t cs (initCS w none) = [.ok (), .ok ()] ∧
     (run t cs (initCS w none)).heap 0 = w.map (· + c)) := by
  have hsel : logicalSel t = List.range (t.d * t.x) := by
    unfold logicalSel
    have hc : cols t = t.x := by simp [cols, hb]
    rw [hc]
    generalize t.d = d
    induction d with
    | zero => simp
    | succ d ih =>
      rw [List.range_succ, List.flatMap_append, ih]
      simp only [List.flatMap_cons, List.flatMap_nil, List.append_nil, Nat.succ_mul]
      rw [List.range_add]
  have hset : ∀ (l : List ℚ) (v : List ℚ), l.length = v.length →
      writeSel l (List.range l.length) v = v := by
    have gen : ∀ (v pre l : List ℚ), l.length = v.length →
        ((List.range' pre.length l.length).zip v).foldl (fun l p => l.set p.1 p.2) (pre ++ l) = pre ++ v := by
      intro v
      induction v with
      | nil => intro pre l hl; simp at hl; subst hl; simp
      | cons a v ih =>
        intro pre l hl
        cases l with
        | nil => simp at hl
        | cons b l =>
          simp only [List.length_cons, List.range'_succ, List.zip_cons_cons, List.foldl_cons]
          have : (pre ++ b :: l).set pre.length a = (pre ++ [a]) ++ l := by
            rw [List.set_append_right _ _ (le_refl _)]; simp
          rw [this]
          have h2 := ih (pre ++ [a]) l (by simpa using hl)
          simp only [List.length_append, List.length_singleton] at h2
          rw [h2]; simp
    intro l v hl
    have := gen v [] l hl
    simpa [writeSel, List.range_eq_range'] using this
  have hread : (List.range (t.d * t.x)).map (fun k => w.getD k 0) = w := by
    apply List.ext_getElem
    · simp [hw]
    · intro k h1 h2
      simp [List.getElem?_eq_getElem h2]
  have hfin : writeSel w (List.range (t.d * t.x)) (w.map (· + c)) = w.map (· + c) := by
    rw [← hw]; exact hset w _ (by simp)
  have hin : isInplace "add_" = true := by decide
  have hadd : ∀ s : CS, s.held = [⟨0, List.range (t.d * t.x), .plain⟩] → s.heap 0 = w →
      (torchCall t (addFn c) [.held 0] [] [] s).1 = .ok () ∧
      (torchCall t (addFn c) [.held 0] [] [] s).2.heap 0 = w.map (· + c) := by
    intro s h1 h2
    have hg : guard (addFn c) [.held 0] [] s = .ok () := by
      simp [guard, isReadonly, isPh, argCls, h1]
    have hp : toPublicAll t (addFn c).name [] [.held 0] s =
        .ok ([⟨0, List.range (t.d * t.x), .plain⟩], s) := by
      simp [toPublicAll, toPublic, h1]
    have hp2 : toPublicAll t (addFn c).name [] [] s = .ok ([], s) := rfl
    simp only [torchCall, hg, hp, hp2]
    rw [if_neg (by simp)]
    refine ⟨rfl, ?_⟩
    simp only [apply, pushResult, writeOuts, writeFirst, addFn, List.map_cons, List.map_nil,
      List.head?_cons, List.headD_cons, List.foldl_nil, write, read, if_true, h2, hread, hfin]
  refine ⟨?_, ?_, ?_⟩
  · have hr : n ≠ "requires_grad_" := by
      rintro rfl; exact absurd hn (by decide)
    have hm : setMode t .dataView (initCS w none) = { initCS w none with mode := .dataView } := rfl
    have hv : torchCall t (viewFn n) [.ctx] [] [] { initCS w none with mode := .dataView } =
        (.ok (), { initCS w none with mode := .dataView, held := [⟨0, List.range (t.d * t.x), .plain⟩] }) := by
      have hg : guard (viewFn n) [.ctx] [] { initCS w none with mode := .dataView } = .ok () := by
        simp [guard, viewFn, hn, isPh, argCls]
      unfold torchCall
      rw [if_neg (by simp [viewFn, hr])]
      rw [hg]
      simp only [toPublicAll, toPublic, logicalData, initCS]
      simp [apply, viewFn, pushResult, writeOuts, writeFirst, hsel, viewCls]
    simp only [results, run, exec, pyOk, hm, hv]
    have := hadd { initCS w none with mode := .dataView, held := [⟨0, List.range (t.d * t.x), .plain⟩] }
      rfl rfl
    exact ⟨by rw [this.1], this.2⟩
  · have hm : setMode t .dataView (initCS w none) = { initCS w none with mode := .dataView } := rfl
    have hv : getDataMethod t { initCS w none with mode := .dataView } =
        (.ok (), { initCS w none with mode := .dataView, held := [⟨0, List.range (t.d * t.x), .plain⟩] }) := by
      simp [getDataMethod, publicData, logicalData, initCS, hsel, pyOk]
    simp only [results, run, exec, pyOk, hm, hv]
    have := hadd { initCS w none with mode := .dataView, held := [⟨0, List.range (t.d * t.x), .plain⟩] }
      rfl rfl
    exact ⟨by rw [this.1], this.2⟩
  · simp only [results, run, exec, pyOk]
    have := hadd { initCS w none with held := [⟨0, List.range (t.d * t.x), .plain⟩] } rfl rfl
    exact ⟨by rw [← this.1]; rfl, this.2⟩

end Aihw.Optim.Context
