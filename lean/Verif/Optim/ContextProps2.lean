import Verif.Optim.ContextProps
import Mathlib.Data.List.GetD

/-!
# C27, part 3: what each mode allows, and what can be observed
-/
namespace Aihw.Optim.Context
open Aihw

/-- Specification of the number of logical columns: the physical matrix without the bias column. -/
def nCols (t : TileDim) : Nat := if t.analogBias then t.inSize else t.x

/-- The output scale of row `r`: none, one for all rows, or one per row. -/
def rowScale (s : CS) (r : Nat) : ℚ :=
  match s.scales with
  | none => 1
  | some [a] => a
  | some sc => sc.getD r 1

/-- The logical weight at row `r`, column `c` (the entry of `get_weights()[0]`): raw entry times the
output scale of its row. -/
def logicalEntry (t : TileDim) (s : CS) (r c : Nat) : ℚ :=
  (s.heap 0).getD (r * t.x + c) 0 * rowScale s r

theorem getD_grid {α : Type} (f : Nat → Nat → α) (z : α) (n : Nat) (d r c : Nat) (hr : r < d) (hc : c < n) :
    ((List.range d).flatMap fun r => (List.range n).map fun c => f r c).getD (r * n + c) z = f r c := by
  induction d with
  | zero => omega
  | succ d ih =>
    rw [List.range_succ, List.flatMap_append]
    have hlen : ((List.range d).flatMap fun r => (List.range n).map fun c => f r c).length = d * n := by
      simp [List.length_flatMap]
    by_cases h : r < d
    · have : r * n + c < d * n := by
        calc r * n + c < r * n + n := by omega
          _ = (r + 1) * n := by ring
          _ ≤ d * n := Nat.mul_le_mul_right n h
      rw [List.getD_append _ _ _ _ (by rw [hlen]; exact this)]
      exact ih h
    · have hrd : r = d := by omega
      subst hrd
      rw [List.getD_append_right _ _ _ _ (by rw [hlen]; omega), hlen]
      simp only [List.flatMap_cons, List.flatMap_nil, List.append_nil]
      have : r * n + c - r * n = c := by omega
      rw [this]
      simp [List.getD, hc]

theorem read_alloc (v : List ℚ) (c : Cls) (s : CS) : read (alloc v c s).1 (alloc v c s).2 = v := by
  simp only [read, alloc, if_true]
  apply List.ext_getElem
  · simp
  · intro k h1 h2; simp [List.getElem?_eq_getElem h2]

theorem read_logical (t : TileDim) (s : CS) :
    (read (logicalData t s).1 (logicalData t s).2).length = t.d * cols t ∧
    ∀ r < t.d, ∀ c < cols t,
      (read (logicalData t s).1 (logicalData t s).2).getD (r * cols t + c) 0 = logicalEntry t s r c := by
  have hsc : ∀ r sc, s.scales = some sc → rowScale s r = scaleOf sc r := by
    intro r sc h
    unfold rowScale scaleOf
    rw [h]
    match sc with
    | [] => simp
    | [a] => simp
    | a :: b :: l => simp
  have hnone : ∀ r, s.scales = none → rowScale s r = 1 := by
    intro r h; unfold rowScale; rw [h]
  unfold logicalData logicalEntry
  cases hs : s.scales with
  | none =>
    simp only [read, logicalSel, List.map_flatMap, List.map_map, hnone _ hs, mul_one]
    refine ⟨by simp [List.length_flatMap], ?_⟩
    intro r hr c hc
    exact getD_grid (fun r c => (s.heap 0).getD (r * t.x + c) 0) 0 (cols t) t.d r c hr hc
  | some sc =>
    simp only
    rw [read_alloc]
    refine ⟨by simp [scaledVals, List.length_flatMap], ?_⟩
    intro r hr c hc
    rw [hsc r sc hs]
    exact getD_grid (fun r c => (s.heap 0).getD (r * t.x + c) 0 * scaleOf sc r) 0 (cols t) t.d r c hr hc

/-- **C27.** In DATA_VIEW mode `ctx.data` is a read-only view whose values are, at every moment, the
current logical weights (raw weights without the bias column, times the output scales). -/
theorem C27_data_view_reads_logical (t : TileDim) (junk : List ℚ) (s : CS) (hm : s.mode = .dataView) :
    ∃ h s', exec t (.getData junk) s = (.ok (), s') ∧ s'.held = s.held ++ [h] ∧ h.cls = .ro ∧
      (read h s').length = t.d * nCols t ∧
      ∀ r < t.d, ∀ c < nCols t, (read h s').getD (r * nCols t + c) 0 = logicalEntry t s r c := by
  have hd : publicData t junk s =
      .ok ({ (logicalData t s).1 with cls := .ro }, (logicalData t s).2) := by
    simp [publicData, hm]
  have hh : (logicalData t s).2.held = s.held := by
    unfold logicalData; split <;> rfl
  refine ⟨{ (logicalData t s).1 with cls := .ro }, _, by simp only [exec, getData, hd]; rfl,
    by simp only [hh], rfl, ?_⟩
  exact read_logical t s

/-- **C27.** In DATA_VIEW mode a torch function applied to the context computes with the current
logical weights. -/
theorem C27_data_view_function (t : TileDim) (n : String) (f : List (List ℚ) → List ℚ)
    (hn : isInplace n = false) (junk : List ℚ) (s : CS) (hm : s.mode = .dataView) :
    ∃ h s' v, exec t (.call ⟨n, false, fun _ => [], fun _ => [], .fresh f⟩ [.ctx] [] junk) s = (.ok (), s') ∧
      s'.held = s.held ++ [h] ∧ h.cls = .plain ∧ read h s' = f [v] ∧ v.length = t.d * nCols t ∧
      ∀ r < t.d, ∀ c < nCols t, v.getD (r * nCols t + c) 0 = logicalEntry t s r c := by
  set fn : TorchFn := ⟨n, false, fun _ => [], fun _ => [], .fresh f⟩ with hfn
  have hr : ¬ (fn.name = "requires_grad_" ∧ ([Arg.ctx] : List Arg).head? = some .ctx) := by
    rintro ⟨h1, _⟩
    have : n = "requires_grad_" := h1
    subst this
    exact absurd hn (by decide)
  have hg : guard fn [.ctx] [] s = .ok () := by
    simp [guard, hfn, hn, isPh, argCls]
  have hh : (logicalData t s).2.held = s.held := by
    unfold logicalData; split <;> rfl
  refine ⟨(alloc (f [read (logicalData t s).1 (logicalData t s).2]) .plain (logicalData t s).2).1,
    apply fn [(logicalData t s).1] [] (logicalData t s).2,
    read (logicalData t s).1 (logicalData t s).2, ?_, ?_, rfl, ?_, (read_logical t s).1, (read_logical t s).2⟩
  · simp only [exec, torchCall]
    rw [if_neg hr, hg]
    simp only [toPublicAll, toPublic, hm]
  · simp only [apply, hfn, pushResult, writeOuts, writeFirst, List.foldl_nil, List.map_cons, List.map_nil]
    simp only [alloc, hh]
  · simp only [apply, hfn, pushResult, writeOuts, writeFirst, List.foldl_nil, List.map_cons, List.map_nil]
    exact read_alloc _ _ _

/-- **C27.** Outside BUFFER mode every in-place operation on the context, and in every mode every
in-place operation on a read-only view, raises `RuntimeError` and changes nothing; so does using them
as `out=` target. (`requires_grad_` is not a weight operation and is allowed.) -/
theorem C27_inplace_raises (t : TileDim) (fn : TorchFn) (args outs : List Arg) (junk : List ℚ) (s : CS)
    (hreq : fn.name ≠ "requires_grad_")
    (h : (isInplace fn.name = true ∧ ∃ a, args.head? = some a ∧
          ((a = .ctx ∧ s.mode ≠ .buffer) ∨ argCls s a = some .ro)) ∨
         ∃ o ∈ outs, (o = .ctx ∧ s.mode ≠ .buffer) ∨ argCls s o = some .ro) :
    exec t (.call fn args outs junk) s = (.error .runtimeError, s) := by
  have ro : ∀ a, ((a = .ctx ∧ s.mode ≠ .buffer) ∨ argCls s a = some .ro) → isReadonly s a = true := by
    intro a ha
    cases a with
    | ctx =>
      rcases ha with ⟨_, hm⟩ | ha
      · simpa [isReadonly] using hm
      · simp [argCls] at ha
    | held k =>
      rcases ha with ⟨ha, _⟩ | ha
      · exact absurd ha (by simp)
      · simp [isReadonly, ha]
  have hg : guard fn args outs s = .error .runtimeError := by
    rcases h with ⟨hi, a, ha, hro⟩ | ⟨o, ho, hro⟩
    · simp [guard, hi, ha, ro a hro]
    · have : outs.any (isReadonly s) = true := List.any_eq_true.2 ⟨o, ho, ro o hro⟩
      unfold guard
      rw [this]
      split <;> simp
  simp only [exec, torchCall]
  rw [if_neg (by rintro ⟨h1, _⟩; exact hreq h1), hg]

/-- **C27.** Item assignment on the context and on read-only or placeholder views, and replacing
`.data`, raise in every mode and change nothing. An invalid mode value raises `ValueError`. -/
theorem C27_assignment_raises (t : TileDim) (v : List ℚ) (s : CS) :
    exec t (.setItem .ctx v) s = (.error .runtimeError, s) ∧
    exec t .assignData s = (.error .runtimeError, s) ∧
    exec t .setModeInvalid s = (.error .valueError, s) ∧
    ∀ k h, s.held[k]? = some h → h.cls ≠ .plain →
      exec t (.setItem (.held k) v) s = (.error .runtimeError, s) := by
  refine ⟨rfl, rfl, rfl, ?_⟩
  intro k h hk hc
  simp [exec, setItem, hk, hc, pyErr]

/-- **C27.** In PLACEHOLDER mode every function outside the metadata list raises `RuntimeError` when
the context is one of its arguments; `get_data()` raises as well. -/
theorem C27_placeholder_blocks (t : TileDim) (fn : TorchFn) (args outs : List Arg) (junk : List ℚ)
    (s : CS) (hm : s.mode = .placeholder) (hc : .ctx ∈ args) (hn : fn.name ∉ metadataFns)
    (hvalid : ∀ k, .held k ∈ args → k < s.held.length) :
    exec t (.call fn args outs junk) s = (.error .runtimeError, s) ∧
    exec t .getDataMethod s = (.error .runtimeError, s) := by
  refine ⟨?_, by simp [exec, getDataMethod, hm, pyErr]⟩
  have hreq : fn.name ≠ "requires_grad_" := by
    intro h; rw [h] at hn; exact hn (by decide)
  simp only [exec, torchCall]
  rw [if_neg (by rintro ⟨h1, _⟩; exact hreq h1)]
  have hgv : guard fn args outs s = .error .runtimeError ∨ guard fn args outs s = .ok () := by
    unfold guard; split_ifs <;> simp
  rcases hgv with hg | hg
  · rw [hg]
  · rw [hg]
    simp only
    have key : ∀ (l : List Arg) (s' : CS), s'.mode = .placeholder → s'.held = s.held → .ctx ∈ l →
        (∀ k, .held k ∈ l → k < s.held.length) →
        toPublicAll t fn.name junk l s' = .error .runtimeError := by
      intro l
      induction l with
      | nil => intro s' _ _ hc; simp at hc
      | cons a l ih =>
        intro s' hm' hh' hc hv
        cases a with
        | ctx => simp [toPublicAll, toPublic, hm', hn]
        | held k =>
          have hk : k < s.held.length := hv k (by simp)
          have hc' : Arg.ctx ∈ l := by simpa using hc
          have hsome : s'.held[k]? = some s.held[k] := by rw [hh']; exact List.getElem?_eq_getElem hk
          simp only [toPublicAll, toPublic, hsome]
          rw [ih s' hm' hh' hc' (fun j hj => hv j (by simp [hj]))]
    rw [key args s hm rfl hc hvalid]

/-- **C27.** The placeholder view `ctx.data` (and what is derived from it by `detach`) is as closed as
the context itself: every function outside the metadata list that is given one of them raises
`RuntimeError`, and so does every in-place function and every `out=` on one; nothing changes. -/
theorem C27_placeholder_view_blocks (t : TileDim) (fn : TorchFn) (args outs : List Arg) (junk : List ℚ)
    (s : CS) (k : Nat) (h : H) (hk : s.held[k]? = some h) (hph : h.cls = .ph)
    (hcase : (.held k ∈ args ∧ fn.name ∉ metadataFns) ∨
      (args.head? = some (.held k) ∧ isInplace fn.name = true) ∨
      (.held k ∈ outs ∧ ¬ (fn.name = "requires_grad_" ∧ args.head? = some .ctx))) :
    exec t (.call fn args outs junk) s = (.error .runtimeError, s) := by
  have hreq : ¬ (fn.name = "requires_grad_" ∧ args.head? = some .ctx) := by
    rcases hcase with ⟨_, hn⟩ | ⟨ha, _⟩ | ⟨_, hr⟩
    · rintro ⟨h1, _⟩; rw [h1] at hn; exact hn (by decide)
    · rintro ⟨_, h2⟩; rw [ha] at h2; simp at h2
    · exact hr
  have hp : isPh s (.held k) = true := by simp [isPh, argCls, hk, hph]
  have hg : guard fn args outs s = .error .runtimeError := by
    rcases hcase with ⟨ha, hn⟩ | ⟨ha, hi⟩ | ⟨ho, _⟩
    · have h1 : args.any (isPh s) = true := List.any_eq_true.mpr ⟨_, ha, hp⟩
      have h2 : metadataFns.contains fn.name = false := by simpa using hn
      unfold guard; rw [h1, h2]; split_ifs <;> simp_all
    · unfold guard; rw [hi, ha]; simp only [Option.map_some, Option.getD_some, hp]; split_ifs <;> simp_all
    · have h1 : outs.any (isPh s) = true := List.any_eq_true.mpr ⟨_, ho, hp⟩
      unfold guard; rw [h1]; split_ifs <;> simp_all
  simp only [exec, torchCall]
  rw [if_neg hreq, hg]

/-- Non-vacuity: read the placeholder view, then add it to itself. -/
example : results ⟨1, 1, 1, false⟩
    [.getData [7], .call ⟨"add", false, fun _ => [], fun _ => [], .fresh (fun v => v.flatten)⟩ [.held 0] [] []]
    (initCS [3] none) = [.ok (), .error .runtimeError] := by decide +kernel

/-- **C27.** Entering BUFFER mode (also when already in it) provides a new zero buffer of the logical
size as `ctx.data`. -/
theorem C27_buffer_zero (t : TileDim) (s : CS) (junk : List ℚ) :
    ∃ h s', exec t (.getData junk) (exec t (.setMode .buffer) s).2 = (.ok (), s') ∧
      s'.held = s.held ++ [h] ∧ h.cls = .plain ∧ read h s' = List.replicate (t.d * nCols t) 0 ∧
      ∀ x ∈ s.held, x.sid < s.next → x.sid ≠ h.sid := by
  refine ⟨(alloc (List.replicate (t.d * cols t) 0) .plain s).1, _, rfl, rfl, rfl, ?_, ?_⟩
  · exact read_alloc _ _ s
  · intro x _ hx
    simp only [alloc]; omega

/-- **C27.** In BUFFER mode an in-place operation on the context succeeds and overwrites exactly the
buffer: `ctx.data` then shows the new value, and every other storage is unchanged. -/
theorem C27_buffer_inplace (t : TileDim) (n : String) (f : List (List ℚ) → List ℚ)
    (hn : isInplace n = true) (hreq : n ≠ "requires_grad_") (junk : List ℚ) (s : CS) (m : Nat) (b : Nat)
    (hm : s.mode = .buffer) (hb : s.buf = some ⟨b, List.range m, .plain⟩)
    (hlen : (s.heap b).length = m) (hf : (f [s.heap b]).length = m) :
    ∃ s', exec t (.call ⟨n, true, f, fun _ => [], .first⟩ [.ctx] [] junk) s = (.ok (), s') ∧
      s'.heap b = f [s.heap b] ∧ (∀ k, k ≠ b → s'.heap k = s.heap k) ∧ s'.buf = s.buf := by
  set fn : TorchFn := ⟨n, true, f, fun _ => [], .first⟩ with hfn
  have hg : guard fn [.ctx] [] s = .ok () := by
    simp [guard, isReadonly, hm, isPh, argCls]
  have hread : read ⟨b, List.range m, .plain⟩ s = s.heap b := by
    simp only [read]
    apply List.ext_getElem
    · simp [hlen]
    · intro k h1 h2; simp [List.getElem?_eq_getElem h2]
  have hset : ∀ (l : List ℚ) (v : List ℚ), l.length = v.length →
      writeSel l (List.range l.length) v = v := by
    have gen : ∀ (v pre l : List ℚ), l.length = v.length →
        ((List.range' pre.length l.length).zip v).foldl (fun l p => l.set p.1 p.2) (pre ++ l) = pre ++ v := by
      intro v
      induction v with
      | nil => intro pre l hl; simp at hl; subst hl; simp
      | cons a v ih =>
        intro pre l hl
        cases l with
        | nil => simp at hl
        | cons b l =>
          simp only [List.length_cons, List.range'_succ, List.zip_cons_cons, List.foldl_cons]
          have : (pre ++ b :: l).set pre.length a = (pre ++ [a]) ++ l := by
            rw [List.set_append_right _ _ (le_refl _)]; simp
          rw [this]
          have h2 := ih (pre ++ [a]) l (by simpa using hl)
          simp only [List.length_append, List.length_singleton] at h2
          rw [h2]; simp
    intro l v hl
    have := gen v [] l hl
    simpa [writeSel, List.range_eq_range'] using this
  refine ⟨apply fn [⟨b, List.range m, .plain⟩] [] s, ?_, ?_, ?_, ?_⟩
  · simp only [exec, torchCall]
    rw [if_neg (by rintro ⟨h1, _⟩; exact hreq h1), hg]
    simp only [toPublicAll, toPublic, hm, hb]
  · simp only [apply, hfn, pushResult, writeOuts, writeFirst, List.foldl_nil, List.map_cons,
      List.map_nil, List.head?_cons, write, if_true, hread]
    rw [← hlen]; exact hset _ _ (by rw [hlen, hf])
  · intro k hk
    simp only [apply, hfn, pushResult, writeOuts, writeFirst, List.foldl_nil, List.map_cons,
      List.map_nil, List.head?_cons, write, if_neg hk]
  · simp only [apply, hfn, pushResult, writeOuts, writeFirst, List.foldl_nil, List.map_cons,
      List.map_nil, List.head?_cons, write]

/-- **C27.** `requires_grad_` and the `requires_grad` attribute work in every mode and only set the
flag. -/
theorem C27_requires_grad (t : TileDim) (v : Bool) (s : CS) :
    exec t (.requiresGrad v) s = (.ok (), { s with reqGrad := v }) := rfl

/-! ## Non-interference -/

/-- The same state with other tile contents and other scales. -/
def mask (w : List ℚ) (sc : Option (List ℚ)) (s : CS) : CS :=
  { s with heap := (fun k => if k = 0 then w else s.heap k), scales := sc }

/-- Operations that never enter DATA_VIEW mode and never copy the context. -/
def Blind : Cmd → Prop
  | .setMode m => m ≠ .dataView
  | .copy => False
  | _ => True

/-- No tensor object lies in the tile memory. -/
structure Clear (s : CS) : Prop where
  pos : 0 < s.next
  mode : s.mode ≠ .dataView
  held : ∀ h ∈ s.held, h.sid ≠ 0
  buf : ∀ b, s.buf = some b → b.sid ≠ 0

theorem mask_read (w : List ℚ) (sc : Option (List ℚ)) (s : CS) (h : H) (hn : h.sid ≠ 0) :
    read h (mask w sc s) = read h s := by simp [read, mask, hn]

theorem mask_write (w : List ℚ) (sc : Option (List ℚ)) (s : CS) (h : H) (v : List ℚ) (hn : h.sid ≠ 0) :
    write h v (mask w sc s) = mask w sc (write h v s) := by
  simp only [write, mask, CS.mk.injEq, true_and, and_true]
  funext k
  by_cases h0 : k = 0
  · subst h0; simp [Ne.symm hn]
  · simp [h0]

theorem mask_alloc (w : List ℚ) (sc : Option (List ℚ)) (s : CS) (v : List ℚ) (c : Cls) (hp : 0 < s.next) :
    alloc v c (mask w sc s) = ((alloc v c s).1, mask w sc (alloc v c s).2) := by
  simp only [alloc, mask, Prod.mk.injEq, true_and, CS.mk.injEq, and_true]
  funext k
  by_cases h0 : k = 0
  · subst h0
    have h : ¬ (0 = s.next) := by omega
    simp [h]
  · simp [h0]

theorem clear_toPublic (t : TileDim) (n : String) (junk : List ℚ) (a : Arg) (s : CS) (hs : Clear s)
    (h : H) (s' : CS) (e : toPublic t n junk a s = .ok (h, s')) : Clear s' ∧ h.sid ≠ 0 := by
  have hp := hs.pos
  cases a with
  | held k =>
    simp only [toPublic] at e
    cases hk : s.held[k]? with
    | none => rw [hk] at e; simp at e
    | some x =>
      rw [hk] at e
      simp only [Except.ok.injEq, Prod.mk.injEq] at e
      obtain ⟨rfl, rfl⟩ := e
      exact ⟨hs, hs.held _ (List.mem_of_getElem? hk)⟩
  | ctx =>
    simp only [toPublic] at e
    cases hm : s.mode with
    | placeholder =>
      rw [hm] at e
      simp only at e
      split at e
      · have ea : (alloc (emptyVals t junk) .ph s).1 = h := congrArg Prod.fst (Except.ok.inj e)
        have eb : (alloc (emptyVals t junk) .ph s).2 = s' := congrArg Prod.snd (Except.ok.inj e)
        subst ea eb
        exact ⟨⟨by simp [alloc], hs.mode, hs.held, hs.buf⟩, by simp only [alloc]; omega⟩
      · simp at e
    | dataView => exact absurd hm hs.mode
    | buffer =>
      rw [hm] at e
      simp only at e
      cases hb : s.buf with
      | none => rw [hb] at e; simp at e
      | some b =>
        rw [hb] at e
        simp only [Except.ok.injEq, Prod.mk.injEq] at e
        obtain ⟨rfl, rfl⟩ := e
        exact ⟨hs, hs.buf _ hb⟩

theorem mask_toPublic (t : TileDim) (n : String) (junk : List ℚ) (a : Arg) (w : List ℚ)
    (sc : Option (List ℚ)) (s : CS) (hs : Clear s) :
    toPublic t n junk a (mask w sc s) =
      (toPublic t n junk a s).map fun p => (p.1, mask w sc p.2) := by
  cases a with
  | held k =>
    simp only [toPublic]
    have : (mask w sc s).held = s.held := rfl
    rw [this]
    cases s.held[k]? <;> rfl
  | ctx =>
    simp only [toPublic]
    have hmm : (mask w sc s).mode = s.mode := rfl
    have hbb : (mask w sc s).buf = s.buf := rfl
    rw [hmm, hbb]
    cases hm : s.mode with
    | placeholder =>
      simp only
      split
      · rw [mask_alloc _ _ _ _ _ hs.pos]; rfl
      · rfl
    | dataView => exact absurd hm hs.mode
    | buffer => cases s.buf <;> rfl

theorem mask_toPublicAll (t : TileDim) (n : String) (junk : List ℚ) (l : List Arg) (w : List ℚ)
    (sc : Option (List ℚ)) : ∀ s, Clear s →
    toPublicAll t n junk l (mask w sc s) =
      (toPublicAll t n junk l s).map (fun p => (p.1, mask w sc p.2)) ∧
    ∀ hs s', toPublicAll t n junk l s = .ok (hs, s') → Clear s' ∧ ∀ h ∈ hs, h.sid ≠ 0 := by
  induction l with
  | nil =>
    intro s hs
    refine ⟨rfl, ?_⟩
    intro hs' s' e
    simp only [toPublicAll, Except.ok.injEq, Prod.mk.injEq] at e
    obtain ⟨rfl, rfl⟩ := e
    exact ⟨hs, by simp⟩
  | cons a l ih =>
    intro s hs
    simp only [toPublicAll]
    rw [mask_toPublic t n junk a w sc s hs]
    cases h1 : toPublic t n junk a s with
    | error e => exact ⟨rfl, by intro hs' s' e; simp at e⟩
    | ok p =>
      obtain ⟨x, s1⟩ := p
      obtain ⟨c1, n1⟩ := clear_toPublic t n junk a s hs x s1 h1
      obtain ⟨i1, i2⟩ := ih s1 c1
      simp only [Except.map]
      rw [i1]
      cases h2 : toPublicAll t n junk l s1 with
      | error e => exact ⟨rfl, by intro hs' s' e; simp at e⟩
      | ok q =>
        obtain ⟨xs, s2⟩ := q
        refine ⟨rfl, ?_⟩
        intro hs' s' e
        simp only [Except.ok.injEq, Prod.mk.injEq] at e
        obtain ⟨rfl, rfl⟩ := e
        obtain ⟨c2, n2⟩ := i2 _ _ h2
        refine ⟨c2, ?_⟩
        intro y hy
        rcases List.mem_cons.1 hy with rfl | hy
        · exact n1
        · exact n2 y hy

theorem mask_guard (w : List ℚ) (sc : Option (List ℚ)) (fn : TorchFn) (args outs : List Arg) (s : CS) :
    guard fn args outs (mask w sc s) = guard fn args outs s := by
  have h1 : isReadonly (mask w sc s) = isReadonly s := by funext a; cases a <;> rfl
  have h2 : isPh (mask w sc s) = isPh s := by funext a; cases a <;> rfl
  simp only [guard, h1, h2]

theorem mask_outs (w : List ℚ) (sc : Option (List ℚ)) (v : List ℚ) (os : List H) :
    ∀ s, (∀ o ∈ os, o.sid ≠ 0) → writeOuts v os (mask w sc s) = mask w sc (writeOuts v os s) := by
  induction os with
  | nil => intro s _; rfl
  | cons o os ih =>
    intro s h
    simp only [writeOuts, List.foldl_cons]
    rw [mask_write _ _ _ _ _ (h o (by simp))]
    exact ih _ (fun o' ho' => h o' (by simp [ho']))

theorem clear_outs (v : List ℚ) (os : List H) : ∀ s, Clear s → Clear (writeOuts v os s) := by
  induction os with
  | nil => intro s h; exact h
  | cons o os ih => intro s h; exact ih _ ⟨h.pos, h.mode, h.held, h.buf⟩

theorem clear_push (s : CS) (h : H) (hs : Clear s) (hn : h.sid ≠ 0) :
    Clear { s with held := s.held ++ [h] } := by
  refine ⟨hs.pos, hs.mode, ?_, hs.buf⟩
  intro x hx
  rcases List.mem_append.1 hx with hx | hx
  · exact hs.held x hx
  · simp only [List.mem_singleton] at hx; subst hx; exact hn

theorem mask_apply (w : List ℚ) (sc : Option (List ℚ)) (fn : TorchFn) (hs os : List H) (s : CS)
    (hc : Clear s) (h1 : ∀ h ∈ hs, h.sid ≠ 0) (h2 : ∀ o ∈ os, o.sid ≠ 0) :
    apply fn hs os (mask w sc s) = mask w sc (apply fn hs os s) ∧ Clear (apply fn hs os s) := by
  have hv : (hs.map fun h => read h (mask w sc s)) = hs.map fun h => read h s :=
    List.map_congr_left fun h hh => mask_read w sc s h (h1 h hh)
  simp only [apply, hv]
  set vals := hs.map fun h => read h s
  have hw : writeFirst fn hs vals (mask w sc s) = mask w sc (writeFirst fn hs vals s) ∧
      Clear (writeFirst fn hs vals s) := by
    unfold writeFirst
    cases fn.writesFirst with
    | false => exact ⟨rfl, hc⟩
    | true =>
      cases hh : hs.head? with
      | none => exact ⟨rfl, hc⟩
      | some h =>
        exact ⟨mask_write _ _ _ _ _ (h1 h (List.mem_of_mem_head? hh)), ⟨hc.pos, hc.mode, hc.held, hc.buf⟩⟩
  rw [hw.1, mask_outs w sc _ os _ h2]
  have hc2 := clear_outs (fn.newOut vals) os _ hw.2
  set s2 := writeOuts (fn.newOut vals) os (writeFirst fn hs vals s)
  unfold pushResult
  cases fn.result with
  | fresh f =>
    simp only
    rw [mask_alloc _ _ _ _ _ hc2.pos]
    refine ⟨rfl, ?_⟩
    have := hc2.pos
    exact clear_push _ _ ⟨by simp [alloc], hc2.mode, hc2.held, hc2.buf⟩ (by simp only [alloc]; omega)
  | view k g =>
    simp only
    cases hk : hs[k]? with
    | none => exact ⟨rfl, hc2⟩
    | some h => exact ⟨rfl, clear_push _ _ hc2 (h1 h (List.mem_of_getElem? hk))⟩
  | first =>
    simp only
    cases hk : hs.head? with
    | none => exact ⟨rfl, hc2⟩
    | some h => exact ⟨rfl, clear_push _ { h with cls := .plain } hc2 (h1 h (List.mem_of_mem_head? hk))⟩

theorem exec_blind (t : TileDim) (c : Cmd) (hb : Blind c) (s : CS) (hs : Clear s) (w : List ℚ)
    (sc : Option (List ℚ)) :
    Clear (exec t c s).2 ∧ (exec t c (mask w sc s)).1 = (exec t c s).1 ∧
    ∃ w' sc', (exec t c (mask w sc s)).2 = mask w' sc' (exec t c s).2 := by
  have hp := hs.pos
  have same : ∀ e : Except PyErr Unit, Clear s ∧ e = e ∧ ∃ w' sc', mask w sc s = mask w' sc' s :=
    fun _ => ⟨hs, rfl, w, sc, rfl⟩
  have hpub : ∀ junk, publicData t junk (mask w sc s) =
      (publicData t junk s).map (fun p => (p.1, mask w sc p.2)) ∧
      ∀ x s1, publicData t junk s = .ok (x, s1) → Clear s1 ∧ x.sid ≠ 0 := by
    intro junk
    unfold publicData
    have hmm : (mask w sc s).mode = s.mode := rfl
    have hbb : (mask w sc s).buf = s.buf := rfl
    rw [hmm, hbb]
    cases hm : s.mode with
    | placeholder =>
      simp only
      rw [mask_alloc _ _ _ _ _ hp]
      refine ⟨rfl, ?_⟩
      intro x s1 e
      have ea : (alloc (emptyVals t junk) .ph s).1 = x := congrArg Prod.fst (Except.ok.inj e)
      have eb : (alloc (emptyVals t junk) .ph s).2 = s1 := congrArg Prod.snd (Except.ok.inj e)
      subst ea eb
      exact ⟨⟨by simp [alloc], hs.mode, hs.held, hs.buf⟩, by simp only [alloc]; omega⟩
    | dataView => exact absurd hm hs.mode
    | buffer =>
      simp only
      cases hbf : s.buf with
      | none => exact ⟨rfl, by intro x s1 e; simp at e⟩
      | some b =>
        refine ⟨rfl, ?_⟩
        intro x s1 e
        simp only [Except.ok.injEq, Prod.mk.injEq] at e
        obtain ⟨rfl, rfl⟩ := e
        exact ⟨hs, hs.buf _ hbf⟩
  cases c with
  | setMode m =>
    cases m with
    | placeholder =>
      exact ⟨⟨hp, by simp [exec, pyOk, setMode], hs.held, by simp [exec, pyOk, setMode]⟩, rfl, w, sc, rfl⟩
    | dataView => exact absurd rfl hb
    | buffer =>
      refine ⟨⟨by simp [exec, pyOk, setMode, alloc], by simp [exec, pyOk, setMode], hs.held, ?_⟩, rfl, w, sc, ?_⟩
      · intro b hb'
        simp only [exec, pyOk, setMode, Option.some.injEq] at hb'
        subst hb'
        simp only [alloc]; omega
      · simp only [exec, pyOk, setMode]
        rw [mask_alloc _ _ _ _ _ hp]
        rfl
  | setModeInvalid => exact same _
  | getData junk =>
    obtain ⟨h1, h2⟩ := hpub junk
    simp only [exec, getData]
    rw [h1]
    cases h : publicData t junk s with
    | error e => exact same _
    | ok p =>
      obtain ⟨x, s1⟩ := p
      obtain ⟨c1, n1⟩ := h2 x s1 h
      exact ⟨clear_push s1 x c1 n1, rfl, w, sc, rfl⟩
  | getDataMethod =>
    obtain ⟨h1, h2⟩ := hpub []
    simp only [exec, getDataMethod]
    have hmm : (mask w sc s).mode = s.mode := rfl
    rw [hmm, h1]
    split
    · exact same _
    · cases h : publicData t [] s with
      | error e => exact same _
      | ok p =>
        obtain ⟨x, s1⟩ := p
        obtain ⟨c1, n1⟩ := h2 x s1 h
        exact ⟨clear_push s1 { x with cls := .plain } c1 n1, rfl, w, sc, rfl⟩
  | call fn args outs junk =>
    simp only [exec, torchCall]
    split
    · exact ⟨⟨hs.pos, hs.mode, hs.held, hs.buf⟩, rfl, w, sc, rfl⟩
    rw [mask_guard]
    cases hg : guard fn args outs s with
    | error e => exact same _
    | ok u =>
      simp only
      obtain ⟨a1, a2⟩ := mask_toPublicAll t fn.name junk args w sc s hs
      rw [a1]
      cases h1 : toPublicAll t fn.name junk args s with
      | error e => exact same _
      | ok p =>
        obtain ⟨xs, s1⟩ := p
        obtain ⟨c1, n1⟩ := a2 xs s1 h1
        simp only [Except.map]
        obtain ⟨b1, b2⟩ := mask_toPublicAll t fn.name junk outs w sc s1 c1
        rw [b1]
        cases h2 : toPublicAll t fn.name junk outs s1 with
        | error e => exact same _
        | ok q =>
          obtain ⟨os, s2⟩ := q
          obtain ⟨c2, n2⟩ := b2 os s2 h2
          obtain ⟨m1, m2⟩ := mask_apply w sc fn xs os s2 c2 n1 n2
          exact ⟨m2, rfl, w, sc, m1⟩
  | requiresGrad v => exact ⟨⟨hs.pos, hs.mode, hs.held, hs.buf⟩, rfl, w, sc, rfl⟩
  | setItem a v =>
    cases a with
    | ctx => exact same _
    | held k =>
      simp only [exec, setItem]
      have : (mask w sc s).held = s.held := rfl
      rw [this]
      cases hk : s.held[k]? with
      | none => exact same _
      | some x =>
        simp only
        split
        · refine ⟨⟨hs.pos, hs.mode, hs.held, hs.buf⟩, rfl, w, sc, ?_⟩
          exact mask_write _ _ _ _ _ (hs.held x (List.mem_of_getElem? hk))
        · exact same _
  | assignData => exact same _
  | copy => exact absurd hb (by simp [Blind])
  | tileWrite w' =>
    refine ⟨⟨hs.pos, hs.mode, hs.held, hs.buf⟩, rfl, w', sc, ?_⟩
    simp only [exec, pyOk, mask, CS.mk.injEq, true_and, and_true]
    funext k; by_cases hk : k = 0 <;> simp [hk]
  | setScales sc' => exact ⟨⟨hs.pos, hs.mode, hs.held, hs.buf⟩, rfl, w, sc', rfl⟩

/-- **C27, non-interference.** Without entering DATA_VIEW mode (and without copying the context) the
weights cannot be observed: for two tiles of the same dimensions with different weights and scales,
every sequence of operations has the same results and leaves the user with tensors of the same
values. -/
theorem C27_values_unobservable (t : TileDim) (w₁ w₂ : List ℚ) (sc₁ sc₂ : Option (List ℚ))
    (cs : List Cmd) (hb : ∀ c ∈ cs, Blind c) :
    results t cs (initCS w₁ sc₁) = results t cs (initCS w₂ sc₂) ∧
    (run t cs (initCS w₁ sc₁)).held = (run t cs (initCS w₂ sc₂)).held ∧
    ∀ h ∈ (run t cs (initCS w₁ sc₁)).held,
      read h (run t cs (initCS w₁ sc₁)) = read h (run t cs (initCS w₂ sc₂)) := by
  have gen : ∀ (cs : List Cmd), (∀ c ∈ cs, Blind c) → ∀ (s : CS) (w : List ℚ) (sc : Option (List ℚ)),
      Clear s → results t cs (mask w sc s) = results t cs s ∧ Clear (run t cs s) ∧
        ∃ w' sc', run t cs (mask w sc s) = mask w' sc' (run t cs s) := by
    intro cs
    induction cs with
    | nil => intro _ s w sc hs; exact ⟨rfl, hs, w, sc, rfl⟩
    | cons c cs ih =>
      intro hb s w sc hs
      obtain ⟨h1, h2, w', sc', h3⟩ := exec_blind t c (hb c (by simp)) s hs w sc
      obtain ⟨i1, i2, w'', sc'', i3⟩ := ih (fun c' h' => hb c' (by simp [h'])) (exec t c s).2 w' sc' h1
      simp only [results, run]
      rw [h2, h3, i1, i3]
      exact ⟨rfl, i2, w'', sc'', rfl⟩
  have hinit : initCS w₁ sc₁ = mask w₁ sc₁ (initCS w₂ sc₂) := by
    simp only [initCS, mask, CS.mk.injEq, true_and, and_true]
    funext k; by_cases hk : k = 0 <;> simp [hk]
  have hcl : Clear (initCS w₂ sc₂) := ⟨by simp [initCS], by simp [initCS], by simp [initCS], by simp [initCS]⟩
  obtain ⟨g1, g2, w', sc', g3⟩ := gen cs hb (initCS w₂ sc₂) w₁ sc₁ hcl
  rw [hinit, g3]
  refine ⟨g1, rfl, ?_⟩
  intro h hh
  exact mask_read w' sc' _ h (g2.held h hh)

/-! ## Non-vacuity -/

def exDim : TileDim := ⟨2, 3, 2, true⟩

/-- A run with an analog bias column and scales: the data view shows the scaled weights. -/
example : (results exDim [.setMode .dataView, .getData [], .call (addFn 1) [.held 0] [] [],
      .call (addFn 1) [.ctx] [] [], .setMode .buffer, .call (addFn 5) [.ctx] [] []]
      (initCS [1, 2, 9, 3, 4, 9] (some [2, 10])) =
    [.ok (), .ok (), .error .runtimeError, .error .runtimeError, .ok (), .ok ()]) := by decide +kernel

example : (let s := run exDim [.setMode .dataView, .getData []] (initCS [1, 2, 9, 3, 4, 9] (some [2, 10]))
    s.held.map fun h => read h s) = [[2, 4, 30, 40]] := by decide +kernel

/-- A blocked in-place addition in DATA_VIEW mode meets the hypothesis of `C27_no_write_path`. -/
example : NoViewRun exDim [.setMode .dataView, .getData [], .call (addFn 1) [.ctx] [] [],
    .call (addFn 1) [.held 0] [] []] (initCS [1, 2, 9, 3, 4, 9] none) := by
  refine ⟨trivial, trivial, ⟨fun _ => by decide, fun h => ?_⟩, ⟨fun _ => by decide, fun h => ?_⟩, trivial⟩
  · exact absurd h (by decide +kernel)
  · exact absurd h (by decide +kernel)

end Aihw.Optim.Context
