import Verif.Info.Lemmas
import Mathlib.Tactic.FieldSimp
import Mathlib.Tactic.Linarith
import Mathlib.Tactic.Positivity
import Mathlib.Tactic.Ring

/-!
# C77: `analog_summary` — theorems
-/
namespace Aihw.Info
open Aihw

/-! ## Which modules are listed -/

/-- Specification: `x` is a module of the tree `m` that is listed — it is a leaf, or an analog layer (no
container) without analog children, and no module above it is one. -/
inductive Listed : Mod → Mod → Prop
  | here (n : Node) (ch : List Mod)
      (h : ch = [] ∨ (n.analog = true ∧ n.container = false ∧ ∀ c ∈ ch, c.node.analog = false)) :
      Listed (.mk n ch) (.mk n ch)
  | inner (n : Node) (ch : List Mod) (c x : Mod)
      (h : ¬ (ch = [] ∨ (n.analog = true ∧ n.container = false ∧ ∀ c ∈ ch, c.node.analog = false)))
      (hc : c ∈ ch) (hx : Listed c x) : Listed (.mk n ch) x

theorem takesHook_iff (n : Node) (ch : List Mod) : takesHook n ch = true ↔
    (ch = [] ∨ (n.analog = true ∧ n.container = false ∧ ∀ c ∈ ch, c.node.analog = false)) := by
  simp [takesHook, List.isEmpty_iff, and_assoc]

theorem regsAll_mem (l : Layer) (ch : List Mod) :
    l ∈ regsAll ch ↔ ∃ c ∈ ch, l ∈ c.regs := by
  induction ch with
  | nil => simp [regsAll]
  | cons a t ih => simp [regsAll, ih]

/-- **C77 (which layers are listed).**  The layers that appear in the summary when the model calls
them are exactly the listed modules. -/
theorem C77_listed_iff (m : Mod) (l : Layer) :
    l ∈ m.regs ↔ ∃ x : Mod, Listed m x ∧ x.layer = l := by
  match m with
  | .mk n ch =>
    rw [Mod.regs]
    by_cases h : takesHook n ch = true
    · rw [if_pos h, List.mem_singleton]
      have h' := (takesHook_iff n ch).1 h
      constructor
      · rintro rfl; exact ⟨_, .here n ch h', rfl⟩
      · rintro ⟨x, hx, rfl⟩
        cases hx with
        | here => rfl
        | inner _ _ c _ hn => exact absurd h' hn
    · rw [if_neg h, regsAll_mem]
      have h' := fun q => h ((takesHook_iff n ch).2 q)
      constructor
      · rintro ⟨c, hc, hl⟩
        have := List.sizeOf_lt_of_mem hc
        obtain ⟨x, hx, e⟩ := (C77_listed_iff c l).1 hl
        exact ⟨x, .inner n ch c x h' hc hx, e⟩
      · rintro ⟨x, hx, e⟩
        cases hx with
        | here _ _ hh => exact absurd hh h'
        | inner _ _ c _ _ hc hx =>
          have := List.sizeOf_lt_of_mem hc
          exact ⟨c, hc, (C77_listed_iff c l).2 ⟨x, hx, e⟩⟩
termination_by sizeOf m
decreasing_by all_goals (simp_wf; omega)

/-- Specification: no tile sits outside the listed modules — the modules above them are no tiles. -/
inductive TilesInside : Mod → Prop
  | here (n : Node) (ch : List Mod) (h : takesHook n ch = true) : TilesInside (.mk n ch)
  | inner (n : Node) (ch : List Mod) (h : takesHook n ch = false) (hn : n.tile = none)
      (hc : ∀ c ∈ ch, TilesInside c) : TilesInside (.mk n ch)

theorem regsAll_tiles (ch : List Mod) (h : ∀ c ∈ ch, (c.regs.map Layer.tiles).flatten = c.tiles) :
    ((regsAll ch).map Layer.tiles).flatten = tilesAll ch := by
  induction ch with
  | nil => rfl
  | cons a t ih =>
    rw [regsAll, tilesAll, List.map_append, List.flatten_append, h a (by simp),
      ih fun c hc => h c (by simp [hc])]

/-- **C77 (every tile belongs to exactly one listed layer).**  The tiles of the listed layers, one layer
after the other, are the tiles of the model. -/
theorem C77_tiles_partition (m : Mod) (h : TilesInside m) :
    (m.regs.map Layer.tiles).flatten = m.tiles := by
  match m with
  | .mk n ch =>
    rw [Mod.regs]
    by_cases hh : takesHook n ch = true
    · rw [if_pos hh]
      simp [Mod.layer]
    · rw [if_neg hh]
      cases h with
      | here _ _ q => exact absurd q hh
      | inner _ _ _ hn hc =>
        rw [Mod.tiles, hn]
        show _ = [] ++ tilesAll ch
        rw [List.nil_append]
        refine regsAll_tiles ch fun c hcm => ?_
        have := List.sizeOf_lt_of_mem hcm
        exact C77_tiles_partition c (hc c hcm)
termination_by sizeOf m
decreasing_by all_goals (simp_wf; omega)

/-! ## What is recorded -/

/-- No hook of another summary carries the index of a new one. -/
def Fresh (w : World) : Prop := ∀ h ∈ w.hooks, h.owner < w.lists.length

/-- **C77 (the contents of a summary).**  A summary succeeds exactly if for every call of a listed or
already hooked layer the entry can be made.  It then lists, in order of the calls, one entry for every
call of a listed layer, and its totals are the number of tiles of the analog layers called and the
number of calls of analog layers. -/
theorem C77_contents (w : World) (hw : Fresh w) (m : Mod) (cs : List Call) :
    ((∃ k, (w.summary m cs).2 = .ok k) ↔
      ∀ c ∈ cs, ∀ l : Layer, (l ∈ m.regs ∨ ∃ h ∈ w.hooks, h.layer = l) → l.id = c.id →
        ∃ e, entryOf c l = .ok e) ∧
    ∀ k, (w.summary m cs).2 = .ok k →
      List.Forall₂ Records (pairs m.regs cs) ((w.summary m cs).1.lists.getD k []) ∧
      (w.summary m cs).1.totals = w.totals ++ [some
        (((pairs m.regs cs).map fun p => if p.2.analog then p.2.tiles.length else 0).sum,
          ((pairs m.regs cs).map fun p => if p.2.analog then 1 else 0).sum)] := by
  have ht := forward_total (w.hooks ++ m.regs.map (Hook.mk w.lists.length)) cs (w.lists ++ [[]])
  have hiff : (∀ c ∈ cs, ∀ h ∈ w.hooks ++ m.regs.map (Hook.mk w.lists.length), h.layer.id = c.id →
      ∃ e, entryOf c h.layer = .ok e) ↔
      ∀ c ∈ cs, ∀ l : Layer, (l ∈ m.regs ∨ ∃ h ∈ w.hooks, h.layer = l) → l.id = c.id →
        ∃ e, entryOf c l = .ok e := by
    constructor
    · intro h c hc l hl hid
      rcases hl with hl | ⟨q, hq, rfl⟩
      · exact h c hc ⟨_, l⟩ (List.mem_append_right _ (List.mem_map_of_mem hl)) hid
      · exact h c hc q (List.mem_append_left _ hq) hid
    · intro h c hc q hq hid
      rcases List.mem_append.1 hq with hq | hq
      · exact h c hc q.layer (Or.inr ⟨q, hq, rfl⟩) hid
      · obtain ⟨l, hl, rfl⟩ := List.mem_map.1 hq
        exact h c hc l (Or.inl hl) hid
  rw [hiff] at ht
  rcases hf : forward (w.hooks ++ m.regs.map (Hook.mk w.lists.length)) cs (w.lists ++ [[]]) with ⟨l', r⟩
  rw [hf] at ht
  cases r with
  | error e =>
    have hs : w.summary m cs = (⟨w.hooks ++ m.regs.map (Hook.mk w.lists.length), l', w.totals ++ [none]⟩, .error e) := by
      unfold World.summary
      simp only [hf]
    rw [hs]
    refine ⟨⟨?_, ?_⟩, ?_⟩
    · rintro ⟨k, hk⟩; cases hk
    · intro h; exact absurd (ht.2 h) (by simp)
    · intro k hk; cases hk
  | ok u =>
    have hs : w.summary m cs = (⟨w.hooks ++ m.regs.map (Hook.mk w.lists.length), l', w.totals ++ [some (totalsOf (l'.getD w.lists.length []))]⟩,
        .ok w.lists.length) := by
      unfold World.summary
      simp only [hf]
    rw [hs]
    refine ⟨⟨fun _ => ht.1 rfl, fun _ => ⟨_, rfl⟩⟩, ?_⟩
    intro k hk
    obtain rfl := Except.ok.inj hk
    obtain ⟨-, h2⟩ := forward_ok _ _ _ _ hf
    obtain ⟨es, e1, e2⟩ := h2 w.lists.length (by simp)
    rw [ownedBy_new w.hooks w.lists.length m.regs (fun x hx => ne_of_lt (hw x hx))] at e2
    have e1' : l'.getD w.lists.length [] = es := by
      rw [e1]
      simp [List.getD_eq_getElem?_getD]
    refine ⟨by rw [e1']; exact e2, ?_⟩
    congr 1
    rw [e1']
    have : totalsOf es = (((pairs m.regs cs).map fun p => if p.2.analog then p.2.tiles.length else 0).sum,
        ((pairs m.regs cs).map fun p => if p.2.analog then 1 else 0).sum) := by
      clear e1 e1'
      generalize pairs m.regs cs = ps at e2
      induction e2 with
      | nil => rfl
      | cons h t ih =>
        have hr := records_numTiles h
        unfold totalsOf at ih ⊢
        simp only [List.map_cons, List.sum_cons]
        rw [Prod.mk.injEq] at ih
        rw [ih.1, ih.2, hr.1, hr.2.1]
    rw [this]

theorem pairs_sum (f : Layer → Nat) (ls : List Layer) (cs : List Call) :
    ((pairs ls cs).map fun p => f p.2).sum =
      (ls.map fun l => f l * (cs.map Call.id).count l.id).sum := by
  induction cs with
  | nil => simp [pairs]
  | cons c cs ih =>
    rw [pairs_cons, List.map_append, List.sum_append, ih]
    have h1 : ((pairs ls [c]).map fun p => f p.2).sum =
        (ls.map fun l => if l.id = c.id then f l else 0).sum := by
      clear ih
      induction ls with
      | nil => rfl
      | cons a t iht =>
        simp only [pairs, List.flatMap_cons, List.flatMap_nil, List.append_nil, List.map_cons,
          List.sum_cons] at iht ⊢
        by_cases h : a.id = c.id
        · simp only [List.filter_cons, h, decide_true, if_true, List.map_cons, List.sum_cons, iht]
        · simp only [List.filter_cons, h, decide_false, Bool.false_eq_true, if_false, iht, zero_add]
    rw [h1]
    clear h1 ih
    induction ls with
    | nil => rfl
    | cons a t iht =>
      simp only [List.map_cons, List.sum_cons, List.count_cons] at iht ⊢
      rw [← iht]
      by_cases h : a.id = c.id
      · simp only [h, beq_self_eq_true, if_true]; ring
      · have h' : ¬ c.id = a.id := fun e => h e.symm
        simp only [h, if_false, beq_iff_eq, h']; ring

/-- **C77 (repeated and missing calls).**  The total number of tiles counts the tiles of a layer once per
call: a layer called `n` times in the forward pass (for instance by a recurrent network with `n` time
steps) counts `n` times, one that is not called does not count. -/
theorem C77_total_tiles (w : World) (hw : Fresh w) (m : Mod) (cs : List Call) (k : Nat)
    (h : (w.summary m cs).2 = .ok k) :
    (w.summary m cs).1.totals = w.totals ++ [some
      ((m.regs.map fun l => (if l.analog then l.tiles.length else 0) * (cs.map Call.id).count l.id).sum,
        (m.regs.map fun l => (if l.analog then 1 else 0) * (cs.map Call.id).count l.id).sum)] := by
  rw [((C77_contents w hw m cs).2 k h).2,
    pairs_sum (fun l => if l.analog then l.tiles.length else 0),
    pairs_sum (fun l => if l.analog then 1 else 0)]

/-- **C77 (the total is right when every layer is called once).**  If the tiles are all inside listed
analog layers and the forward pass calls every listed layer exactly once, the total number of tiles is
the number of tiles of the model and the number of analog layers that of the listed analog layers. -/
theorem C77_total_once (w : World) (hw : Fresh w) (m : Mod) (cs : List Call) (k : Nat)
    (h : (w.summary m cs).2 = .ok k) (hin : TilesInside m)
    (han : ∀ l ∈ m.regs, l.analog = false → l.tiles = [])
    (honce : ∀ l ∈ m.regs, (cs.map Call.id).count l.id = 1) :
    (w.summary m cs).1.totals = w.totals ++ [some
      (m.tiles.length, (m.regs.filter Layer.analog).length)] := by
  rw [C77_total_tiles w hw m cs k h]
  have h2 : (m.regs.map fun l => (if l.analog then 1 else 0) * (cs.map Call.id).count l.id).sum =
      (m.regs.filter Layer.analog).length := by
    rw [List.map_congr_left (g := fun l => if l.analog then 1 else 0)
      (fun l hl => by rw [honce l hl, mul_one])]
    generalize m.regs = ls
    induction ls with
    | nil => rfl
    | cons a t ih =>
      rw [List.map_cons, List.sum_cons, ih, List.filter_cons]
      by_cases ha : a.analog = true
      · rw [if_pos ha, if_pos ha, List.length_cons, add_comm]
      · rw [if_neg ha, if_neg ha, zero_add]
  have : (m.regs.map fun l => (if l.analog then l.tiles.length else 0) *
      (cs.map Call.id).count l.id).sum = m.tiles.length := by
    rw [← C77_tiles_partition m hin, List.length_flatten, List.map_map]
    congr 1
    refine List.map_congr_left fun l hl => ?_
    rw [honce l hl, mul_one]
    cases hb : l.analog with
    | true => rfl
    | false => simp [han l hl hb]
  rw [this, h2]

/-! ## The hooks stay -/

/-- **C77 (the summary keeps growing).**  The hooks are never removed: every later forward pass of the
model appends its calls to the layer list of an earlier summary, while the totals of that summary stay
as they were. -/
theorem C77_keeps_growing (w : World) (hw : Fresh w) (m : Mod) (cs cs' : List Call) (k : Nat)
    (h : (w.summary m cs).2 = .ok k) (w' : World)
    (hr : (w.summary m cs).1.run cs' = (w', .ok ())) :
    w'.totals = (w.summary m cs).1.totals ∧
    List.Forall₂ Records (pairs m.regs (cs ++ cs')) (w'.lists.getD k []) := by
  have hc := ((C77_contents w hw m cs).2 k h).1
  have hk : k = w.lists.length ∧ (w.summary m cs).1.hooks =
      w.hooks ++ m.regs.map (Hook.mk w.lists.length) ∧
      (w.summary m cs).1.lists.length = w.lists.length + 1 := by
    rcases hf : forward (w.hooks ++ m.regs.map (Hook.mk w.lists.length)) cs (w.lists ++ [[]]) with
      ⟨l', r⟩
    unfold World.summary at h ⊢
    simp only [hf] at h ⊢
    cases r with
    | error e => cases h
    | ok u =>
      refine ⟨(Except.ok.inj h).symm, rfl, ?_⟩
      rw [(forward_ok _ _ _ _ hf).1]; simp
  obtain ⟨rfl, hh, hlen⟩ := hk
  unfold World.run at hr
  rw [Prod.mk.injEq] at hr
  obtain ⟨h1, h2⟩ := hr
  subst h1
  refine ⟨rfl, ?_⟩
  obtain ⟨-, hg⟩ := forward_ok (w.summary m cs).1.hooks cs' (w.summary m cs).1.lists _
    (Prod.ext rfl h2)
  obtain ⟨es, e1, e2⟩ := hg w.lists.length (by rw [hlen]; omega)
  rw [hh, ownedBy_new w.hooks w.lists.length m.regs (fun x hx => ne_of_lt (hw x hx))] at e2
  show List.Forall₂ Records _ ((forward _ _ _).1.getD _ [])
  rw [e1]
  have : pairs m.regs (cs ++ cs') = pairs m.regs cs ++ pairs m.regs cs' := by simp [pairs]
  rw [this]
  exact List.rel_append hc e2

/-- **C77 (a failed summary breaks the model).**  If the summary raises, every later run of the model
that makes the same calls raises the same exception. -/
theorem C77_failure_sticks (w : World) (m : Mod) (cs : List Call) (e : PyErr)
    (h : (w.summary m cs).2 = .error e) :
    ((w.summary m cs).1.run cs).2 = .error e ∧
    ∀ w' : World, w'.hooks = (w.summary m cs).1.hooks → (w'.run cs).2 = .error e := by
  rcases hf : forward (w.hooks ++ m.regs.map (Hook.mk w.lists.length)) cs (w.lists ++ [[]]) with ⟨l', r⟩
  have hgen : ∀ w' : World, w'.hooks = (w.summary m cs).1.hooks → (w'.run cs).2 = .error e := by
    intro w' hw'
    have hh : (w.summary m cs).1.hooks = w.hooks ++ m.regs.map (Hook.mk w.lists.length) := by
      unfold World.summary
      simp only [hf]
      cases r <;> rfl
    unfold World.run
    simp only
    rw [hw', hh, forward_snd _ cs w'.lists (w.lists ++ [[]]), hf]
    unfold World.summary at h
    simp only [hf] at h
    cases r with
    | error e' => simpa using h
    | ok u => simp at h
  exact ⟨hgen _ rfl, hgen⟩

/-! ## Reuse factor -/

/-- **C77 (reuse factor of linear layers).**  The number of input vectors: the product of all dimensions
of the input but the last, for any number of leading dimensions; a scalar input raises, and so does an
empty last dimension. -/
theorem C77_reuse_linear (c : Cls) (hc : c = .linear ∨ c = .linearMapped) (lead : List Nat) (n : Nat)
    (out : List Nat) :
    (0 < n → reuseFactor c (lead ++ [n]) out = .ok lead.prod) ∧
    (n = 0 → reuseFactor c (lead ++ [n]) out = .error .zeroDivision) ∧
    reuseFactor c [] out = .error .indexError := by
  have key : reuseFactor c (lead ++ [n]) out =
      if n = 0 then .error .zeroDivision else .ok ((lead ++ [n]).prod / n) := by
    rcases hc with rfl | rfl <;> simp [reuseFactor]
  refine ⟨fun hn => ?_, fun hn => ?_, ?_⟩
  · rw [key, if_neg hn.ne', List.prod_append, List.prod_singleton, Nat.mul_div_cancel _ hn]
  · rw [key, if_pos hn]
  · rcases hc with rfl | rfl <;> rfl

/-- **C77 (reuse factor of convolutions).**  For a batched output `[batch, channels, …]` it is the number
of kernel positions times the batch size, i.e. the number of matrix-vector products.  For an unbatched
output `[channels, height, …]` the height is taken for the channels: the result is the number of
positions times channels divided by the height. -/
theorem C77_reuse_conv (c : Cls) (hc : c = .conv ∨ c = .convMapped) (inp : List Nat) (a b : Nat)
    (rest : List Nat) (hb : 0 < b) :
    reuseFactor c inp (a :: b :: rest) = .ok (a * rest.prod) := by
  have : reuseFactor c inp (a :: b :: rest) = .ok ((a :: b :: rest).prod / b) := by
    rcases hc with rfl | rfl <;> simp [reuseFactor, hb.ne']
  rw [this, List.prod_cons, List.prod_cons, show a * (b * rest.prod) = a * rest.prod * b by ring,
    Nat.mul_div_cancel _ hb]

/-- **C77 (finding: unbatched convolution).**  For an unbatched image output the reported number is the
true number of matrix-vector products only if the number of channels equals the height (or the width is
zero). -/
theorem C77_reuse_unbatched (c : Cls) (hc : c = .conv ∨ c = .convMapped) (inp : List Nat)
    (ch height width : Nat) (hh : 0 < height) :
    reuseFactor c inp [ch, height, width] = .ok (height * width) ↔ ch = height ∨ width = 0 := by
  rw [C77_reuse_conv c hc inp ch height [width] hh, List.prod_singleton]
  constructor
  · intro h
    have h := Except.ok.inj h
    rcases Nat.eq_zero_or_pos width with h0 | h0
    · exact Or.inr h0
    · exact Or.inl (Nat.eq_of_mul_eq_mul_right h0 h)
  · rintro (rfl | rfl) <;> simp

/-! ## Utilisation -/

/-- The tiles of a mapped layer: every input split with every output split, with the same limits
(simulator/tiles/array.py:63-82). -/
def mappedTiles (ins outs : List Nat) (maxIn maxOut : ℤ) : List TileSpec :=
  ins.flatMap fun i => outs.map fun o => ⟨i, o, maxIn, maxOut⟩

/-- **C77 (utilisation of a mapped layer).**  For a mapped layer of any size split by positive limits,
every tile has a utilisation above 0 and at most 100 percent, and the utilisations add up to the share
of the weights in the area of one tile: their mean is (number of weights)/(number of tiles × tile
area). -/
theorem C77_utilisation (outSize inSize mOut mIn : Nat) (h1 : 1 ≤ outSize) (h2 : 1 ≤ inSize)
    (h3 : 1 ≤ mOut) (h4 : 1 ≤ mIn) (outs ins : List Nat)
    (ho : TileArray.getSplitSizes outSize (mOut : ℤ) = .ok outs)
    (hi : TileArray.getSplitSizes inSize (mIn : ℤ) = .ok ins) :
    ∃ us : List TInfo, (mappedTiles ins outs mIn mOut).mapM (tileInfo true) = .ok us ∧
      us.length = ins.length * outs.length ∧
      (∀ u ∈ us, 0 < u.util ∧ u.util ≤ 100) ∧
      (us.map TInfo.util).sum = 100 * (outSize * inSize) / (mOut * mIn) := by
  obtain ⟨l1, e1, g1⟩ := TileArray.C01_split_sizes outSize mOut h1 h3
  obtain ⟨l2, e2, g2⟩ := TileArray.C01_split_sizes inSize mIn h2 h4
  rw [ho] at e1; rw [hi] at e2
  obtain rfl := Except.ok.inj e1
  obtain rfl := Except.ok.inj e2
  have hne : ((mIn : ℤ) * (mOut : ℤ)) ≠ 0 := by positivity
  have hq1 : (0 : ℚ) < mIn := by exact_mod_cast h4
  have hq2 : (0 : ℚ) < mOut := by exact_mod_cast h3
  let f : TileSpec → TInfo := fun t => ⟨t.outSize, t.inSize,
    ((t.inSize * t.outSize * 100 : Nat) : ℚ) / ((t.maxIn * t.maxOut : ℤ) : ℚ)⟩
  have hm : ∀ l : List TileSpec, (∀ t ∈ l, t.maxIn = mIn ∧ t.maxOut = mOut) →
      l.mapM (tileInfo true) = .ok (l.map f) := by
    intro l hl
    induction l with
    | nil => rfl
    | cons a t ih =>
      have : tileInfo true a = .ok (f a) := by
        unfold tileInfo
        rw [if_pos rfl, if_neg (by rw [(hl a (by simp)).1, (hl a (by simp)).2]; exact hne)]
      rw [List.mapM_cons, this, ih fun x hx => hl x (by simp [hx])]
      rfl
  have hmem : ∀ t ∈ mappedTiles ins outs mIn mOut, t.maxIn = mIn ∧ t.maxOut = mOut ∧
      t.inSize ∈ ins ∧ t.outSize ∈ outs := by
    intro t ht
    simp only [mappedTiles, List.mem_flatMap, List.mem_map] at ht
    obtain ⟨i, hi, o, ho, rfl⟩ := ht
    exact ⟨rfl, rfl, hi, ho⟩
  refine ⟨_, hm _ fun t ht => ⟨(hmem t ht).1, (hmem t ht).2.1⟩, ?_, ?_, ?_⟩
  · rw [List.length_map]
    simp [mappedTiles, List.length_flatMap]
  · intro u hu
    obtain ⟨t, ht, rfl⟩ := List.mem_map.1 hu
    obtain ⟨a1, a2, a3, a4⟩ := hmem t ht
    have b1 := g2.bounds _ a3
    have b2 := g1.bounds _ a4
    simp only [f, a1, a2]
    have c1 : (1 : ℚ) ≤ t.inSize := by exact_mod_cast b1.1
    have c2 : (t.inSize : ℚ) ≤ mIn := by exact_mod_cast b1.2
    have c3 : (1 : ℚ) ≤ t.outSize := by exact_mod_cast b2.1
    have c4 : (t.outSize : ℚ) ≤ mOut := by exact_mod_cast b2.2
    push_cast
    constructor
    · positivity
    · rw [div_le_iff₀ (by positivity)]
      nlinarith [mul_le_mul c2 c4 (by linarith) hq1.le]
  · have hs : ∀ l : List Nat, ((mappedTiles l outs mIn mOut).map fun t => (f t).util).sum =
        100 * ((outs.sum : ℚ) * l.sum) / (mOut * mIn) := by
      intro l
      induction l with
      | nil => simp [mappedTiles]
      | cons i t ih =>
        have hi : ∀ os : List Nat, ((os.map fun o => (⟨i, o, mIn, mOut⟩ : TileSpec)).map fun t =>
            (f t).util).sum = 100 * ((os.sum : ℚ) * i) / (mOut * mIn) := by
          intro os
          induction os with
          | nil => simp
          | cons o r ihr =>
            simp only [List.map_cons, List.sum_cons]
            rw [ihr]
            simp only [f]
            push_cast
            field_simp
        have : mappedTiles (i :: t) outs mIn mOut =
            (outs.map fun o => (⟨i, o, mIn, mOut⟩ : TileSpec)) ++ mappedTiles t outs mIn mOut := by
          simp [mappedTiles]
        rw [this, List.map_append, List.sum_append, hi, ih]
        simp only [List.sum_cons]
        push_cast
        field_simp
    rw [List.map_map]
    show ((mappedTiles ins outs mIn mOut).map fun t => (f t).util).sum = _
    rw [hs, g1.sum, g2.sum]

/-- **C77 (utilisation is only computed for the mapped classes).**  For every other class it is reported
as 100 percent, also for a linear layer that is split over several tiles; for the mapped classes a limit
of zero (which means no limit) raises `ZeroDivisionError`. -/
theorem C77_utilisation_other (t : TileSpec) :
    tileInfo false t = .ok ⟨t.outSize, t.inSize, 100⟩ ∧
    (t.maxIn = 0 ∨ t.maxOut = 0 → tileInfo true t = .error .zeroDivision) ∧
    ∀ c : Cls, c.mapped = true ↔ c = .linearMapped ∨ c = .convMapped := by
  refine ⟨rfl, fun h => ?_, fun c => by cases c <;> simp [Cls.mapped]⟩
  unfold tileInfo
  rw [if_pos rfl, if_pos (by rcases h with h | h <;> simp [h])]

end Aihw.Info
