import Verif.Periphery.Lemmas2

namespace Aihw.Periphery

/-- `m` keeps the invariant (also when it raises) and its result satisfies `Q`. -/
def Keeps {α : Type} (c : Cfg) (m : Op α) (Q : α → Prop) : Prop :=
  ∀ t, Good c t → Good c (m t).2 ∧ ∀ a, (m t).1 = .ok a → Q a

theorem Keeps.bind {α β : Type} {c : Cfg} {m : Op α} {f : α → Op β} {Q : α → Prop} {R : β → Prop}
    (h : Keeps c m Q) (hf : ∀ a, Q a → Keeps c (f a) R) : Keeps c (m >>= f) R := by
  intro t ht
  have h1 := h t ht
  show Good c (Op.bind m f t).2 ∧ _
  change _ ∧ ∀ a, (Op.bind m f t).1 = .ok a → R a
  unfold Op.bind
  cases hm : m t with
  | mk r t' =>
    rw [hm] at h1
    cases r with
    | error e => exact ⟨h1.1, by intro a ha; cases ha⟩
    | ok a => exact hf a (h1.2 a rfl) t' h1.1

theorem Keeps.get {c : Cfg} : Keeps c Op.get (Good c) :=
  fun t ht => ⟨ht, by intro a ha; cases ha; exact ht⟩

theorem Keeps.pure {α : Type} {c : Cfg} {a : α} {Q : α → Prop} (h : Q a) : Keeps c (Pure.pure a : Op α) Q :=
  fun t ht => ⟨ht, by intro b hb; cases hb; exact h⟩

theorem Keeps.throw {α : Type} {c : Cfg} {e : PyErr} {Q : α → Prop} : Keeps c (Op.throw e : Op α) Q :=
  fun t ht => ⟨ht, by intro b hb; cases hb⟩

theorem Keeps.lift {α : Type} {c : Cfg} {e : Except PyErr α} {Q : α → Prop}
    (h : ∀ a, e = .ok a → Q a) : Keeps c (Op.lift e) Q :=
  fun t ht => ⟨ht, by intro b hb; exact h b hb⟩

theorem Keeps.modify {c : Cfg} {f : Tile → Tile} (h : ∀ t, Good c t → Good c (f t)) :
    Keeps c (Op.modify f) (fun _ => True) :=
  fun t ht => ⟨h t ht, by intros; trivial⟩

theorem Keeps.weaken {α : Type} {c : Cfg} {m : Op α} {Q R : α → Prop} (h : Keeps c m Q)
    (hr : ∀ a, Q a → R a) : Keeps c m R :=
  fun t ht => ⟨(h t ht).1, fun a ha => hr a ((h t ht).2 a ha)⟩

theorem setMappingScales_keeps {c : Cfg} (hc : c.Valid) (a : ScaleArg)
    (ha : ∀ v, a = .tensor v → FitsOut c v) : Keeps c (setMappingScales a) (fun _ => True) := by
  have hnone : ∀ t, Good c t → Good c { t with mappingScales := none } := by
    intro t ht
    exact ⟨ht.cfg, ht.w, ht.bias, by simp, ht.ls, ht.ir, ht.lr, by simp, ht.noLrComp⟩
  intro t ht
  unfold setMappingScales
  simp only [Bind.bind, Op.bind, Op.get]
  cases hm : t.cfg.mapping with
  | none => exact ⟨hnone t ht, by intros; trivial⟩
  | some m =>
    have hm' : c.mapping = some m := by rw [← ht.cfg]; exact hm
    cases a with
    | none => exact ⟨hnone t ht, by intros; trivial⟩
    | float q =>
      have hfit : ∀ v, assignScales (.float q) t.mappingScales = some v → FitsOut c v := by
        intro v hv
        cases hs : t.mappingScales with
        | none => rw [hs] at hv; cases hv; left; rfl
        | some o => rw [hs] at hv; cases hv; exact ht.ms _ hs
      have hg : Good c { t with mappingScales := assignScales (.float q) t.mappingScales } :=
        ⟨ht.cfg, ht.w, ht.bias, hfit, ht.ls, ht.ir, ht.lr, by simp [hm'], ht.noLrComp⟩
      simp only [Op.modify]
      cases hl : m.lrCompensation with
      | false => exact ⟨hg, by intros; trivial⟩
      | true =>
        simp only [if_true]
        split_ifs with h0
        · exact ⟨hg, by intros; trivial⟩
        · exact ⟨⟨ht.cfg, ht.w, ht.bias, hfit, ht.ls, ht.ir, one_div_ne_zero h0, by simp [hm'],
            fun hh => by have := hh m hm'; rw [hl] at this; cases this⟩, by intros; trivial⟩
    | tensor v =>
      have hfit : ∀ u, assignScales (.tensor v) t.mappingScales = some u → FitsOut c u := by
        intro u hu
        have hv := ha v rfl
        cases hs : t.mappingScales with
        | none => rw [hs] at hu; cases hu; exact hv
        | some o =>
          rw [hs] at hu
          simp only [assignScales] at hu
          have := ht.ms _ hs
          split_ifs at hu
          · cases hu; unfold FitsOut at *; simpa using this
          · cases hu; exact hv
      have hg : Good c { t with mappingScales := assignScales (.tensor v) t.mappingScales } :=
        ⟨ht.cfg, ht.w, ht.bias, hfit, ht.ls, ht.ir, ht.lr, by simp [hm'], ht.noLrComp⟩
      simp only [Op.modify]
      cases hl : m.lrCompensation with
      | false => exact ⟨hg, by intros; trivial⟩
      | true =>
        simp only [if_true]
        split_ifs with h0
        · exact ⟨hg, by intros; trivial⟩
        · exact ⟨⟨ht.cfg, ht.w, ht.bias, hfit, ht.ls, ht.ir, one_div_ne_zero h0, by simp [hm'],
            fun hh => by have := hh m hm'; rw [hl] at this; cases this⟩, by intros; trivial⟩

theorem setLearned_keeps {c : Cfg} (a : Vec) : Keeps c (setLearnedOutScales a) (fun _ => True) := by
  intro t ht
  unfold setLearnedOutScales
  simp only [Bind.bind, Op.bind, Op.get]
  cases hl : t.learned with
  | none => exact ⟨ht, by intros; trivial⟩
  | some old =>
    have ho := ht.ls _ hl
    simp only
    split_ifs with h1 h2
    · refine ⟨⟨ht.cfg, ht.w, ht.bias, ht.ms, ?_, ht.ir, ht.lr, ht.nomap, ht.noLrComp⟩, by intros; trivial⟩
      intro v hv; cases hv; unfold FitsOut at *; simpa using ho
    · refine ⟨⟨ht.cfg, ht.w, ht.bias, ht.ms, ?_, ht.ir, ht.lr, ht.nomap, ht.noLrComp⟩, by intros; trivial⟩
      intro v hv; cases hv; unfold FitsOut at *; rw [h2]; exact ho
    · exact ⟨ht, by intros; trivial⟩

theorem setScales_keeps {c : Cfg} (hc : c.Valid) (a : ScaleArg)
    (ha : ∀ v, a = .tensor v → FitsOut c v) : Keeps c (setScales a) (fun _ => True) :=
  (setMappingScales_keeps hc a ha).bind fun _ _ => setLearned_keeps _

/-- Shape of the combined weights. -/
def Combined (c : Cfg) (w : Mat) : Prop := IsMat c.outSize (c.inSize + if c.analogBias then 1 else 0) w

theorem reshape_ok {o i : Nat} {w w' : Mat} : reshape o i w = .ok w' ↔ w' = w ∧ IsMat o i w := by
  unfold reshape IsMat
  split_ifs with h
  · simp only [List.all_eq_true, beq_iff_eq] at h
    simp only [Except.ok.injEq]
    exact ⟨fun e => ⟨e.symm, h⟩, fun e => e.1.symm⟩
  · simp only [List.all_eq_true, beq_iff_eq] at h
    exact ⟨fun e => (by cases e), fun e => absurd e.2 h⟩

theorem zip_append_isMat {o i : Nat} {w : Mat} {b : Vec} (hw : IsMat o i w) (hb : b.length = w.length) :
    IsMat o (i + 1) (List.zipWith (fun r x => r ++ [x]) w b) := by
  obtain ⟨h1, h2⟩ := hw
  refine ⟨by simp [hb, h1], ?_⟩
  intro r hr
  rw [List.mem_iff_getElem] at hr
  obtain ⟨k, hk, rfl⟩ := hr
  have hk' : k < w.length := by simp at hk; omega
  simp [h2 _ (List.getElem_mem hk')]

theorem combine_ok {c : Cfg} {w cw : Mat} {b : Option Vec} (h : combineWeights c w b = .ok cw) :
    Combined c cw := by
  unfold combineWeights at h
  simp only [Bind.bind, Except.bind] at h
  cases hr : reshape c.outSize c.inSize w with
  | error e => rw [hr] at h; cases h
  | ok w' =>
    rw [hr] at h
    obtain ⟨rfl, hw⟩ := reshape_ok.1 hr
    simp only at h
    unfold Combined
    split_ifs at h with ha
    · cases b with
      | none => cases h
      | some b =>
        simp only at h
        split_ifs at h with hl
        cases h
        rw [if_pos ha]; exact zip_append_isMat hw hl
    · cases h; rw [if_neg ha]; simpa using hw

theorem divRows_isMat {o i : Nat} {w : Mat} {s : Vec} (hw : IsMat o i w) (hs : s.length = w.length) :
    IsMat o i (divRows w s) := by
  obtain ⟨h1, h2⟩ := hw
  refine ⟨by simp [divRows, hs, h1], ?_⟩
  intro r hr
  rw [List.mem_iff_getElem] at hr
  obtain ⟨k, hk, rfl⟩ := hr
  have hk' : k < w.length := by simp [divRows] at hk; omega
  simp [divRows, h2 _ (List.getElem_mem hk')]

theorem scaleRows_isMat {o i : Nat} {w : Mat} {s : Vec} (hw : IsMat o i w) (hs : s.length = w.length) :
    IsMat o i (scaleRows w s) := by
  obtain ⟨h1, h2⟩ := hw
  refine ⟨by simp [scaleRows, hs, h1], ?_⟩
  intro r hr
  rw [List.mem_iff_getElem] at hr
  obtain ⟨k, hk, rfl⟩ := hr
  have hk' : k < w.length := by simp [scaleRows] at hk; omega
  simp [scaleRows, h2 _ (List.getElem_mem hk')]

theorem applyWeightScaling_keeps {c : Cfg} (hc : c.Valid) (w : Mat) (hw : Combined c w) (arg : Option ℚ) :
    Keeps c (applyWeightScaling w arg) (Combined c) := by
  intro t ht
  by_cases hon : ∃ m, t.cfg.mapping = some m ∧ ∃ o, effOmega m arg = some o ∧ 0 < o
  · obtain ⟨m, hm, o, ho, hpos⟩ := hon
    have hm' : c.mapping = some m := by rw [← ht.cfg]; exact hm
    obtain ⟨ms, mls, he, hfit, hexp, hne, hlr⟩ := applyWeightScaling_on hc ht hm' ho hpos hw.1
    rw [he]
    refine ⟨⟨ht.cfg, ht.w, ht.bias, ?_, ?_, ht.ir, hne, by simp [hm'], ?_⟩, ?_⟩
    · intro v hv; cases hv; exact hfit
    · intro v hv
      simp only [Option.map_eq_some_iff] at hv
      obtain ⟨l, hl, rfl⟩ := hv
      have := ht.ls _ hl
      unfold FitsOut at *; simpa using this
    · intro hh; rw [hlr (hh m hm')]; exact ht.noLrComp hh
    · intro a ha; cases ha; exact divRows_isMat hw (alphas_length _ _ _)
  · rw [applyWeightScaling_off]
    · exact ⟨ht, by intro a ha; cases ha; exact hw⟩
    · intro m hm o ho
      by_contra h
      exact hon ⟨m, hm, o, ho, not_le.1 h⟩

theorem devWrite_isMat {c : Cfg} {o i : Nat} {w : Mat} (h : IsMat o i w) : IsMat o i (devWrite c w) := by
  unfold devWrite
  cases c.devBound with
  | none => exact h
  | some b =>
    obtain ⟨h1, h2⟩ := h
    refine ⟨by simpa using h1, ?_⟩
    simp only [List.mem_map]
    rintro r ⟨r', hr', rfl⟩
    simp [h2 r' hr']

theorem setWeights_keeps {c : Cfg} (hc : c.Valid) (w b s o) :
    Keeps c (setWeights w b s o) (fun _ => True) := by
  unfold setWeights
  refine (Keeps.modify ?_).bind fun _ _ => Keeps.get.bind fun t0 ht0 => Keeps.bind (Q := fun _ => True) ?_
    fun b' _ => (Keeps.lift (Q := Combined c) ?_).bind fun cw hcw => Keeps.bind (Q := Combined c) ?_
    fun cw' hcw' => Keeps.modify ?_
  · intro t ht
    exact ⟨ht.cfg, ht.w, ht.bias, ht.ms, ht.ls, ht.ir, ht.lr, ht.nomap, ht.noLrComp⟩
  · cases b with
    | none => exact Keeps.pure trivial
    | some v =>
      simp only
      split_ifs with h1 h2 h3
      · refine (Keeps.modify ?_).bind fun _ _ => Keeps.pure trivial
        intro t ht
        exact ⟨ht.cfg, ht.w, fun _ => by rw [← ht0.cfg]; exact h2, ht.ms, ht.ls, ht.ir, ht.lr, ht.nomap, ht.noLrComp⟩
      · refine (Keeps.modify ?_).bind fun _ _ => Keeps.pure trivial
        intro t ht
        exact ⟨ht.cfg, ht.w, fun _ => by simp [ht.cfg], ht.ms, ht.ls, ht.ir, ht.lr, ht.nomap, ht.noLrComp⟩
      · exact Keeps.throw
      · exact Keeps.pure trivial
  · intro cw hcw
    rw [ht0.cfg] at hcw
    exact combine_ok hcw
  · split_ifs
    · exact applyWeightScaling_keeps hc cw hcw o
    · exact Keeps.pure hcw
  · intro t ht
    exact ⟨ht.cfg, devWrite_isMat hcw', ht.bias, ht.ms, ht.ls, ht.ir, ht.lr, ht.nomap, ht.noLrComp⟩

theorem remap_keeps {c : Cfg} (hc : c.Valid) (o) : Keeps c (remapWeights o) (fun _ => True) := by
  unfold remapWeights
  refine Keeps.get.bind fun t0 ht0 => (Keeps.lift (Q := fun _ => True) (by intros; trivial)).bind fun p _ => ?_
  exact setWeights_keeps hc _ _ _ _

theorem setInputRange_keeps {c : Cfg} (v) : Keeps c (setInputRange v) (fun _ => True) := by
  intro t ht
  unfold setInputRange
  simp only [Bind.bind, Op.bind, Op.get]
  cases hi : t.inputRange with
  | none => exact ⟨ht, by intros; trivial⟩
  | some r =>
    refine ⟨⟨ht.cfg, ht.w, ht.bias, ht.ms, ht.ls, ?_, ht.lr, ht.nomap, ht.noLrComp⟩, by intros; trivial⟩
    have := ht.ir; rw [hi] at this; simpa [Op.modify] using this

theorem irUpdate_good {c : Cfg} {p std t} (ht : Good c t) : Good c (irUpdate p std t) := by
  unfold irUpdate
  split_ifs with h1 h2
  all_goals first
    | exact ht
    | exact ⟨ht.cfg, ht.w, ht.bias, ht.ms, ht.ls, by simpa using ht.ir, ht.lr, ht.nomap, ht.noLrComp⟩

theorem applyInputRange_keeps {c : Cfg} (x s f) :
    Keeps c (applyInputRange x s f) (fun y => y.length = x.length) := by
  unfold applyInputRange
  refine Keeps.get.bind fun t0 ht0 => ?_
  split
  · refine Keeps.bind (Q := fun _ => True) ?_ fun _ _ => Keeps.get.bind fun t1 _ => Keeps.pure (by simp)
    refine Keeps.modify fun t ht => ?_
    split_ifs
    · exact irUpdate_good ht
    · exact ht
  · exact Keeps.pure rfl

theorem preForward_keeps {c : Cfg} (x s e) : Keeps c (preForward x s e) (fun y => y.length = x.length) := by
  unfold preForward
  refine Keeps.get.bind fun t0 ht0 => ?_
  split
  · exact Keeps.pure rfl
  · refine (applyInputRange_keeps x s _).bind fun y hy => Keeps.get.bind fun t1 _ => ?_
    dsimp only
    split_ifs
    · exact Keeps.throw
    · exact Keeps.pure (by simpa using hy)

theorem forward_keeps {c : Cfg} (x s e) : Keeps c (forward x s e) (fun _ => True) := by
  unfold forward jointForward
  refine Keeps.bind (Q := fun _ => True) ?_ fun y _ => Keeps.get.bind fun t1 _ =>
    Keeps.bind (Q := fun _ => True) ?_ fun _ _ => Keeps.pure trivial
  · refine (preForward_keeps x s e).bind fun y _ => Keeps.get.bind fun t1 _ =>
      (Keeps.lift (Q := fun _ => True) (by intros; trivial)).bind fun _ _ =>
      Keeps.lift (by intros; trivial)
  · exact Keeps.lift (by intros; trivial)

theorem outerUpdate_isMat {o i : Nat} {w : Mat} {lr : ℚ} {d x : Vec} (h : IsMat o i w)
    (hd : d.length = o) (hx : x.length = i) : IsMat o i (outerUpdate w lr d x) := by
  obtain ⟨h1, h2⟩ := h
  refine ⟨by simp [outerUpdate, h1, hd], ?_⟩
  intro r hr
  rw [List.mem_iff_getElem] at hr
  obtain ⟨k, hk, rfl⟩ := hr
  have hk' : k < w.length := by simp [outerUpdate] at hk; omega
  simp [outerUpdate, h2 _ (List.getElem_mem hk'), hx]

theorem update_keeps {c : Cfg} (x d) : Keeps c (update x d) (fun _ => True) := by
  unfold update
  refine Keeps.bind (Q := fun _ => True) ?_ fun p _ => ?_
  · unfold preUpdate preUpdateX
    refine Keeps.bind (Q := fun _ => True) ?_ fun y _ => Keeps.get.bind fun t0 ht0 =>
      (Keeps.lift (Q := fun _ => True) (by intros; trivial)).bind fun _ _ => Keeps.pure trivial
    refine Keeps.get.bind fun t0 ht0 => ?_
    split
    · exact Keeps.pure trivial
    · refine (applyInputRange_keeps x 0 false).bind fun y hy => ?_
      split_ifs
      · exact Keeps.throw
      · exact Keeps.pure trivial
  · obtain ⟨x', d'⟩ := p
    refine Keeps.get.bind fun t0 ht0 => ?_
    split_ifs with hl
    · refine Keeps.modify fun t ht => ⟨ht.cfg, ?_, ht.bias, ht.ms, ht.ls, ht.ir, ht.lr, ht.nomap, ht.noLrComp⟩
      have hw := ht.w
      rw [ht0.cfg] at hl
      rw [ht.cfg]
      refine outerUpdate_isMat hw hl.2 ?_
      split_ifs <;> simp [hl.1]
    · exact Keeps.throw

theorem setLearningRate_keeps {c : Cfg} (lr) : Keeps c (setLearningRate lr) (fun _ => True) := by
  unfold setLearningRate
  cases lr with
  | none => exact Keeps.pure trivial
  | some lr =>
    exact Keeps.modify fun t ht => ⟨ht.cfg, ht.w, ht.bias, ht.ms, ht.ls, ht.ir, ht.lr, ht.nomap, ht.noLrComp⟩

theorem step_good {c : Cfg} (hc : c.Valid) {t : Tile} (ht : Good c t) {k : Call} (hk : k.Valid c) :
    Good c (step t k) := by
  cases k with
  | setWeights w b s o => exact (setWeights_keeps hc w b s o t ht).1
  | remapWeights o => exact (remap_keeps hc o t ht).1
  | setScales a =>
    refine (setScales_keeps hc a ?_ t ht).1
    rintro v rfl; exact hk
  | setMappingScales a =>
    refine (setMappingScales_keeps hc a ?_ t ht).1
    rintro v rfl; exact hk
  | setLearnedOutScales a => exact (setLearned_keeps a t ht).1
  | setInputRange v => exact (setInputRange_keeps v t ht).1
  | forward x s e => exact (forward_keeps x s e t ht).1
  | update x d => exact (update_keeps x d t ht).1
  | setLearningRate lr => exact (setLearningRate_keeps lr t ht).1

theorem init_good {c : Cfg} (hc : c.Valid) : Good c (init c) where
  cfg := rfl
  w := by
    refine ⟨by simp [init], ?_⟩
    intro r hr
    simp only [init, List.mem_replicate] at hr
    rw [hr.2]; simp
  bias := by intro h; simp [init, h]
  ms := by
    intro v hv
    simp only [init] at hv
    split at hv
    · cases hv
    · split at hv
      · cases hv
      · split_ifs at hv; cases hv; left; rfl
  ls := by
    intro v hv
    simp only [init] at hv
    split at hv
    · cases hv
    · split_ifs at hv
      · cases hv; right; simp
      · cases hv; left; simp
  ir := by simp [init]
  lr := by simp [init]
  nomap := by intro h; simp [init, h]
  noLrComp := by intro _; rfl

/-- Every tile reachable by valid calls satisfies the invariant. -/
theorem run_good {c : Cfg} (hc : c.Valid) {calls : List Call} (h : ∀ k ∈ calls, k.Valid c) :
    Good c (run c calls) := by
  unfold run
  suffices ∀ t, Good c t → Good c (calls.foldl step t) from this _ (init_good hc)
  induction calls with
  | nil => intro t ht; exact ht
  | cons k ks ih =>
    intro t ht
    exact ih (fun k' hk' => h k' (List.mem_cons_of_mem _ hk')) _ (step_good hc ht (h k (by simp)))

end Aihw.Periphery
