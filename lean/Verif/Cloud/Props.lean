import Verif.Cloud.Write

/-!
# C79: the training format of the AIHW Composer (cloud/converter/v1/training.py, mappings.py)
-/
namespace Aihw.Cloud
open Aihw

theorem dsId_iff (d : Ds) : (∃ s, dsId d = .ok s) ↔ d = .fashionMNIST ∨ d = .svhn := by
  cases d <;> simp [dsId, Ds.id]

theorem lossId_iff (l : Loss) :
    (∃ s, lossId l = .ok s) ↔ l = .bce ∨ l = .crossEntropy ∨ l = .mse ∨ l = .nll := by
  cases l <;> simp [lossId, Loss.id]

theorem dsOf_dsId {d : Ds} {s : String} (h : dsId d = .ok s) : dsOf s = .ok d := by
  cases d <;> simp [dsId, Ds.id] at h <;> subst h <;> simp [dsOf]

theorem lossOf_lossId {l : Loss} {s : String} (h : lossId l = .ok s) : lossOf s = .ok l := by
  cases l <;> simp [lossId, Loss.id] at h <;> subst h <;> simp [lossOf]

theorem field32_iff (i : ℤ) : (∃ j, field32 i = .ok j) ↔ -2 ^ 31 ≤ i ∧ i < 2 ^ 31 := by
  unfold field32 in32
  by_cases h : -2 ^ 31 ≤ i ∧ i < 2 ^ 31
  · rw [if_pos (by rw [Bool.and_eq_true, decide_eq_true_eq, decide_eq_true_eq]; exact h)]
    exact ⟨fun _ => h, fun _ => ⟨i, rfl⟩⟩
  · rw [if_neg (by rw [Bool.and_eq_true, decide_eq_true_eq, decide_eq_true_eq]; exact h)]
    constructor
    · rintro ⟨j, hj⟩; cases hj
    · exact fun h' => absurd h' h

theorem field32_ok {i j : ℤ} (h : field32 i = .ok j) : j = i := by
  unfold field32 at h
  split at h
  · cases h; rfl
  · cases h

theorem bind_ok {α β : Type} {x : Except Err α} {f : α → Except Err β} {b : β}
    (h : (x >>= f) = .ok b) : ∃ a, x = .ok a ∧ f a = .ok b := by
  cases x with
  | ok a => exact ⟨a, rfl, h⟩
  | error e => cases h

theorem train_ok {f32 : ℚ → ℚ} {e : Training} {m : TrainMsg} (h : trainToProto f32 e = .ok m) :
    dsId e.dataset = .ok m.datasetId ∧ m.batchSize = e.batchSize ∧
      modelToProto f32 .training e.model = .ok m.layers ∧ lossId e.loss = .ok m.lossId ∧
      m.epochs = e.epochs ∧ m.optArgs = [{ name := "lr", type := .float, f := f32 e.lr }] ∧
      field32 e.batchSize = .ok e.batchSize ∧ field32 e.epochs = .ok e.epochs := by
  unfold trainToProto at h
  obtain ⟨d, h1, h⟩ := bind_ok h
  obtain ⟨b, h2, h⟩ := bind_ok h
  obtain ⟨l, h3, h⟩ := bind_ok h
  obtain ⟨s, h4, h⟩ := bind_ok h
  obtain ⟨n, h5, h⟩ := bind_ok h
  cases h
  have := field32_ok h2
  have := field32_ok h5
  subst_vars
  exact ⟨h1, rfl, h3, h4, rfl, rfl, h2, h5⟩

/-- **C79 (which experiments can be exported).** `to_proto` succeeds exactly for the two data sets, the
four loss functions, batch size and epochs in the 32-bit range and an `AnalogSequential` all of whose
layers are writable. -/
theorem C79_export_iff (f32 : ℚ → ℚ) (e : Training) :
    (∃ m, trainToProto f32 e = .ok m) ↔
      (e.dataset = .fashionMNIST ∨ e.dataset = .svhn) ∧
      (e.loss = .bce ∨ e.loss = .crossEntropy ∨ e.loss = .mse ∨ e.loss = .nll) ∧
      (-2 ^ 31 ≤ e.batchSize ∧ e.batchSize < 2 ^ 31) ∧ (-2 ^ 31 ≤ e.epochs ∧ e.epochs < 2 ^ 31) ∧
      ∃ l, e.model = .seq l ∧ ∀ p ∈ l, p ∈ children l → Writable .training p.2 := by
  constructor
  · rintro ⟨m, h⟩
    obtain ⟨h1, _, h3, h4, _, _, h7, h8⟩ := train_ok h
    obtain ⟨l, hl, hw⟩ := (model_iff f32 .training e.model).mp ⟨_, h3⟩
    exact ⟨(dsId_iff _).mp ⟨_, h1⟩, (lossId_iff _).mp ⟨_, h4⟩, (field32_iff _).mp ⟨_, h7⟩,
      (field32_iff _).mp ⟨_, h8⟩, l, hl, fun p _ hp => hw p hp⟩
  · rintro ⟨h1, h2, h3, h4, l, hl, hw⟩
    obtain ⟨d, hd⟩ := (dsId_iff _).mpr h1
    obtain ⟨s, hs⟩ := (lossId_iff _).mpr h2
    obtain ⟨b, hb⟩ := (field32_iff _).mpr h3
    obtain ⟨n, hn⟩ := (field32_iff _).mpr h4
    obtain ⟨r, hr⟩ := (model_iff f32 .training e.model).mpr
      ⟨l, hl, fun p hp => hw p ((children_sub l).subset hp) hp⟩
    unfold trainToProto
    rw [hd, hb, hr, hs, hn]
    exact ⟨_, rfl⟩

/-- **C79 (which module objects are exported).** The children of the model are its module objects, each
once, in the order of first occurrence; with different objects, all of them.  A module object that is
used twice in the model is exported once. -/
theorem C79_children (l : List (Nat × Obj)) :
    List.Sublist (children l) l ∧ ((children l).map (·.1)).Nodup ∧
      (∀ p ∈ l, p.1 ∈ (children l).map (·.1)) ∧ ((l.map (·.1)).Nodup → children l = l) ∧
      (∀ a b : List (Nat × Obj), ∀ p, l = a ++ p :: b → p.1 ∉ a.map (·.1) → p ∈ children l) := by
  refine ⟨children_sub l, children_nodup l, children_complete l, children_eq, ?_⟩
  intro a b p h hp
  subst h
  induction a with
  | nil => simp [children]
  | cons q t ih =>
    simp only [List.map_cons, List.mem_cons, not_or] at hp
    rw [List.cons_append, children]
    refine List.mem_cons_of_mem _ (List.mem_filter.mpr ⟨ih hp.2, by simpa using hp.1⟩)

theorem item_train {f32 : ℚ → ℚ} {dflt : String → Cfg} {o : Obj} {it : Item}
    (h : itemOf f32 .training o = .ok it) :
    ∃ o', itemFromProto dflt .training (trainCfg dflt) it = .ok o' ∧ TrainReloaded f32 dflt o o' := by
  obtain ⟨h1, h2⟩ := item_reload (dflt := dflt) (mk := trainCfg dflt) h
  by_cases hA : o.cls.isAnalog = true
  · obtain ⟨d, s, e1, e2, e3, _, e5⟩ := h2 hA
    obtain ⟨_, e6⟩ := e5 (dflt s) (by unfold trainCfg; rw [if_pos e3])
    obtain ⟨o', ho', hR⟩ := e6 (by
      rintro ⟨hc, _⟩
      have W := (item_iff f32 .training o).mp ⟨it, h⟩
      have hc' := W.cls
      rw [hc] at hc'
      cases hc')
    refine ⟨o', ho', (fun h => absurd h (by rw [hA]; decide)), fun _ => ⟨d, s, e1, e2, ?_⟩⟩
    have : afterCfg f32 .training o (dflt s) = { dflt s with stray := some (f32 d.omega) } := by
      simp [afterCfg, e1]
    rw [← this]
    exact hR
  · have hA' : o.cls.isAnalog = false := by simpa using hA
    obtain ⟨o', ho', hR⟩ := h1 hA'
    exact ⟨o', ho', fun _ => hR, fun h => absurd h hA⟩

theorem model_reload {f32 : ℚ → ℚ} {dflt : String → Cfg} {k : Kind} {mk : MkCfg} {R : Obj → Obj → Prop}
    {cl : List (Nat × Obj)} {r : List Item}
    (hI : ∀ p ∈ cl, ∀ it ∈ r, itemOf f32 k p.2 = .ok it → ∃ o', itemFromProto dflt k mk it = .ok o' ∧ R p.2 o')
    (h : List.Forall₂ (fun (p : Nat × Obj) it => itemOf f32 k p.2 = .ok it) cl r) :
    ∃ l', modelFromProto dflt k mk r = .ok (.seq l') ∧ (l'.map (·.1)).Nodup ∧
      List.Forall₂ (fun (p q : Nat × Obj) => R p.2 q.2) cl l' := by
  obtain ⟨os, h1, h2⟩ : ∃ os, List.Forall₂ (fun it o' => itemFromProto dflt k mk it = .ok o') r os ∧
      List.Forall₂ (fun (p : Nat × Obj) o' => R p.2 o') cl os := by
    induction h with
    | nil => exact ⟨[], .nil, .nil⟩
    | @cons p it t r hp _ ih =>
      obtain ⟨os, i1, i2⟩ := ih (fun p hp it hi => hI p (by simp [hp]) it (by simp [hi]))
      obtain ⟨o', ho', hR⟩ := hI p (by simp) it (by simp) hp
      exact ⟨o' :: os, .cons ho' i1, .cons hR i2⟩
  refine ⟨number 0 os, ?_, number_nodup 0 os, ?_⟩
  · unfold modelFromProto
    rw [forall₂_mapM h1]
    rfl
  · clear h1 h hI
    generalize 0 = n
    induction h2 generalizing n with
    | nil => exact .nil
    | cons h _ ih => exact .cons h (ih (n + 1))

/-- **C79 (round trip).** Every exported training experiment can be imported.  Data set, batch size,
loss function and epochs are the same, the learning rate is rounded to 32 bits, and the model consists of
new module objects, one for each child and in the same order, with the same class, the carried attributes,
and a default configuration of the same class. -/
theorem C79_round_trip (f32 : ℚ → ℚ) (dflt : String → Cfg) (e : Training) (m : TrainMsg)
    (h : trainToProto f32 e = .ok m) :
    ∃ e' l l', trainFromProto dflt m = .ok e' ∧
      e'.dataset = e.dataset ∧ e'.batchSize = e.batchSize ∧ e'.loss = e.loss ∧ e'.epochs = e.epochs ∧
      e'.lr = f32 e.lr ∧ e.model = .seq l ∧ e'.model = .seq l' ∧ (l'.map (·.1)).Nodup ∧
      List.Forall₂ (fun (p q : Nat × Obj) => TrainReloaded f32 dflt p.2 q.2) (children l) l' := by
  obtain ⟨h1, h2, h3, h4, h5, h6, _, _⟩ := train_ok h
  obtain ⟨l, hl, hf⟩ := model_written h3
  obtain ⟨l', r1, r2, r3⟩ := model_reload (dflt := dflt) (mk := trainCfg dflt)
    (R := TrainReloaded f32 dflt) (fun p _ it _ h => item_train h) hf
  refine ⟨⟨e.dataset, .seq l', m.batchSize, e.loss, m.epochs, f32 e.lr⟩, l, l', ?_, rfl, h2, rfl, h5,
    rfl, hl, rfl, r2, r3⟩
  unfold trainFromProto
  rw [dsOf_dsId h1, r1, lossOf_lossId h4, h6]
  rfl

/-! ## What is lost -/

/-- **C79 (bias of analog layers).** `AnalogLinear` and `AnalogConv2d` keep the flag `bias` as an
attribute, and `False` is not `None`: the layer comes back with a bias.  Layers whose attribute is the
parameter or `None` keep their choice. -/
theorem C79_bias (f32 : ℚ → ℚ) (dflt : String → Cfg) (o o' : Obj) (h : TrainReloaded f32 dflt o o') :
    (∀ b, (o.cls = .analogLinear ∨ o.cls = .analogConv2d) → get o.attrs "bias" = some (.bool b) →
      get o'.attrs "bias" = some (.bool true)) ∧
    (∀ v, (o.cls = .linear ∨ o.cls = .conv2d ∨ o.cls = .convTranspose2d) →
      (v = .param ∨ v = .none) → get o.attrs "bias" = some v → get o'.attrs "bias" = some v) := by
  have key : ∃ c, Reloaded f32 o o' c := by
    by_cases hA : o.cls.isAnalog = true
    · obtain ⟨d, s, _, _, hR⟩ := h.2 hA
      exact ⟨_, hR⟩
    · exact ⟨_, h.1 (by simpa using hA)⟩
  obtain ⟨c, R⟩ := key
  constructor
  · rintro b (hc | hc) hb <;>
    · have := R.bias (by rw [hc]; rfl)
      rw [this, hc]
      simp [biasAttr, writesBias, hb]
  · rintro v (hc | hc | hc) (rfl | rfl) hb <;>
    · have := R.bias (by rw [hc]; rfl)
      rw [this, hc]
      simp [biasAttr, writesBias, hb, truthy]

/-- **C79 (omega is lost).** The weight scaling omega of an analog layer after the round trip is that of
a default configuration object, whatever it was before. -/
theorem C79_omega (f32 : ℚ → ℚ) (dflt : String → Cfg) (o o' : Obj) (h : TrainReloaded f32 dflt o o')
    (hA : o.cls.isAnalog = true) :
    ∃ d d' s, o.cfg = some d ∧ d.cls = .known s ∧ o'.cfg = some d' ∧ d'.omega = (dflt s).omega ∧
      d'.stray = some (f32 d.omega) := by
  obtain ⟨d, s, h1, h2, R⟩ := h.2 hA
  exact ⟨d, _, s, h1, h2, R.cfg, rfl, rfl⟩

/-! ## Exporting again -/

theorem fits_survives {f32 : ℚ → ℚ} {ty : Ty} {v w : Val} (hf : Fits ty v) (h : Survives f32 ty v w) :
    Fits ty w := by
  cases ty with
  | int =>
    rcases h with ⟨i, rfl, rfl⟩ | ⟨b, rfl, rfl⟩
    · exact hf
    · left
      refine ⟨b.toNat, rfl, ?_⟩
      cases b <;> norm_num
  | bool =>
    rcases h with ⟨b, _, rfl⟩ | ⟨i, _, rfl⟩ <;> exact .inl ⟨_, rfl⟩
  | float =>
    rcases h with ⟨q, _, rfl⟩ | ⟨i, _, rfl⟩ | ⟨b, _, rfl⟩ <;> exact .inl ⟨_, rfl⟩
  | ints =>
    rcases h with ⟨l, rfl, rfl⟩ | ⟨i, rfl, rfl⟩ | ⟨b, rfl, rfl⟩
    · exact hf
    · left
      refine ⟨_, rfl, ?_⟩
      rcases hf with ⟨l, h, _⟩ | ⟨j, h, hj⟩ | ⟨b, h⟩
      · cases h
      · cases h
        intro x hx
        simp only [List.mem_cons, List.not_mem_nil, or_false, or_self] at hx
        rw [hx]; exact hj
      · cases h
    · left
      refine ⟨_, rfl, ?_⟩
      intro x hx
      simp only [List.mem_cons, List.not_mem_nil, or_false, or_self] at hx
      rw [hx]
      cases b <;> norm_num
  | str => cases h; exact hf

theorem writable_again {f32 : ℚ → ℚ} {dflt : String → Cfg} {o o' : Obj}
    (hd : ∀ s, (dflt s).cls = .known s) (W : Writable .training o) (h : TrainReloaded f32 dflt o o') :
    Writable .training o' := by
  have key : ∃ c, Reloaded f32 o o' c ∧ (o.cls.isAnalog = true → ∃ d s, c = some d ∧ d.cls = .known s ∧
      s ∈ cfgClasses .training) := by
    by_cases hA : o.cls.isAnalog = true
    · obtain ⟨d, s, e1, e2, hR⟩ := h.2 hA
      obtain ⟨d', s', e1', e2', e3'⟩ := W.cfg hA
      rw [e1] at e1'; cases e1'
      rw [e2] at e2'; cases e2'
      exact ⟨_, hR, fun _ => ⟨_, s, rfl, hd s, e3'⟩⟩
    · exact ⟨_, h.1 (by simpa using hA), fun h => absurd h hA⟩
  obtain ⟨c, R, hc⟩ := key
  refine ⟨by rw [R.cls]; exact W.cls, ?_, ?_⟩
  · intro n ty hm
    rw [R.cls] at hm
    obtain ⟨v, w, h1, h2, h3⟩ := R.carried n ty hm
    obtain ⟨v', h1', hf⟩ := W.carried n ty hm
    rw [h1] at h1'; cases h1'
    exact ⟨w, h2, fits_survives hf h3⟩
  · intro hA
    rw [R.cls] at hA
    obtain ⟨d, s, e1, e2, e3⟩ := hc hA
    exact ⟨d, s, by rw [R.cfg, e1], e2, e3⟩

/-- **C79 (again).** An imported experiment can be exported again, and after the second import every
attribute, the data set, the loss, batch size and epochs are those of the first import, and the
configuration differs at most in the misspelled attribute.  (`hfl`: analog layers have the flag `bias`, as
their constructors set it.) -/
theorem C79_again (f32 : ℚ → ℚ) (hf : ∀ q, f32 (f32 q) = f32 q) (dflt : String → Cfg)
    (hd : ∀ s, (dflt s).cls = .known s) (e e' : Training) (m : TrainMsg)
    (hfl : ∀ l, e.model = .seq l → ∀ p ∈ l, p.2.cls = .analogLinear ∨ p.2.cls = .analogConv2d →
      ∃ b, get p.2.attrs "bias" = some (.bool b))
    (h : trainToProto f32 e = .ok m) (h' : trainFromProto dflt m = .ok e') :
    ∃ m' e'', trainToProto f32 e' = .ok m' ∧ trainFromProto dflt m' = .ok e'' ∧
      e''.dataset = e'.dataset ∧ e''.batchSize = e'.batchSize ∧ e''.loss = e'.loss ∧
      e''.epochs = e'.epochs ∧ e''.lr = e'.lr ∧
      ∃ l' l'', e'.model = .seq l' ∧ e''.model = .seq l'' ∧
        List.Forall₂ (fun (p q : Nat × Obj) => q.2.cls = p.2.cls ∧
          (∀ n, get q.2.attrs n = get p.2.attrs n) ∧
          (q.2.cfg.map fun c => { c with stray := none }) = p.2.cfg.map fun c => { c with stray := none })
          l' l'' := by
  obtain ⟨e1, l, l', r0, r1, r2, r3, r4, r5, r6, r7, r8, r9⟩ := C79_round_trip f32 dflt e m h
  rw [r0] at h'; cases h'
  obtain ⟨x1, x2, x3, x4, l0, xl, xw⟩ := (C79_export_iff f32 e).mp ⟨m, h⟩
  rw [r6] at xl; cases xl
  have hch : children l' = l' := children_eq r8
  have W : ∀ p ∈ l', Writable .training p.2 := by
    have xw' : ∀ p ∈ children l, Writable .training p.2 :=
      fun p hp => xw p ((children_sub l).subset hp) hp
    clear hch r8 r7 xw r6
    generalize children l = cl at r9 xw'
    induction r9 with
    | nil => simp
    | @cons p q _ _ hp _ ih =>
      intro x hx
      rcases List.mem_cons.mp hx with rfl | hx
      · exact writable_again hd (xw' _ (by simp)) hp
      · exact ih (fun p hp => xw' p (by simp [hp])) x hx
  obtain ⟨m', hm'⟩ := (C79_export_iff f32 e').mpr
    ⟨by rw [r1]; exact x1, by rw [r3]; exact x2, by rw [r2]; exact x3, by rw [r4]; exact x4, l', r7,
      fun p hp _ => W p hp⟩
  obtain ⟨e2, la, lb, s0, s1, s2, s3, s4, s5, s6, s7, s8, s9⟩ := C79_round_trip f32 dflt e' m' hm'
  rw [r7] at s6; cases s6
  rw [hch] at s9
  refine ⟨m', e2, hm', s0, s1, s2, s3, s4, by rw [s5, r5, hf], l', lb, r7, s7, ?_⟩
  have comp : ∀ a b c, (a.cls = .analogLinear ∨ a.cls = .analogConv2d →
      ∃ b, get a.attrs "bias" = some (.bool b)) → a.cls ≠ .analogLinearMapped → TrainReloaded f32 dflt a b → TrainReloaded f32 dflt b c →
      c.cls = b.cls ∧ (∀ n, get c.attrs n = get b.attrs n) ∧
      (c.cfg.map fun c => { c with stray := none }) = b.cfg.map fun c => { c with stray := none } := by
    intro a b c hfa hnm hab hbc
    have ka : ∃ x, Reloaded f32 a b x := by
      by_cases hA : a.cls.isAnalog = true
      · obtain ⟨d, s, _, _, hR⟩ := hab.2 hA; exact ⟨_, hR⟩
      · exact ⟨_, hab.1 (by simpa using hA)⟩
    obtain ⟨xa, Ra⟩ := ka
    have kb : ∃ x, Reloaded f32 b c x ∧
        (x.map fun c => { c with stray := none }) = b.cfg.map fun c => { c with stray := none } := by
      by_cases hA : b.cls.isAnalog = true
      · obtain ⟨d, s, e1, e2, hR⟩ := hbc.2 hA
        obtain ⟨d', s', e1', e2', hR'⟩ := hab.2 (by rw [← Ra.cls]; exact hA)
        refine ⟨_, hR, ?_⟩
        rw [hR'.cfg] at e1 ⊢
        cases e1
        have : s' = s := by
          have := hd s'
          simp only at e2
          rw [this] at e2
          cases e2; rfl
        subst this
        rfl
      · refine ⟨_, hbc.1 (by simpa using hA), ?_⟩
        have := (hab.1 (by rw [← Ra.cls]; simpa using hA)).cfg
        rw [this]
    obtain ⟨xb, Rb, hxb⟩ := kb
    refine ⟨Rb.cls, ?_, by rw [Rb.cfg]; exact hxb⟩
    intro n
    by_cases hn : n ∈ (carried a.cls).map (·.1)
    · obtain ⟨⟨n', ty⟩, hm, rfl⟩ := List.mem_map.mp hn
      obtain ⟨v, w, h1, h2, h3⟩ := Ra.carried n' ty hm
      obtain ⟨v', w', h1', h2', h3'⟩ := Rb.carried n' ty (by rw [Ra.cls]; exact hm)
      rw [h2] at h1'; cases h1'
      show get c.attrs n' = get b.attrs n'
      rw [h2', h2]
      congr 1
      cases ty with
      | int => rcases h3 with ⟨i, _, rfl⟩ | ⟨i, _, rfl⟩ <;> simpa [Survives] using h3'
      | bool =>
        rcases h3 with ⟨i, _, rfl⟩ | ⟨i, _, rfl⟩ <;>
        · rcases h3' with ⟨b, h, rfl⟩ | ⟨j, h, _⟩
          · cases h; rfl
          · cases h
      | float => rcases h3 with ⟨i, _, rfl⟩ | ⟨i, _, rfl⟩ | ⟨i, _, rfl⟩ <;> simpa [Survives, hf] using h3'
      | ints => rcases h3 with ⟨i, _, rfl⟩ | ⟨i, _, rfl⟩ | ⟨i, _, rfl⟩ <;> simpa [Survives] using h3'
      | str => exact h3'
    · by_cases hb : hasBias a.cls = true ∧ n = "bias"
      · obtain ⟨hb, rfl⟩ := hb
        have ea := Ra.bias hb
        have eb := Rb.bias (by rw [Ra.cls]; exact hb)
        rw [eb, ea, Ra.cls]
        congr 1
        by_cases hc : a.cls = .analogLinear ∨ a.cls = .analogConv2d
        · obtain ⟨x, hx⟩ := hfa hc
          have hwa : writesBias a = true := by simp [writesBias, hx]
          have hwb : writesBias b = true := by
            unfold writesBias
            rw [ea, hwa]
            rcases hc with hc | hc <;> rw [hc] <;> simp [biasAttr]
          rw [hwa, hwb]
        · rw [not_or] at hc
          have hbb : ∀ v, biasAttr a.cls v = if truthy v then .param else .none := by
            intro v
            revert hc hnm
            cases a.cls <;> simp [biasAttr]
          have hwb : writesBias b = writesBias a := by
            unfold writesBias
            rw [ea, hbb]
            cases hw : writesBias a <;> simp [truthy] <;> simpa [writesBias] using hw
          rw [hwb]
      · rw [Ra.lost n hn (fun h1 h2 => hb ⟨h1, h2⟩),
          Rb.lost n (by rw [Ra.cls]; exact hn) (fun h1 h2 => hb ⟨by rw [← Ra.cls]; exact h1, h2⟩), Ra.cls]
  have hcl : ∀ p ∈ children l, (p.2.cls = .analogLinear ∨ p.2.cls = .analogConv2d →
      ∃ b, get p.2.attrs "bias" = some (.bool b)) ∧ p.2.cls ≠ .analogLinearMapped := by
    intro p hp
    have hp' := (children_sub l).subset hp
    refine ⟨hfl l r6 p hp', ?_⟩
    intro hc
    have := (xw p hp' hp).cls
    rw [hc] at this
    cases this
  clear s8 s7 hm' s0 hch W r7 r8 xw r6
  revert s9 r9 hcl
  generalize children l = cl
  intro r9 s9 hcl
  induction r9 generalizing lb with
  | nil => cases s9; exact .nil
  | cons hp _ ih =>
    cases s9 with
    | cons hq hr =>
      exact .cons (comp _ _ _ (hcl _ (by simp)).1 (hcl _ (by simp)).2 hp hq)
        (ih _ hr (fun p hp => hcl p (by simp [hp])))

end Aihw.Cloud
