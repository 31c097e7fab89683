import Verif.Extra.Pars

/-!
# Forward and backward parameters: proofs
-/
namespace Aihw.Extra

theorem pick_len {dic : Dict} {k : Key} {x : ℚ} (h : ∀ v, find dic k = some v → v.length = 1) :
    [(pick dic k [x]).headD 0] = pick dic k [x] := by
  unfold pick
  cases hf : find dic k with
  | none => rfl
  | some v =>
    have := h v hf
    show [v.headD 0] = v
    match v, this with
    | [y], _ => rfl

theorem named_replaced {dic : Dict} {m : MvPar} (h : ∀ x ∈ m.named, ∀ v, find dic x.1 = some v → v.length = x.2.length) :
    (m.replaced dic).named = m.named.map fun x => (x.1, pick dic x.1 x.2) := by
  have := pick_len (x := m.outNlFactor) (h (key "out_nonlinearity_factor", [m.outNlFactor]) (by unfold MvPar.named; simp))
  unfold MvPar.named MvPar.replaced
  simp only [this, List.map_cons, List.map_nil]

/-- One pass: the dictionary of the replaced pass. -/
theorem upd_pass (fwd : Bool) (dic : Dict) (f : FbPass) (h : ∀ x ∈ (f.side fwd).named, ∀ v, find dic x.1 = some v → v.length = x.2.length)
    (g : Dict → Dict) (hg : ∀ f : FbPass, g f.spec = f.spec.map fun x => (sub (key "rpu") (sub (key "fb_pass") x.1), x.2)) :
    (g f.spec).map (upd fwd dic) = g (f.replaced fwd dic).spec := by
  have h4 := pick_len (x := (f.side fwd).outNlFactor) (h (key "out_nonlinearity_factor", [(f.side fwd).outNlFactor]) (by unfold MvPar.named; simp))
  rw [hg, hg]
  cases fwd with
  | false =>
    have h4' : [(pick dic (key "out_nonlinearity_factor") [f.bwd.outNlFactor]).headD 0] =
      pick dic (key "out_nonlinearity_factor") [f.bwd.outNlFactor] := h4
    unfold FbPass.replaced FbPass.setSide MvPar.replaced FbPass.side FbPass.spec FbPass.spec1
    simp only [Bool.false_eq_true, if_false, h4']
    rfl
  | true =>
    have h4' : [(pick dic (key "out_nonlinearity_factor") [f.fwd.outNlFactor]).headD 0] =
      pick dic (key "out_nonlinearity_factor") [f.fwd.outNlFactor] := h4
    unfold FbPass.replaced FbPass.setSide MvPar.replaced FbPass.side FbPass.spec FbPass.spec1
    simp only [if_true, h4']
    rfl

theorem upd_trans (fwd : Bool) (dic : Dict) (f : FbPass) (h : ∀ x ∈ (f.side fwd).named, ∀ v, find dic x.1 = some v → v.length = x.2.length)
    (g : Dict → Dict)
    (hg : ∀ f : FbPass, g f.spec = f.spec.map fun x => (sub (key "rpu") (sub (key "rpu_device") (sub (key "transfer_fb_pass") x.1)), x.2)) :
    (g f.spec).map (upd fwd dic) = g (f.replaced fwd dic).spec := by
  have h4 := pick_len (x := (f.side fwd).outNlFactor) (h (key "out_nonlinearity_factor", [(f.side fwd).outNlFactor]) (by unfold MvPar.named; simp))
  rw [hg, hg]
  cases fwd with
  | false =>
    have h4' : [(pick dic (key "out_nonlinearity_factor") [f.bwd.outNlFactor]).headD 0] =
      pick dic (key "out_nonlinearity_factor") [f.bwd.outNlFactor] := h4
    unfold FbPass.replaced FbPass.setSide MvPar.replaced FbPass.side FbPass.spec FbPass.spec1
    simp only [Bool.false_eq_true, if_false, h4']
    rfl
  | true =>
    have h4' : [(pick dic (key "out_nonlinearity_factor") [f.fwd.outNlFactor]).headD 0] =
      pick dic (key "out_nonlinearity_factor") [f.fwd.outNlFactor] := h4
    unfold FbPass.replaced FbPass.setSide MvPar.replaced FbPass.side FbPass.spec FbPass.spec1
    simp only [if_true, h4']
    rfl

/-- All entries outside the passes, below `rpu`, of a pulsed tile with a device. -/
theorem prefixed_free {fwd : Bool} {d : Dict} (h : Free fwd d) : Free fwd (prefixed (key "rpu") d) :=
  free_prefixed (by decide) (by cases fwd <;> decide) h

theorem device_free {fwd : Bool} {d : Dict} (h : Free fwd d) : Free fwd (prefixed (key "rpu_device") d) :=
  free_prefixed (by decide) (by cases fwd <;> decide) h

/-- Selection and replacement in the part of the device. -/
theorem dev_sel (fwd : Bool) (dic : Dict) (d : Top) (hp : d.Plain)
    (h : ∀ x, d.trans = some x → ∀ y ∈ (x.fb.side fwd).named, ∀ v, find dic y.1 = some v → v.length = y.2.length) :
    (prefixed (key "rpu") (prefixed (key "rpu_device") d.spec)).filterMap (selOne fwd) =
      ((d.trans.map fun x => located (transLoc fwd) (x.fb.side fwd)).getD []) ∧
    (prefixed (key "rpu") (prefixed (key "rpu_device") d.spec)).map (upd fwd dic) =
      prefixed (key "rpu") (prefixed (key "rpu_device") (d.replaced fwd dic).spec) := by
  cases d with
  | simple dr =>
    have := prefixed_free (device_free (driftSpec_free fwd dr))
    exact ⟨sel_free this, upd_free this⟩
  | mixed d m =>
    have := prefixed_free (device_free (mixed_free fwd d m hp.2))
    exact ⟨sel_free this, upd_free this⟩
  | pulsed d =>
    cases d with
    | leaf b =>
      have := prefixed_free (device_free (b.free fwd))
      exact ⟨sel_free this, upd_free this⟩
    | cell b subs v t =>
      cases t with
      | none =>
        have := prefixed_free (device_free ((Dev.cell b subs v none).free fwd rfl))
        exact ⟨sel_free this, upd_free this⟩
      | some x =>
        have f1 := prefixed_free (device_free (x.free_sub fwd).1)
        have f2 := prefixed_free (device_free (x.free_sub fwd).2)
        have f3 := prefixed_free (device_free (free_prefixed (p := key "transfer_pwu") (by decide) (by cases fwd <;> decide) (x.pwu.free fwd)))
        have f4 := prefixed_free (device_free (x.free_fields fwd))
        have f5 := prefixed_free (device_free (cellOwn_free fwd (subs.map Dev.base) v))
        have f6 := prefixed_free (device_free (b.free fwd))
        have hx := h x rfl
        have e : ∀ y : TransSt, (Top.pulsed (Dev.cell b subs v (some y))).spec = (optSpec DynSt.spec y.dyn ++ (optSpec ChopSt.spec y.chop ++
            (prefixed (key "transfer_pwu") y.pwu.spec ++ (prefixed (key "transfer_fb_pass") y.fb.spec ++ y.fields)))) ++
              (cellOwn (subs.map Dev.base) v ++ b.spec) := fun y => rfl
        constructor
        · rw [e]
          simp only [prefixed_append, List.filterMap_append]
          rw [sel_free f1, sel_free f2, sel_free f3, sel_free f4, sel_free f5, sel_free f6, sel_trans]
          simp only [List.nil_append, List.append_nil]
          rfl
        · have e2 : ((Top.pulsed (Dev.cell b subs v (some x))).replaced fwd dic) = Top.pulsed (Dev.cell b subs v (some (x.replaced fwd dic))) := rfl
          rw [e2, e, e]
          simp only [prefixed_append, List.map_append]
          rw [upd_free f1, upd_free f2, upd_free f3, upd_free f4, upd_free f5, upd_free f6,
            upd_trans fwd dic x.fb hx (fun d => prefixed (key "rpu") (prefixed (key "rpu_device") (prefixed (key "transfer_fb_pass") d)))
              (fun f => by unfold prefixed; rw [List.map_map, List.map_map]; rfl)]
          rfl

/-- The entries selected in a dump. -/
def Tile.selected (fwd : Bool) (t : Tile) : List (Key × Key × Vec) :=
  match t.pulsed with
  | none => []
  | some s => (((s.dev.trans.map fun x => located (transLoc fwd) (x.fb.side fwd)).getD []) ++ located (ownLoc fwd) (s.fb.side fwd))

theorem tile_sel (fwd : Bool) (dic : Dict) (t : Tile) (hp : t.Plain) :
    (prefixed (key "rpu") t.spec).filterMap (selOne fwd) = t.selected fwd ∧
    (Fits fwd t dic → (prefixed (key "rpu") t.spec).map (upd fwd dic) = prefixed (key "rpu") (t.replaced fwd dic).spec) := by
  have fs := prefixed_free (t.free_simple fwd)
  unfold Tile.selected Fits Tile.passes
  cases h : t.pulsed with
  | none =>
    have e : t.spec = t.simpleSpec := by unfold Tile.spec; rw [h]; rfl
    have e2 : (t.replaced fwd dic).spec = t.simpleSpec := by unfold Tile.spec Tile.replaced; rw [h]; rfl
    rw [e, e2]
    exact ⟨sel_free fs, fun _ => upd_free fs⟩
  | some s =>
    have e : t.spec = s.spec ++ t.simpleSpec := by unfold Tile.spec; rw [h]; rfl
    have e2 : (t.replaced fwd dic).spec = (s.replaced fwd dic).spec ++ t.simpleSpec := by unfold Tile.spec Tile.replaced; rw [h]; rfl
    have fp := prefixed_free (free_prefixed (p := key "pwu") (by decide) (by cases fwd <;> decide) (s.pwu.free fwd))
    constructor
    · rw [e]
      unfold PulsedSt.spec
      simp only [prefixed_append, List.filterMap_append]
      rw [sel_free fs, sel_free fp, sel_own, (dev_sel fwd [] s.dev (hp s h) (fun _ _ _ _ _ hv => by cases hv)).1]
      simp only [List.append_nil]
    · intro hf
      have h1 := hf (s.fb.side fwd) List.mem_cons_self
      have h2 := (dev_sel fwd dic s.dev (hp s h) (by
        intro x hx
        refine hf (x.fb.side fwd) (List.mem_cons_of_mem _ ?_)
        rw [hx]
        exact List.mem_cons_self)).2
      rw [e, e2]
      unfold PulsedSt.spec
      simp only [prefixed_append, List.map_append]
      rw [upd_free fs, upd_free fp, h2, upd_pass fwd dic s.fb h1 (fun d => prefixed (key "rpu") (prefixed (key "fb_pass") d))
        (fun f => by unfold prefixed; rw [List.map_map]; rfl)]
      rfl

/-! ## The loop -/

theorem setLoop_err {dic : Dict} {l : List (Key × Key × Vec)} : ∀ extra : Dict,
    (∃ x ∈ l, ∃ v, find dic x.1 = some v ∧ v.length ≠ x.2.2.length) → setLoop dic l extra = .error .argumentError := by
  induction l with
  | nil => rintro _ ⟨x, hx, _⟩; cases hx
  | cons x l ih =>
    obtain ⟨s, full, old⟩ := x
    rintro extra ⟨y, hy, v, hv, hl⟩
    unfold setLoop
    rcases List.mem_cons.1 hy with rfl | hy
    · simp only [] at hv hl
      rw [hv]
      show (if _ then _ else _) = _
      rw [if_pos hl]
    · cases hs : find dic s with
      | none => exact ih extra ⟨y, hy, v, hv, hl⟩
      | some w =>
        show (if _ then _ else _) = _
        by_cases hw : w.length ≠ old.length
        · rw [if_pos hw]
        · rw [if_neg hw]
          exact ih _ ⟨y, hy, v, hv, hl⟩

theorem setLoop_ok {fwd : Bool} {dic : Dict} {l : List (Key × Key × Vec)} : ∀ extra : Dict,
    (∀ x ∈ l, afterLast (sidePre fwd) x.2.1 = some x.1) →
    (∀ x ∈ l, ∀ v, find dic x.1 = some v → v.length = x.2.2.length) →
    ∃ e, setLoop dic l extra = .ok e ∧
      ∀ q, find e q = if q ∈ l.map (·.2.1) then ((afterLast (sidePre fwd) q).bind (find dic)).or (find extra q) else find extra q := by
  induction l with
  | nil => intro extra _ _; exact ⟨extra, rfl, fun q => by simp⟩
  | cons x l ih =>
    obtain ⟨s, full, old⟩ := x
    intro extra ha hl
    have h1 : afterLast (sidePre fwd) full = some s := ha (s, full, old) List.mem_cons_self
    unfold setLoop
    cases hs : find dic s with
    | none =>
      obtain ⟨e, he, g⟩ := ih extra (fun x hx => ha x (List.mem_cons_of_mem _ hx)) (fun x hx => hl x (List.mem_cons_of_mem _ hx))
      refine ⟨e, he, fun q => ?_⟩
      rw [g q, List.map_cons]
      by_cases hq : q = full
      · subst hq
        simp [h1, hs]
      · simp only [List.mem_cons, hq, false_or]
    | some v =>
      have hv := hl (s, full, old) List.mem_cons_self v hs
      obtain ⟨e, he, g⟩ := ih (insert extra full v) (fun x hx => ha x (List.mem_cons_of_mem _ hx)) (fun x hx => hl x (List.mem_cons_of_mem _ hx))
      refine ⟨e, ?_, fun q => ?_⟩
      · show (if _ then _ else _) = _
        rw [if_neg (by simpa using hv)]
        exact he
      · rw [g q, find_insert, List.map_cons]
        by_cases hq : full = q
        · subst hq
          simp [h1, hs]
        · rw [if_neg hq]
          have : q ≠ full := fun e => hq e.symm
          simp only [List.mem_cons, this, false_or]

theorem perm_of_find {d e : Dict} (hd : WF d) (he : WF e) (h : ∀ q, find e q = find d q) : e.Perm d := by
  rw [List.perm_ext_iff_of_nodup (List.Nodup.of_map _ he) (List.Nodup.of_map _ hd)]
  rintro ⟨k, v⟩
  rw [← find_eq_some_iff he, ← find_eq_some_iff hd, h]

theorem find_map_upd (fwd : Bool) (dic d : Dict) (q : Key) :
    find (d.map (upd fwd dic)) q = (find d q).map fun v => ((afterLast (sidePre fwd) q).bind (find dic)).getD v := by
  induction d with
  | nil => rfl
  | cons x d ih =>
    show (if x.1 = q then _ else find (d.map (upd fwd dic)) q) = Option.map _ (if x.1 = q then some x.2 else find d q)
    by_cases h : x.1 = q
    · rw [if_pos h, if_pos h, ← h]; rfl
    · rw [if_neg h, if_neg h, ih]

/-- The selection of a tile, in some order. -/
theorem Tile.sel_perm (o : Order) (fwd : Bool) (t : Tile) (hp : t.Plain) {e : Dict} (he : WF e)
    (h : ∀ q, find e q = find (prefixed (key "rpu") t.spec) q) : (selectExtra o (sidePre fwd) e).Perm (t.selected fwd) := by
  have h1 := (o.perm e).trans (perm_of_find (wf_prefixed _ t.wf) he h)
  have := h1.filterMap (selOne fwd)
  rw [(tile_sel fwd [] t hp).1] at this
  exact this

theorem mem_sel {o : Order} {fwd : Bool} {e : Dict} {x : Key × Key × Vec} :
    x ∈ selectExtra o (sidePre fwd) e ↔ (x.2.1, x.2.2) ∈ e ∧ afterLast (sidePre fwd) x.2.1 = some x.1 := by
  unfold selectExtra
  rw [List.mem_filterMap]
  constructor
  · rintro ⟨y, hy, h⟩
    cases ha : afterLast (sidePre fwd) y.1 with
    | none => rw [ha] at h; cases h
    | some s =>
      rw [ha] at h
      obtain rfl : (s, y.1, y.2) = x := by simpa using h
      exact ⟨(o.perm e).mem_iff.1 hy, ha⟩
  · rintro ⟨h1, h2⟩
    exact ⟨_, (o.perm e).mem_iff.2 h1, by rw [h2]; rfl⟩

theorem restored_replaced (fwd : Bool) (dic : Dict) (t : Tile) : (t.replaced fwd dic).restored t = t.replaced fwd dic := by
  have hfb : fbRestored t.fb t.fb = t.fb := by
    cases t.fb with
    | none => rfl
    | some x =>
      unfold fbRestored
      show (if x.1 = [] then _ else some (x.1, x.2)) = _
      split <;> rfl
  have hbuf : (if t.delayed then t.wbuf ++ t.wbuf.drop t.wbuf.length else t.wbuf) = t.wbuf := by
    split <;> simp
  have hpu : pulsedRestored (t.replaced fwd dic).pulsed t.pulsed = (t.replaced fwd dic).pulsed := by
    unfold Tile.replaced
    cases t.pulsed with
    | none => rfl
    | some s =>
      have hd : (s.dev.replaced fwd dic).restored s.dev = s.dev.replaced fwd dic := by
        have hdev : ∀ d : Dev, (d.replaced fwd dic).restored d = d.replaced fwd dic := by
          intro d
          cases d with
          | leaf b => rfl
          | cell b subs v x =>
            cases x with
            | none => rfl
            | some x =>
              show Dev.cell b subs v (some ((x.replaced fwd dic).restored x)) = Dev.cell b subs v (some (x.replaced fwd dic))
              have : (x.replaced fwd dic).restored x = x.replaced fwd dic := by
                unfold TransSt.restored TransSt.replaced
                simp
              rw [this]
        have hdev2 : ∀ d : Dev, d.restored d = d := by
          intro d
          cases d with
          | leaf b => rfl
          | cell b subs v x =>
            cases x with
            | none => rfl
            | some x =>
              show Dev.cell b subs v (some (x.restored x)) = _
              have : x.restored x = x := by
                unfold TransSt.restored
                simp
              rw [this]
        cases s.dev with
        | simple dr => rfl
        | pulsed d =>
          show Top.pulsed ((d.replaced fwd dic).restored d) = _
          rw [hdev]; rfl
        | mixed d m =>
          show Top.mixed (d.restored d) _ = Top.mixed d m
          rw [hdev2]
          simp
      show some ((s.replaced fwd dic).restored s) = some (s.replaced fwd dic)
      unfold PulsedSt.restored
      have hd' : (s.replaced fwd dic).dev.restored s.dev = s.dev.replaced fwd dic := hd
      rw [hd']
      unfold PulsedSt.replaced
      simp
  unfold Tile.restored
  rw [hpu]
  have e1 : (t.replaced fwd dic).fb = t.fb := rfl
  have e2 : (t.replaced fwd dic).wbuf = t.wbuf := rfl
  have e3 : (t.replaced fwd dic).delayed = t.delayed := rfl
  rw [e1, e2, e3, hfb, hbuf]
  rfl

theorem dev_alike_self (d : Dev) (h : d.Flat) (f : Dev → Dev)
    (hf : ∀ b subs v t, ∃ t', f (.cell b subs v t) = .cell b subs v t' ∧ transAlike t' t) (hl : ∀ b, f (.leaf b) = .leaf b) : (f d).Alike d := by
  cases d with
  | leaf b => rw [hl]; exact rfl
  | cell b subs v t =>
    obtain ⟨t', h1, h2⟩ := hf b subs v t
    rw [h1]
    refine ⟨rfl, ?_, h2⟩
    rw [List.forall₂_same]
    intro x hx
    obtain ⟨c, rfl⟩ := h x hx
    exact ⟨c, c, rfl, rfl, rfl⟩

theorem transAlike_self (t : Option TransSt) : transAlike t t := by
  cases t with
  | none => trivial
  | some t => exact ⟨rfl, rfl⟩

theorem Dev.alike_self (d : Dev) (h : d.Flat) : d.Alike d :=
  dev_alike_self d h id (fun _ _ _ t => ⟨t, rfl, transAlike_self t⟩) (fun _ => rfl)

theorem replaced_alike (fwd : Bool) (dic : Dict) (t : Tile) (hp : t.Plain) : (t.replaced fwd dic).Alike t := by
  unfold Tile.Alike Tile.replaced
  cases h : t.pulsed with
  | none => trivial
  | some s =>
    show (s.dev.replaced fwd dic).Alike s.dev
    have := hp s h
    cases hd : s.dev with
    | simple dr => exact rfl
    | pulsed d =>
      rw [hd] at this
      refine dev_alike_self d this (Dev.replaced fwd dic) ?_ (fun _ => rfl)
      intro b subs v x
      refine ⟨_, rfl, ?_⟩
      cases x with
      | none => trivial
      | some x => exact ⟨rfl, rfl⟩
    | mixed d m =>
      rw [hd] at this
      exact ⟨Dev.alike_self d this.1, rfl⟩

theorem selected_shorts (fwd : Bool) (t : Tile) (k : Key) : (∃ x ∈ t.selected fwd, x.1 = k) ↔ ∃ m ∈ t.passes fwd, k ∈ m.named.map (·.1) := by
  have hl : ∀ (p : Key) (m : MvPar), (∃ x ∈ located p m, x.1 = k) ↔ k ∈ m.named.map (·.1) := by
    intro p m
    unfold located
    simp only [List.mem_map, exists_exists_and_eq_and]
  unfold Tile.selected Tile.passes
  cases t.pulsed with
  | none => simp
  | some s =>
    cases ht : s.dev.trans with
    | none =>
      simp only [ht, Option.map_none, Option.getD_none, List.nil_append, hl, Option.toList_none, List.mem_cons, List.not_mem_nil, or_false,
        exists_eq_left]
    | some x =>
      simp only [ht, Option.map_some, Option.getD_some, List.mem_append, or_and_right, exists_or, hl, Option.toList_some, List.mem_cons,
        List.not_mem_nil, or_false, exists_eq_left]
      exact Or.comm

theorem fits_iff (fwd : Bool) (t : Tile) (dic : Dict) :
    Fits fwd t dic ↔ ∀ x ∈ t.selected fwd, ∀ v, find dic x.1 = some v → v.length = x.2.2.length := by
  have hl : ∀ (p : Key) (m : MvPar), (∀ x ∈ located p m, ∀ v, find dic x.1 = some v → v.length = x.2.2.length) ↔
      ∀ x ∈ m.named, ∀ v, find dic x.1 = some v → v.length = x.2.length := by
    intro p m
    unfold located
    simp only [List.mem_map, forall_exists_index, and_imp, forall_apply_eq_imp_iff₂]
  unfold Fits Tile.selected Tile.passes
  cases t.pulsed with
  | none => simp
  | some s =>
    cases ht : s.dev.trans with
    | none =>
      simp only [ht, Option.map_none, Option.getD_none, List.nil_append, hl, Option.toList_none, List.mem_cons, List.not_mem_nil, or_false,
        forall_eq]
    | some x =>
      simp only [ht, Option.map_some, Option.getD_some, List.mem_append, or_imp, forall_and, hl, Option.toList_some, List.mem_cons,
        List.not_mem_nil, or_false, forall_eq]
      exact And.comm

/-- Setting the parameters. -/
theorem Tile.setPars_eq (o : Order) (new : Drift) (junk fwd : Bool) (dic : Dict) (t : Tile) (hp : t.Plain) :
    (Known fwd t dic → Fits fwd t dic → t.setPars new junk o (sidePre fwd) dic = .ok (t.replaced fwd dic)) ∧
    (¬ (Known fwd t dic ∧ Fits fwd t dic) → t.setPars new junk o (sidePre fwd) dic = .error .argumentError) := by
  obtain ⟨e, h1, h2, h3⟩ := t.dump_ok o hp
  have hsel := t.sel_perm o fwd hp h2 h3
  have hany : (dic.any fun x => !((selectExtra o (sidePre fwd) e).any fun y => decide (y.1 = x.1))) = true ↔ ¬ Known fwd t dic := by
    unfold Known
    simp only [List.any_eq_true, Bool.not_eq_true', List.any_eq_false, decide_eq_true_eq, not_forall]
    constructor
    · rintro ⟨x, hx, h⟩
      refine ⟨x, hx, fun hk => ?_⟩
      obtain ⟨y, hy, e'⟩ := (selected_shorts fwd t x.1).2 hk
      exact h y (hsel.mem_iff.2 hy) e'
    · rintro ⟨x, hx, h⟩
      refine ⟨x, hx, fun y hy e' => h ((selected_shorts fwd t x.1).1 ⟨y, hsel.mem_iff.1 hy, e'⟩)⟩
  have eq : t.setPars new junk o (sidePre fwd) dic = (setLoop dic (selectExtra o (sidePre fwd) e) e >>= fun extra =>
      if dic.any fun x => !((selectExtra o (sidePre fwd) e).any fun y => decide (y.1 = x.1)) then .error .argumentError
      else t.loadExtra new junk false extra) := by
    unfold Tile.setPars
    rw [h1]
    rfl
  rw [eq]
  have okcase : Fits fwd t dic → ∃ e', setLoop dic (selectExtra o (sidePre fwd) e) e = .ok e' ∧
      ∀ q, find e' q = find (prefixed (key "rpu") (t.replaced fwd dic).spec) q := by
    intro hf
    obtain ⟨e', g1, g2⟩ := setLoop_ok (fwd := fwd) (dic := dic) (l := selectExtra o (sidePre fwd) e) e (fun x hx => (mem_sel.1 hx).2)
      (fun x hx => (fits_iff fwd t dic).1 hf x (hsel.mem_iff.1 hx))
    refine ⟨e', g1, fun q => ?_⟩
    rw [g2 q, ← (tile_sel fwd dic t hp).2 hf, find_map_upd, ← h3 q]
    cases ha : afterLast (sidePre fwd) q with
    | none => simp
    | some s =>
      cases hq : find e q with
      | none =>
        rw [if_neg]
        · rfl
        · intro hm
          obtain ⟨x, hx, rfl⟩ := List.mem_map.1 hm
          have := (find_eq_some_iff h2 _ _).2 (mem_sel.1 hx).1
          rw [hq] at this; cases this
      | some v =>
        rw [if_pos]
        · cases hd : find dic s with
          | none => simp [hd]
          | some w => simp [hd]
        · exact List.mem_map.2 ⟨(s, q, v), mem_sel.2 ⟨(find_eq_some_iff h2 _ _).1 hq, ha⟩, rfl⟩
  constructor
  · intro hk hf
    obtain ⟨e', g1, g2⟩ := okcase hf
    rw [g1, ok_bind', if_neg (fun h => hany.1 h hk), Tile.load_of (t.replaced fwd dic) t new junk false (replaced_alike fwd dic t hp) g2,
      restored_replaced]
  · intro hn
    by_cases hf : Fits fwd t dic
    · obtain ⟨e', g1, g2⟩ := okcase hf
      rw [g1, ok_bind', if_pos (hany.2 fun hk => hn ⟨hk, hf⟩)]
    · rw [fits_iff] at hf
      push Not at hf
      obtain ⟨x, hx, v, hv, hl⟩ := hf
      rw [setLoop_err e ⟨x, hsel.mem_iff.2 hx, v, hv, hl⟩]
      rfl

/-! ## Reading -/

theorem fill_mem (l : List (Key × Vec)) : ∀ d : Dict, ∀ k v, find (fill d l) k = some v → (k, v) ∈ l ∨ find d k = some v := by
  induction l with
  | nil => intro d k v h; exact Or.inr h
  | cons x l ih =>
    intro d k v h
    rcases ih (insert d x.1 x.2) k v h with h | h
    · exact Or.inl (List.mem_cons_of_mem _ h)
    · rw [find_insert] at h
      by_cases hx : x.1 = k
      · rw [if_pos hx] at h
        left
        obtain rfl : x.2 = v := by simpa using h
        rw [← hx]
        exact List.mem_cons_self
      · rw [if_neg hx] at h
        exact Or.inr h

theorem fill_has (l : List (Key × Vec)) : ∀ d : Dict, ∀ k, (k ∈ l.map (·.1) ∨ (find d k).isSome) → (find (fill d l) k).isSome := by
  induction l with
  | nil => intro d k h; rcases h with h | h; cases h; exact h
  | cons x l ih =>
    intro d k h
    refine ih (insert d x.1 x.2) k ?_
    rw [find_insert]
    by_cases hx : x.1 = k
    · right; rw [if_pos hx]; rfl
    · rw [if_neg hx]
      rcases h with h | h
      · rw [List.map_cons, List.mem_cons] at h
        exact Or.inl (h.resolve_left (fun e => hx e.symm))
      · exact Or.inr h

theorem Tile.getPars_eq (o : Order) (fwd : Bool) (t : Tile) (hp : t.Plain) :
    ∃ d, t.getPars o (sidePre fwd) = .ok d ∧ (∀ k v, find d k = some v → ∃ m ∈ t.passes fwd, (k, v) ∈ m.named) ∧
      ∀ m ∈ t.passes fwd, ∀ x ∈ m.named, (find d x.1).isSome := by
  obtain ⟨e, h1, h2, h3⟩ := t.dump_ok o hp
  have hsel := t.sel_perm o fwd hp h2 h3
  have hval : ∀ x ∈ t.selected fwd, ∃ m ∈ t.passes fwd, (x.1, x.2.2) ∈ m.named := by
    have hl : ∀ (p : Key) (m : MvPar), ∀ x ∈ located p m, (x.1, x.2.2) ∈ m.named := by
      intro p m x hx
      obtain ⟨y, hy, rfl⟩ := List.mem_map.1 hx
      exact hy
    intro x hx
    unfold Tile.selected at hx
    unfold Tile.passes
    cases ht : t.pulsed with
    | none => rw [ht] at hx; cases hx
    | some s =>
      rw [ht] at hx
      rcases List.mem_append.1 hx with hx | hx
      · cases hd : s.dev.trans with
        | none => rw [hd] at hx; cases hx
        | some y =>
          rw [hd] at hx
          exact ⟨y.fb.side fwd, by simp [hd], hl _ _ x hx⟩
      · exact ⟨s.fb.side fwd, List.mem_cons_self, hl _ _ x hx⟩
  refine ⟨fill [] ((selectExtra o (sidePre fwd) e).map fun x => (x.1, x.2.2)), ?_, ?_, ?_⟩
  · unfold Tile.getPars; rw [h1]; rfl
  · intro k v h
    rcases fill_mem _ [] k v h with h | h
    · obtain ⟨x, hx, e'⟩ := List.mem_map.1 h
      obtain ⟨m, hm, hn⟩ := hval x (hsel.mem_iff.1 hx)
      exact ⟨m, hm, by rw [← e']; exact hn⟩
    · cases h
  · intro m hm x hx
    apply fill_has
    left
    obtain ⟨y, hy, e'⟩ := (selected_shorts fwd t x.1).2 ⟨m, hm, List.mem_map_of_mem hx⟩
    rw [List.map_map]
    exact List.mem_map.2 ⟨y, hsel.mem_iff.2 hy, e'⟩

end Aihw.Extra
