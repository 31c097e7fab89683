import Verif.Settings.Spec

/-!
# Lemmas: references between tiles and configurations
-/
namespace Aihw.Settings
open Aihw

variable {V : Type}

/-- Part objects exist and belong to one configuration. -/
structure HInv (h : Heap V) : Prop where
  bound : ∀ c p, c < h.nc → h.cfg c p < h.np
  inj : ∀ c p d q, c < h.nc → d < h.nc → h.cfg c p = h.cfg d q → c = d ∧ p = q

theorem Part.index_inj (p q : Part) (h : p.index = q.index) : p = q := by
  cases p <;> cases q <;> first | rfl | (exfalso; revert h; decide)

theorem Part.index_lt (p : Part) : p.index < 12 := by cases p <;> decide

theorem Part.ofIndex_index (p : Part) : Part.ofIndex p.index = p := by cases p <;> rfl

theorem HInv.newConfig {h : Heap V} (i : HInv h) (v : Part → V) (cls : String) : HInv (h.newConfig v cls) := by
  constructor
  · intro c p hc
    show (if c = h.nc then h.np + p.index else h.cfg c p) < h.np + 12
    have := p.index_lt
    split_ifs with e
    · omega
    · have := i.bound c p (by have : c < h.nc + 1 := hc; omega)
      omega
  · intro c p d q hc hd
    show (if c = h.nc then h.np + p.index else h.cfg c p) =
      (if d = h.nc then h.np + q.index else h.cfg d q) → _
    have hc' : c < h.nc + 1 := hc
    have hd' : d < h.nc + 1 := hd
    split_ifs with e1 e2 e2
    · intro e
      exact ⟨by omega, Part.index_inj _ _ (by omega)⟩
    · intro e
      have := i.bound d q (by omega)
      omega
    · intro e
      have := i.bound c p (by omega)
      omega
    · exact i.inj c p d q (by omega) (by omega)

theorem HInv.deepcopy {h : Heap V} (i : HInv h) (c₀ : ℕ) (h₀ : c₀ < h.nc) : HInv (h.deepcopy c₀) := by
  constructor
  · intro c p hc
    show (if c = h.nc then h.np + h.cfg c₀ p else h.cfg c p) < h.np + h.np
    have := i.bound c₀ p h₀
    split_ifs with e
    · omega
    · have := i.bound c p (by have : c < h.nc + 1 := hc; omega)
      omega
  · intro c p d q hc hd
    show (if c = h.nc then h.np + h.cfg c₀ p else h.cfg c p) =
      (if d = h.nc then h.np + h.cfg c₀ q else h.cfg d q) → _
    have hc' : c < h.nc + 1 := hc
    have hd' : d < h.nc + 1 := hd
    split_ifs with e1 e2 e2
    · intro e
      exact ⟨by omega, (i.inj c₀ p c₀ q h₀ h₀ (by omega)).2⟩
    · intro e
      have := i.bound d q (by omega)
      omega
    · intro e
      have := i.bound c p (by omega)
      omega
    · exact i.inj c p d q (by omega) (by omega)

theorem HInv.assign {h : Heap V} (i : HInv h) (c₀ : ℕ) (p₀ : Part) (v : V) : HInv (h.assign c₀ p₀ v) := by
  constructor
  · intro c p hc
    show (if c = c₀ ∧ p = p₀ then h.np else h.cfg c p) < h.np + 1
    split_ifs with e
    · omega
    · have := i.bound c p hc
      omega
  · intro c p d q hc hd
    show (if c = c₀ ∧ p = p₀ then h.np else h.cfg c p) = (if d = c₀ ∧ q = p₀ then h.np else h.cfg d q) → _
    have b1 := i.bound c p hc
    have b2 := i.bound d q hd
    split_ifs with e1 e2 e2
    · intro _
      exact ⟨e1.1.trans e2.1.symm, e1.2.trans e2.2.symm⟩
    · intro e; omega
    · intro e; omega
    · exact i.inj c p d q hc hd

theorem HInv.setPart {h : Heap V} (i : HInv h) (c₀ : ℕ) (p₀ : Part) (v : V) : HInv (h.setPart c₀ p₀ v) :=
  ⟨i.bound, i.inj⟩

theorem HInv.setClass {h : Heap V} (i : HInv h) (c₀ : ℕ) (n : String) : HInv (h.setClass c₀ n) :=
  ⟨i.bound, i.inj⟩

/-! ## Reading -/

theorem read_newConfig {h : Heap V} (i : HInv h) (v : Part → V) (cls : String) (c : ℕ) (p : Part) (hc : c < h.nc) :
    (h.newConfig v cls).read c p = h.read c p := by
  have b := i.bound c p hc
  show (if (if c = h.nc then h.np + p.index else h.cfg c p) < h.np then h.val _ else _) = _
  rw [if_neg (by omega : ¬ c = h.nc), if_pos b]
  show h.val (if c = h.nc then _ else _) = _
  rw [if_neg (by omega : ¬ c = h.nc)]
  rfl

theorem read_deepcopy {h : Heap V} (i : HInv h) (c₀ c : ℕ) (p : Part) (hc : c < h.nc) :
    (h.deepcopy c₀).read c p = h.read c p := by
  have b := i.bound c p hc
  show (if (if c = h.nc then h.np + h.cfg c₀ p else h.cfg c p) < h.np then h.val _ else _) = _
  rw [if_neg (by omega : ¬ c = h.nc), if_pos b]
  show h.val (if c = h.nc then _ else _) = _
  rw [if_neg (by omega : ¬ c = h.nc)]
  rfl

theorem read_copied {h : Heap V} (c₀ : ℕ) (p : Part) : (h.deepcopy c₀).read h.nc p = h.read c₀ p := by
  show (if (if h.nc = h.nc then h.np + h.cfg c₀ p else h.cfg h.nc p) < h.np then h.val _ else h.val (_ - _)) = _
  rw [if_pos rfl, if_neg (by omega)]
  show h.val ((if h.nc = h.nc then _ else _) - _) = _
  rw [if_pos rfl]
  show h.val _ = h.val _
  congr 1
  omega

theorem read_setPart {h : Heap V} (i : HInv h) (c₀ : ℕ) (p₀ : Part) (v : V) (c : ℕ) (p : Part) (hc : c < h.nc)
    (h₀ : c₀ < h.nc) (hn : ¬ (c₀ = c ∧ p₀ = p)) : (h.setPart c₀ p₀ v).read c p = h.read c p := by
  show (if h.cfg c p = h.cfg c₀ p₀ then v else _) = _
  rw [if_neg]
  · rfl
  · intro e
    obtain ⟨rfl, rfl⟩ := i.inj _ _ _ _ hc h₀ e
    exact hn ⟨rfl, rfl⟩

theorem read_setPart_self {h : Heap V} (c : ℕ) (p : Part) (v : V) : (h.setPart c p v).read c p = v := by
  show (if h.cfg c p = h.cfg c p then v else _) = _
  rw [if_pos rfl]

theorem read_assign {h : Heap V} (i : HInv h) (c₀ : ℕ) (p₀ : Part) (v : V) (c : ℕ) (p : Part) (hc : c < h.nc)
    (hn : ¬ (c₀ = c ∧ p₀ = p)) : (h.assign c₀ p₀ v).read c p = h.read c p := by
  have b := i.bound c p hc
  show (if (if c = c₀ ∧ p = p₀ then h.np else h.cfg c p) = h.np then v else h.val (if c = c₀ ∧ p = p₀ then _ else _)) = _
  have hn' : ¬ (c = c₀ ∧ p = p₀) := fun e => hn ⟨e.1.symm, e.2.symm⟩
  rw [if_neg hn', if_neg (by omega)]
  rfl

theorem read_assign_self {h : Heap V} (c : ℕ) (p : Part) (v : V) : (h.assign c p v).read c p = v := by
  show (if (if c = c ∧ p = p then h.np else h.cfg c p) = h.np then v else _) = _
  have e : (if c = c ∧ p = p then h.np else h.cfg c p) = h.np := if_pos ⟨rfl, rfl⟩
  rw [if_pos e]

/-! ## The invariant of the world -/

/-- References point to existing objects. -/
structure Inv (w : World V) : Prop where
  heap : HInv w.heap
  own : ∀ t, t < w.nt → (w.tile t).own < w.heap.nc
  ref : ∀ t, t < w.nt → ∀ p, (w.tile t).ref p < w.heap.np
  saved : ∀ s, s < w.ns → w.saved s < w.heap.nc

theorem Start.inv {w : World V} (s : Start w) : Inv w := by
  obtain ⟨a, b, c, d⟩ := s
  refine ⟨⟨?_, ?_⟩, ?_, ?_, ?_⟩
  · intro _ _ h; omega
  · intro _ _ _ _ h; omega
  · intro _ h; omega
  · intro _ h; omega
  · intro _ h; omega

theorem setConfig_own (x : Tile V) (h : Heap V) : (x.setConfig h).own = x.own := by
  cases x with | mk k o s r m => cases k <;> rfl
theorem setConfig_sim (x : Tile V) (h : Heap V) : (x.setConfig h).sim = x.sim := by
  cases x with | mk k o s r m => cases k <;> rfl
theorem setConfig_tmp (x : Tile V) (h : Heap V) : (x.setConfig h).tmp = x.tmp := by
  cases x with | mk k o s r m => cases k <;> rfl
theorem setConfig_kind (x : Tile V) (h : Heap V) : (x.setConfig h).kind = x.kind := by
  cases x with | mk k o s r m => cases k <;> rfl
theorem setConfig_ref (x : Tile V) (h : Heap V) (p : Part) :
    (x.setConfig h).ref p = x.ref p ∨ (x.setConfig h).ref p = h.cfg x.own p := by
  cases x with | mk k o s r m =>
    cases k
    · exact .inl rfl
    · show (if _ then _ else _) = _ ∨ (if _ then _ else _) = _
      split_ifs
      · exact .inr rfl
      · exact .inl rfl
    · show (if _ then _ else _) = _ ∨ (if _ then _ else _) = _
      split_ifs
      · exact .inr rfl
      · exact .inl rfl
    · show (if _ then _ else _) = _ ∨ (if _ then _ else _) = _
      split_ifs
      · exact .inr rfl
      · exact .inl rfl
    · exact .inl rfl

theorem recreate_own (x : Tile V) (h : Heap V) : (x.recreate h).own = x.own := by
  cases x with | mk k o s r m => cases k <;> rfl
theorem recreate_tmp (x : Tile V) (h : Heap V) : (x.recreate h).tmp = x.tmp := by
  cases x with | mk k o s r m => cases k <;> rfl
theorem recreate_kind (x : Tile V) (h : Heap V) : (x.recreate h).kind = x.kind := by
  cases x with | mk k o s r m => cases k <;> rfl
theorem recreate_ref (x : Tile V) (h : Heap V) (p : Part) :
    (x.recreate h).ref p = x.ref p ∨ (x.recreate h).ref p = h.cfg x.own p := by
  cases x with | mk k o s r m => cases k <;> first | exact .inl rfl | exact .inr rfl

theorem cached_own (sem : Sem V) (x : Tile V) (h : Heap V) (p : Part) : (cached sem x h p).1.own = x.own := by
  unfold cached; split_ifs <;> rfl
theorem cached_sim (sem : Sem V) (x : Tile V) (h : Heap V) (p : Part) : (cached sem x h p).1.sim = x.sim := by
  unfold cached; split_ifs <;> rfl
theorem cached_ref (sem : Sem V) (x : Tile V) (h : Heap V) (p : Part) : (cached sem x h p).1.ref = x.ref := by
  unfold cached; split_ifs <;> rfl
theorem cached_kind (sem : Sem V) (x : Tile V) (h : Heap V) (p : Part) : (cached sem x h p).1.kind = x.kind := by
  unfold cached; split_ifs <;> rfl

theorem postUpdate_same (sem : Sem V) (x : Tile V) (h : Heap V) :
    (x.postUpdate sem h).1.own = x.own ∧ (x.postUpdate sem h).1.sim = x.sim ∧
    (x.postUpdate sem h).1.ref = x.ref ∧ (x.postUpdate sem h).1.kind = x.kind := by
  unfold Tile.postUpdate
  split
  · dsimp only
    simp only [cached_own, cached_sim, cached_ref, cached_kind, and_self]
  all_goals exact ⟨rfl, rfl, rfl, rfl⟩

theorem step_inv (sem : Sem V) {w : World V} (i : Inv w) (o : Op V) : Inv (step sem w o).1 := by
  cases o with
  | config v cls =>
    refine ⟨i.heap.newConfig v cls, ?_, ?_, ?_⟩
    · intro t ht
      exact Nat.lt_succ_of_lt (i.own t ht)
    · intro t ht p
      exact Nat.lt_of_lt_of_le (i.ref t ht p) (Nat.le_add_right _ _)
    · intro s hs
      exact Nat.lt_succ_of_lt (i.saved s hs)
  | setPart c p v =>
    simp only [step]
    split_ifs
    · exact ⟨i.heap.setPart c p v, i.own, i.ref, i.saved⟩
    · exact i
  | assign c p v =>
    simp only [step]
    split_ifs
    · exact ⟨i.heap.assign c p v, i.own, fun t ht q => Nat.lt_succ_of_lt (i.ref t ht q), i.saved⟩
    · exact i
  | construct k c =>
    simp only [step]
    split_ifs with hc
    · refine ⟨i.heap.deepcopy c hc, ?_, ?_, ?_⟩
      · intro t ht
        have ht' : t < w.nt + 1 := ht
        show (if t = w.nt then _ else w.tile t).own < w.heap.nc + 1
        split_ifs with e
        · exact Nat.lt_succ_self _
        · exact Nat.lt_succ_of_lt (i.own t (by omega))
      · intro t ht p
        have ht' : t < w.nt + 1 := ht
        show (if t = w.nt then _ else w.tile t).ref p < w.heap.np + w.heap.np
        split_ifs with e
        · show (if c = w.heap.nc then _ else w.heap.cfg c p) < _
          rw [if_neg (by omega)]
          have := i.heap.bound c p hc
          omega
        · have := i.ref t (by omega) p
          omega
      · intro s hs
        exact Nat.lt_succ_of_lt (i.saved s hs)
    · exact i
  | forward t₀ =>
    simp only [step]
    split_ifs with h₀
    · refine ⟨i.heap, ?_, ?_, i.saved⟩
      · intro t ht
        show (if t = t₀ then _ else w.tile t).own < _
        split_ifs with e
        · rw [setConfig_own]; exact i.own t₀ h₀
        · exact i.own t ht
      · intro t ht p
        show (if t = t₀ then _ else w.tile t).ref p < _
        split_ifs with e
        · rcases setConfig_ref (w.tile t₀) w.heap p with h | h
          · rw [h]; exact i.ref t₀ h₀ p
          · rw [h]; exact i.heap.bound _ _ (i.own t₀ h₀)
        · exact i.ref t ht p
    · exact i
  | backward t => simp only [step]; split_ifs <;> exact i
  | update t => simp only [step]; split_ifs <;> exact i
  | readout t => simp only [step]; split_ifs <;> exact i
  | postUpdate t₀ =>
    simp only [step]
    split_ifs with h₀
    · obtain ⟨a, b, c, -⟩ := postUpdate_same sem (w.tile t₀) w.heap
      refine ⟨i.heap, ?_, ?_, i.saved⟩
      · intro t ht
        show (if t = t₀ then _ else w.tile t).own < _
        split_ifs with e
        · rw [a]; exact i.own t₀ h₀
        · exact i.own t ht
      · intro t ht p
        show (if t = t₀ then _ else w.tile t).ref p < _
        split_ifs with e
        · rw [c]; exact i.ref t₀ h₀ p
        · exact i.ref t ht p
    · exact i
  | save t₀ =>
    simp only [step]
    split_ifs with h₀
    · refine ⟨i.heap, ?_, ?_, ?_⟩
      · intro t ht
        show (if t = t₀ then _ else w.tile t).own < _
        split_ifs with e
        · exact i.own t₀ h₀
        · exact i.own t ht
      · intro t ht p
        show (if t = t₀ then _ else w.tile t).ref p < _
        split_ifs with e
        · exact i.ref t₀ h₀ p
        · exact i.ref t ht p
      · intro s hs
        have hs' : s < w.ns + 1 := hs
        show (if s = w.ns then _ else w.saved s) < _
        split_ifs with e
        · exact i.own t₀ h₀
        · exact i.saved s (by omega)
    · exact i
  | load t₀ s b =>
    simp only [step]
    have ho : t₀ < w.nt ∧ s < w.ns → w.loadedConfig t₀ s b < w.heap.nc := by
      intro h
      unfold World.loadedConfig
      split_ifs
      · exact i.saved s h.2
      · exact i.own t₀ h.1
    split_ifs with h₀ hk
    · refine ⟨i.heap, ?_, ?_, i.saved⟩
      · intro t ht
        show (if t = t₀ then _ else w.tile t).own < _
        split_ifs with e
        · exact ho h₀
        · exact i.own t ht
      · intro t ht p
        show (if t = t₀ then _ else w.tile t).ref p < _
        split_ifs with e
        · exact i.ref t₀ h₀.1 p
        · exact i.ref t ht p
    · refine ⟨i.heap.setClass _ _, ?_, ?_, i.saved⟩
      · intro t ht
        show (if t = t₀ then _ else w.tile t).own < _
        split_ifs with e
        · rw [recreate_own]; exact ho h₀
        · exact i.own t ht
      · intro t ht p
        show (if t = t₀ then _ else w.tile t).ref p < _
        split_ifs with e
        · rcases recreate_ref { w.tile t₀ with own := w.loadedConfig t₀ s b }
            (w.heap.setClass (w.loadedConfig t₀ s b) (w.heap.cls (w.tile t₀).own)) p with h | h
          · rw [h]; exact i.ref t₀ h₀.1 p
          · rw [h]; exact i.heap.bound _ _ (ho h₀)
        · exact i.ref t ht p
    · exact i
  | replace t₀ c =>
    simp only [step]
    split_ifs with h₀ hk
    · exact i
    · refine ⟨(i.heap.deepcopy c h₀.2).setClass _ _, ?_, ?_, ?_⟩
      · intro t ht
        show (if t = t₀ then _ else w.tile t).own < w.heap.nc + 1
        split_ifs with e
        · rw [recreate_own]; exact Nat.lt_succ_self _
        · exact Nat.lt_succ_of_lt (i.own t ht)
      · intro t ht p
        show (if t = t₀ then _ else w.tile t).ref p < w.heap.np + w.heap.np
        split_ifs with e
        · rcases recreate_ref { (w.tile t₀).dropTmp with own := w.heap.nc }
            ((w.heap.deepcopy c).setClass w.heap.nc (w.heap.cls (w.tile t₀).own)) p with h | h
          · rw [h]
            have : ((w.tile t₀).dropTmp.ref p) < w.heap.np := i.ref t₀ h₀.1 p
            show (w.tile t₀).dropTmp.ref p < _
            omega
          · rw [h]; exact (i.heap.deepcopy c h₀.2).bound _ _ (Nat.lt_succ_self _)
        · have := i.ref t ht p
          omega
      · intro s hs
        exact Nat.lt_succ_of_lt (i.saved s hs)
    · exact i
  | copy t₀ =>
    simp only [step]
    split_ifs with h₀
    · have hc := i.own t₀ h₀
      refine ⟨i.heap.deepcopy _ hc, ?_, ?_, ?_⟩
      · intro t ht
        have ht' : t < w.nt + 1 := ht
        show (if t = w.nt then _ else if t = t₀ then _ else w.tile t).own < w.heap.nc + 1
        split_ifs with e e2
        · rw [recreate_own]; exact Nat.lt_succ_self _
        · exact Nat.lt_succ_of_lt hc
        · exact Nat.lt_succ_of_lt (i.own t (by omega))
      · intro t ht p
        have ht' : t < w.nt + 1 := ht
        show (if t = w.nt then _ else if t = t₀ then _ else w.tile t).ref p < w.heap.np + w.heap.np
        split_ifs with e e2
        · rcases recreate_ref { (w.tile t₀).dropTmp with
              own := w.heap.nc, ref := fun p => w.heap.np + (w.tile t₀).ref p }
            (w.heap.deepcopy (w.tile t₀).own) p with h | h
          · rw [h]
            have := i.ref t₀ h₀ p
            show w.heap.np + (w.tile t₀).ref p < _
            omega
          · rw [h]; exact (i.heap.deepcopy _ hc).bound _ _ (Nat.lt_succ_self _)
        · have := i.ref t₀ h₀ p
          show (w.tile t₀).ref p < _
          omega
        · have := i.ref t (by omega) p
          omega
      · intro s hs
        exact Nat.lt_succ_of_lt (i.saved s hs)
    · exact i

theorem run_inv (sem : Sem V) (l : List (Op V)) : ∀ {w : World V}, Inv w → Inv (run sem w l) := by
  induction l with
  | nil => exact fun i => i
  | cons o l ih => exact fun i => ih (step_inv sem i o)

theorem Reached.inv {sem : Sem V} {w : World V} (r : Reached sem w) : Inv w := by
  obtain ⟨w₀, l, s, rfl⟩ := r
  exact run_inv sem l s.inv

end Aihw.Settings
