import Verif.Settings.Lemmas

/-!
# Lemmas: what one call changes
-/
namespace Aihw.Settings
open Aihw

variable {V : Type}

/-- What a call can do to an existing tile. -/
inductive Change (sem : Sem V) (w : World V) (t : ℕ) (o : Op V) : Tile V → Prop
  | same : Change sem w t o (w.tile t)
  | forward : o = .forward t → Change sem w t o ((w.tile t).setConfig w.heap)
  | post : o = .postUpdate t → Change sem w t o ((w.tile t).postUpdate sem w.heap).1
  | drop : Change sem w t o (w.tile t).dropTmp
  | remade (own : ℕ) (m : Part → Option V) (h : Heap V) : Rebinds t o →
      Change sem w t o (Tile.recreate { w.tile t with own := own, tmp := m } h)
  | moved (own : ℕ) : Rebinds t o → Change sem w t o { w.tile t with own := own }

theorem tile_step (sem : Sem V) (w : World V) (o : Op V) (t : ℕ) (ht : t < w.nt) :
    Change sem w t o ((step sem w o).1.tile t) := by
  cases o with
  | config v cls => exact .same
  | setPart c p v => simp only [step]; split_ifs <;> exact .same
  | assign c p v => simp only [step]; split_ifs <;> exact .same
  | construct k c =>
    simp only [step]
    split_ifs
    · show Change _ _ _ _ (if t = w.nt then _ else w.tile t)
      rw [if_neg (by omega)]
      exact .same
    · exact .same
  | forward t₀ =>
    simp only [step]
    split_ifs
    · show Change _ _ _ _ (if t = t₀ then _ else w.tile t)
      split_ifs with e
      · subst e; exact .forward rfl
      · exact .same
    · exact .same
  | backward t => simp only [step]; split_ifs <;> exact .same
  | update t => simp only [step]; split_ifs <;> exact .same
  | readout t => simp only [step]; split_ifs <;> exact .same
  | postUpdate t₀ =>
    simp only [step]
    split_ifs
    · show Change _ _ _ _ (if t = t₀ then _ else w.tile t)
      split_ifs with e
      · subst e; exact .post rfl
      · exact .same
    · exact .same
  | save t₀ =>
    simp only [step]
    split_ifs
    · show Change _ _ _ _ (if t = t₀ then _ else w.tile t)
      split_ifs with e
      · subst e; exact .drop
      · exact .same
    · exact .same
  | load t₀ s b =>
    simp only [step]
    split_ifs
    · show Change _ _ _ _ (if t = t₀ then _ else w.tile t)
      split_ifs with e
      · subst e; exact .moved _ rfl
      · exact .same
    · show Change _ _ _ _ (if t = t₀ then _ else w.tile t)
      split_ifs with e
      · subst e; exact .remade _ _ _ rfl
      · exact .same
    · exact .same
  | replace t₀ c =>
    simp only [step]
    split_ifs
    · exact .same
    · show Change _ _ _ _ (if t = t₀ then _ else w.tile t)
      split_ifs with e
      · subst e; exact .remade _ _ _ rfl
      · exact .same
    · exact .same
  | copy t₀ =>
    simp only [step]
    split_ifs
    · show Change _ _ _ _ (if t = w.nt then _ else if t = t₀ then _ else w.tile t)
      rw [if_neg (by omega)]
      split_ifs with e
      · subst e; exact .drop
      · exact .same
    · exact .same

theorem kind_frame (sem : Sem V) (w : World V) (o : Op V) (t : ℕ) (ht : t < w.nt) :
    ((step sem w o).1.tile t).kind = (w.tile t).kind := by
  generalize e : (step sem w o).1.tile t = y
  have h := tile_step sem w o t ht
  rw [e] at h
  cases h with
  | same => rfl
  | forward _ => exact setConfig_kind _ _
  | post _ => exact (postUpdate_same _ _ _).2.2.2
  | drop => rfl
  | remade own m h _ => exact recreate_kind _ _
  | moved own _ => rfl

theorem own_frame (sem : Sem V) (w : World V) (o : Op V) (t : ℕ) (ht : t < w.nt) (hr : ¬ Rebinds t o) :
    ((step sem w o).1.tile t).own = (w.tile t).own ∧ ((step sem w o).1.tile t).sim = (w.tile t).sim := by
  generalize e : (step sem w o).1.tile t = y
  have h := tile_step sem w o t ht
  rw [e] at h
  cases h with
  | same => exact ⟨rfl, rfl⟩
  | forward _ => exact ⟨setConfig_own _ _, setConfig_sim _ _⟩
  | post _ => exact ⟨(postUpdate_same _ _ _).1, (postUpdate_same _ _ _).2.1⟩
  | drop => exact ⟨rfl, rfl⟩
  | remade own m h r => exact absurd r hr
  | moved own r => exact absurd r hr

/-- The references of torch and transfer tiles change only in a forward pass, and of these only
two. -/
theorem ref_frame (sem : Sem V) (w : World V) (o : Op V) (t : ℕ) (ht : t < w.nt) (p : Part)
    (hk : (w.tile t).kind = .transfer ∨
      (((w.tile t).kind = .torch ∨ (w.tile t).kind = .torchIR) ∧ (IsForward t o → p ≠ .forward ∧ p ≠ .modifier))) :
    ((step sem w o).1.tile t).ref p = (w.tile t).ref p := by
  generalize e : (step sem w o).1.tile t = y
  have h := tile_step sem w o t ht
  rw [e] at h
  have hne : (w.tile t).kind ≠ .cpp ∧ (w.tile t).kind ≠ .custom := by
    rcases hk with h | ⟨h | h, -⟩ <;> rw [h] <;> exact ⟨by decide, by decide⟩
  cases h with
  | same => rfl
  | forward h =>
    unfold Tile.setConfig
    rcases hk with h' | ⟨h' | h', h2⟩
    · rw [h']
    · rw [h']
      obtain ⟨a, b⟩ := h2 (by subst h; exact rfl)
      show (if p = .forward ∨ p = .modifier then _ else _) = _
      rw [if_neg (by rintro (c | c); exact a c; exact b c)]
    · rw [h']
      obtain ⟨a, b⟩ := h2 (by subst h; exact rfl)
      show (if p = .forward ∨ p = .modifier then _ else _) = _
      rw [if_neg (by rintro (c | c); exact a c; exact b c)]
  | post _ => rw [(postUpdate_same _ _ _).2.2.1]
  | drop => rfl
  | remade own m h _ =>
    unfold Tile.recreate
    rcases hk with h' | ⟨h' | h', -⟩ <;> rw [h']
  | moved own _ => rfl

/-- The number of tiles never shrinks. -/
theorem nt_frame (sem : Sem V) (w : World V) (o : Op V) : w.nt ≤ (step sem w o).1.nt := by
  cases o <;> simp only [step] <;> (try split_ifs) <;> first | exact le_refl w.nt | exact Nat.le_succ w.nt

/-- The heap after a call. -/
inductive HChange (w : World V) (o : Op V) : Heap V → Prop
  | same : HChange w o w.heap
  | new (v : Part → V) (cls : String) : HChange w o (w.heap.newConfig v cls)
  | set (c : ℕ) (p : Part) (v : V) : c < w.heap.nc → o = .setPart c p v → HChange w o (w.heap.setPart c p v)
  | assign (c : ℕ) (p : Part) (v : V) : o = .assign c p v → HChange w o (w.heap.assign c p v)
  | copy (c : ℕ) : HChange w o (w.heap.deepcopy c)
  | copyClass (c d : ℕ) (n : String) : HChange w o ((w.heap.deepcopy c).setClass d n)
  | cls (d : ℕ) (n : String) : HChange w o (w.heap.setClass d n)

theorem heap_step (sem : Sem V) (w : World V) (o : Op V) : HChange w o (step sem w o).1.heap := by
  cases o with
  | config v cls => exact .new v cls
  | setPart c p v =>
    simp only [step]
    split_ifs with h
    · exact .set c p v h rfl
    · exact .same
  | assign c p v =>
    simp only [step]
    split_ifs with h
    · exact .assign c p v rfl
    · exact .same
  | construct k c =>
    simp only [step]
    split_ifs
    · exact .copy c
    · exact .same
  | forward t₀ => simp only [step]; split_ifs <;> exact .same
  | backward t => simp only [step]; split_ifs <;> exact .same
  | update t => simp only [step]; split_ifs <;> exact .same
  | readout t => simp only [step]; split_ifs <;> exact .same
  | postUpdate t₀ => simp only [step]; split_ifs <;> exact .same
  | save t₀ => simp only [step]; split_ifs <;> exact .same
  | load t₀ s b =>
    simp only [step]
    split_ifs
    · exact .same
    · exact .cls _ _
    · exact .same
  | replace t₀ c =>
    simp only [step]
    split_ifs
    · exact .same
    · exact .copyClass _ _ _
    · exact .same
  | copy t₀ =>
    simp only [step]
    split_ifs
    · exact .copy _
    · exact .same

theorem nc_frame (sem : Sem V) (w : World V) (o : Op V) : w.heap.nc ≤ (step sem w o).1.heap.nc := by
  have h := heap_step sem w o
  generalize (step sem w o).1.heap = y at h
  cases h <;> first | exact le_refl _ | exact Nat.le_succ _

theorem read_frame (sem : Sem V) {w : World V} (i : HInv w.heap) (o : Op V) (c : ℕ) (p : Part) (hc : c < w.heap.nc)
    (he : ¬ Edits c p o) : (step sem w o).1.heap.read c p = w.heap.read c p := by
  have h := heap_step sem w o
  generalize (step sem w o).1.heap = y at h
  cases h with
  | same => rfl
  | new v cls => exact read_newConfig i v cls c p hc
  | set c₀ p₀ v h₀ e => subst e; exact read_setPart i c₀ p₀ v c p hc h₀ he
  | assign c₀ p₀ v e => subst e; exact read_assign i c₀ p₀ v c p hc he
  | copy c₀ => exact read_deepcopy i c₀ c p hc
  | copyClass c₀ d n => exact read_deepcopy i c₀ c p hc
  | cls d n => rfl

theorem cfg_frame (sem : Sem V) (w : World V) (o : Op V) (c : ℕ) (p : Part) (hc : c < w.heap.nc)
    (he : ¬ Assigns c p o) : (step sem w o).1.heap.cfg c p = w.heap.cfg c p := by
  have h := heap_step sem w o
  generalize (step sem w o).1.heap = y at h
  cases h with
  | same => rfl
  | new v cls => show (if c = w.heap.nc then _ else _) = _; rw [if_neg (by omega)]
  | set c₀ p₀ v h₀ e => rfl
  | assign c₀ p₀ v e =>
    subst e
    show (if c = c₀ ∧ p = p₀ then _ else _) = _
    rw [if_neg]
    exact fun e => he ⟨e.1.symm, e.2.symm⟩
  | copy c₀ => show (if c = w.heap.nc then _ else _) = _; rw [if_neg (by omega)]
  | copyClass c₀ d n => show (if c = w.heap.nc then _ else _) = _; rw [if_neg (by omega)]
  | cls d n => rfl

/-! ## Programs -/

theorem run_nt (sem : Sem V) (l : List (Op V)) : ∀ w : World V, w.nt ≤ (run sem w l).nt := by
  induction l with
  | nil => exact fun _ => le_refl _
  | cons o l ih => exact fun w => le_trans (nt_frame sem w o) (ih _)

theorem run_nc (sem : Sem V) (l : List (Op V)) : ∀ w : World V, w.heap.nc ≤ (run sem w l).heap.nc := by
  induction l with
  | nil => exact fun _ => le_refl _
  | cons o l ih => exact fun w => le_trans (nc_frame sem w o) (ih _)

theorem run_kind (sem : Sem V) (l : List (Op V)) (t : ℕ) :
    ∀ w : World V, t < w.nt → ((run sem w l).tile t).kind = (w.tile t).kind := by
  induction l with
  | nil => exact fun _ _ => rfl
  | cons o l ih =>
    intro w ht
    exact (ih _ (lt_of_lt_of_le ht (nt_frame sem w o))).trans (kind_frame sem w o t ht)

theorem run_own (sem : Sem V) (l : List (Op V)) (t : ℕ) :
    ∀ w : World V, t < w.nt → (∀ o ∈ l, ¬ Rebinds t o) →
      ((run sem w l).tile t).own = (w.tile t).own ∧ ((run sem w l).tile t).sim = (w.tile t).sim := by
  induction l with
  | nil => exact fun _ _ _ => ⟨rfl, rfl⟩
  | cons o l ih =>
    intro w ht hl
    obtain ⟨a, b⟩ := own_frame sem w o t ht (hl o (List.mem_cons_self ..))
    obtain ⟨c, d⟩ := ih _ (lt_of_lt_of_le ht (nt_frame sem w o)) fun o' h => hl o' (List.mem_cons_of_mem _ h)
    exact ⟨c.trans a, d.trans b⟩

theorem run_read (sem : Sem V) (l : List (Op V)) (c : ℕ) (p : Part) :
    ∀ w : World V, Inv w → c < w.heap.nc → (∀ o ∈ l, ¬ Edits c p o) →
      (run sem w l).heap.read c p = w.heap.read c p := by
  induction l with
  | nil => exact fun _ _ _ _ => rfl
  | cons o l ih =>
    intro w i hc hl
    exact (ih _ (step_inv sem i o) (lt_of_lt_of_le hc (nc_frame sem w o)) fun o' h =>
      hl o' (List.mem_cons_of_mem _ h)).trans (read_frame sem i.heap o c p hc (hl o (List.mem_cons_self ..)))

theorem run_cfg (sem : Sem V) (l : List (Op V)) (c : ℕ) (p : Part) :
    ∀ w : World V, c < w.heap.nc → (∀ o ∈ l, ¬ Assigns c p o) → (run sem w l).heap.cfg c p = w.heap.cfg c p := by
  induction l with
  | nil => exact fun _ _ _ => rfl
  | cons o l ih =>
    intro w hc hl
    exact (ih _ (lt_of_lt_of_le hc (nc_frame sem w o)) fun o' h =>
      hl o' (List.mem_cons_of_mem _ h)).trans (cfg_frame sem w o c p hc (hl o (List.mem_cons_self ..)))

theorem run_ref (sem : Sem V) (l : List (Op V)) (t : ℕ) (p : Part) :
    ∀ w : World V, t < w.nt → ((w.tile t).kind = .transfer ∨
      (((w.tile t).kind = .torch ∨ (w.tile t).kind = .torchIR) ∧
        ((∃ o ∈ l, IsForward t o) → p ≠ .forward ∧ p ≠ .modifier))) →
      ((run sem w l).tile t).ref p = (w.tile t).ref p := by
  induction l with
  | nil => exact fun _ _ _ => rfl
  | cons o l ih =>
    intro w ht hk
    have e := kind_frame sem w o t ht
    refine (ih _ (lt_of_lt_of_le ht (nt_frame sem w o)) ?_).trans (ref_frame sem w o t ht p ?_)
    · rw [e]
      rcases hk with h | ⟨h, h2⟩
      · exact .inl h
      · exact .inr ⟨h, fun ⟨o', m, f⟩ => h2 ⟨o', List.mem_cons_of_mem _ m, f⟩⟩
    · rcases hk with h | ⟨h, h2⟩
      · exact .inl h
      · exact .inr ⟨h, fun f => h2 ⟨o, List.mem_cons_self .., f⟩⟩

end Aihw.Settings
