import Verif.Settings.Props

/-!
# C93: the cache of `post_update_step`, shared and foreign settings
-/
namespace Aihw.Settings
open Aihw

variable {V : Type}

/-- The value used by a cached step. -/
def cacheVal (sem : Sem V) (x : Tile V) (h : Heap V) (p : Part) : V :=
  if sem.onTheFly (h.read x.own .runtime) then h.read x.own p else (x.tmp p).getD (h.read x.own p)

theorem cached_mem (sem : Sem V) (x : Tile V) (h : Heap V) (p q : Part) (v : V) :
    (q, v) ∈ (cached sem x h p).2 ↔ q = p ∧ sem.active p (h.read x.own p) = true ∧ v = cacheVal sem x h p := by
  unfold cached cacheVal
  cases ha : sem.active p (h.read x.own p) <;> cases hf : sem.onTheFly (h.read x.own .runtime) <;>
    cases ht : x.tmp p <;> simp

theorem cached_tmp (sem : Sem V) (x : Tile V) (h : Heap V) (p q : Part) :
    (cached sem x h p).1.tmp q =
      if q = p ∧ sem.active p (h.read x.own p) = true then some (cacheVal sem x h p) else x.tmp q := by
  unfold cached cacheVal
  by_cases e : q = p
  · subst e
    cases ha : sem.active q (h.read x.own q) <;> cases hf : sem.onTheFly (h.read x.own .runtime) <;>
      cases ht : x.tmp q <;> simp [ht]
  · cases ha : sem.active p (h.read x.own p) <;> cases hf : sem.onTheFly (h.read x.own .runtime) <;>
      cases ht : x.tmp p <;> simp [e]

/-- The steps of `post_update_step` that have settings. -/
def Cached (p : Part) : Prop := p = .clip ∨ p = .remap ∨ p = .modifier

theorem cacheVal_cached (sem : Sem V) (x : Tile V) (h : Heap V) (p q : Part) (hn : q ≠ p) :
    cacheVal sem (cached sem x h p).1 h q = cacheVal sem x h q := by
  unfold cacheVal
  have e : (cached sem x h p).1.tmp q = x.tmp q := by
    rw [cached_tmp]
    exact if_neg fun e => hn e.1
  rw [cached_own, e]

theorem post_mem (sem : Sem V) (x : Tile V) (h : Heap V) (hk : x.kind = .cpp) (p : Part) (v : V) :
    (p, v) ∈ (x.postUpdate sem h).2 ↔
      Cached p ∧ sem.active p (h.read x.own p) = true ∧ v = cacheVal sem x h p := by
  unfold Tile.postUpdate Cached
  rw [hk]
  dsimp only
  rw [List.mem_append, List.mem_append, cached_mem, cached_mem, cached_mem]
  simp only [cached_own]
  rw [cacheVal_cached sem _ h .remap .modifier (by decide), cacheVal_cached sem _ h .clip .modifier (by decide),
    cacheVal_cached sem _ h .clip .remap (by decide)]
  constructor
  · rintro ((⟨rfl, a⟩ | ⟨rfl, a⟩) | ⟨rfl, a⟩)
    · exact ⟨.inl rfl, a⟩
    · exact ⟨.inr (.inl rfl), a⟩
    · exact ⟨.inr (.inr rfl), a⟩
  · rintro ⟨rfl | rfl | rfl, a⟩
    · exact .inl (.inl ⟨rfl, a⟩)
    · exact .inl (.inr ⟨rfl, a⟩)
    · exact .inr ⟨rfl, a⟩

theorem post_tmp (sem : Sem V) (x : Tile V) (h : Heap V) (hk : x.kind = .cpp) (p : Part)
    (hu : ∀ v, (p, v) ∉ (x.postUpdate sem h).2) : (x.postUpdate sem h).1.tmp p = x.tmp p := by
  have hn : ∀ q, p = q → Cached q → sem.active q (h.read x.own q) = true → False := by
    rintro q rfl hc ha
    exact hu _ ((post_mem sem x h hk p _).2 ⟨hc, ha, rfl⟩)
  unfold Tile.postUpdate
  rw [hk]
  dsimp only
  rw [cached_tmp, if_neg, cached_tmp, if_neg, cached_tmp, if_neg]
  · exact fun e => hn _ e.1 (.inl rfl) e.2
  · simp only [cached_own]
    exact fun e => hn _ e.1 (.inr (.inl rfl)) e.2
  · simp only [cached_own]
    exact fun e => hn _ e.1 (.inr (.inr rfl)) e.2

theorem post_tmp_used (sem : Sem V) (x : Tile V) (h : Heap V) (hk : x.kind = .cpp) (p : Part) (v : V)
    (hu : (p, v) ∈ (x.postUpdate sem h).2) : (x.postUpdate sem h).1.tmp p = some v := by
  obtain ⟨hc, ha, rfl⟩ := (post_mem sem x h hk p v).1 hu
  unfold Tile.postUpdate
  rw [hk]
  dsimp only
  rw [cached_tmp, cached_tmp, cached_tmp]
  simp only [cached_own]
  rw [cacheVal_cached sem _ h .remap .modifier (by decide), cacheVal_cached sem _ h .clip .modifier (by decide),
    cacheVal_cached sem _ h .clip .remap (by decide)]
  rcases hc with rfl | rfl | rfl
  · rw [if_neg (by rintro ⟨e, -⟩; cases e), if_neg (by rintro ⟨e, -⟩; cases e), if_pos ⟨rfl, ha⟩]
  · rw [if_neg (by rintro ⟨e, -⟩; cases e), if_pos ⟨rfl, ha⟩]
  · rw [if_pos ⟨rfl, ha⟩]

theorem used_post (sem : Sem V) (w : World V) (t : ℕ) (ht : t < w.nt) :
    usedBy sem w (.postUpdate t) = ((w.tile t).postUpdate sem w.heap).2 := by
  show (step sem w (.postUpdate t)).2 = _
  simp only [step]
  rw [if_pos ht]

open Classical in
/-- What an observer remembers after one more call. -/
noncomputable def remember (sem : Sem V) (t : ℕ) (p : Part) (w : World V) (o : Op V) (a : Option V) : Option V :=
  if TakesState w t o then none
  else if h : o = .postUpdate t ∧ ∃ v, (p, v) ∈ usedBy sem w o then some h.2.choose
  else a

theorem lastUse_cons (sem : Sem V) (t : ℕ) (p : Part) (w : World V) (o : Op V) (l : List (Op V)) (a : Option V) :
    lastUse sem t p w (o :: l) a = lastUse sem t p (step sem w o).1 l (remember sem t p w o a) := rfl

theorem remember_other (sem : Sem V) (t : ℕ) (p : Part) (w : World V) (o : Op V) (a : Option V)
    (h1 : ¬ TakesState w t o) (h2 : o ≠ .postUpdate t) : remember sem t p w o a = a := by
  unfold remember
  rw [if_neg h1, dif_neg (fun h => h2 h.1)]

theorem remember_takes (sem : Sem V) (t : ℕ) (p : Part) (w : World V) (o : Op V) (a : Option V)
    (h1 : TakesState w t o) : remember sem t p w o a = none := by
  unfold remember
  rw [if_pos h1]

/-- The cache holds what an observer remembers. -/
def Agree (t : ℕ) (p : Part) (w : World V) (a : Option V) : Prop :=
  (t < w.nt → (w.tile t).kind = .cpp → (w.tile t).tmp p = a) ∧ (w.nt ≤ t → a = none)

theorem agree_old (sem : Sem V) (t : ℕ) (p : Part) (w : World V) (o : Op V) (a : Option V) (ht : t < w.nt)
    (hk : (w.tile t).kind = .cpp) (ha : (w.tile t).tmp p = a) :
    ((step sem w o).1.tile t).tmp p = remember sem t p w o a := by
  cases o with
  | config v cls => rw [remember_other sem t p w (.config v cls) a (fun h => h) (by intro h; cases h)]; exact ha
  | setPart c q v =>
    rw [remember_other sem t p w (.setPart c q v) a (fun h => h) (by intro h; cases h)]
    simp only [step]; split_ifs <;> exact ha
  | assign c q v =>
    rw [remember_other sem t p w (.assign c q v) a (fun h => h) (by intro h; cases h)]
    simp only [step]; split_ifs <;> exact ha
  | construct k c =>
    rw [remember_other sem t p w (.construct k c) a (fun h => h) (by intro h; cases h)]
    simp only [step]
    split_ifs
    · show (if t = w.nt then _ else w.tile t).tmp p = _
      rw [if_neg (by omega)]; exact ha
    · exact ha
  | forward t₀ =>
    rw [remember_other sem t p w (.forward t₀) a (fun h => h) (by intro h; cases h)]
    simp only [step]
    split_ifs
    · show (if t = t₀ then _ else w.tile t).tmp p = _
      split_ifs with e
      · subst e; rw [setConfig_tmp]; exact ha
      · exact ha
    · exact ha
  | backward t₀ =>
    rw [remember_other sem t p w (.backward t₀) a (fun h => h) (by intro h; cases h)]
    simp only [step]; split_ifs <;> exact ha
  | update t₀ =>
    rw [remember_other sem t p w (.update t₀) a (fun h => h) (by intro h; cases h)]
    simp only [step]; split_ifs <;> exact ha
  | readout t₀ =>
    rw [remember_other sem t p w (.readout t₀) a (fun h => h) (by intro h; cases h)]
    simp only [step]; split_ifs <;> exact ha
  | postUpdate t₀ =>
    by_cases e : t₀ = t
    · subst e
      have e1 : (step sem w (.postUpdate t₀)).1.tile t₀ = ((w.tile t₀).postUpdate sem w.heap).1 := by
        simp only [step]; rw [if_pos ht]; exact if_pos rfl
      rw [e1]
      unfold remember
      rw [if_neg (show ¬ TakesState w t₀ (.postUpdate t₀) from fun h => h)]
      by_cases hu : ∃ v, (p, v) ∈ usedBy sem w (.postUpdate t₀)
      · rw [dif_pos ⟨rfl, hu⟩]
        have hm : ∀ v, (p, v) ∈ usedBy sem w (.postUpdate t₀) →
            ((w.tile t₀).postUpdate sem w.heap).1.tmp p = some v := by
          intro v hv
          rw [used_post sem w t₀ ht] at hv
          exact post_tmp_used sem _ _ hk p _ hv
        exact hm _ hu.choose_spec
      · rw [dif_neg (fun h => hu h.2), post_tmp sem _ _ hk p, ha]
        intro v hv
        exact hu ⟨v, by rw [used_post sem w t₀ ht]; exact hv⟩
    · rw [remember_other sem t p w (.postUpdate t₀) a (fun h => h) (by intro h; cases h; exact e rfl)]
      simp only [step]
      split_ifs
      · show (if t = t₀ then _ else w.tile t).tmp p = _
        rw [if_neg (fun h => e h.symm)]; exact ha
      · exact ha
  | save t₀ =>
    by_cases e : t₀ = t
    · subst e
      rw [remember_takes sem _ p w (.save t₀) a rfl]
      simp only [step]
      rw [if_pos ht]
      show (if t₀ = t₀ then _ else w.tile t₀).tmp p = _
      rw [if_pos rfl]; rfl
    · rw [remember_other sem t p w (.save t₀) a (fun h => e h) (by intro h; cases h)]
      simp only [step]
      split_ifs
      · show (if t = t₀ then _ else w.tile t).tmp p = _
        rw [if_neg (fun h => e h.symm)]; exact ha
      · exact ha
  | load t₀ s b =>
    rw [remember_other sem t p w (.load t₀ s b) a (fun h => h) (by intro h; cases h)]
    simp only [step]
    split_ifs
    · show (if t = t₀ then _ else w.tile t).tmp p = _
      split_ifs with e
      · subst e; exact ha
      · exact ha
    · show (if t = t₀ then _ else w.tile t).tmp p = _
      split_ifs with e
      · subst e; rw [recreate_tmp]; exact ha
      · exact ha
    · exact ha
  | replace t₀ c =>
    by_cases e : t₀ = t ∧ c < w.heap.nc
    · obtain ⟨rfl, hc⟩ := e
      rw [remember_takes sem _ p w (.replace t₀ c) a ⟨rfl, hc⟩]
      simp only [step]
      rw [if_pos ⟨ht, hc⟩, if_neg (by rw [hk]; decide)]
      show (if t₀ = t₀ then _ else w.tile t₀).tmp p = _
      rw [if_pos rfl, recreate_tmp]; rfl
    · rw [remember_other sem t p w (.replace t₀ c) a (fun h => e h) (by intro h; cases h)]
      simp only [step]
      split_ifs with h1 h2
      · exact ha
      · show (if t = t₀ then _ else w.tile t).tmp p = _
        rw [if_neg (fun h => e ⟨h.symm, h1.2⟩)]; exact ha
      · exact ha
  | copy t₀ =>
    by_cases e : t₀ = t
    · subst e
      rw [remember_takes sem _ p w (.copy t₀) a rfl]
      simp only [step]
      rw [if_pos ht]
      show (if t₀ = w.nt then _ else if t₀ = t₀ then _ else w.tile t₀).tmp p = _
      rw [if_neg (by omega), if_pos rfl]; rfl
    · rw [remember_other sem t p w (.copy t₀) a (fun h => e h) (by intro h; cases h)]
      simp only [step]
      split_ifs
      · show (if t = w.nt then _ else if t = t₀ then _ else w.tile t).tmp p = _
        rw [if_neg (by omega), if_neg (fun h => e h.symm)]; exact ha
      · exact ha

theorem agree_new (sem : Sem V) (t : ℕ) (p : Part) (w : World V) (o : Op V) (ht : w.nt ≤ t)
    (ht' : t < (step sem w o).1.nt) : ((step sem w o).1.tile t).tmp p = none := by
  cases o with
  | construct k c =>
    simp only [step] at ht' ⊢
    split_ifs at ht' ⊢
    · have : t < w.nt + 1 := ht'
      show (if t = w.nt then _ else w.tile t).tmp p = _
      rw [if_pos (by omega)]; rfl
    · have : t < w.nt := ht'
      omega
  | copy t₀ =>
    simp only [step] at ht' ⊢
    split_ifs at ht' ⊢
    · have : t < w.nt + 1 := ht'
      show (if t = w.nt then _ else if t = t₀ then _ else w.tile t).tmp p = _
      rw [if_pos (by omega), recreate_tmp]; rfl
    · have : t < w.nt := ht'
      omega
  | _ =>
    exfalso
    simp only [step] at ht'
    (try split_ifs at ht') <;> (have h2 : t < w.nt := ht'; omega)

theorem agree_step (sem : Sem V) (t : ℕ) (p : Part) (w : World V) (o : Op V) (a : Option V) (h : Agree t p w a) :
    Agree t p (step sem w o).1 (remember sem t p w o a) := by
  by_cases ht : t < w.nt
  · refine ⟨?_, ?_⟩
    · intro _ hk
      rw [kind_frame sem w o t ht] at hk
      exact agree_old sem t p w o a ht hk (h.1 ht hk)
    · intro h'
      have := nt_frame sem w o
      omega
  · have ha : a = none := h.2 (by omega)
    have hr : remember sem t p w o a = none := by
      unfold remember
      split_ifs with h1 h2
      · rfl
      · exfalso
        obtain ⟨rfl, v, hv⟩ := h2
        have : usedBy sem w (.postUpdate t) = [] := by
          show (step sem w (.postUpdate t)).2 = _
          simp only [step]
          rw [if_neg ht]
        rw [this] at hv
        cases hv
      · exact ha
    rw [hr]
    exact ⟨fun h' _ => agree_new sem t p w o (by omega) h', fun _ => rfl⟩

theorem agree_run (sem : Sem V) (t : ℕ) (p : Part) (l : List (Op V)) :
    ∀ (w : World V) (a : Option V), Agree t p w a → Agree t p (run sem w l) (lastUse sem t p w l a) := by
  induction l with
  | nil => exact fun _ _ h => h
  | cons o l ih =>
    intro w a h
    rw [lastUse_cons]
    exact ih _ _ (agree_step sem t p w o a h)

/-- `post_update_step` of an inference tile, after any program: a step that is switched on uses the
tile's settings of now with `on_the_fly_bindings`.  Without, it uses what it used last since a
checkpoint or a copy was made of the tile (or its configuration was replaced), and the settings of
now only if there was no such use; loading another configuration does not end this. -/
theorem C93_post_update (sem : Sem V) (w₀ : World V) (h₀ : Start w₀) (l : List (Op V)) (t : ℕ) (p : Part) (v : V) :
    let w := run sem w₀ l
    t < w.nt → (w.tile t).kind = .cpp →
    ((p, v) ∈ usedBy sem w (.postUpdate t) ↔
      (p = .clip ∨ p = .remap ∨ p = .modifier) ∧ sem.active p (w.ownNow t p) = true ∧
      v = if sem.onTheFly (w.ownNow t .runtime) = true then w.ownNow t p
        else (lastUse sem t p w₀ l none).getD (w.ownNow t p)) := by
  intro w ht hk
  have hb : Agree t p w₀ none := ⟨fun h _ => by have := h₀.2.2.1; omega, fun _ => rfl⟩
  have ha := (agree_run sem t p l w₀ none hb).1 ht hk
  rw [used_post sem w t ht, post_mem sem _ _ hk]
  unfold cacheVal
  rw [ha]
  rfl

/-- The torch tiles have no such cache. -/
theorem C93_post_update_torch (sem : Sem V) (w : World V) (t : ℕ) (ht : t < w.nt)
    (hk : (w.tile t).kind = .torch ∨ (w.tile t).kind = .torchIR) (p : Part) (v : V) :
    (p, v) ∈ usedBy sem w (.postUpdate t) ↔
      (p = .clip ∨ p = .remap) ∧ sem.active p (w.ownNow t p) = true ∧ v = w.ownNow t p := by
  have hl : ∀ q, (p, v) ∈ live sem (w.tile t) w.heap q ↔
      p = q ∧ sem.active q (w.ownNow t q) = true ∧ v = w.ownNow t q := by
    intro q
    unfold live World.ownNow
    cases ha : sem.active q (w.heap.read (w.tile t).own q) <;> simp
  have : usedBy sem w (.postUpdate t) = live sem (w.tile t) w.heap .clip ++ live sem (w.tile t) w.heap .remap := by
    rw [used_post sem w t ht]
    unfold Tile.postUpdate
    rcases hk with h | h <;> rw [h]
  rw [this, List.mem_append, hl, hl]
  constructor
  · rintro (⟨rfl, a⟩ | ⟨rfl, a⟩)
    · exact ⟨.inl rfl, a⟩
    · exact ⟨.inr rfl, a⟩
  · rintro ⟨rfl | rfl, a⟩
    · exact .inl ⟨rfl, a⟩
    · exact .inr ⟨rfl, a⟩

end Aihw.Settings
