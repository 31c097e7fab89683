import Verif.Conv.Mapped

namespace Aihw.Conv

theorem mapM_range_ok {β : Type} (n : Nat) (f : Nat → Except PyErr β) (g : Nat → β)
    (h : ∀ i, i < n → f i = .ok (g i)) : (List.range n).mapM f = .ok ((List.range n).map g) := by
  apply forall₂_mapM_ok
  rw [List.forall₂_map_right_iff, List.forall₂_same]
  intro i hi
  exact h i (List.mem_range.1 hi)

theorem off_succ (l : List Nat) (i : Nat) (h : i < l.length) : off l (i + 1) = off l i + l.getD i 0 := by
  unfold off
  rw [List.take_add_one, List.sum_append, List.getD_eq_getElem?_getD]
  simp [h]

theorem off_le (l : List Nat) (i : Nat) (h : i < l.length) : off l i + l.getD i 0 ≤ l.sum := by
  rw [← off_succ l i h]
  unfold off
  conv_rhs => rw [← List.take_append_drop (i + 1) l]
  rw [List.sum_append]
  omega

/-- A sum over all channels is the sum over the parts. -/
theorem sum_parts {M : Type} [AddCommMonoid M] (l : List Nat) (f : Nat → M) :
    ∑ c ∈ Finset.range l.sum, f c =
      ∑ i ∈ Finset.range l.length, ∑ c ∈ Finset.range (l.getD i 0), f (off l i + c) := by
  induction l generalizing f with
  | nil => simp
  | cons s l ih =>
    rw [List.sum_cons, Finset.sum_range_add, List.length_cons, Finset.sum_range_succ', add_comm]
    congr 1
    · rw [ih (fun c => f (s + c))]
      apply Finset.sum_congr rfl
      intro i _
      have e : off (s :: l) (i + 1) = s + off l i := by simp [off]
      rw [e]
      simp [Nat.add_assoc]
    · simp [off]

theorem pick_eq (m : Nat) (sizes : List Nat) (ys : List (List ℚ)) (hl : ys.length = sizes.length) (j : Nat)
    (hj : j < sizes.length) (n o w : Nat) (ho : o < sizes.getD j 0) :
    pick m (sizes.zip ys) n (off sizes j + o) w = (ys.getD j []).getD ((n * sizes.getD j 0 + o) * m + w) 0 := by
  induction sizes generalizing ys j with
  | nil => simp at hj
  | cons s sizes ih =>
    cases ys with
    | nil => simp at hl
    | cons y ys =>
      rw [List.zip_cons_cons]
      cases j with
      | zero =>
        simp only [List.getD_cons_zero] at ho
        have e : off (s :: sizes) 0 = 0 := rfl
        rw [e, Nat.zero_add]
        unfold pick
        rw [if_pos ho]
        simp
      | succ j =>
        simp only [List.getD_cons_succ] at ho
        have e : off (s :: sizes) (j + 1) = s + off sizes j := by simp [off]
        rw [e]
        unfold pick
        rw [if_neg (by omega)]
        have e2 : s + off sizes j + o - s = off sizes j + o := by omega
        rw [e2, ih ys (by simpa using hl) j (by simpa using hj) ho]
        simp

/-- Every output channel belongs to one part. -/
theorem locate (sizes : List Nat) (p : Nat) (h : p < sizes.sum) :
    ∃ j o, j < sizes.length ∧ o < sizes.getD j 0 ∧ p = off sizes j + o := by
  induction sizes generalizing p with
  | nil => simp at h
  | cons s sizes ih =>
    by_cases hs : p < s
    · exact ⟨0, p, by simp, by simpa using hs, by simp [off]⟩
    · rw [List.sum_cons] at h
      obtain ⟨j, o, h1, h2, h3⟩ := ih (p - s) (by omega)
      refine ⟨j + 1, o, by simpa using h1, by simpa using h2, ?_⟩
      have e : off (s :: sizes) (j + 1) = s + off sizes j := by simp [off]
      rw [e]; omega

theorem chans_length (x : Img) (o s : Nat) : (chans x o s).data.length = x.N * (s * x.sizes.prod) := by
  simp [chans]

theorem chans_get (x : Img) (o s n c f : Nat) (hn : n < x.N) (hc : c < s) (hf : f < x.sizes.prod) :
    (chans x o s).data.getD ((n * s + c) * x.sizes.prod + f) 0 =
      x.data.getD ((n * x.C + (o + c)) * x.sizes.prod + f) 0 := by
  unfold chans
  simp only
  have e : (n * s + c) * x.sizes.prod + f = n * (s * x.sizes.prod) + (c * x.sizes.prod + f) := by ring
  have hlt : c * x.sizes.prod + f < s * x.sizes.prod := flat_lt hc hf
  rw [e, List.getD_eq_getElem?_getD, List.getElem?_map, List.getElem?_range (flat_lt hn hlt)]
  simp only [Option.map_some, Option.getD_some]
  rw [flat_div hlt, flat_mod hlt]
  congr 1
  ring

/-- The window of a part, in terms of the whole input. -/
theorem patch_part (ds : List Dim) (x : Img) (o s n w : Nat) (hp : pixels ds = x.sizes.prod) (hn : n < x.N) :
    patchOf ds s s 1 false (chans x o s).data n w =
      (List.range s).flatMap fun c => (List.range (kernels ds)).map fun a => pix ds x.C x.data n (o + c) a w := by
  unfold patchOf
  rw [if_neg (by decide), List.append_nil, List.flatMap_def, List.flatMap_def]
  congr 1
  apply List.map_congr_left
  intro c hc
  apply List.map_congr_left
  intro a _
  rw [Nat.one_mul]
  unfold pix
  cases h : src ds a w with
  | none => rfl
  | some f =>
    simp only
    have hf := src_lt ds a w f h
    rw [hp] at hf ⊢
    exact chans_get x o s n c f hn (List.mem_range.1 hc) hf

/-- An input a mapped layer is made for. -/
def MWF (l : MLayer) (x : Img) : Prop :=
  0 < x.N ∧ x.C = l.C ∧ x.sizes.length = l.ks.length ∧ x.data.length = x.N * (x.C * x.sizes.prod)

/-- The splits are splits of the channels. -/
def Splits (l : MLayer) : Prop := l.ins.sum = l.C ∧ l.outs.sum = l.O ∧ l.ins ≠ []

/-- The dimensions of an input. -/
def MLayer.dims (l : MLayer) (sizes : List Nat) : List Dim := List.zipWith Dim.mk sizes l.ks

/-- The indices of all parts for an image size. -/
theorem idx_ok (l : MLayer) (x : Img) (hv : (l.dims x.sizes).all Dim.valid = true) :
    ∃ f, ((List.range l.ins.length).mapM fun i => (l.sub i 0).indexes (l.part x i)) = .ok f ∧
      f.length = l.ins.length ∧
      ∀ i, i < l.ins.length → (l.sub i 0).indexes ⟨1, l.ins.getD i 0, x.sizes, []⟩ = .ok (f.getD i []) := by
  have h1 : ∀ i, ∃ q, (l.sub i 0).indexes ⟨1, l.ins.getD i 0, x.sizes, []⟩ = .ok q := by
    intro i
    unfold Layer.indexes
    simp only
    rw [if_pos (show ((l.sub i 0).dims x.sizes).all Dim.valid = true from hv)]
    exact ⟨_, rfl⟩
  choose g hg using h1
  refine ⟨(List.range l.ins.length).map g, ?_, by simp, ?_⟩
  · apply mapM_range_ok
    intro i _
    rw [← hg i]
    exact indexes_congr _ _ _ rfl rfl
  · intro i hi
    rw [hg i, List.getD_eq_getElem?_getD, List.getElem?_map, List.getElem?_range hi]
    rfl

/-- The state fits an earlier input. -/
def MInv (l : MLayer) (h : List Img) (st : MSt) : Prop :=
  ∀ r, st.idx = some r → ∃ y ∈ h, 0 < y.N ∧ st.size = y.data.length / y.N ∧ r.2 = (l.dims y.sizes).map Dim.out ∧
    ∀ i, i < l.ins.length → (l.sub i 0).indexes ⟨1, l.ins.getD i 0, y.sizes, []⟩ = .ok (r.1.getD i [])

/-- A refresh with a valid input gives indices for an input with the same number of elements. -/
theorem refresh_ok (l : MLayer) (hs : Splits l) (h : List Img) (st : MSt) (hi : MInv l h st)
    (hw : ∀ y ∈ h, MWF l y) (x : Img) (hx : MWF l x) (hv : (l.dims x.sizes).all Dim.valid = true) :
    ∃ st' r, l.refresh st x = (st', .ok r) ∧ MInv l (h ++ [x]) st' ∧ st'.idx = some r ∧
      ∃ y, (y = x ∨ y ∈ h ∧ l.C * y.sizes.prod = l.C * x.sizes.prod) ∧ (st.idx = none → y = x) ∧
      MWF l y ∧ r.2 = (l.dims y.sizes).map Dim.out ∧
      ∀ i, i < l.ins.length → (l.sub i 0).indexes ⟨1, l.ins.getD i 0, y.sizes, []⟩ = .ok (r.1.getD i []) := by
  obtain ⟨f, hf, -, hfi⟩ := idx_ok l x hv
  have hC : l.ins.sum = x.C := by rw [hs.1, hx.2.1]
  have hsz : ∀ z : Img, MWF l z → z.data.length / z.N = l.C * z.sizes.prod := by
    rintro z ⟨a1, a2, a3, a4⟩
    rw [a4, Nat.mul_div_cancel_left _ a1, a2]
  have hfresh : MInv l (h ++ [x]) ⟨x.data.length / x.N, some (f, ((l.sub 0 0).dims x.sizes).map Dim.out)⟩ := by
    intro r hr
    cases hr
    exact ⟨x, by simp, hx.1, rfl, rfl, hfi⟩
  unfold MLayer.refresh
  cases hst : st.idx with
  | none =>
    simp only
    rw [if_pos hC, hf]
    exact ⟨_, _, rfl, hfresh, rfl, x, Or.inl rfl, fun _ => rfl, hx, rfl, hfi⟩
  | some r =>
    simp only
    by_cases hc : st.size = x.data.length / x.N
    · rw [if_pos hc]
      obtain ⟨y, hy, b1, b2, b3, b4⟩ := hi r hst
      refine ⟨_, _, rfl, ?_, hst, y, Or.inr ⟨hy, ?_⟩, fun h => (by cases h), hw y hy, b3, b4⟩
      · intro r' hr'
        rw [hst] at hr'
        cases hr'
        exact ⟨y, by simp [hy], b1, b2, b3, b4⟩
      · rw [← hsz y (hw y hy), ← b2, hc, hsz x hx]
    · rw [if_neg hc, if_pos hC, hf]
      exact ⟨_, _, rfl, hfresh, rfl, x, Or.inl rfl, fun h => (by cases h), hx, rfl, hfi⟩

/-- The state after a history. -/
def MLayer.run (l : MLayer) (st : MSt) (h : List ((Nat → Nat → Nat → List ℚ → Nat → ℚ) × Img)) : MSt :=
  h.foldl (fun st q => (l.forwardI q.1 st q.2).1) st

theorem forwardI_state (l : MLayer) (T : Nat → Nat → Nat → List ℚ → Nat → ℚ) (st : MSt) (x : Img) (hN : 0 < x.N) :
    (l.forwardI T st x).1 = (l.refresh st x).1 := by
  unfold MLayer.forwardI
  rw [if_neg (by omega)]
  rcases l.refresh st x with ⟨st', e | r⟩
  · rfl
  · simp only
    split_ifs <;> rfl

theorem mrun_inv (l : MLayer) (hs : Splits l) (hist : List ((Nat → Nat → Nat → List ℚ → Nat → ℚ) × Img))
    (hw : ∀ y ∈ hist, MWF l y.2 ∧ (l.dims y.2.sizes).all Dim.valid = true) :
    MInv l (hist.map (·.2)) (l.run ⟨0, none⟩ hist) := by
  suffices h : ∀ (pre : List Img) (st : MSt), (∀ y ∈ pre, MWF l y) → MInv l pre st →
      MInv l (pre ++ hist.map (·.2)) (l.run st hist) by
    have := h [] ⟨0, none⟩ (by simp) (by intro r hr; cases hr)
    simpa using this
  induction hist with
  | nil => intro pre st _ h; simpa [MLayer.run] using h
  | cons q hist ih =>
    intro pre st hp h
    obtain ⟨hq1, hq2⟩ := hw q (by simp)
    obtain ⟨st', r, e1, e2, -⟩ := refresh_ok l hs pre st h hp q.2 hq1 hq2
    have e : (l.forwardI q.1 st q.2).1 = st' := by rw [forwardI_state l q.1 st q.2 hq1.1, e1]
    have hp' : ∀ y ∈ pre ++ [q.2], MWF l y := by
      intro y hy
      rcases List.mem_append.1 hy with hy | hy
      · exact hp y hy
      · rw [List.mem_singleton.1 hy]; exact hq1
    have := ih (fun y hy => hw y (by simp [hy])) (pre ++ [q.2]) st' hp' e2
    rw [← e] at this
    simpa [MLayer.run] using this

end Aihw.Conv
