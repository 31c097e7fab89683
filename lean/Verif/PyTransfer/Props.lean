import Verif.PyTransfer.Lemmas
import Mathlib.Algebra.BigOperators.Group.List.Basic

/-!
# C55: the python transfer tile (`TorchTransferTile`)
-/
namespace Aihw.PyTransfer

open Aihw.Pulsed (trunc0)

variable {G W Ω : Type}

/-! ## Specification -/

/-- The reads of slice `k`. -/
def readsOf (h : List (Rd Ω)) (k : Nat) : List (Rd Ω) := h.filter fun r => decide (r.k = k)

/-- What a read adds to the buffer at position `i`. -/
def Rd.inc (r : Rd Ω) (i : Nat) : ℚ := r.lrH * r.sign * (r.y i - r.ref i)

/-- `n` is `h` without its fractional part: same sign, not larger in absolute value, by less than 1. -/
def IsTrunc (h : ℚ) (n : ℤ) : Prop := |(n : ℚ)| ≤ |h| ∧ |h| < |(n : ℚ)| + 1 ∧ 0 ≤ (n : ℚ) * h

/-- The settings `update` does not support. -/
def Unsupported (c : Cfg) (u : Upd Ω) : Prop :=
  u.flags = true ∨ c.nReads ≠ 1 ∨ c.every < 0 ∨ (c.dynamic = true ∧ c.correctAcc = true)

/-- The buffer unit of the documentation of the compound: `buffer_granularity` (1 if not positive)
times the granularity of the fast device, times `auto_granularity / (slices * period)` if that is
positive. -/
def bufferUnit (c : Cfg) (T : Nat) : ℚ :=
  (if 0 < c.bufGran then c.bufGran else 1) * c.granA *
    (if 0 < c.autoGran then c.autoGran / ((c.tIn : ℚ) * (T : ℚ)) else 1)

theorem readsOf_append (h : List (Rd Ω)) (r : Rd Ω) (k : Nat) :
    readsOf (h ++ [r]) k = readsOf h k ++ if r.k = k then [r] else [] := by
  unfold readsOf
  rw [List.filter_append]
  congr 1
  by_cases h : r.k = k <;> simp [h]

theorem rejects_iff (c : Cfg) (u : Upd Ω) : c.rejects u = true ↔ Unsupported c u := by
  unfold Cfg.rejects Unsupported
  simp only [Bool.or_eq_true, decide_eq_true_eq, Bool.and_eq_true, or_assoc]

theorem acc_eq (o : Ops G W Ω) (c : Cfg) (s : St G W Ω) (u : Upd Ω) (l : ℚ) (i : Nat) :
    c.acc o s u l (c.nextIdx s) i = s.hid (c.nextIdx s) i + (rdOf o c s u l).inc i := rfl

/-! ## Properties -/

/-- **C55 (unsupported settings).**  Transposed inputs, an analog bias, more than one read per
transfer, a negative `transfer_every` or `experimental_correct_accumulation` raise `ConfigError` before
anything changes, including the caller's input. -/
theorem C55_rejected (o : Ops G W Ω) (c : Cfg) (s : St G W Ω) (u : Upd Ω) (h : Unsupported c u) :
    c.update o s u = (s, some .configError, u.x) := by
  unfold Cfg.update
  rw [if_pos ((rejects_iff c u).2 h)]

/-- **C55 (period).**  Let the update be supported and `T > 0` the transfer period in samples.  The
number of multiples of `T` the sample counter passes in this batch decides: none, no read; one, exactly
one read (or an error, see `C55_row_transfer`, `C55_transfer_lr`); two or more, `ConfigError`.  In every
case the gradient tile is updated and the counter advanced by the batch size. -/
theorem C55_period (o : Ops G W Ω) (c : Cfg) (s : St G W Ω) (u : Upd Ω) (hs : ¬ Unsupported c u)
    (T : Nat) (hT : c.te u.x.length = T) (h0 : 0 < T) :
    (c.update o s u).1.uc = s.uc + u.x.length ∧
    (c.update o s u).1.g = o.gUpd (c.lrA s u).1 (chopRows s.chop u.x) u.d u.ωg s.g ∧
    ((s.uc + u.x.length) / T = s.uc / T →
      (c.update o s u).2.1 = none ∧ (c.update o s u).1.reads = s.reads) ∧
    ((s.uc + u.x.length) / T = s.uc / T + 1 →
      (∃ r, (c.update o s u).2.1 = none ∧ (c.update o s u).1.reads = s.reads ++ [r]) ∨
      ((c.update o s u).2.1 ≠ none ∧ (c.update o s u).1.reads = s.reads)) ∧
    (s.uc / T + 2 ≤ (s.uc + u.x.length) / T →
      (c.update o s u).2.1 = some .configError ∧ (c.update o s u).1.reads = s.reads ∧
      (c.update o s u).1.hid = s.hid ∧ (c.update o s u).1.w = s.w) := by
  have hdm := Nat.div_add_mod s.uc T
  have hlt := Nat.mod_lt s.uc h0
  have key : (s.uc + u.x.length) / T = s.uc / T + (s.uc % T + u.x.length) / T := by
    conv_lhs => rw [← hdm]
    rw [Nat.add_assoc, Nat.mul_add_div h0]
  have hr : ¬ c.rejects u = true := fun h => hs ((rejects_iff c u).1 h)
  refine ⟨?_, ?_, ?_, ?_, ?_⟩
  · unfold Cfg.update
    rw [if_neg hr]
    unfold Cfg.body Cfg.tryTransfer
    simp only
    cases c.lrH (c.te u.x.length) u.lr (c.lrA s u).1 with
    | error e => simp only; split_ifs <;> rfl
    | ok l => simp only; split_ifs <;> rfl
  · unfold Cfg.update
    rw [if_neg hr]
    unfold Cfg.body Cfg.tryTransfer
    simp only
    cases c.lrH (c.te u.x.length) u.lr (c.lrA s u).1 with
    | error e => simp only; split_ifs <;> rfl
    | ok l => simp only; split_ifs <;> rfl
  all_goals
    intro h
    unfold Cfg.update
    rw [if_neg hr]
    unfold Cfg.body
    simp only [hT]
    rw [if_neg (by omega : ¬ T = 0)]
  · have : (s.uc % T + u.x.length) / T = 0 := by omega
    rw [Nat.div_eq_zero_iff] at this
    rw [if_pos (by omega)]
    exact ⟨rfl, rfl⟩
  · have h1 : (s.uc % T + u.x.length) / T = 1 := by omega
    have h2 := Nat.div_add_mod (s.uc % T + u.x.length) T
    have h3 := Nat.mod_lt (s.uc % T + u.x.length) h0
    rw [h1] at h2
    rw [if_neg (by omega), if_neg (by omega)]
    unfold Cfg.tryTransfer
    cases c.lrH T u.lr (c.lrA s u).1 with
    | error e => exact Or.inr ⟨by simp, rfl⟩
    | ok l =>
      simp only
      by_cases hk : c.nextIdx (c.grad o s u) < c.xSize
      · rw [if_pos hk]; exact Or.inl ⟨_, rfl, rfl⟩
      · rw [if_neg hk]; exact Or.inr ⟨by simp, rfl⟩
  · have h1 : 2 ≤ (s.uc % T + u.x.length) / T := by omega
    have h2 : 2 * T ≤ s.uc % T + u.x.length := (Nat.le_div_iff_mul_le h0).1 h1
    rw [if_neg (by omega), if_pos h2]
    exact ⟨rfl, rfl, rfl, rfl⟩

/-- **C55 (finding: a zero period fails late).**  `transfer_every = 0`, which switches the transfer off
in the compiled tile, raises `ZeroDivisionError` on every update here, after the gradient tile was
already updated. -/
theorem C55_zero_period (o : Ops G W Ω) (c : Cfg) (s : St G W Ω) (u : Upd Ω) (hs : ¬ Unsupported c u)
    (hT : c.every = 0) :
    (c.update o s u).2.1 = some .zeroDivision ∧ (c.update o s u).1.uc = s.uc + u.x.length ∧
    (c.update o s u).1.g = o.gUpd (c.lrA s u).1 (chopRows s.chop u.x) u.d u.ωg s.g := by
  have hr : ¬ c.rejects u = true := fun h => hs ((rejects_iff c u).1 h)
  have h0 : c.te u.x.length = 0 := by
    unfold Cfg.te
    rw [hT]
    simp
  unfold Cfg.update
  rw [if_neg hr]
  unfold Cfg.body
  simp only
  rw [if_pos h0]
  exact ⟨rfl, rfl, rfl⟩

/-- **C55 (transfer learning rate).**  The learning rate of a read is the learning rate of the tile
divided by the buffer unit; with `correct_gradient_magnitudes` also by the gradient learning rate and
the ratio of the granularities.  (Finding: `transfer_lr`, `scale_transfer_lr`, `thres_scale` and
`scale_fast_lr` of the compound have no influence.)  The division fails exactly if one of the divisors
is zero. -/
theorem C55_transfer_lr (c : Cfg) (T : Nat) (lr lrA : ℚ) :
    (c.correctGrad = false → bufferUnit c T ≠ 0 → c.lrH T lr lrA = .ok (lr / bufferUnit c T)) ∧
    (c.correctGrad = true → lrA ≠ 0 → c.granA ≠ 0 → c.granC ≠ 0 → bufferUnit c T ≠ 0 →
      c.lrH T lr lrA = .ok (lr / lrA / (bufferUnit c T * (c.granC / c.granA)))) ∧
    (∀ e, c.lrH T lr lrA = .error e → e = .zeroDivision ∧ (bufferUnit c T = 0 ∨
      (c.correctGrad = true ∧ (lrA = 0 ∨ c.granA = 0 ∨ c.granC = 0)))) := by
  have hu : c.unit T = if c.correctGrad then bufferUnit c T * (c.granC / c.granA) else bufferUnit c T := by
    unfold Cfg.unit bufferUnit
    simp only
    by_cases h : 0 < c.autoGran
    · simp only [if_pos h]
      by_cases h' : c.correctGrad = true
      · simp only [if_pos h']; ring
      · simp only [if_neg h']; ring
    · simp only [if_neg h]
      by_cases h' : c.correctGrad = true
      · simp only [if_pos h']; ring
      · simp only [if_neg h']; ring
  refine ⟨?_, ?_, ?_⟩
  · intro h h0
    unfold Cfg.lrH
    rw [hu, h]
    simp [h0]
  · intro h h1 h2 h3 h4
    unfold Cfg.lrH
    rw [hu, h]
    simp [h1, h2, h3, h4]
  · intro e he
    unfold Cfg.lrH at he
    rw [hu] at he
    by_cases h' : c.correctGrad = true
    · rw [if_pos h', if_pos h'] at he
      by_cases hd : c.granA = 0 ∨ lrA = 0 ∨ bufferUnit c T * (c.granC / c.granA) = 0
      · rw [if_pos hd] at he
        cases he
        refine ⟨rfl, ?_⟩
        rcases hd with h | h | h
        · exact Or.inr ⟨h', Or.inr (Or.inl h)⟩
        · exact Or.inr ⟨h', Or.inl h⟩
        · rcases mul_eq_zero.1 h with h | h
          · exact Or.inl h
          · rcases div_eq_zero_iff.1 h with h | h
            · exact Or.inr ⟨h', Or.inr (Or.inr h)⟩
            · exact Or.inr ⟨h', Or.inr (Or.inl h)⟩
      · rw [if_neg hd] at he; cases he
    · rw [if_neg h', if_neg h'] at he
      by_cases hd : bufferUnit c T = 0
      · rw [if_pos hd] at he; cases he; exact ⟨rfl, Or.inl hd⟩
      · rw [if_neg hd] at he; cases he

/-- **C55 (steps).**  In every history the steps of a read are the accumulated value without its
fractional part, where the accumulated value is the buffer plus the contribution of the read; other
slices keep their buffers. -/
theorem C55_steps (o : Ops G W Ω) (c : Cfg) (us : List (Upd Ω)) (s : St G W Ω) (u : Upd Ω) (r : Rd Ω)
    (t t' : St G W Ω) (ht : t = c.run o s us) (ht' : t' = c.run o s (us ++ [u]))
    (hr : t'.reads = t.reads ++ [r]) :
    (∀ i, IsTrunc (t.hid r.k i + r.inc i) (r.n i)) ∧ (∀ k, k ≠ r.k → t'.hid k = t.hid k) ∧
    (c.forget = false → ∀ i, t'.hid r.k i = t.hid r.k i + r.inc i - (1 - c.momentum) * (r.n i : ℚ)) ∧
    (c.forget = true → ∀ i, t'.hid r.k i = if |t.hid r.k i + r.inc i| < 1 then t.hid r.k i + r.inc i
      else c.momentum) := by
  have e : t' = (c.update o t u).1 := by rw [ht', ht, run_append]; rfl
  have hlen : ∀ l : List (Rd Ω), l ≠ l ++ [r] := by
    intro l h
    have := congrArg List.length h
    simp at this
  rcases update_shape o c t u with h | h | ⟨-, h⟩ | ⟨l, -, hk, h⟩
  · rw [e, h] at hr; exact absurd hr (hlen _)
  · rw [e, h] at hr; exact absurd hr (hlen _)
  · rw [e, h] at hr; exact absurd hr (hlen _)
  · have hr' : r = rdOf o c (c.grad o t u) u l := by
      rw [e, h, transfer_reads] at hr
      exact (List.singleton_inj.1 (List.append_cancel_left hr)).symm
    have hk' : r.k = c.nextIdx (c.grad o t u) := by rw [hr']; rfl
    have hh : t'.hid = setRow t.hid r.k fun i => c.left (t.hid r.k i + r.inc i) := by
      rw [e, h, hk', hr']; rfl
    have hn : ∀ i, r.n i = trunc0 (t.hid r.k i + r.inc i) := by
      intro i; rw [hr']; rfl
    refine ⟨?_, ?_, ?_, ?_⟩
    · intro i; rw [hn]; exact trunc0_spec _
    · intro k hne; funext i; rw [hh, setRow_ne _ hne]
    · intro hf i
      rw [hh, setRow_same, hn]
      unfold Cfg.left
      rw [hf]
      simp only [Bool.false_eq_true, if_false]
      ring
    · intro hf i
      rw [hh, setRow_same]
      unfold Cfg.left
      rw [if_pos hf]
      by_cases h0 : |t.hid r.k i + r.inc i| < 1
      · rw [if_pos h0, if_pos ((trunc0_eq_zero _).2 h0)]
      · rw [if_neg h0, if_neg (fun h => h0 ((trunc0_eq_zero _).1 h))]

/-- **C55 (finding: `forget_buffer` sets the buffer to a constant).**  Documented is `momentum * H` for
an accumulated value `H` at or above the threshold; the tile stores `momentum` itself.  The two agree
only for `momentum = 0` or `H = 1`. -/
theorem C55_forget_finding (o : Ops G W Ω) (c : Cfg) (us : List (Upd Ω)) (s : St G W Ω) (u : Upd Ω)
    (r : Rd Ω) (t t' : St G W Ω) (ht : t = c.run o s us) (ht' : t' = c.run o s (us ++ [u]))
    (hr : t'.reads = t.reads ++ [r]) (hf : c.forget = true) (i : Nat)
    (hH : 1 ≤ |t.hid r.k i + r.inc i|) :
    t'.hid r.k i = c.momentum ∧
    (t'.hid r.k i = c.momentum * (t.hid r.k i + r.inc i) ↔
      c.momentum = 0 ∨ t.hid r.k i + r.inc i = 1) := by
  have h := (C55_steps o c us s u r t t' ht ht' hr).2.2.2 hf i
  rw [if_neg (not_lt.2 hH)] at h
  refine ⟨h, ?_⟩
  rw [h]
  constructor
  · intro e
    have : c.momentum * (t.hid r.k i + r.inc i - 1) = 0 := by linarith
    rcases mul_eq_zero.1 this with h1 | h1
    · exact Or.inl h1
    · right; linarith
  · rintro (h1 | h1)
    · rw [h1]; ring
    · rw [h1]; ring

/-- **C55 (conservation).**  For every history (also with failing updates in it) without
`forget_buffer`, the buffer is its initial value plus all contributions of the reads of that slice,
minus `1 - momentum` times the steps written. -/
theorem C55_conservation (o : Ops G W Ω) (c : Cfg) (hf : c.forget = false) (us : List (Upd Ω))
    (s : St G W Ω) (hs : s.reads = []) (k i : Nat) :
    (c.run o s us).hid k i = s.hid k i +
      ((readsOf (c.run o s us).reads k).map fun r => r.inc i).sum -
      (1 - c.momentum) * (((readsOf (c.run o s us).reads k).map fun r => r.n i).sum : ℤ) := by
  refine run_inv o c (fun t => t.hid k i = s.hid k i +
      ((readsOf t.reads k).map fun r => r.inc i).sum -
      (1 - c.momentum) * (((readsOf t.reads k).map fun r => r.n i).sum : ℤ)) us ?_ ?_ ?_ s ?_
  · intro u _ t h; exact h
  · intro t _ h; exact h
  · intro u _ t l _ h
    rw [transfer_reads, readsOf_append]
    show setRow t.hid (c.nextIdx t) (fun i => c.left (c.acc o t u l (c.nextIdx t) i)) k i = _
    by_cases hk : c.nextIdx t = k
    · rw [if_pos (show (rdOf o c t u l).k = k from hk), List.map_append, List.map_append,
        List.sum_append, List.sum_append, List.map_singleton, List.map_singleton, List.sum_singleton,
        List.sum_singleton]
      rw [← hk, setRow_same, acc_eq]
      have hn : (rdOf o c t u l).n i = trunc0 (t.hid (c.nextIdx t) i + (rdOf o c t u l).inc i) := rfl
      rw [hn]
      unfold Cfg.left
      rw [hf]
      simp only [Bool.false_eq_true, if_false]
      rw [hk] at *
      push_cast
      rw [h]
      push_cast
      ring
    · rw [if_neg (show ¬ (rdOf o c t u l).k = k from hk), List.append_nil, setRow_ne _ (Ne.symm hk)]
      exact h
  · rw [hs]; simp [readsOf]

/-- **C55 (the buffer stays below one step).**  With momentum zero — or with `forget_buffer` and
`|momentum| < 1` — buffers that start below one step in absolute value stay there for every history;
without `forget_buffer`, what was accumulated and what was written differ by less than two steps (one
if the buffer starts at zero). -/
theorem C55_bounded (o : Ops G W Ω) (c : Cfg)
    (hm : (c.forget = false ∧ c.momentum = 0) ∨ (c.forget = true ∧ |c.momentum| < 1))
    (us : List (Upd Ω)) (s : St G W Ω) (hs : s.reads = []) (k i : Nat) (h0 : |s.hid k i| < 1) :
    |(c.run o s us).hid k i| < 1 ∧
    (c.forget = false →
      |((readsOf (c.run o s us).reads k).map fun r => r.inc i).sum -
        (((readsOf (c.run o s us).reads k).map fun r => r.n i).sum : ℤ)| < 1 + |s.hid k i|) := by
  have h1 : |(c.run o s us).hid k i| < 1 := by
    refine run_inv o c (fun t => |t.hid k i| < 1) us ?_ ?_ ?_ s h0
    · intro u _ t h; exact h
    · intro t _ h; exact h
    · intro u _ t l _ h
      show |setRow t.hid (c.nextIdx t) (fun i => c.left (c.acc o t u l (c.nextIdx t) i)) k i| < 1
      by_cases hk : k = c.nextIdx t
      · rw [← hk, setRow_same]
        generalize c.acc o t u l k i = a
        unfold Cfg.left
        rcases hm with ⟨hf, hm⟩ | ⟨hf, hm⟩
        · rw [hf, hm]
          simp only [Bool.false_eq_true, if_false]
          have := Aihw.Pulsed.trunc0_abs_sub a
          rwa [sub_zero, mul_one, ← sub_eq_add_neg]
        · rw [if_pos hf]
          by_cases hz : trunc0 a = 0
          · rw [if_pos hz]; exact (trunc0_eq_zero a).1 hz
          · rw [if_neg hz]; exact hm
      · rw [setRow_ne _ hk]; exact h
  refine ⟨h1, ?_⟩
  intro hf
  have hmz : c.momentum = 0 := by
    rcases hm with ⟨_, h⟩ | ⟨h, _⟩
    · exact h
    · rw [hf] at h; cases h
  have hc := C55_conservation o c hf us s hs k i
  rw [hmz] at hc
  rw [abs_lt] at h1 ⊢
  have h2 := neg_abs_le (s.hid k i)
  have h3 := le_abs_self (s.hid k i)
  constructor <;> linarith [h1.1, h1.2]

/-- The weight tile after the given reads: each read with at least one non-zero step writes the
negative steps on its slice. -/
def writes (o : Ops G W Ω) (n : Nat) (w : W) : List (Rd Ω) → W
  | [] => w
  | r :: rs => writes o n (if ∃ i, i < n ∧ r.n i ≠ 0 then o.wUpd r.k (fun i => -(r.n i : ℚ)) r.ωw w else w) rs

theorem writes_append (o : Ops G W Ω) (n : Nat) (w : W) (a b : List (Rd Ω)) :
    writes o n w (a ++ b) = writes o n (writes o n w a) b := by
  induction a generalizing w with
  | nil => rfl
  | cons r a ih => exact ih _

/-- **C55 (the visible weights change only by transfers).**  The weights that forward, backward and
`get_weights` use are those of the weight tile; for every history the weight tile is the initial one
after exactly the writes of the reads that request at least one step, in order.  In particular gradient
updates alone never change the visible weights. -/
theorem C55_weight_writes (o : Ops G W Ω) (c : Cfg) (us : List (Upd Ω)) (s : St G W Ω)
    (hs : s.reads = []) : (c.run o s us).w = writes o c.tOut s.w (c.run o s us).reads := by
  refine run_inv o c (fun t => t.w = writes o c.tOut s.w t.reads) us ?_ ?_ ?_ s ?_
  · intro u _ t h; exact h
  · intro t _ h; exact h
  · intro u _ t l _ h
    rw [transfer_reads, writes_append, ← h]
    show c.write o (rdOf o c t u l).n (rdOf o c t u l).k (rdOf o c t u l).ωw t.w = _
    generalize rdOf o c t u l = r
    unfold Cfg.write
    simp only [writes]
    by_cases hz : ∃ i, i < c.tOut ∧ r.n i ≠ 0
    · obtain ⟨i, hi, hn⟩ := hz
      rw [if_pos (show ∃ i, i < c.tOut ∧ r.n i ≠ 0 from ⟨i, hi, hn⟩), if_neg]
      rw [List.all_eq_true]
      intro h
      exact hn (of_decide_eq_true (h i (List.mem_range.2 hi)))
    · rw [if_neg hz, if_pos]
      rw [List.all_eq_true]
      intro i hi
      by_contra hn
      exact hz ⟨i, List.mem_range.1 hi, fun h => hn (by simp [h])⟩
  · rw [hs]; rfl

theorem map_eq_self {α : Type} (f : α → α) (l : List α) : l.map f = l ↔ ∀ a ∈ l, f a = a := by
  induction l with
  | nil => simp
  | cons a l ih => simp [ih]

/-- **C55 (finding: the caller's input is modified).**  A supported update multiplies the tensor the
caller passed by the choppers, in place: afterwards entry `j` of every row is `x_j * chopper_j`.  The
tensor is unchanged exactly if all entries with a chopper different from one are zero. -/
theorem C55_input_modified (o : Ops G W Ω) (c : Cfg) (s : St G W Ω) (u : Upd Ω) (hs : ¬ Unsupported c u) :
    (c.update o s u).2.2 = u.x.map (fun row => row.mapIdx fun j v => v * s.chop j) ∧
    ((c.update o s u).2.2 = u.x ↔ ∀ row ∈ u.x, ∀ j (h : j < row.length), s.chop j = 1 ∨ row[j] = 0) := by
  have hr : ¬ c.rejects u = true := fun h => hs ((rejects_iff c u).1 h)
  have e : (c.update o s u).2.2 = u.x.map (fun row => row.mapIdx fun j v => v * s.chop j) := by
    unfold Cfg.update
    rw [if_neg hr]; rfl
  refine ⟨e, ?_⟩
  rw [e]
  constructor
  · intro h row hrow j hj
    have h1 : (row.mapIdx fun j v => v * s.chop j) = row := (map_eq_self _ _).1 h row hrow
    have h2 : (row.mapIdx fun j v => v * s.chop j)[j]'(by simpa using hj) = row[j] := by
      simp only [h1]
    rw [List.getElem_mapIdx] at h2
    have : row[j] * (s.chop j - 1) = 0 := by linarith
    rcases mul_eq_zero.1 this with h3 | h3
    · exact Or.inr h3
    · left; linarith
  · intro h
    apply (map_eq_self _ _).2
    intro row hrow
    apply List.ext_getElem
    · simp
    · intro j h1 h2
      rw [List.getElem_mapIdx]
      rcases h row hrow j h2 with h3 | h3
      · rw [h3, mul_one]
      · rw [h3, zero_mul]

/-- **C55 (finding: row transfer).**  The chopper vector has one entry per column.  With
`transfer_columns = False` and more rows than columns, a read of a row without an entry raises
`IndexError`: the transfer counter has advanced and the gradient tile is updated, but nothing is
transferred. -/
theorem C55_row_transfer (o : Ops G W Ω) (c : Cfg) (s : St G W Ω) (u : Upd Ω) (hs : ¬ Unsupported c u)
    (T : Nat) (hT : c.te u.x.length = T) (h0 : 0 < T)
    (h1 : (s.uc + u.x.length) / T = s.uc / T + 1) (l : ℚ)
    (hl : c.lrH T u.lr (c.lrA s u).1 = .ok l) :
    ((c.update o s u).2.1 = none ↔ (s.idx + 1) % c.tIn < c.xSize) ∧
    (c.xSize ≤ (s.idx + 1) % c.tIn → (c.update o s u).2.1 = some .indexError ∧
      (c.update o s u).1.hid = s.hid ∧ (c.update o s u).1.w = s.w ∧
      (c.update o s u).1.idx = (s.idx + 1) % c.tIn) ∧
    (c.cols = true → 0 < c.xSize → (c.update o s u).2.1 = none) := by
  have hr : ¬ c.rejects u = true := fun h => hs ((rejects_iff c u).1 h)
  have hdm := Nat.div_add_mod s.uc T
  have hlt := Nat.mod_lt s.uc h0
  have key : (s.uc + u.x.length) / T = s.uc / T + (s.uc % T + u.x.length) / T := by
    conv_lhs => rw [← hdm]
    rw [Nat.add_assoc, Nat.mul_add_div h0]
  have h1' : (s.uc % T + u.x.length) / T = 1 := by omega
  have h2 := Nat.div_add_mod (s.uc % T + u.x.length) T
  have h3 := Nat.mod_lt (s.uc % T + u.x.length) h0
  rw [h1'] at h2
  have e : c.body o s u = if (s.idx + 1) % c.tIn < c.xSize then
      (c.transfer o (c.grad o s u) u l, none)
      else ({ c.grad o s u with idx := (s.idx + 1) % c.tIn }, some .indexError) := by
    unfold Cfg.body
    simp only [hT]
    rw [if_neg (by omega : ¬ T = 0), if_neg (by omega), if_neg (by omega)]
    unfold Cfg.tryTransfer
    rw [hl]
    rfl
  have eu : c.update o s u = ((c.body o s u).1, (c.body o s u).2, chopRows s.chop u.x) := by
    unfold Cfg.update
    rw [if_neg hr]
  rw [eu, e]
  by_cases hk : (s.idx + 1) % c.tIn < c.xSize
  · rw [if_pos hk]
    exact ⟨⟨fun _ => hk, fun _ => rfl⟩, fun h => absurd h (not_le.2 hk), fun _ _ => rfl⟩
  · rw [if_neg hk]
    refine ⟨⟨fun h => ?_, fun h => absurd h hk⟩, fun _ => ⟨rfl, rfl, rfl, rfl⟩, ?_⟩
    · cases h
    · intro hc hx
      exfalso
      apply hk
      have : c.tIn = c.xSize := by unfold Cfg.tIn; rw [if_pos hc]
      rw [this]
      exact Nat.mod_lt _ hx

end Aihw.PyTransfer
