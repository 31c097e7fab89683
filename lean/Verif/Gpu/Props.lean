import Verif.Gpu.Steps

/-!
# C94–C96: the pulsed update on the GPU
-/

namespace Aihw.Gpu

open Spec

/-! ### C94: the 32-bit format -/

/-- **C94.** Whatever the layouts of the inputs (`xt`, `dt`) and of the counts (`o`), the sizes, the
length of the trains (a common one, or one per sample), the random numbers and the order in which the
threads store their words: reading the counts of a sample at a cross-point yields the number of
coincident pulses, and, if there are any, whether the signs differ. -/
theorem C94_counts (xt dt o ublm : Bool) (Ks : ℕ → ℕ) (Kmax xsz dsz m : ℕ) (x d : ℕ → Entry)
    (hK : ∀ b, b < m → getK ublm Ks Kmax b ≤ Kmax) (xops dops : List (ℕ × W32))
    (hx : xops.Perm (launch32 xt o ublm Ks Kmax xsz m x))
    (hd : dops.Perm (launch32 dt o ublm Ks Kmax dsz m d))
    (b i j : ℕ) (hb : b < m) (hi : i < xsz) (hj : j < dsz) (s : Sample)
    (hs : s = ⟨x (place xt xsz m b i), d (place dt dsz m b j), getK ublm Ks Kmax b⟩) (r : Read)
    (hr : (reads32 .both o (nK32 Kmax) xsz dsz m (counts xops) (counts dops) i j)[b]? = some r) :
    r.n = coincidences s ∧ (0 < r.n → r.negative = if opposite s then 1 else 0)
      ∧ r.mixed = false := by
  have hr' : r = read32 .both (counts xops) (counts dops)
      (getIdxToLoad o b i xsz m (xsz * nK32 Kmax)) (getIdxToLoad o b j dsz m (dsz * nK32 Kmax))
      (nK32 Kmax) xsz dsz := by
    unfold reads32 at hr
    rw [List.getElem?_map, List.getElem?_range hb] at hr
    exact (Option.some.inj hr).symm
  rw [readAt hi, readAt hj] at hr'
  have hc := count32_sample hK hx hd hb hi hj (o := o)
  have hsx := (mem32 hK hx hb hi).1
  have hsd := (mem32 hK hd hb hj).1
  unfold read32 at hr'
  dsimp only at hr'
  rw [hc, hsx, hsd, ← hs] at hr'
  subst hr'
  refine ⟨rfl, ?_, rfl⟩
  intro h0
  obtain ⟨k, hk, hfx, hfd⟩ := coincidences_pos h0
  subst hs
  show (if (signBit _ _ != signBit _ _) = true then 1 else 0) = _
  rw [signBit_eq (K := getK ublm Ks Kmax b) hk hfx, signBit_eq (K := getK ublm Ks Kmax b) hk hfd]
  rfl

/-- **C94.** The pulses delivered sample by sample, for an ordinary device and for the two devices of
a one-sided pair: exactly the pulses of the sample. -/
theorem C94_pulses (xt dt o ublm : Bool) (Ks : ℕ → ℕ) (Kmax xsz dsz m : ℕ) (x d : ℕ → Entry)
    (hK : ∀ b, b < m → getK ublm Ks Kmax b ≤ Kmax) (xops dops : List (ℕ × W32))
    (hx : xops.Perm (launch32 xt o ublm Ks Kmax xsz m x))
    (hd : dops.Perm (launch32 dt o ublm Ks Kmax dsz m d))
    (i j : ℕ) (hi : i < xsz) (hj : j < dsz) (side : Side) :
    (reads32 side o (nK32 Kmax) xsz dsz m (counts xops) (counts dops) i j).map delivered
      = (samples xt dt xsz dsz m (getK ublm Ks Kmax) x d i j).map
          (fun s => select side (pulses s)) := by
  unfold reads32 samples
  rw [List.map_map, List.map_map]
  apply List.map_congr_left
  intro b hb
  exact delivered32 hK hx hd (List.mem_range.mp hb) hi hj side

/-- **C94.** No thread stores outside of the array of `size * words * batch` words, and no two
threads store to the same word. -/
theorem C94_inside (t o ublm : Bool) (Ks : ℕ → ℕ) (Kmax sz m : ℕ) (entry : ℕ → Entry)
    (hK : ∀ b, b < m → getK ublm Ks Kmax b ≤ Kmax) :
    (∀ p : ℕ × W32, p ∈ launch32 t o ublm Ks Kmax sz m entry → p.1 < sz * nK32 Kmax * m)
      ∧ ((launch32 t o ublm Ks Kmax sz m entry).map Prod.fst).Nodup := by
  refine ⟨?_, launch32_nodup hK⟩
  rintro ⟨a, v⟩ hmem
  unfold launch32 at hmem
  rw [List.mem_flatMap] at hmem
  obtain ⟨idx, hidx, hin⟩ := hmem
  have hpl := place_of (t := t) (List.mem_range.mp hidx)
  rw [← hpl.2.2] at hin
  obtain ⟨w, hw, ha⟩ := thread32_addr hK hpl.1 hpl.2.1 hin
  have hlt := place_lt (t := o) hpl.1 hpl.2.1
  show a < _
  rw [ha]
  generalize place o sz m (getBatchIdx t idx sz m) (getValueIdx t idx sz m) = q at hlt
  have hs : 0 < sz := by omega
  have hq : q / sz < m := by rw [Nat.div_lt_iff_lt_mul hs]; exact hlt
  have hr : q % sz < sz := Nat.mod_lt _ hs
  unfold base
  have h1 : (q / sz + 1) * (nK32 Kmax * sz) ≤ m * (nK32 Kmax * sz) := Nat.mul_le_mul_right _ hq
  have h2 : (w + 1) * sz ≤ nK32 Kmax * sz := Nat.mul_le_mul_right _ hw
  rw [Nat.add_mul, Nat.one_mul] at h1 h2
  have h3 : m * (nK32 Kmax * sz) = sz * nK32 Kmax * m := by ring
  omega

/-- **C94, the exception.** The update kernels which do not use shared memory take the number of
words per entry from the desired length of the trains, the bit line maker from the actual one. The
two differ if the length is neither fixed nor managed and has grown beyond 31 (32-bit format): the
slots from the 32nd on are then never seen. Here for a single sample. -/
theorem C94_fewer_words (xt dt o : Bool) (K xsz dsz : ℕ) (x d : ℕ → Entry) (hK : 31 ≤ K)
    (xops dops : List (ℕ × W32))
    (hx : xops.Perm (launch32 xt o false (fun _ => 0) K xsz 1 x))
    (hd : dops.Perm (launch32 dt o false (fun _ => 0) K dsz 1 d))
    (desired : ℕ) (hdes : desired ≤ 31) (i j : ℕ) (hi : i < xsz) (hj : j < dsz) :
    (reads32 .both o (nK32Default desired) xsz dsz 1 (counts xops) (counts dops) i j).map Read.n
      = [coincidences ⟨x (place xt xsz 1 0 i), d (place dt dsz 1 0 j), 31⟩] := by
  have hnw : nK32Default desired = 1 := by unfold nK32Default; omega
  have hKK : ∀ b, b < 1 → getK false (fun _ => 0) K b ≤ K := fun b _ => by simp [getK]
  have hpos : ∀ sz i : ℕ, i < sz → ∀ nw : ℕ, getIdxToLoad o 0 i sz 1 (sz * 1)
      = base nw sz (place o sz 1 0 i) := by
    intro sz i hi nw
    rw [readAt hi]
    have h0 : place o sz 1 0 i = i := by unfold place; cases o <;> simp
    unfold base
    rw [h0, Nat.div_eq_of_lt hi]
    simp
  rw [hnw]
  unfold reads32
  simp only [List.range_one, List.map_cons, List.map_nil]
  rw [hpos xsz i hi (nK32 K), hpos dsz j hj (nK32 K)]
  congr 1
  show count32 _ _ _ _ 1 xsz dsz = _
  rw [count32_eq _ _ _ _ _ _ _ (by omega), coincidences_eq]
  show List.countP _ (List.range 31) = _
  apply List.countP_congr
  intro k hk
  have hk' := List.mem_range.mp hk
  have hw : (k + 1) / 32 < nK32 K := by unfold nK32; omega
  have hp : (k + 1) % 32 < 32 := by omega
  have hne : (k + 1) / 32 ≠ 0 ∨ (k + 1) % 32 ≠ 0 := by omega
  rw [(mem32 hKK hx (by omega) hi).2 _ _ hw hp hne, (mem32 hKK hd (by omega) hj).2 _ _ hw hp hne]
  have e1 : 32 * ((k + 1) / 32) + (k + 1) % 32 = k + 1 := by omega
  rw [e1, Nat.add_sub_cancel]
  have e2 : k + 1 ≤ getK false (fun _ => 0) K 0 := by simp [getK]; omega
  simp only [e2, decide_true, Bool.true_and, Bool.and_eq_true, decide_eq_true_eq]

/-- **C94.** With fixed or managed length the two numbers of words agree. -/
theorem C94_words_agree (desired : ℕ) : nK32Default desired = nK32 desired := by
  unfold nK32Default nK32; omega

/-! ### C95: the 64-bit format -/

/-- **C95.** Whatever the layouts of the inputs, the sizes, the lengths of the trains up to 31 (a
common one, or one per sample), the random numbers and the order of the `atomicOr`s of the threads:
the words of a cross-point, read one after the other, deliver the pulses of all samples, in order,
each once and with its sign. -/
theorem C95_pulses (xt dt ublm : Bool) (Ks : ℕ → ℕ) (Kmax xsz dsz m : ℕ) (x d : ℕ → Entry)
    (hmax : Kmax ≤ 31) (hK : ∀ b, b < m → getK ublm Ks Kmax b ≤ Kmax) (xops dops : List (ℕ × W64))
    (hx : xops.Perm (launch64 xt ublm Ks Kmax xsz m x))
    (hd : dops.Perm (launch64 dt ublm Ks Kmax dsz m d))
    (i j : ℕ) (hi : i < xsz) (hj : j < dsz) (side : Side) :
    (reads64 side (readBatch64 ublm Ks Kmax m) xsz dsz (counts' xops) (counts' dops) i j).flatMap
        delivered
      = select side (train (samples xt dt xsz dsz m (getK ublm Ks Kmax) x d i j)) :=
  stream64 hmax hK hx hd hi hj side

/-- **C95.** The two formats deliver the same pulses. -/
theorem C95_formats (xt dt o ublm : Bool) (Ks : ℕ → ℕ) (Kmax xsz dsz m : ℕ) (x d : ℕ → Entry)
    (hmax : Kmax ≤ 31) (hK : ∀ b, b < m → getK ublm Ks Kmax b ≤ Kmax)
    (xw dw : List (ℕ × W64)) (xn dn : List (ℕ × W32))
    (hxw : xw.Perm (launch64 xt ublm Ks Kmax xsz m x))
    (hdw : dw.Perm (launch64 dt ublm Ks Kmax dsz m d))
    (hxn : xn.Perm (launch32 xt o ublm Ks Kmax xsz m x))
    (hdn : dn.Perm (launch32 dt o ublm Ks Kmax dsz m d))
    (i j : ℕ) (hi : i < xsz) (hj : j < dsz) (side : Side) :
    (reads64 side (readBatch64 ublm Ks Kmax m) xsz dsz (counts' xw) (counts' dw) i j).flatMap
        delivered
      = (reads32 side o (nK32 Kmax) xsz dsz m (counts xn) (counts dn) i j).flatMap delivered := by
  rw [stream64 hmax hK hxw hdw hi hj, stream32 hK hxn hdn hi hj]

/-- **C95.** No thread touches a word outside of the array of `size * batch` words, nor a word of
another line. -/
theorem C95_inside (t ublm : Bool) (Ks : ℕ → ℕ) (Kmax sz m : ℕ) (entry : ℕ → Entry)
    (hmax : Kmax ≤ 31) (hK : ∀ b, b < m → getK ublm Ks Kmax b ≤ Kmax) :
    (∀ p : ℕ × W64, p ∈ launch64 t ublm Ks Kmax sz m entry → p.1 < sz * m)
    ∧ ∀ (b b' i i' : ℕ) (p p' : ℕ × W64), b < m → b' < m → i < sz → i' < sz →
        p ∈ thread64 t ublm Ks Kmax sz m entry (place t sz m b i) →
        p' ∈ thread64 t ublm Ks Kmax sz m entry (place t sz m b' i') → p.1 = p'.1 → i = i' := by
  constructor
  · rintro ⟨a, v⟩ hmem
    unfold launch64 at hmem
    rw [List.mem_flatMap] at hmem
    obtain ⟨idx, hidx, hin⟩ := hmem
    have hpl := place_of (t := t) (List.mem_range.mp hidx)
    rw [← hpl.2.2] at hin
    obtain ⟨U, hU, ha⟩ := thread64_addr hpl.1 hpl.2.1 hin
    have hsum : ∀ n, n ≤ m → getKc ublm Ks Kmax n ≤ 31 * n := by
      intro n
      induction n with
      | zero => intro _; rw [getKc_zero]
      | succ n ih =>
        intro hn
        have := hK n hn
        have := ih (by omega)
        rw [getKc_succ]; omega
    have hnB : getnB ublm Ks Kmax m ≤ m := by
      have := hsum m (le_refl _)
      rw [getnB_eq]; omega
    show a < _
    rw [ha]
    have h1 : (getValueIdx t idx sz m + 1) * getnB ublm Ks Kmax m ≤ sz * getnB ublm Ks Kmax m :=
      Nat.mul_le_mul_right _ hpl.2.1
    have h2 : sz * getnB ublm Ks Kmax m ≤ sz * m := Nat.mul_le_mul_left _ hnB
    rw [Nat.add_mul, Nat.one_mul] at h1
    omega
  · rintro b b' i i' ⟨a, v⟩ ⟨a', v'⟩ hb hb' hi hi' h h' he
    obtain ⟨U, hU, ha⟩ := thread64_addr hb hi h
    obtain ⟨U', hU', ha'⟩ := thread64_addr hb' hi' h'
    simp only at he
    exact (row_inj hU hU' (by rw [← ha, ← ha', he])).1

/-! ### C96: the update kernels -/

/-- **C96.** 32-bit format: after the update every weight is what one step per pulse, one after the
other, makes of it, without cycle-to-cycle noise, for every kernel, layout and schedule. -/
theorem C96_update32 (k : Kernel) (xt dt o ublm : Bool) (Ks : ℕ → ℕ) (Kmax xsz dsz m : ℕ)
    (x d : ℕ → Entry) (hK : ∀ b, b < m → getK ublm Ks Kmax b ≤ Kmax) (xops dops : List (ℕ × W32))
    (hx : xops.Perm (launch32 xt o ublm Ks Kmax xsz m x))
    (hd : dops.Perm (launch32 dt o ublm Ks Kmax dsz m d))
    (side : Side) (p : ℕ → Dev) (z : ℕ → ℕ → ℚ) (w : ℕ → ℚ)
    (hquiet : ∀ c, (p c).sigma ≤ 0)
    (hw : ∀ c, (p c).wmin ≤ w c ∧ w c ≤ (p c).wmax)
    (hstep : k = .boundCheck → ∀ c, 0 ≤ (p c).down ∧ 0 ≤ (p c).up) :
    (∀ i j : ℕ, i < xsz → j < dsz →
      update32 k side o (nK32 Kmax) xsz dsz m (counts xops) (counts dops) p z w (i * dsz + j)
        = steps (p (i * dsz + j)) (w (i * dsz + j))
            (select side (train (samples xt dt xsz dsz m (getK ublm Ks Kmax) x d i j))))
    ∧ ∀ c : ℕ, xsz * dsz ≤ c →
      update32 k side o (nK32 Kmax) xsz dsz m (counts xops) (counts dops) p z w c = w c := by
  constructor
  · intro i j hi hj
    have hlt : i * dsz + j < xsz * dsz := by
      have := Nat.mul_le_mul_right dsz (show i + 1 ≤ xsz from hi)
      rw [Nat.add_mul] at this; omega
    have h1 : (i * dsz + j) / dsz = i := by
      rw [Nat.mul_comm, Nat.mul_add_div (by omega), Nat.div_eq_of_lt hj, Nat.add_zero]
    have h2 : (i * dsz + j) % dsz = j := by
      rw [Nat.mul_comm, Nat.mul_add_mod, Nat.mod_eq_of_lt hj]
    unfold update32
    rw [if_pos hlt, h1, h2]
    have hp := hw (i * dsz + j)
    rw [kernelCell_steps k (le_trans hp.1 hp.2) (not_lt.mpr (hquiet _))
      (fun hk => hstep hk _) _ _ hp, stream32 hK hx hd hi hj]
    intro r hr
    unfold reads32 at hr
    obtain ⟨b, _, rfl⟩ := List.mem_map.mp hr
    exact read32_proper _ _ _ _ _ _ _ _
  · intro c hc
    unfold update32
    rw [if_neg (by omega)]

/-- **C96.** The same in the 64-bit format. -/
theorem C96_update64 (k : Kernel) (xt dt ublm : Bool) (Ks : ℕ → ℕ) (Kmax xsz dsz m : ℕ)
    (x d : ℕ → Entry) (hmax : Kmax ≤ 31) (hK : ∀ b, b < m → getK ublm Ks Kmax b ≤ Kmax)
    (xops dops : List (ℕ × W64))
    (hx : xops.Perm (launch64 xt ublm Ks Kmax xsz m x))
    (hd : dops.Perm (launch64 dt ublm Ks Kmax dsz m d))
    (side : Side) (p : ℕ → Dev) (z : ℕ → ℕ → ℚ) (w : ℕ → ℚ)
    (hquiet : ∀ c, (p c).sigma ≤ 0)
    (hw : ∀ c, (p c).wmin ≤ w c ∧ w c ≤ (p c).wmax)
    (hstep : k = .boundCheck → ∀ c, 0 ≤ (p c).down ∧ 0 ≤ (p c).up) :
    (∀ i j : ℕ, i < xsz → j < dsz →
      update64 k side (readBatch64 ublm Ks Kmax m) xsz dsz (counts' xops) (counts' dops) p z w
          (i * dsz + j)
        = steps (p (i * dsz + j)) (w (i * dsz + j))
            (select side (train (samples xt dt xsz dsz m (getK ublm Ks Kmax) x d i j))))
    ∧ ∀ c : ℕ, xsz * dsz ≤ c →
      update64 k side (readBatch64 ublm Ks Kmax m) xsz dsz (counts' xops) (counts' dops) p z w c
        = w c := by
  constructor
  · intro i j hi hj
    have hlt : i * dsz + j < xsz * dsz := by
      have := Nat.mul_le_mul_right dsz (show i + 1 ≤ xsz from hi)
      rw [Nat.add_mul] at this; omega
    have h1 : (i * dsz + j) / dsz = i := by
      rw [Nat.mul_comm, Nat.mul_add_div (by omega), Nat.div_eq_of_lt hj, Nat.add_zero]
    have h2 : (i * dsz + j) % dsz = j := by
      rw [Nat.mul_comm, Nat.mul_add_mod, Nat.mod_eq_of_lt hj]
    unfold update64
    rw [if_pos hlt, h1, h2]
    have hp := hw (i * dsz + j)
    rw [kernelCell_steps k (le_trans hp.1 hp.2) (not_lt.mpr (hquiet _))
      (fun hk => hstep hk _) _ _ hp, stream64 hmax hK hx hd hi hj]
    intro r hr
    unfold reads64 at hr
    obtain ⟨b, _, rfl⟩ := List.mem_map.mp hr
    exact read64_proper _ _ _
  · intro c hc
    unfold update64
    rw [if_neg (by omega)]

end Aihw.Gpu
