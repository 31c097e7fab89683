import Verif.FloatPrec.Lemmas3

/-!
# The cast on magnitudes: monotone, idempotent
-/
namespace Aihw.FloatPrec

/-- The cast of the lower 31 bits. -/
def castMag (el ml : Nat) (toInf : Bool) (b : Nat) : Nat :=
  if el = 8 ∧ toInf then roundBody ml b
  else if roundBody ml b / 2 ^ 23 + biasEl el ≤ 127 then 0 else satBody el toInf (roundBody ml b)

/-- Is the sign dropped? -/
def dropped (el ml : Nat) (toInf : Bool) (b : Nat) : Prop :=
  ¬ (el = 8 ∧ toInf) ∧ roundBody ml b / 2 ^ 23 + biasEl el ≤ 127

theorem castOne_split (el ml : Nat) (h1 : 1 ≤ el) (h8 : el ≤ 8) (hm : ml ≤ 22) (toInf : Bool) (s b : Nat) (hs : s < 2)
    (hb : b < 2 ^ 31) :
    (dropped el ml toInf b → castOne el ml toInf (s * 2 ^ 31 + b) = 0 ∧ castMag el ml toInf b = 0) ∧
    (¬ dropped el ml toInf b → castOne el ml toInf (s * 2 ^ 31 + b) = s * 2 ^ 31 + castMag el ml toInf b) := by
  have hx : s * 2 ^ 31 + b < 2 ^ 32 := by omega
  have d1 : (s * 2 ^ 31 + b) / 2 ^ 31 = s := by omega
  have d2 : (s * 2 ^ 31 + b) % 2 ^ 31 = b := by omega
  rw [castOne_eq el ml h1 h8 hm toInf _ hx, d1, d2]
  unfold dropped castMag
  by_cases c : el = 8 ∧ toInf
  · simp only [if_pos c]
    exact ⟨fun h => absurd c h.1, fun _ => trivial⟩
  · simp only [if_neg c]
    by_cases c0 : roundBody ml b / 2 ^ 23 + biasEl el ≤ 127
    · simp only [if_pos c0]
      exact ⟨fun _ => ⟨trivial, trivial⟩, fun h => absurd ⟨c, c0⟩ h⟩
    · simp only [if_neg c0]
      exact ⟨fun h => absurd h.2 c0, fun _ => trivial⟩

theorem inf_dvd (k : Nat) (hk : k ≤ 23) : 2 ^ k ∣ 255 * 2 ^ 23 := Dvd.dvd.mul_left (Nat.pow_dvd_pow 2 hk) _

theorem roundBody_dvd (ml b : Nat) : 2 ^ (23 - ml) ∣ roundBody ml b := by
  unfold roundBody
  split_ifs
  · exact inf_dvd _ (by omega)
  · exact rnd_dvd _ _

theorem roundBody_fix (ml b : Nat) (hm : ml ≤ 22) (hb : b ≤ 255 * 2 ^ 23) (h : 2 ^ (23 - ml) ∣ b) : roundBody ml b = b := by
  unfold roundBody
  split_ifs with h'
  · omega
  · exact rnd_fix _ _ (by omega) h

theorem roundBody_mono (ml : Nat) (hm : ml ≤ 22) {b c : Nat} (hc : c < 2 ^ 31) (h : b ≤ c) : roundBody ml b ≤ roundBody ml c := by
  have hb := roundBody_le ml b hm (by omega)
  by_cases h' : c / 2 ^ 23 = 255
  · have : roundBody ml c = 255 * 2 ^ 23 := by unfold roundBody; rw [if_pos h']
    omega
  · unfold roundBody
    rw [if_neg h', if_neg (by omega)]
    exact rnd_mono _ h

theorem castMag_le (el ml : Nat) (h8 : el ≤ 8) (hm : ml ≤ 22) (toInf : Bool) (b : Nat) (hb : b < 2 ^ 31) :
    castMag el ml toInf b ≤ 255 * 2 ^ 23 := by
  have h := roundBody_le ml b hm hb
  have hB := biasEl_le el h8
  unfold castMag
  split_ifs
  · exact h
  · omega
  · unfold satBody
    generalize roundBody ml b = b' at *
    split_ifs with c1 c2
    · exact h
    · exact le_rfl
    · by_cases h255 : b' = 255 * 2 ^ 23
      · subst h255; omega
      · have h88 : el ≤ 7 := by
          by_contra hc
          have : el = 8 := by omega
          subst this
          rw [biasEl_8] at c1
          omega
        have := biasEl_lt el h88
        omega

theorem castMag_idem (el ml : Nat) (h1 : 1 ≤ el) (h8 : el ≤ 8) (hm : ml ≤ 22) (toInf : Bool) (b : Nat) (hb : b < 2 ^ 31) :
    castMag el ml toInf (castMag el ml toInf b) = castMag el ml toInf b ∧
      (¬ dropped el ml toInf b → ¬ dropped el ml toInf (castMag el ml toInf b)) := by
  have h := roundBody_le ml b hm hb
  have hd := roundBody_dvd ml b
  have hB := biasEl_le el h8
  have hr : roundBody ml (castMag el ml toInf b) = castMag el ml toInf b := by
    apply roundBody_fix ml _ hm (castMag_le el ml h8 hm toInf b hb)
    unfold castMag
    split_ifs
    · exact hd
    · exact dvd_zero _
    · unfold satBody
      split_ifs
      · exact hd
      · exact inf_dvd _ (by omega)
      · apply Dvd.dvd.add
        · exact Dvd.dvd.mul_left (Nat.pow_dvd_pow 2 (by omega)) _
        · rw [Nat.dvd_mod_iff (Nat.pow_dvd_pow 2 (by omega))]
          exact hd
  by_cases c : el = 8 ∧ toInf
  · have e : ∀ b, castMag el ml toInf b = roundBody ml b := fun b => by unfold castMag; rw [if_pos c]
    refine ⟨by rw [e (castMag el ml toInf b)]; exact hr, fun _ h => h.1 c⟩
  · have e : ∀ b, castMag el ml toInf b =
        if roundBody ml b / 2 ^ 23 + biasEl el ≤ 127 then 0 else satBody el toInf (roundBody ml b) := fun b => by
      unfold castMag; rw [if_neg c]
    unfold dropped
    rw [hr]
    by_cases c0 : roundBody ml b / 2 ^ 23 + biasEl el ≤ 127
    · refine ⟨?_, fun h => absurd ⟨c, c0⟩ h⟩
      have e0 : castMag el ml toInf b = 0 := by rw [e b, if_pos c0]
      rw [e0, e 0]
      have r0 : roundBody ml 0 = 0 := roundBody_fix ml 0 hm (by norm_num) (dvd_zero _)
      rw [r0, if_pos (by omega)]
    · have e1 : castMag el ml toInf b = satBody el toInf (roundBody ml b) := by rw [e b, if_neg c0]
      have hge : ¬ (castMag el ml toInf b) / 2 ^ 23 + biasEl el ≤ 127 := by
        rw [e1]
        unfold satBody
        split_ifs
        · exact c0
        · omega
        · omega
      refine ⟨?_, fun _ h => hge h.2⟩
      rw [e (castMag el ml toInf b), hr, if_neg hge, e1]
      generalize roundBody ml b = b' at *
      by_cases c1 : b' / 2 ^ 23 < 128 + biasEl el
      · have : satBody el toInf b' = b' := by unfold satBody; rw [if_pos c1]
        rw [this, this]
      · cases toInf
        · have hm' : b' % 2 ^ 23 < 2 ^ 23 := Nat.mod_lt _ (by positivity)
          have f : satBody el false b' = (128 + biasEl el) * 2 ^ 23 + b' % 2 ^ 23 := by
            unfold satBody; rw [if_neg c1, if_neg Bool.false_ne_true]
          rw [f]
          generalize b' % 2 ^ 23 = m at *
          unfold satBody
          have g1 : ((128 + biasEl el) * 2 ^ 23 + m) / 2 ^ 23 = 128 + biasEl el := by omega
          have g2 : ((128 + biasEl el) * 2 ^ 23 + m) % 2 ^ 23 = m := by omega
          rw [g1, g2, if_neg (lt_irrefl _), if_neg Bool.false_ne_true]
        · have f : satBody el true b' = 255 * 2 ^ 23 := by unfold satBody; rw [if_neg c1, if_pos rfl]
          rw [f]
          unfold satBody
          rw [if_neg (by omega), if_pos rfl]

theorem satBody_mono (el : Nat) (toInf : Bool) (hi : toInf = true ∨ el = 8) (h8 : el ≤ 8) {b c : Nat} (hc : c ≤ 255 * 2 ^ 23)
    (h : b ≤ c) : satBody el toInf b ≤ satBody el toInf c := by
  have hB := biasEl_le el h8
  have key : ∀ b ≤ 255 * 2 ^ 23, satBody el toInf b = if b / 2 ^ 23 < 128 + biasEl el then b else 255 * 2 ^ 23 := by
    intro b hb
    unfold satBody
    by_cases c : b / 2 ^ 23 < 128 + biasEl el
    · rw [if_pos c, if_pos c]
    · rw [if_neg c, if_neg c]
      rcases hi with hi | hi
      · rw [if_pos hi]
      · subst hi
        rw [biasEl_8] at c ⊢
        cases toInf
        · rw [if_neg Bool.false_ne_true]; omega
        · rw [if_pos rfl]
  rw [key b (by omega), key c hc]
  by_cases c1 : b / 2 ^ 23 < 128 + biasEl el
  · rw [if_pos c1]
    split_ifs
    · exact h
    · omega
  · rw [if_neg c1, if_neg (by omega)]

theorem castMag_mono (el ml : Nat) (toInf : Bool) (hi : toInf = true ∨ el = 8) (h8 : el ≤ 8) (hm : ml ≤ 22) {b c : Nat}
    (hc : c < 2 ^ 31) (h : b ≤ c) : castMag el ml toInf b ≤ castMag el ml toInf c := by
  have hr := roundBody_mono ml hm hc h
  have hle := roundBody_le ml c hm hc
  unfold castMag
  by_cases c0 : el = 8 ∧ toInf
  · rw [if_pos c0, if_pos c0]; exact hr
  · rw [if_neg c0, if_neg c0]
    generalize roundBody ml b = b' at *
    generalize roundBody ml c = c' at *
    by_cases c1 : b' / 2 ^ 23 + biasEl el ≤ 127
    · rw [if_pos c1]; exact Nat.zero_le _
    · rw [if_neg c1, if_neg (by omega)]
      exact satBody_mono el toInf hi h8 hle hr

/-! ## Order of the values -/

/-- Sign and magnitude as an integer. -/
def ord (s b : Nat) : ℤ := if s = 1 then -(b : ℤ) else b

theorem val_num (s b : Nat) (hs : s < 2) (hb : b ≤ 255 * 2 ^ 23) :
    val (s * 2 ^ 31 + b) = if b = 255 * 2 ^ 23 then .inf (decide (s = 1)) else .fin (signed s (mag b)) := by
  rw [val_eq s b hs (by omega)]
  by_cases h : b = 255 * 2 ^ 23
  · rw [if_pos (by omega), if_pos (by omega), if_pos h]
  · rw [if_neg (by omega), if_neg h]

theorem mag_le_iff (b c : Nat) : mag b ≤ mag c ↔ b ≤ c := mag_strictMono.le_iff_le

theorem mag_zero : mag 0 = 0 := by rw [mag_sub 0 (by norm_num)]; simp

theorem signed_le (s t b c : Nat) (hs : s < 2) (ht : t < 2) : signed s (mag b) ≤ signed t (mag c) ↔ ord s b ≤ ord t c := by
  have h0 := mag_nonneg b
  have h1 := mag_nonneg c
  have hb0 : mag b ≤ 0 ↔ b = 0 := by
    rw [← mag_zero, mag_le_iff]; omega
  have hc0 : mag c ≤ 0 ↔ c = 0 := by
    rw [← mag_zero, mag_le_iff]; omega
  unfold signed ord
  by_cases c1 : s = 1
  · by_cases c2 : t = 1
    · rw [if_pos c1, if_pos c2, if_pos c1, if_pos c2, neg_le_neg_iff, mag_le_iff]; omega
    · rw [if_pos c1, if_neg c2, if_pos c1, if_neg c2]
      constructor
      · intro _; omega
      · intro _; linarith
  · by_cases c2 : t = 1
    · rw [if_neg c1, if_pos c2, if_neg c1, if_pos c2]
      constructor
      · intro h
        have a1 : b = 0 := hb0.1 (by linarith)
        have a2 : c = 0 := hc0.1 (by linarith)
        omega
      · intro h
        have a1 : b = 0 := by omega
        have a2 : c = 0 := by omega
        rw [a1, a2, mag_zero]; norm_num
    · rw [if_neg c1, if_neg c2, if_neg c1, if_neg c2, mag_le_iff]; omega

theorem val_le_iff (s t b c : Nat) (hs : s < 2) (ht : t < 2) (hb : b ≤ 255 * 2 ^ 23) (hc : c ≤ 255 * 2 ^ 23) :
    Val.le (val (s * 2 ^ 31 + b)) (val (t * 2 ^ 31 + c)) ↔ ord s b ≤ ord t c := by
  rw [val_num s b hs hb, val_num t c ht hc]
  by_cases hbi : b = 255 * 2 ^ 23
  · rw [if_pos hbi]
    by_cases hci : c = 255 * 2 ^ 23
    · rw [if_pos hci]
      unfold ord
      by_cases c1 : s = 1 <;> by_cases c2 : t = 1 <;> simp [c1, c2, Val.le] <;> omega
    · rw [if_neg hci]
      unfold ord
      by_cases c1 : s = 1 <;> by_cases c2 : t = 1 <;> simp [c1, c2, Val.le] <;> omega
  · rw [if_neg hbi]
    by_cases hci : c = 255 * 2 ^ 23
    · rw [if_pos hci]
      unfold ord
      by_cases c1 : s = 1 <;> by_cases c2 : t = 1 <;> simp [c1, c2, Val.le] <;> omega
    · rw [if_neg hci]
      exact signed_le s t b c hs ht

theorem ord_zero (s : Nat) : ord s 0 = 0 := by unfold ord; split_ifs <;> rfl

theorem ord_mono {f : Nat → Nat} (h0 : f 0 = 0) (N : Nat) (hf : ∀ b c, c ≤ N → b ≤ c → f b ≤ f c) (s t b c : Nat) (hb : b ≤ N)
    (hc : c ≤ N) (h : ord s b ≤ ord t c) : ord s (f b) ≤ ord t (f c) := by
  unfold ord at *
  by_cases c1 : s = 1 <;> by_cases c2 : t = 1
  · rw [if_pos c1, if_pos c2] at *
    have := hf c b hb (by omega)
    omega
  · rw [if_pos c1, if_neg c2] at *
    omega
  · rw [if_neg c1, if_pos c2] at *
    have a1 : b = 0 := by omega
    have a2 : c = 0 := by omega
    rw [a1, a2, h0]; norm_num
  · rw [if_neg c1, if_neg c2] at *
    have := hf b c hc (by omega)
    omega

theorem castMag_zero (el ml : Nat) (h8 : el ≤ 8) (hm : ml ≤ 22) (toInf : Bool) : castMag el ml toInf 0 = 0 := by
  have r0 : roundBody ml 0 = 0 := roundBody_fix ml 0 hm (by norm_num) (dvd_zero _)
  have := biasEl_le el h8
  unfold castMag
  rw [r0]
  split_ifs
  · rfl
  · rfl
  · omega

theorem val_cast (el ml : Nat) (h1 : 1 ≤ el) (h8 : el ≤ 8) (hm : ml ≤ 22) (toInf : Bool) (s b : Nat) (hs : s < 2)
    (hb : b < 2 ^ 31) : val (castOne el ml toInf (s * 2 ^ 31 + b)) = val (s * 2 ^ 31 + castMag el ml toInf b) := by
  obtain ⟨a, c⟩ := castOne_split el ml h1 h8 hm toInf s b hs hb
  by_cases h : dropped el ml toInf b
  · rw [(a h).1, (a h).2, val_zero, val_num s 0 hs (by norm_num), if_neg (by norm_num), mag_zero]
    unfold signed; simp
  · rw [c h]

end Aihw.FloatPrec
