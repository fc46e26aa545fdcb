import Verif.Model.Rounded
import Verif.Lemmas.Double
import Verif.Lemmas.Lattice

/-!
# Cell numbers in double precision
-/

namespace KMC

variable {fl : ℚ → ℚ}

/-- The constant 1.0e-9 of the code, as a `double`. -/
theorem eps_bounds (h : Rounding fl) : 1 / 2 ^ 30 < fl (1 / 1000000000) ∧ fl (1 / 1000000000) < 1 / 2 ^ 29 := by
  have := h.error (1 / 1000000000)
  rw [abs_of_pos (by norm_num : (0 : ℚ) < 1 / 1000000000), abs_le] at this
  constructor
  · have : (1 : ℚ) / 2 ^ 30 < 1 / 1000000000 - 1 / 1000000000 / 2 ^ 53 := by norm_num
    linarith
  · have : (1 : ℚ) / 1000000000 + 1 / 1000000000 / 2 ^ 53 < 1 / 2 ^ 29 := by norm_num
    linarith

/-- The doubles from a power of two on are multiples of a fixed number. -/
theorem IsDouble.spacing {y : ℚ} (h : IsDouble y) (a : ℤ) (ha : 2 ^ a ≤ y) : ∃ k : ℤ, y = k * 2 ^ (a - 52) := by
  rcases ha.lt_or_eq with ha | ha
  · obtain ⟨m, e, hm, rfl⟩ := h
    have hp : (0 : ℚ) < 2 ^ e := by positivity
    have hm' : (m : ℚ) ≤ 2 ^ (53 : ℤ) := by
      have := (abs_le.1 hm).2
      have h3 : (m : ℚ) ≤ ((2 ^ 53 : ℤ) : ℚ) := Int.cast_le.2 this
      rw [Int.cast_pow] at h3
      exact_mod_cast h3
    have h1 : (2 : ℚ) ^ a < 2 ^ (53 + e) := by
      rw [zpow_add₀ (by norm_num)]
      exact ha.trans_le (mul_le_mul_of_nonneg_right hm' hp.le)
    have h2 : a < 53 + e := (zpow_lt_zpow_iff_right₀ (by norm_num)).1 h1
    refine ⟨m * 2 ^ (e - (a - 52)).toNat, ?_⟩
    push_cast
    rw [← zpow_natCast (2 : ℚ), Int.toNat_of_nonneg (by omega), mul_assoc, ← zpow_add₀ (by norm_num)]
    congr 2
    ring
  · refine ⟨2 ^ 52, ?_⟩
    have e : (((2 ^ 52 : ℤ)) : ℚ) = 2 ^ (52 : ℤ) := by norm_num
    rw [← ha, e, ← zpow_add₀ (by norm_num)]
    congr 1
    ring

/-- Two different doubles above a power of two are not closer than that. -/
theorem IsDouble.gap {x y : ℚ} (hx : IsDouble x) (hy : IsDouble y) (a : ℤ) (hax : 2 ^ a ≤ x) (h : x < y) :
    x + 2 ^ (a - 52) ≤ y := by
  obtain ⟨k, hk⟩ := hx.spacing a hax
  obtain ⟨l, hl⟩ := hy.spacing a (hax.trans h.le)
  have hp : (0 : ℚ) < 2 ^ (a - 52) := by positivity
  have : (k : ℚ) < l := by
    rw [hk, hl] at h
    exact lt_of_mul_lt_mul_right h hp.le
  have : ((k + 1 : ℤ) : ℚ) ≤ l := by exact_mod_cast this
  push_cast at this
  rw [hk, hl]
  nlinarith

theorem isDouble_nat {n : Nat} (h : n ≤ 2 ^ 53) : IsDouble (n : ℚ) := by
  have := isDouble_of_int (n := n) (by rw [abs_of_nonneg (by omega)]; exact_mod_cast h)
  simpa using this

/-- Up to 2^24 the small constant makes a difference. -/
theorem sub_eps_bounds (h : Rounding fl) {n : Nat} (h1 : 1 ≤ n) (hn : n ≤ 2 ^ 24) :
    (n : ℚ) - 1 / 2 ≤ fl (n - fl (1 / 1000000000)) ∧
      (n ≤ 2 ^ 23 → fl (n - fl (1 / 1000000000)) ≤ n - 1 / 2 ^ 30) ∧
      (2 ^ 23 < n → fl (n - fl (1 / 1000000000)) ≤ n - 1 / 2 ^ 29) := by
  obtain ⟨e1, e2⟩ := eps_bounds h
  set eps := fl (1 / 1000000000)
  clear_value eps
  refine ⟨?_, ?_, ?_⟩
  · apply h.le
    · refine ⟨2 * n - 1, -1, ?_, ?_⟩
      · rw [abs_of_nonneg (by omega)]
        omega
      · push_cast
        rw [zpow_neg_one]
        ring
    · have : (1 : ℚ) / 2 ^ 29 ≤ 1 / 2 := by norm_num
      linarith
  · intro hn
    apply h.ge
    · refine ⟨n * 2 ^ 30 - 1, -30, ?_, ?_⟩
      · rw [abs_of_nonneg (by omega)]
        omega
      · push_cast
        rw [zpow_neg, sub_mul]
        norm_num
        ring
    · linarith
  · intro hn'
    have hd : IsDouble ((n : ℚ) - 1 / 2 ^ 29) := by
      refine ⟨n * 2 ^ 29 - 1, -29, ?_, ?_⟩
      · rw [abs_of_nonneg (by omega)]
        omega
      · push_cast
        rw [zpow_neg, sub_mul]
        norm_num
        ring
    have hnd : IsDouble (n : ℚ) := isDouble_nat (by omega)
    have hlt : fl (n - eps) < n := by
      by_contra hc
      push Not at hc
      have hnear := h.nearest (n - eps) _ hd
      have hp : (0 : ℚ) < 1 / 2 ^ 30 := by norm_num
      rw [abs_of_nonneg (by linarith : (0 : ℚ) ≤ fl (n - eps) - (n - eps)),
        abs_of_nonpos (by linarith : (n : ℚ) - 1 / 2 ^ 29 - (n - eps) ≤ 0)] at hnear
      have : (2 : ℚ) * (1 / 2 ^ 30) = 1 / 2 ^ 29 := by norm_num
      linarith
    have hlow : (2 : ℚ) ^ (23 : ℤ) ≤ fl (n - eps) := by
      apply h.le
      · exact ⟨1, 23, by norm_num, by simp⟩
      · have h3 : ((2 ^ 23 + 1 : Nat) : ℚ) ≤ n := Nat.cast_le.2 hn'
        have h2 : (1 : ℚ) / 2 ^ 29 ≤ 1 := by norm_num
        have h4 : (2 : ℚ) ^ (23 : ℤ) + 1 = ((2 ^ 23 + 1 : Nat) : ℚ) := by norm_num
        linarith
    have := (h.isDouble (n - eps)).gap hnd 23 hlow hlt
    have e : (2 : ℚ) ^ ((23 : ℤ) - 52) = 1 / 2 ^ 29 := by norm_num
    rw [e] at this
    linarith

/-- A number that is far enough below a whole number is not rounded up to it. -/
theorem fl_lt_nat (h : Rounding fl) {Q : Nat} {z : ℚ} (hQ : 1 ≤ Q) (hQ' : Q ≤ 2 ^ 24)
    (hz : z < Q - 2 ^ ((Nat.clog 2 Q : ℤ) - 54)) : fl z < Q := by
  set j := Nat.clog 2 Q with hj
  have hQj : Q ≤ 2 ^ j := Nat.le_pow_clog (by norm_num) Q
  have hj24 : j ≤ 24 := by
    rw [hj]
    exact (Nat.clog_le_iff_le_pow (by norm_num)).2 hQ'
  have hp : (0 : ℚ) < 2 ^ ((j : ℤ) - 54) := by positivity
  have e2 : (2 : ℚ) ^ ((j : ℤ) - 53) = 2 * 2 ^ ((j : ℤ) - 54) := by
    rw [show ((j : ℤ) - 53) = 1 + (j - 54) by ring, zpow_add₀ (by norm_num), zpow_one]
  have hd : IsDouble ((Q : ℚ) - 2 ^ ((j : ℤ) - 53)) := by
    refine ⟨Q * 2 ^ (53 - j) - 1, (j : ℤ) - 53, ?_, ?_⟩
    · have h1 : Q * 2 ^ (53 - j) ≤ 2 ^ 53 := by
        calc Q * 2 ^ (53 - j) ≤ 2 ^ j * 2 ^ (53 - j) := Nat.mul_le_mul_right _ hQj
          _ = 2 ^ 53 := by rw [← pow_add]; congr 1; omega
      have h2 : 1 ≤ Q * 2 ^ (53 - j) := Nat.mul_pos hQ (by positivity)
      have h1' : (Q : ℤ) * 2 ^ (53 - j) ≤ 2 ^ 53 := by exact_mod_cast h1
      have h2' : (1 : ℤ) ≤ (Q : ℤ) * 2 ^ (53 - j) := by exact_mod_cast h2
      rw [abs_of_nonneg (by omega)]
      omega
    · push_cast
      rw [sub_mul, one_mul, mul_assoc, ← zpow_natCast (2 : ℚ), ← zpow_add₀ (by norm_num)]
      have : ((53 - j : Nat) : ℤ) + ((j : ℤ) - 53) = 0 := by omega
      rw [this, zpow_zero, mul_one]
  rcases le_or_gt z ((Q : ℚ) - 2 ^ ((j : ℤ) - 53)) with hzd | hzd
  · have := h.ge hd hzd
    linarith
  · by_contra hc
    push Not at hc
    have hnear := h.nearest z _ hd
    rw [abs_of_nonneg (by linarith), abs_of_nonpos (by linarith)] at hnear
    linarith

/-- The truncated division with epsilon, in double precision, is integer division up to 2^24. -/
theorem trunc_div_fl (h : Rounding fl) (q f : Nat) (hf : 0 < f) (hq : (q / f + 1) * f ≤ 2 ^ 24) :
    truncInt (fl (fl ((((q : Int) + 1 : Int) : ℚ) - fl (1 / 1000000000)) / ((f : Int) : ℚ))) = ((q / f : Nat) : Int) := by
  set d := q / f with hd
  have hqd : f * d ≤ q := Nat.mul_div_le q f
  have hlt : q < f * (d + 1) := Nat.lt_mul_div_succ q hf
  have hn24 : q + 1 ≤ 2 ^ 24 := (Nat.succ_le_of_lt (hlt.trans_eq (Nat.mul_comm _ _))).trans hq
  obtain ⟨b1, b2, b3⟩ := sub_eps_bounds h (n := q + 1) (by omega) hn24
  have hcast : (((q : Int) + 1 : Int) : ℚ) = ((q + 1 : Nat) : ℚ) := by push_cast; rfl
  rw [hcast]
  set y := fl (((q + 1 : Nat) : ℚ) - fl (1 / 1000000000))
  clear_value y
  have hfQ : (0 : ℚ) < f := by exact_mod_cast hf
  have hf' : (((f : Int)) : ℚ) = f := by push_cast; rfl
  rw [hf']
  have hd24 : d + 1 ≤ 2 ^ 24 := (Nat.le_mul_of_pos_right _ hf).trans hq
  -- below
  have hlow : (d : ℚ) ≤ fl (y / f) := by
    apply h.le (isDouble_nat (by clear_value d; omega))
    rw [le_div_iff₀ hfQ]
    have : (f : ℚ) * d ≤ q := by exact_mod_cast hqd
    push_cast at b1
    linarith
  -- above
  have hup : fl (y / f) < ((d + 1 : Nat) : ℚ) := by
    apply fl_lt_nat h (Nat.succ_pos d) hd24
    set j := Nat.clog 2 (d + 1) with hj
    have hjd : (2 : ℚ) ^ ((j : ℤ) - 1) < (d + 1 : Nat) := by
      rcases Nat.eq_zero_or_pos j with h0 | h0
      · rw [h0]
        have : (1 : ℚ) ≤ ((d + 1 : Nat) : ℚ) := by push_cast; linarith [(Nat.cast_nonneg d : (0 : ℚ) ≤ d)]
        norm_num at this ⊢
        linarith
      · have hd1 : 1 < d + 1 := by
          by_contra hc
          have h9 : d + 1 = 1 := Nat.le_antisymm (not_lt.1 hc) (Nat.succ_pos d)
          rw [h9, Nat.clog_one_right] at hj
          exact absurd hj h0.ne'
        have := Nat.pow_pred_clog_lt_self (b := 2) (by norm_num) hd1
        rw [← hj] at this
        have h2 : ((2 ^ j.pred : Nat) : ℚ) < ((d + 1 : Nat) : ℚ) := by exact_mod_cast this
        have e : (2 : ℚ) ^ ((j : ℤ) - 1) = ((2 ^ j.pred : Nat) : ℚ) := by
          push_cast
          rw [← zpow_natCast (2 : ℚ)]
          congr 1
          rw [Nat.pred_eq_sub_one]
          omega
        rw [e]
        exact h2
    have hp : (0 : ℚ) < 2 ^ ((j : ℤ) - 1) := by positivity
    have hqQ : ((d + 1 : Nat) : ℚ) * f ≤ 2 ^ 24 := by exact_mod_cast hq
    have hfj : (f : ℚ) * 2 ^ ((j : ℤ) - 1) < 2 ^ 24 := by nlinarith
    have key : ∀ δ : ℚ, y ≤ ((d + 1 : Nat) : ℚ) * f - δ → (f : ℚ) * 2 ^ ((j : ℤ) - 54) < δ →
        y / f < ((d + 1 : Nat) : ℚ) - 2 ^ ((j : ℤ) - 54) := by
      intro δ h1 h2
      rw [div_lt_iff₀ hfQ, sub_mul]
      linarith
    have e54 : (f : ℚ) * 2 ^ ((j : ℤ) - 54) = f * 2 ^ ((j : ℤ) - 1) * (1 / 2 ^ 53) := by
      rw [show ((j : ℤ) - 54) = (j - 1) + (-53) by ring, zpow_add₀ (by norm_num)]
      norm_num
      ring
    rcases Nat.lt_or_ge (q + 1) ((d + 1) * f) with hc | hc
    · -- not the last of its row
      apply key 1
      · have : ((q + 1 + 1 : Nat) : ℚ) ≤ (((d + 1) * f : Nat) : ℚ) := by exact_mod_cast hc
        have b4 : y ≤ ((q + 1 : Nat) : ℚ) := by
          rcases Nat.lt_or_ge (2 ^ 23) (q + 1) with h9 | h9
          · have := b3 h9
            have : (0 : ℚ) < 1 / 2 ^ 29 := by norm_num
            linarith
          · have := b2 h9
            have : (0 : ℚ) < 1 / 2 ^ 30 := by norm_num
            linarith
        push_cast at this b4 ⊢
        linarith
      · rw [e54]
        have : (2 : ℚ) ^ 24 * (1 / 2 ^ 53) < 1 := by norm_num
        have h3 : (0 : ℚ) < 1 / 2 ^ 53 := by norm_num
        nlinarith
    · have heq : q + 1 = (d + 1) * f := Nat.le_antisymm (hlt.trans_eq (Nat.mul_comm _ _)) hc
      have heq' : ((q + 1 : Nat) : ℚ) = ((d + 1 : Nat) : ℚ) * f := by rw [heq]; push_cast; rfl
      rw [heq'] at b2 b3
      have h3 : (0 : ℚ) < 1 / 2 ^ 53 := by norm_num
      rcases Nat.lt_or_ge (2 ^ 23) (q + 1) with h9 | h9
      · apply key _ (b3 h9)
        rw [e54]
        have : (2 : ℚ) ^ 24 * (1 / 2 ^ 53) = 1 / 2 ^ 29 := by norm_num
        rw [← this]
        exact mul_lt_mul_of_pos_right hfj h3
      · apply key _ (b2 h9)
        rw [e54]
        have h10 : ((d + 1 : Nat) : ℚ) * f ≤ 2 ^ 23 := by rw [← heq']; exact_mod_cast h9
        have h11 : (f : ℚ) * 2 ^ ((j : ℤ) - 1) < 2 ^ 23 := by nlinarith
        have : (2 : ℚ) ^ 23 * (1 / 2 ^ 53) = 1 / 2 ^ 30 := by norm_num
        rw [← this]
        exact mul_lt_mul_of_pos_right h11 h3
  unfold truncInt
  rw [if_pos ((Nat.cast_nonneg d).trans hlow), Int.floor_eq_iff]
  push_cast at hup ⊢
  exact ⟨hlow, hup⟩

theorem trunc_sub_fl (h : Rounding fl) (q : Nat) (hq : q + 1 ≤ 2 ^ 24) :
    truncInt (fl ((((q : Int) + 1 : Int) : ℚ) - fl (1 / 1000000000))) = (q : Int) := by
  obtain ⟨b1, b2, b3⟩ := sub_eps_bounds h (n := q + 1) (by omega) hq
  have hcast : (((q : Int) + 1 : Int) : ℚ) = ((q + 1 : Nat) : ℚ) := by push_cast; rfl
  rw [hcast]
  set y := fl (((q + 1 : Nat) : ℚ) - fl (1 / 1000000000))
  have b4 : y < ((q + 1 : Nat) : ℚ) := by
    rcases Nat.lt_or_ge (2 ^ 23) (q + 1) with h9 | h9
    · have := b3 h9
      have : (0 : ℚ) < 1 / 2 ^ 29 := by norm_num
      linarith
    · have := b2 h9
      have : (0 : ℚ) < 1 / 2 ^ 30 := by norm_num
      linarith
  push_cast at b1 b4
  have h0 : (0 : ℚ) ≤ q := Nat.cast_nonneg q
  unfold truncInt
  rw [if_pos (by linarith), Int.floor_eq_iff]
  push_cast
  constructor <;> linarith

/-- The constant disappears above 2^24. -/
theorem sub_eps_eq (h : Rounding fl) {n : Nat} (h1 : 2 ^ 24 < n) (h2 : n ≤ 2 ^ 53) :
    fl (n - fl (1 / 1000000000)) = n := by
  obtain ⟨e1, e2⟩ := eps_bounds h
  set eps := fl (1 / 1000000000)
  clear_value eps
  have hp : (0 : ℚ) < 1 / 2 ^ 30 := by norm_num
  have hnd : IsDouble (n : ℚ) := isDouble_nat h2
  have hle : fl (n - eps) ≤ n := h.ge hnd (by linarith)
  rcases hle.lt_or_eq with hlt | heq
  · exfalso
    have hlow : (2 : ℚ) ^ (24 : ℤ) ≤ fl (n - eps) := by
      apply h.le
      · exact ⟨1, 24, by norm_num, by simp⟩
      · have h3 : ((2 ^ 24 + 1 : Nat) : ℚ) ≤ n := Nat.cast_le.2 h1
        have h2 : (1 : ℚ) / 2 ^ 29 ≤ 1 := by norm_num
        have h4 : (2 : ℚ) ^ (24 : ℤ) + 1 = ((2 ^ 24 + 1 : Nat) : ℚ) := by norm_num
        linarith
    have := (h.isDouble (n - eps)).gap hnd 24 hlow hlt
    have e : (2 : ℚ) ^ ((24 : ℤ) - 52) = 2 * (1 / 2 ^ 29) := by norm_num
    rw [e] at this
    have hnear := h.nearest (n - eps) n hnd
    rw [abs_of_nonneg (by linarith : (0 : ℚ) ≤ (n : ℚ) - (n - eps)), abs_of_nonpos (by linarith)] at hnear
    linarith
  · exact heq

end KMC
