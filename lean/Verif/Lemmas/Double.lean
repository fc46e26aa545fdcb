import Verif.Model.Double
import Mathlib.Algebra.Order.Field.Power
import Mathlib.Tactic.Linarith
import Mathlib.Tactic.Ring
import Mathlib.Tactic.Positivity
import Mathlib.Tactic.FieldSimp
import Mathlib.Tactic.NormNum

/-!
# Rounding to double precision
-/

namespace KMC

theorem isDouble_of_int {n : ℤ} (h : |n| ≤ 2 ^ 53) : IsDouble (n : ℚ) := ⟨n, 0, h, by simp⟩

theorem isDouble_zero : IsDouble 0 := ⟨0, 0, by simp, by simp⟩

theorem isDouble_one : IsDouble 1 := ⟨1, 0, by norm_num, by simp⟩

theorem IsDouble.neg {x : ℚ} (h : IsDouble x) : IsDouble (-x) := by
  obtain ⟨m, e, hm, rfl⟩ := h
  exact ⟨-m, e, by rwa [abs_neg], by push_cast; ring⟩

/-- Multiples of a power of two. -/
theorem IsDouble.scale {x : ℚ} (h : IsDouble x) (e : ℤ) : IsDouble (x * 2 ^ e) := by
  obtain ⟨m, e', hm, rfl⟩ := h
  exact ⟨m, e' + e, hm, by rw [zpow_add₀ (by norm_num : (2 : ℚ) ≠ 0)]; ring⟩

/-! ### Rounding to an integer -/

theorem roundEven_near (q : ℚ) (n : ℤ) : |(roundEven q : ℚ) - q| ≤ |(n : ℚ) - q| := by
  have h1 := Int.floor_le q
  have h2 := Int.lt_floor_add_one q
  have key : |(roundEven q : ℚ) - q| ≤ q - ⌊q⌋ ∧ |(roundEven q : ℚ) - q| ≤ ⌊q⌋ + 1 - q := by
    unfold roundEven
    split
    · rw [abs_le, abs_le]
      refine ⟨⟨?_, ?_⟩, ?_, ?_⟩ <;> linarith
    · split
      · push_cast
        rw [abs_le, abs_le]
        refine ⟨⟨?_, ?_⟩, ?_, ?_⟩ <;> linarith
      · split
        · rw [abs_le, abs_le]
          refine ⟨⟨?_, ?_⟩, ?_, ?_⟩ <;> linarith
        · push_cast
          rw [abs_le, abs_le]
          refine ⟨⟨?_, ?_⟩, ?_, ?_⟩ <;> linarith
  rcases le_or_gt n ⌊q⌋ with hn | hn
  · have : (n : ℚ) ≤ ⌊q⌋ := by exact_mod_cast hn
    calc _ ≤ _ := key.1
      _ ≤ q - n := by linarith
      _ ≤ |(n : ℚ) - q| := by rw [abs_sub_comm]; exact le_abs_self _
  · have : ((⌊q⌋ + 1 : ℤ) : ℚ) ≤ n := by exact_mod_cast hn
    push_cast at this
    calc _ ≤ _ := key.2
      _ ≤ n - q := by linarith
      _ ≤ |(n : ℚ) - q| := le_abs_self _

theorem roundEven_half (q : ℚ) : |(roundEven q : ℚ) - q| ≤ 1 / 2 := by
  have h1 := Int.floor_le q
  have h2 := Int.lt_floor_add_one q
  rcases le_or_gt (q - ⌊q⌋) (1 / 2) with h | h
  · calc _ ≤ _ := roundEven_near q ⌊q⌋
      _ ≤ 1 / 2 := by rw [abs_le]; constructor <;> linarith
  · calc _ ≤ _ := roundEven_near q (⌊q⌋ + 1)
      _ ≤ 1 / 2 := by push_cast; rw [abs_le]; constructor <;> linarith

theorem roundEven_abs_le {q : ℚ} {n : ℤ} (h : |q| ≤ n) : |roundEven q| ≤ n := by
  rw [abs_le] at h
  have a := roundEven_near q n
  have b := roundEven_near q (-n)
  push_cast at b
  rw [abs_of_nonneg (by linarith : (0 : ℚ) ≤ n - q), abs_le] at a
  rw [abs_of_nonpos (by linarith : (-n : ℚ) - q ≤ 0), abs_le] at b
  rw [abs_le]
  constructor
  · have : (-n : ℚ) ≤ roundEven q := by linarith
    exact_mod_cast this
  · have : (roundEven q : ℚ) ≤ n := by linarith
    exact_mod_cast this

/-! ### Rounding to a double -/

theorem lastBit_bounds {x : ℚ} (hx : x ≠ 0) : 2 ^ 52 ≤ |x / 2 ^ lastBit x| ∧ |x / 2 ^ lastBit x| < 2 ^ 53 := by
  have hp : (0 : ℚ) < 2 ^ lastBit x := by positivity
  have h0 : 0 < |x| := abs_pos.2 hx
  rw [abs_div, abs_of_pos hp, le_div_iff₀ hp, div_lt_iff₀ hp]
  have e1 : (2 : ℚ) ^ 52 * 2 ^ lastBit x = 2 ^ Int.log 2 |x| := by
    unfold lastBit
    rw [show (2 : ℚ) ^ 52 = 2 ^ (52 : ℤ) by norm_num, ← zpow_add₀ (by norm_num)]
    congr 1
    ring
  have e2 : (2 : ℚ) ^ 53 * 2 ^ lastBit x = 2 ^ (Int.log 2 |x| + 1) := by
    unfold lastBit
    rw [show (2 : ℚ) ^ 53 = 2 ^ (53 : ℤ) by norm_num, ← zpow_add₀ (by norm_num)]
    congr 1
    ring
  rw [e1, e2]
  have a := Int.zpow_log_le_self (b := 2) (by norm_num) h0
  have b := Int.lt_zpow_succ_log_self (b := 2) (by norm_num) |x|
  push_cast at a b
  exact ⟨a, b⟩

/-- `toDouble` rounds to the nearest. -/
theorem toDouble_rounding : Rounding toDouble := by
  refine ⟨fun x => ?_, fun x y hy => ?_⟩
  · by_cases hx : x = 0
    · subst hx
      have : toDouble 0 = 0 := by decide +kernel
      rw [this]
      exact isDouble_zero
    · refine ⟨roundEven (x / 2 ^ lastBit x), lastBit x, ?_, rfl⟩
      apply roundEven_abs_le
      push_cast
      exact (lastBit_bounds hx).2.le
  · by_cases hx : x = 0
    · subst hx
      have : toDouble 0 = 0 := by decide +kernel
      rw [this]
      simp
    obtain ⟨b1, b2⟩ := lastBit_bounds hx
    obtain ⟨m, e, hm, rfl⟩ := hy
    unfold toDouble
    set l := lastBit x with hl
    clear_value l
    have hp : (0 : ℚ) < 2 ^ l := by positivity
    set q := x / 2 ^ l with hq
    have hx' : x = q * 2 ^ l := by rw [hq]; field_simp
    have goal : ∀ z : ℚ, |(roundEven q : ℚ) - q| ≤ |z - q| →
        |(roundEven q : ℚ) * 2 ^ l - x| ≤ |z * 2 ^ l - x| := by
      intro z hz
      rw [hx', ← sub_mul, ← sub_mul, abs_mul, abs_mul]
      exact mul_le_mul_of_nonneg_right hz (abs_nonneg _)
    have hy : (m : ℚ) * 2 ^ e = (m : ℚ) * 2 ^ (e - l) * 2 ^ l := by
      rw [mul_assoc, ← zpow_add₀ (by norm_num)]
      congr 2
      ring
    rw [hy]
    apply goal
    rcases le_or_gt l e with h | h
    · have : (m : ℚ) * 2 ^ (e - l) = ((m * 2 ^ (e - l).toNat : ℤ) : ℚ) := by
        push_cast
        congr 1
        rw [← zpow_natCast, Int.toNat_of_nonneg (by omega)]
      rw [this]
      exact roundEven_near _ _
    · have hm' : |(m : ℚ)| ≤ 2 ^ 53 := by exact_mod_cast hm
      have hz : |(m : ℚ) * 2 ^ (e - l)| ≤ 2 ^ 52 := by
        rw [abs_mul, abs_of_pos (by positivity : (0 : ℚ) < 2 ^ (e - l))]
        have : (2 : ℚ) ^ (e - l) ≤ 2 ^ (-1 : ℤ) := zpow_le_zpow_right₀ (by norm_num) (by omega)
        calc _ ≤ (2 : ℚ) ^ 53 * 2 ^ (-1 : ℤ) := mul_le_mul hm' this (by positivity) (by positivity)
          _ = 2 ^ 52 := by norm_num
      rw [abs_le] at hz
      rcases le_or_gt 0 q with h0 | h0
      · rw [abs_of_nonneg h0] at b1
        have := roundEven_near q (2 ^ 52)
        push_cast at this
        refine this.trans ?_
        rw [abs_of_nonpos (by linarith), abs_of_nonpos (by linarith)]
        linarith
      · rw [abs_of_neg h0] at b1
        have := roundEven_near q (-2 ^ 52)
        push_cast at this
        refine this.trans ?_
        rw [abs_of_nonneg (by linarith), abs_of_nonneg (by linarith)]
        linarith

namespace Rounding
variable {fl : ℚ → ℚ}

/-- Numbers that fit are not changed. -/
theorem self (h : Rounding fl) {x : ℚ} (hx : IsDouble x) : fl x = x := by
  have := h.nearest x x hx
  rw [sub_self, abs_zero] at this
  have := abs_nonpos_iff.1 this
  linarith

theorem zero (h : Rounding fl) : fl 0 = 0 := h.self isDouble_zero

theorem le (h : Rounding fl) {a x : ℚ} (ha : IsDouble a) (hax : a ≤ x) : a ≤ fl x := by
  by_contra hc
  have := h.nearest x a ha
  rw [abs_of_nonpos (by linarith), abs_of_nonpos (by linarith)] at this
  linarith

theorem ge (h : Rounding fl) {a x : ℚ} (ha : IsDouble a) (hax : x ≤ a) : fl x ≤ a := by
  by_contra hc
  have := h.nearest x a ha
  rw [abs_of_nonneg (by linarith), abs_of_nonneg (by linarith)] at this
  linarith

/-- Rounding keeps the order. -/
theorem mono (h : Rounding fl) {x y : ℚ} (hxy : x ≤ y) : fl x ≤ fl y := by
  rcases hxy.lt_or_eq with hlt | rfl
  · by_contra hc
    push Not at hc
    have a := h.nearest x (fl y) (h.isDouble y)
    have b := h.nearest y (fl x) (h.isDouble x)
    rcases le_or_gt x (fl y) with h1 | h1
    · rw [abs_of_nonneg (by linarith), abs_of_nonneg (by linarith)] at a
      linarith
    · rcases le_or_gt (fl x) y with h2 | h2
      · rw [abs_of_nonpos (by linarith), abs_of_nonpos (by linarith)] at b
        linarith
      · rw [abs_of_nonneg (by linarith), abs_of_nonpos (by linarith)] at a
        rw [abs_of_nonpos (by linarith), abs_of_nonneg (by linarith)] at b
        linarith
  · exact le_rfl

/-- The relative error is at most one in 2^53. -/
theorem error (h : Rounding fl) (x : ℚ) : |fl x - x| ≤ |x| / 2 ^ 53 := by
  by_cases hx : x = 0
  · subst hx
    rw [h.zero]
    simp
  have h1 := h.nearest x (toDouble x) (toDouble_rounding.isDouble x)
  refine h1.trans ?_
  have b1 := (lastBit_bounds hx).1
  unfold toDouble
  set l := lastBit x
  clear_value l
  have hp : (0 : ℚ) < 2 ^ l := by positivity
  have h2 := roundEven_half (x / 2 ^ l)
  set q := x / 2 ^ l with hq
  have hx' : x = q * 2 ^ l := by rw [hq]; field_simp
  clear_value q
  subst hx'
  rw [← sub_mul, abs_mul, abs_mul, abs_of_pos hp, mul_div_right_comm]
  apply mul_le_mul_of_nonneg_right _ hp.le
  rw [le_div_iff₀ (by positivity)]
  calc _ ≤ 1 / 2 * (2 : ℚ) ^ 53 := by gcongr
    _ = 2 ^ 52 := by norm_num
    _ ≤ _ := b1

theorem pos (h : Rounding fl) {x : ℚ} (hx : 0 < x) : 0 < fl x := by
  have := h.error x
  rw [abs_of_pos hx, abs_le] at this
  have h2 : x / 2 ^ 53 < x := div_lt_self hx (by norm_num)
  linarith

end Rounding
end KMC
