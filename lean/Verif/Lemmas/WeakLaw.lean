import Mathlib.Algebra.BigOperators.Field
import Mathlib.Algebra.Order.BigOperators.Ring.Finset
import Mathlib.Analysis.SpecificLimits.Basic
import Mathlib.Analysis.SpecialFunctions.Pow.Real
import Mathlib.Tactic.Linarith
import Mathlib.Tactic.Positivity
import Mathlib.Tactic.Ring

/-!
# A weak law of large numbers

Averages along a chain of finitely many states that forgets where it has started. Nothing here refers to the model of the code.
-/

namespace KMC.Chain

variable {X : Type _}

/-- The probability of a list of states, with the probabilities `p` from each to the next. -/
def weight (p : X → X → ℝ) : X → List X → ℝ
  | _, [] => 1
  | x, y :: l => p x y * weight p y l

/-- The lists of `n` members of `T`. -/
def words [DecidableEq X] (T : Finset X) : ℕ → Finset (List X)
  | 0 => {[]}
  | n + 1 => (T ×ˢ words T n).image fun a => a.1 :: a.2

theorem mem_words [DecidableEq X] {T : Finset X} {n : ℕ} {l : List X} : l ∈ words T n ↔ l.length = n ∧ ∀ y ∈ l, y ∈ T := by
  induction n generalizing l with
  | zero =>
    rw [words, Finset.mem_singleton, List.length_eq_zero_iff]
    exact ⟨fun h => ⟨h, fun y hy => by rw [h] at hy; exact absurd hy List.not_mem_nil⟩, fun h => h.1⟩
  | succ n ih =>
    rw [words, Finset.mem_image]
    constructor
    · rintro ⟨⟨y, l'⟩, h, rfl⟩
      obtain ⟨h1, h2⟩ := Finset.mem_product.1 h
      obtain ⟨h3, h4⟩ := ih.1 h2
      exact ⟨by rw [List.length_cons, h3], List.forall_mem_cons.2 ⟨h1, h4⟩⟩
    · rintro ⟨h1, h2⟩
      cases l with
      | nil => simp at h1
      | cons y l =>
        obtain ⟨h3, h4⟩ := List.forall_mem_cons.1 h2
        exact ⟨(y, l), Finset.mem_product.2 ⟨h3, ih.2 ⟨by simpa using h1, h4⟩⟩, rfl⟩

theorem sum_words [DecidableEq X] (T : Finset X) (n : ℕ) (F : List X → ℝ) :
    ∑ l ∈ words T (n + 1), F l = ∑ y ∈ T, ∑ l ∈ words T n, F (y :: l) := by
  rw [words, Finset.sum_image, Finset.sum_product]
  rintro ⟨y, l⟩ - ⟨y', l'⟩ - h
  simp only [List.cons.injEq] at h
  exact Prod.ext h.1 h.2

variable {T : Finset X} {p : X → X → ℝ}

theorem weight_nonneg (hp : ∀ x ∈ T, ∀ y ∈ T, 0 ≤ p x y) {x : X} (hx : x ∈ T) {l : List X} (hl : ∀ y ∈ l, y ∈ T) :
    0 ≤ weight p x l := by
  induction l generalizing x with
  | nil => exact zero_le_one
  | cons y l ih =>
    obtain ⟨h1, h2⟩ := List.forall_mem_cons.1 hl
    exact mul_nonneg (hp x hx y h1) (ih h1 h2)

theorem sum_weight [DecidableEq X] (hp1 : ∀ x ∈ T, ∑ y ∈ T, p x y = 1) (n : ℕ) {x : X} (hx : x ∈ T) :
    ∑ l ∈ words T n, weight p x l = 1 := by
  induction n generalizing x with
  | zero => simp [words, weight]
  | succ n ih =>
    rw [sum_words, ← hp1 x hx]
    refine Finset.sum_congr rfl fun y hy => ?_
    simp only [weight]
    rw [← Finset.mul_sum, ih hy, mul_one]

/-- The mean square of a sum along the chain. -/
theorem second_moment [DecidableEq X] (hp : ∀ x ∈ T, ∀ y ∈ T, 0 ≤ p x y) (hp1 : ∀ x ∈ T, ∑ y ∈ T, p x y = 1) {f : X → ℝ} {F : ℝ}
    (hf : ∀ x ∈ T, |f x| ≤ F) {Q : ℕ → X → ℝ} (h0 : ∀ x ∈ T, Q 0 x = f x)
    (hQ : ∀ m, ∀ x ∈ T, Q (m + 1) x = ∑ y ∈ T, p x y * Q m y) {B : ℝ}
    (hB : ∀ n, ∀ x ∈ T, |∑ m ∈ Finset.range n, Q (m + 1) x| ≤ B) (n : ℕ) {x : X} (hx : x ∈ T) (a : ℝ) :
    ∑ l ∈ words T n, weight p x l * (a + (l.map f).sum) ^ 2 ≤
      a ^ 2 + 2 * a * ∑ m ∈ Finset.range n, Q (m + 1) x + n * (F ^ 2 + 2 * F * B) := by
  induction n generalizing x a with
  | zero => simp [words, weight]
  | succ n ih =>
    rw [sum_words]
    have hF : 0 ≤ F := (abs_nonneg _).trans (hf x hx)
    calc ∑ y ∈ T, ∑ l ∈ words T n, weight p x (y :: l) * (a + ((y :: l).map f).sum) ^ 2
        = ∑ y ∈ T, p x y * ∑ l ∈ words T n, weight p y l * ((a + f y) + (l.map f).sum) ^ 2 := by
          refine Finset.sum_congr rfl fun y _ => ?_
          rw [Finset.mul_sum]
          refine Finset.sum_congr rfl fun l _ => ?_
          rw [weight, List.map_cons, List.sum_cons]
          ring
      _ ≤ ∑ y ∈ T, p x y * ((a + f y) ^ 2 + 2 * (a + f y) * (∑ m ∈ Finset.range n, Q (m + 1) y) + n * (F ^ 2 + 2 * F * B)) :=
          Finset.sum_le_sum fun y hy => mul_le_mul_of_nonneg_left (ih hy _) (hp x hx y hy)
      _ ≤ ∑ y ∈ T, p x y * (a ^ 2 + 2 * a * (f y + ∑ m ∈ Finset.range n, Q (m + 1) y) +
            ((n : ℝ) + 1) * (F ^ 2 + 2 * F * B)) := by
          refine Finset.sum_le_sum fun y hy => mul_le_mul_of_nonneg_left ?_ (hp x hx y hy)
          have h1 : f y ^ 2 ≤ F ^ 2 := sq_le_sq.2 (by rw [abs_of_nonneg hF]; exact hf y hy)
          have h2 : f y * ∑ m ∈ Finset.range n, Q (m + 1) y ≤ F * B := by
            refine (le_abs_self _).trans ?_
            rw [abs_mul]
            exact mul_le_mul (hf y hy) (hB n y hy) (abs_nonneg _) hF
          nlinarith
      _ = _ := by
          have e1 : ∑ m ∈ Finset.range (n + 1), Q (m + 1) x = ∑ y ∈ T, p x y * (f y + ∑ m ∈ Finset.range n, Q (m + 1) y) := by
            have : ∀ y ∈ T, p x y * (f y + ∑ m ∈ Finset.range n, Q (m + 1) y) = ∑ m ∈ Finset.range (n + 1), p x y * Q m y := by
              intro y hy
              rw [← Finset.mul_sum, Finset.sum_range_succ', h0 y hy, add_comm]
            rw [Finset.sum_congr rfl this, Finset.sum_comm]
            exact Finset.sum_congr rfl fun m _ => hQ m x hx
          have e2 : ∀ y ∈ T, p x y * (a ^ 2 + 2 * a * (f y + ∑ m ∈ Finset.range n, Q (m + 1) y) +
              ((n : ℝ) + 1) * (F ^ 2 + 2 * F * B)) = (a ^ 2 + ((n : ℝ) + 1) * (F ^ 2 + 2 * F * B)) * p x y +
                2 * a * (p x y * (f y + ∑ m ∈ Finset.range n, Q (m + 1) y)) := fun y _ => by ring
          rw [Finset.sum_congr rfl e2, Finset.sum_add_distrib, ← Finset.mul_sum, ← Finset.mul_sum, hp1 x hx, ← e1]
          push_cast
          ring

/-- The probability of lists with an average far from zero. -/
theorem far_average [DecidableEq X] (hp : ∀ x ∈ T, ∀ y ∈ T, 0 ≤ p x y) (hp1 : ∀ x ∈ T, ∑ y ∈ T, p x y = 1) {f : X → ℝ} {F : ℝ}
    (hf : ∀ x ∈ T, |f x| ≤ F) {Q : ℕ → X → ℝ} (h0 : ∀ x ∈ T, Q 0 x = f x)
    (hQ : ∀ m, ∀ x ∈ T, Q (m + 1) x = ∑ y ∈ T, p x y * Q m y) {B : ℝ}
    (hB : ∀ n, ∀ x ∈ T, |∑ m ∈ Finset.range n, Q (m + 1) x| ≤ B) {n : ℕ} (hn : 0 < n) {x : X} (hx : x ∈ T) {ε : ℝ} (he : 0 < ε)
    (D : List X → Prop) [DecidablePred D] (hD : ∀ l, D l → n * ε ≤ |(l.map f).sum|) :
    ∑ l ∈ (words T n).filter D, weight p x l ≤ (F ^ 2 + 2 * F * B) / (n * ε ^ 2) := by
  have hnr : (0 : ℝ) < n := by exact_mod_cast hn
  have hne : 0 < (n * ε) ^ 2 := by positivity
  have h1 := second_moment hp hp1 hf h0 hQ hB n hx 0
  simp only [zero_add, ne_eq, OfNat.ofNat_ne_zero, not_false_eq_true, zero_pow, mul_zero, zero_mul] at h1
  have hw : ∀ l ∈ words T n, 0 ≤ weight p x l := fun l hl => weight_nonneg hp hx (mem_words.1 hl).2
  have h2 : (∑ l ∈ (words T n).filter D, weight p x l) * (n * ε) ^ 2 ≤ ∑ l ∈ words T n, weight p x l * (l.map f).sum ^ 2 := by
    rw [Finset.sum_mul]
    refine (Finset.sum_le_sum (g := fun l => weight p x l * (l.map f).sum ^ 2) fun l hl => ?_).trans
      (Finset.sum_le_sum_of_subset_of_nonneg (Finset.filter_subset _ _) fun l hl _ => mul_nonneg (hw l hl) (sq_nonneg _))
    obtain ⟨g1, g2⟩ := Finset.mem_filter.1 hl
    refine mul_le_mul_of_nonneg_left ?_ (hw l g1)
    rw [← sq_abs ((l.map f).sum)]
    exact pow_le_pow_left₀ (by positivity) (hD l g2) 2
  rw [le_div_iff₀ (by positivity)]
  have h3 := h2.trans h1
  have e : (∑ l ∈ (words T n).filter D, weight p x l) * (n * ε) ^ 2 =
      n * ((∑ l ∈ (words T n).filter D, weight p x l) * (n * ε ^ 2)) := by ring
  rw [e] at h3
  exact le_of_mul_le_mul_left h3 hnr

/-- Sums of powers at times that go on in equal steps. -/
theorem geometric_bound {δ τ : ℝ} (h0 : 0 < δ) (h1 : δ ≤ 1) (hτ : 0 < τ) :
    ∃ B : ℝ, ∀ n : ℕ, ∑ m ∈ Finset.range n, (1 - δ) ^ ⌊((m : ℝ) + 1) * τ⌋₊ ≤ B := by
  obtain ⟨k, hk⟩ := exists_nat_gt (1 / τ)
  have hk0 : 0 < k := by
    rcases Nat.eq_zero_or_pos k with rfl | h
    · have : 0 < 1 / τ := by positivity
      simp only [Nat.cast_zero] at hk
      linarith
    · exact h
  -- after `k` steps the exponent has grown by one at least
  have hq0 : 0 ≤ 1 - δ := by linarith
  have hq1 : 1 - δ ≤ 1 := by linarith
  refine ⟨k / δ, fun n => ?_⟩
  have hle : ∀ m : ℕ, (1 - δ) ^ ⌊((m : ℝ) + 1) * τ⌋₊ ≤ (1 - δ) ^ (m / k) := by
    intro m
    refine pow_le_pow_of_le_one hq0 hq1 (Nat.le_floor ?_)
    have h2 : ((m / k : ℕ) : ℝ) * k ≤ m := by exact_mod_cast Nat.div_mul_le_self m k
    have h3 : 1 < k * τ := by rwa [div_lt_iff₀ hτ] at hk
    have h4 : (0 : ℝ) ≤ (m / k : ℕ) := Nat.cast_nonneg _
    nlinarith
  refine (Finset.sum_le_sum fun m _ => hle m).trans ?_
  have hblock : ∀ b : ℕ, ∑ m ∈ Finset.range (b * k), (1 - δ) ^ (m / k) = k * ∑ i ∈ Finset.range b, (1 - δ) ^ i := by
    intro b
    induction b with
    | zero => simp
    | succ b ih =>
      rw [Nat.succ_mul, Finset.sum_range_add, ih, Finset.sum_range_succ, mul_add]
      congr 1
      rw [Finset.sum_congr rfl (g := fun _ => (1 - δ) ^ b), Finset.sum_const, Finset.card_range, nsmul_eq_mul]
      intro i hi
      rw [Nat.mul_comm, Nat.mul_add_div hk0, Nat.div_eq_of_lt (Finset.mem_range.1 hi), add_zero]
  have hgeo : ∀ b : ℕ, ∑ i ∈ Finset.range b, (1 - δ) ^ i ≤ 1 / δ := by
    intro b
    have := mul_neg_geom_sum (1 - δ) b
    rw [le_div_iff₀ h0]
    have h5 : 0 ≤ (1 - δ) ^ b := pow_nonneg hq0 b
    have h6 : (1 - (1 - δ)) * ∑ i ∈ Finset.range b, (1 - δ) ^ i = 1 - (1 - δ) ^ b := this
    nlinarith
  calc ∑ m ∈ Finset.range n, (1 - δ) ^ (m / k) ≤ ∑ m ∈ Finset.range (n * k), (1 - δ) ^ (m / k) :=
        Finset.sum_le_sum_of_subset_of_nonneg (Finset.range_subset_range.2 (Nat.le_mul_of_pos_right n hk0)) fun m _ _ => pow_nonneg hq0 _
    _ = k * ∑ i ∈ Finset.range n, (1 - δ) ^ i := hblock n
    _ ≤ k * (1 / δ) := mul_le_mul_of_nonneg_left (hgeo n) (Nat.cast_nonneg _)
    _ = k / δ := by ring

end KMC.Chain
