import Verif.Lemmas.Chain
import Mathlib.Topology.Algebra.Order.Floor
import Mathlib.Analysis.SpecificLimits.Basic
import Mathlib.Logic.Relation

/-!
# Approach to equilibrium

The solutions of the renewal equation go to the stationary weights, when every state can be reached from every other.
Nothing here refers to the model of the code.
-/

namespace KMC.Chain

open MeasureTheory Set Filter

variable {ι : Type _} [Fintype ι] [DecidableEq ι] {W : ι → ι → ℝ} {R : ι → ℝ} {P : ι → ι → ℝ → ℝ}

/-- What happens in a time `t + s` happens in a time `t` and then in a time `s`. -/
theorem semigroup (h : ∀ j, Renewal W R (fun i => if i = j then 1 else 0) (fun i => P i j)) (i j : ι) {s t : ℝ} (hs : 0 ≤ s)
    (ht : 0 ≤ t) : P i j (t + s) = ∑ k, P i k t * P k j s := by
  have : (fun t i => P i j (t + s)) t = (fun t i => ∑ k, P i k t * P k j s) t := by
    refine unique (W := W) (R := R) (f := fun t i => P i j (t + s)) (g := fun t i => ∑ k, P i k t * P k j s) ?_ ?_ ?_ ?_ ?_ ht
    · refine continuousOn_pi.2 fun i => ?_
      refine ((h j).continuousOn i).comp (by fun_prop) ?_
      intro x hx
      exact add_nonneg hx hs
    · exact continuousOn_pi.2 fun i => continuousOn_finsetSum _ fun k _ => ((h k).continuousOn i).mul continuousOn_const
    · intro t ht
      refine hasDerivWithinAt_pi.2 fun i => ?_
      have h1 := (h j).backward i (add_nonneg ht hs)
      have h2 : HasDerivWithinAt (fun x => x + s) 1 (Ici t) t := ((hasDerivAt_id t).add_const s).hasDerivWithinAt
      have h3 := h1.comp t h2 (fun x hx => add_le_add_left (mem_Ici.1 hx) s)
      rw [mul_one] at h3
      exact h3
    · intro t ht
      refine hasDerivWithinAt_pi.2 fun i => ?_
      have h1 : HasDerivWithinAt (fun x => ∑ k, P i k x * P k j s) (∑ k, gen W R (fun i => P i k t) i * P k j s) (Ici t) t :=
        HasDerivWithinAt.fun_sum fun k _ => ((h k).backward i ht).mul_const _
      refine h1.congr_deriv ?_
      unfold gen
      simp only [sub_mul, Finset.sum_sub_distrib, Finset.sum_mul, Finset.mul_sum]
      congr 1
      · rw [Finset.sum_comm]
        exact Finset.sum_congr rfl fun k _ => Finset.sum_congr rfl fun l _ => by ring
      · exact Finset.sum_congr rfl fun k _ => by ring
    · funext i
      simp only [zero_add]
      rw [Finset.sum_eq_single i]
      · rw [(h i).start i, if_pos rfl, one_mul]
      · intro k _ hk
        rw [(h k).start i, if_neg (Ne.symm hk), zero_mul]
      · intro hn
        exact absurd (Finset.mem_univ i) hn
  exact congrFun this i

section
variable (h : ∀ j, Renewal W R (fun i => if i = j then 1 else 0) (fun i => P i j)) (hW : ∀ i k, 0 ≤ W i k)
  (hP : ∀ i j t, 0 ≤ P i j t)
include h hW hP

theorem integral_nonneg' (i k j : ι) {t : ℝ} (ht : 0 ≤ t) : 0 ≤ ∫ σ in (0 : ℝ)..t, Real.exp (R i * σ) * P k j σ :=
  intervalIntegral.integral_nonneg ht fun σ _ => mul_nonneg (Real.exp_pos _).le (hP k j σ)

theorem stay_pos (i : ι) {t : ℝ} (ht : 0 ≤ t) : 0 < P i i t := by
  rw [(h i).eq i t ht, if_pos rfl]
  refine mul_pos (Real.exp_pos _) (add_pos_of_pos_of_nonneg one_pos (Finset.sum_nonneg fun k _ => ?_))
  exact mul_nonneg (hW i k) (integral_nonneg' h hW hP i k i ht)

theorem edge_pos {i j : ι} (hij : 0 < W i j) {t : ℝ} (ht : 0 < t) : 0 < P i j t := by
  rw [(h j).eq i t ht.le]
  refine mul_pos (Real.exp_pos _) (add_pos_of_nonneg_of_pos (by split <;> norm_num) ?_)
  refine Finset.sum_pos' (fun k _ => mul_nonneg (hW i k) (integral_nonneg' h hW hP i k j ht.le)) ⟨j, Finset.mem_univ j, ?_⟩
  refine mul_pos hij (intervalIntegral.intervalIntegral_pos_of_pos_on ?_ ?_ ht)
  · refine ContinuousOn.intervalIntegrable ?_
    rw [uIcc_of_le ht.le]
    exact ContinuousOn.mul (by fun_prop) (((h j).continuousOn j).mono Icc_subset_Ici_self)
  · intro σ hσ
    exact mul_pos (Real.exp_pos _) (stay_pos h hW hP j hσ.1.le)

/-- What can be reached is reached in any time, with positive probability. -/
theorem reach_pos {i j : ι} (hij : Relation.ReflTransGen (fun a b => 0 < W a b) i j) {t : ℝ} (ht : 0 < t) : 0 < P i j t := by
  induction hij generalizing t with
  | refl => exact stay_pos h hW hP i ht.le
  | @tail b c _ hbc ih =>
    have : t = t / 2 + t / 2 := by ring
    rw [this, semigroup h i c (by positivity) (by positivity)]
    refine Finset.sum_pos' (fun k _ => mul_nonneg (hP _ _ _) (hP _ _ _)) ⟨b, Finset.mem_univ b, ?_⟩
    exact mul_pos (ih (half_pos ht)) (edge_pos h hW hP hbc (half_pos ht))

/-- The distance from equilibrium decreases exponentially. -/
theorem equilibrium_rate (hR : ∀ i, R i = ∑ k, W i k) (hirr : ∀ i j, Relation.ReflTransGen (fun a b => 0 < W a b) i j)
    {w : ι → ℝ} (hw0 : ∀ i, 0 ≤ w i) (hw1 : ∑ i, w i = 1) (hw : ∀ j, ∑ i, w i * W i j = w j * R j) :
    ∃ δ, 0 < δ ∧ δ ≤ 1 ∧ ∀ i j (n : ℕ) (t : ℝ), 0 ≤ t → |P i j (n + t) - w j| ≤ (1 - δ) ^ n := by
  have hle : ∀ i j t, 0 ≤ t → P i j t ≤ 1 := by
    intro i j t ht
    rw [← total h hR i ht]
    exact Finset.single_le_sum (f := fun j => P i j t) (fun k _ => hP i k t) (Finset.mem_univ j)
  have hwle : ∀ j, w j ≤ 1 := by
    intro j
    rw [← hw1]
    exact Finset.single_le_sum (fun k _ => hw0 k) (Finset.mem_univ j)
  obtain ⟨δ, hδ0, hδ1, hδ⟩ : ∃ δ, 0 < δ ∧ δ ≤ 1 ∧ ∀ i j, δ ≤ P i j 1 := by
    have hne : ∀ F : Finset (ι × ι), ∃ δ, 0 < δ ∧ δ ≤ 1 ∧ ∀ x ∈ F, δ ≤ P x.1 x.2 1 := by
      intro F
      induction F using Finset.induction_on with
      | empty => exact ⟨1, one_pos, le_rfl, fun x hx => absurd hx (Finset.notMem_empty x)⟩
      | insert a F _ ih =>
        obtain ⟨δ, h0, h1, h2⟩ := ih
        refine ⟨min δ (P a.1 a.2 1), lt_min h0 (reach_pos h hW hP (hirr _ _) one_pos), (min_le_left _ _).trans h1, ?_⟩
        intro x hx
        rcases Finset.mem_insert.1 hx with rfl | hx
        · exact min_le_right _ _
        · exact (min_le_left _ _).trans (h2 x hx)
    obtain ⟨δ, h0, h1, h2⟩ := hne Finset.univ
    exact ⟨δ, h0, h1, fun i j => h2 (i, j) (Finset.mem_univ _)⟩
  refine ⟨δ, hδ0, hδ1, ?_⟩
  intro i j n
  induction n generalizing i with
  | zero =>
    intro t ht
    simp only [Nat.cast_zero, zero_add, pow_zero]
    rw [abs_le]
    constructor
    · linarith [hP i j t, hwle j]
    · linarith [hle i j t ht, hw0 j]
  | succ n ih =>
    intro t ht
    have e : ((n + 1 : ℕ) : ℝ) + t = 1 + (n + t) := by push_cast; ring
    have hnt : 0 ≤ (n : ℝ) + t := add_nonneg (Nat.cast_nonneg n) ht
    have hz : ∑ k, w k * (P k j (n + t) - w j) = 0 := by
      simp only [mul_sub, Finset.sum_sub_distrib]
      rw [stationary h hw j hnt, ← Finset.sum_mul, hw1, one_mul, sub_self]
    have h1 : P i j (((n + 1 : ℕ) : ℝ) + t) - w j = ∑ k, (P i k 1 - δ * w k) * (P k j (n + t) - w j) := by
      rw [e, semigroup h i j hnt zero_le_one]
      simp only [sub_mul, Finset.sum_sub_distrib, mul_assoc]
      rw [← Finset.mul_sum, hz, mul_zero, sub_zero]
      simp only [mul_sub, Finset.sum_sub_distrib]
      rw [← Finset.sum_mul, total h hR i zero_le_one, one_mul]
    have hnn : ∀ k, 0 ≤ P i k 1 - δ * w k := by
      intro k
      have := hδ i k
      have := mul_le_mul_of_nonneg_left (hwle k) hδ0.le
      linarith
    rw [h1]
    calc |∑ k, (P i k 1 - δ * w k) * (P k j (n + t) - w j)| ≤ ∑ k, |(P i k 1 - δ * w k) * (P k j (n + t) - w j)| :=
          Finset.abs_sum_le_sum_abs _ _
      _ ≤ ∑ k, (P i k 1 - δ * w k) * (1 - δ) ^ n := by
          refine Finset.sum_le_sum fun k _ => ?_
          rw [abs_mul, abs_of_nonneg (hnn k)]
          exact mul_le_mul_of_nonneg_left (ih k t ht) (hnn k)
      _ = (1 - δ) ^ (n + 1) := by
          rw [← Finset.sum_mul, Finset.sum_sub_distrib, ← Finset.mul_sum, total h hR i zero_le_one, hw1]
          ring

/-- The probabilities go to the stationary weights. -/
theorem equilibrium (hR : ∀ i, R i = ∑ k, W i k) (hirr : ∀ i j, Relation.ReflTransGen (fun a b => 0 < W a b) i j)
    {w : ι → ℝ} (hw0 : ∀ i, 0 ≤ w i) (hw1 : ∑ i, w i = 1) (hw : ∀ j, ∑ i, w i * W i j = w j * R j) (i j : ι) :
    Tendsto (P i j) atTop (nhds (w j)) := by
  obtain ⟨δ, h0, h1, hδ⟩ := equilibrium_rate h hW hP hR hirr hw0 hw1 hw
  rw [tendsto_iff_dist_tendsto_zero]
  have hlim : Tendsto (fun t : ℝ => (1 - δ) ^ ⌊t⌋₊) atTop (nhds 0) :=
    (tendsto_pow_atTop_nhds_zero_of_lt_one (by linarith) (by linarith)).comp tendsto_nat_floor_atTop
  refine squeeze_zero' (Eventually.of_forall fun _ => dist_nonneg) ?_ hlim
  filter_upwards [eventually_ge_atTop (0 : ℝ)] with t ht
  have := hδ i j ⌊t⌋₊ (t - ⌊t⌋₊) (sub_nonneg.2 (Nat.floor_le ht))
  rw [add_sub_cancel] at this
  exact this

end
end KMC.Chain
