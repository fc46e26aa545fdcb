import Mathlib.Analysis.ODE.ExistUnique
import Mathlib.MeasureTheory.Integral.IntervalIntegral.FundThmCalculus
import Mathlib.Analysis.SpecialFunctions.ExpDeriv
import Mathlib.Analysis.Calculus.Deriv.Prod
import Mathlib.Analysis.Calculus.Deriv.Pi

/-!
# From the renewal equation of a Markov chain to its master equation

Nothing here refers to the model of the code.
-/

namespace KMC.Chain

open MeasureTheory Set
open scoped BigOperators Topology

variable {ι : Type _} [Fintype ι]

/-- The renewal equation: the chain stays where it is, or goes on from the state after the first jump. `a` is what is asked of
the state at the end. Solved for the first state by a substitution in the integral. -/
structure Renewal (W : ι → ι → ℝ) (R : ι → ℝ) (a : ι → ℝ) (q : ι → ℝ → ℝ) : Prop where
  measurable : ∀ i, Measurable (q i)
  bound : ∀ i t, |q i t| ≤ 1
  eq : ∀ i, ∀ t, 0 ≤ t → q i t = Real.exp (-(R i * t)) * (a i + ∑ k, W i k * ∫ σ in (0 : ℝ)..t, Real.exp (R i * σ) * q k σ)

variable {W : ι → ι → ℝ} {R a : ι → ℝ} {q : ι → ℝ → ℝ}

namespace Renewal

theorem integrable (h : Renewal W R a q) (r : ℝ) (k : ι) (x y : ℝ) :
    IntervalIntegrable (fun σ => Real.exp (r * σ) * q k σ) volume x y := by
  refine IntervalIntegrable.continuousOn_mul ?_ (by fun_prop)
  refine (intervalIntegrable_const (c := (1 : ℝ))).mono_fun (h.measurable k).aestronglyMeasurable ?_
  filter_upwards with t
  simpa using h.bound k t

theorem start (h : Renewal W R a q) (i : ι) : q i 0 = a i := by
  rw [h.eq i 0 le_rfl]
  simp

/-- The right hand side as a function of all times. -/
noncomputable def rhs (W : ι → ι → ℝ) (R a : ι → ℝ) (q : ι → ℝ → ℝ) (i : ι) (t : ℝ) : ℝ :=
  Real.exp (-(R i * t)) * (a i + ∑ k, W i k * ∫ σ in (0 : ℝ)..t, Real.exp (R i * σ) * q k σ)

theorem continuous_rhs (h : Renewal W R a q) (i : ι) : Continuous (rhs W R a q i) := by
  unfold rhs
  refine Continuous.mul (by fun_prop) (Continuous.add continuous_const (continuous_finsetSum _ fun k _ => ?_))
  exact continuous_const.mul (intervalIntegral.continuous_primitive (fun x y => h.integrable (R i) k x y) 0)

theorem continuousOn (h : Renewal W R a q) (i : ι) : ContinuousOn (q i) (Ici 0) :=
  (h.continuous_rhs i).continuousOn.congr fun t ht => h.eq i t ht

/-- The continuous function that agrees with `q` from time zero on. -/
theorem integral_rhs (h : Renewal W R a q) (i k : ι) {t : ℝ} (ht : 0 ≤ t) :
    ∫ σ in (0 : ℝ)..t, Real.exp (R i * σ) * q k σ = ∫ σ in (0 : ℝ)..t, Real.exp (R i * σ) * rhs W R a q k σ := by
  refine intervalIntegral.integral_congr fun σ hσ => ?_
  rw [uIcc_of_le ht] at hσ
  rw [h.eq k σ hσ.1]
  rfl

/-- The backward equation. -/
theorem backward (h : Renewal W R a q) (i : ι) {t : ℝ} (ht : 0 ≤ t) :
    HasDerivWithinAt (q i) (∑ k, W i k * q k t - R i * q i t) (Ici t) t := by
  have hI : ∀ k, HasDerivAt (fun x => ∫ σ in (0 : ℝ)..x, Real.exp (R i * σ) * rhs W R a q k σ)
      (Real.exp (R i * t) * rhs W R a q k t) t := by
    intro k
    have hc : Continuous fun σ => Real.exp (R i * σ) * rhs W R a q k σ := Continuous.mul (by fun_prop) (h.continuous_rhs k)
    exact intervalIntegral.integral_hasDerivAt_right (hc.intervalIntegrable _ _)
      (hc.stronglyMeasurableAtFilter _ _) hc.continuousAt
  have hS : HasDerivAt (fun x => a i + ∑ k, W i k * ∫ σ in (0 : ℝ)..x, Real.exp (R i * σ) * rhs W R a q k σ)
      (∑ k, W i k * (Real.exp (R i * t) * rhs W R a q k t)) t := by
    refine HasDerivAt.const_add _ ?_
    exact HasDerivAt.fun_sum fun k _ => (hI k).const_mul _
  have hE : HasDerivAt (fun x => Real.exp (-(R i * x))) (Real.exp (-(R i * t)) * -(R i)) t := by
    have := (((hasDerivAt_id t).const_mul (R i)).neg).exp
    simpa using this
  have hP := hE.mul hS
  have hq : ∀ k, q k t = rhs W R a q k t := fun k => h.eq k t ht
  have hd : Real.exp (-(R i * t)) * -(R i) *
        (a i + ∑ k, W i k * ∫ σ in (0 : ℝ)..t, Real.exp (R i * σ) * rhs W R a q k σ) +
      Real.exp (-(R i * t)) * ∑ k, W i k * (Real.exp (R i * t) * rhs W R a q k t) =
      ∑ k, W i k * q k t - R i * q i t := by
    have e1 : Real.exp (-(R i * t)) * Real.exp (R i * t) = 1 := by rw [← Real.exp_add]; simp
    have e2 : Real.exp (-(R i * t)) * ∑ k, W i k * (Real.exp (R i * t) * rhs W R a q k t) = ∑ k, W i k * q k t := by
      rw [Finset.mul_sum]
      refine Finset.sum_congr rfl fun k _ => ?_
      rw [hq k]
      linear_combination (W i k * rhs W R a q k t) * e1
    rw [e2]
    have e3 : q i t = Real.exp (-(R i * t)) * (a i + ∑ k, W i k * ∫ σ in (0 : ℝ)..t, Real.exp (R i * σ) * rhs W R a q k σ) := by
      rw [h.eq i t ht]
      congr 2
      refine Finset.sum_congr rfl fun k _ => ?_
      rw [h.integral_rhs i k ht]
    rw [e3]
    ring
  rw [hd] at hP
  refine hP.hasDerivWithinAt.congr ?_ ?_
  · intro x hx
    have hx0 : 0 ≤ x := ht.trans hx
    show q i x = Real.exp (-(R i * x)) * (a i + ∑ k, W i k * ∫ σ in (0 : ℝ)..x, Real.exp (R i * σ) * rhs W R a q k σ)
    rw [h.eq i x hx0]
    congr 2
    refine Finset.sum_congr rfl fun k _ => ?_
    rw [h.integral_rhs i k hx0]
  · show q i t = Real.exp (-(R i * t)) * (a i + ∑ k, W i k * ∫ σ in (0 : ℝ)..t, Real.exp (R i * σ) * rhs W R a q k σ)
    rw [h.eq i t ht]
    congr 2
    refine Finset.sum_congr rfl fun k _ => ?_
    rw [h.integral_rhs i k ht]

end Renewal

/-- The right hand side of the backward equation. -/
def gen (W : ι → ι → ℝ) (R : ι → ℝ) (v : ι → ℝ) (i : ι) : ℝ := ∑ k, W i k * v k - R i * v i

theorem gen_lipschitz (W : ι → ι → ℝ) (R : ι → ℝ) : ∃ K, LipschitzWith K (gen W R) := by
  let L : (ι → ℝ) →ₗ[ℝ] (ι → ℝ) :=
    { toFun := gen W R
      map_add' := by
        intro x y
        funext i
        simp only [gen, Pi.add_apply, mul_add, Finset.sum_add_distrib]
        ring
      map_smul' := by
        intro c x
        funext i
        simp only [gen, Pi.smul_apply, smul_eq_mul, RingHom.id_apply, mul_sub, Finset.mul_sum]
        congr 1
        · exact Finset.sum_congr rfl fun k _ => by ring
        · ring }
  exact ⟨_, (LinearMap.toContinuousLinearMap L).lipschitz⟩

/-- Two solutions of the backward equation with the same start are the same. -/
theorem unique {f g : ℝ → ι → ℝ} (hf : ContinuousOn f (Ici 0)) (hg : ContinuousOn g (Ici 0))
    (hf' : ∀ t, 0 ≤ t → HasDerivWithinAt f (gen W R (f t)) (Ici t) t)
    (hg' : ∀ t, 0 ≤ t → HasDerivWithinAt g (gen W R (g t)) (Ici t) t) (h0 : f 0 = g 0) {t : ℝ} (ht : 0 ≤ t) : f t = g t := by
  obtain ⟨K, hK⟩ := gen_lipschitz W R
  have := ODE_solution_unique (v := fun _ => gen W R) (K := K) (fun _ => hK) (hf.mono Icc_subset_Ici_self)
    (fun x hx => hf' x hx.1) (hg.mono Icc_subset_Ici_self) (fun x hx => hg' x hx.1) h0 (b := t)
  exact this ⟨ht, le_rfl⟩

variable [DecidableEq ι] {P : ι → ι → ℝ → ℝ}

/-- The forward equation, which is the master equation. -/
theorem forward (h : ∀ j, Renewal W R (fun i => if i = j then 1 else 0) (fun i => P i j)) (i j : ι) {t : ℝ} (ht : 0 ≤ t) :
    HasDerivWithinAt (P i j) (∑ k, P i k t * W k j - P i j t * R j) (Ici t) t := by
  let f : ℝ → ι → ℝ := fun t i => ∑ k, P i k t * W k j - P i j t * R j
  let g : ℝ → ι → ℝ := fun t => gen W R (fun i => P i j t)
  have hfg : f t = g t := by
    refine unique (W := W) (R := R) ?_ ?_ ?_ ?_ ?_ ht
    · refine continuousOn_pi.2 fun i => ?_
      exact ContinuousOn.sub (continuousOn_finsetSum _ fun k _ => ((h k).continuousOn i).mul continuousOn_const)
        (((h j).continuousOn i).mul continuousOn_const)
    · refine continuousOn_pi.2 fun i => ?_
      exact ContinuousOn.sub (continuousOn_finsetSum _ fun k _ => continuousOn_const.mul ((h j).continuousOn k))
        (continuousOn_const.mul ((h j).continuousOn i))
    · intro t ht
      refine hasDerivWithinAt_pi.2 fun i => ?_
      have h1 : HasDerivWithinAt (fun x => ∑ k, P i k x * W k j) (∑ k, gen W R (fun i => P i k t) i * W k j) (Ici t) t :=
        HasDerivWithinAt.fun_sum fun k _ => ((h k).backward i ht).mul_const _
      have h2 := h1.sub (((h j).backward i ht).mul_const (R j))
      refine h2.congr_deriv ?_
      simp only [gen, f, Finset.sum_mul, Finset.mul_sum, sub_mul, mul_sub, Finset.sum_sub_distrib]
      rw [Finset.sum_comm]
      have e1 : ∀ x y, W i x * P x y t * W y j = W i x * (P x y t * W y j) := fun x y => by ring
      have e2 : ∀ x, R i * P i x t * W x j = R i * (P i x t * W x j) := fun x => by ring
      have e3 : ∀ x, W i x * P x j t * R j = W i x * (P x j t * R j) := fun x => by ring
      simp only [e1, e2, e3]
      ring
    · intro t ht
      refine hasDerivWithinAt_pi.2 fun i => ?_
      have h1 : HasDerivWithinAt (fun x => ∑ k, W i k * P k j x) (∑ k, W i k * gen W R (fun i => P i j t) k) (Ici t) t :=
        HasDerivWithinAt.fun_sum fun k _ => ((h j).backward k ht).const_mul _
      exact h1.sub (((h j).backward i ht).const_mul (R i))
    · funext i
      have h0 : ∀ i k, P i k 0 = if i = k then 1 else 0 := fun i k => (h k).start i
      simp only [f, g, gen, h0]
      simp only [ite_mul, one_mul, zero_mul, mul_ite, mul_one, mul_zero, Finset.sum_ite_eq, Finset.sum_ite_eq',
        Finset.mem_univ, if_true]
      by_cases e : i = j
      · rw [e]
      · rw [if_neg e, if_neg e]
  have := (h j).backward i ht
  have e := congrFun hfg i
  have e : ∑ k, P i k t * W k j - P i j t * R j = ∑ k, W i k * P k j t - R i * P i j t := e
  rw [e]
  exact this

/-- The probabilities add up to one. -/
theorem total (h : ∀ j, Renewal W R (fun i => if i = j then 1 else 0) (fun i => P i j)) (hR : ∀ i, R i = ∑ k, W i k) (i : ι)
    {t : ℝ} (ht : 0 ≤ t) : ∑ j, P i j t = 1 := by
  have : (fun t i => ∑ j, P i j t) t = (fun _ _ => (1 : ℝ)) t := by
    refine unique (W := W) (R := R) (f := fun t i => ∑ j, P i j t) (g := fun _ _ => (1 : ℝ)) ?_ continuousOn_const ?_ ?_ ?_ ht
    · refine continuousOn_pi.2 fun i => ?_
      exact continuousOn_finsetSum _ fun k _ => (h k).continuousOn i
    · intro t ht
      refine hasDerivWithinAt_pi.2 fun i => ?_
      have h1 : HasDerivWithinAt (fun x => ∑ k, P i k x) (∑ k, gen W R (fun i => P i k t) i) (Ici t) t :=
        HasDerivWithinAt.fun_sum fun k _ => (h k).backward i ht
      refine h1.congr_deriv ?_
      simp only [gen, Finset.sum_sub_distrib, Finset.mul_sum]
      rw [Finset.sum_comm]
    · intro t ht
      have : gen W R (fun _ : ι => (1 : ℝ)) = 0 := by
        funext i
        simp [gen, hR]
      rw [this]
      exact hasDerivWithinAt_const _ _ _
    · funext i
      have h0 : ∀ i k, P i k 0 = if i = k then 1 else 0 := fun i k => (h k).start i
      simp [h0]
  exact congrFun this i

/-- Weights with as much flowing into each state as out of it do not change. -/
theorem stationary (h : ∀ j, Renewal W R (fun i => if i = j then 1 else 0) (fun i => P i j)) {w : ι → ℝ}
    (hw : ∀ j, ∑ i, w i * W i j = w j * R j) (j : ι) {t : ℝ} (ht : 0 ≤ t) : ∑ i, w i * P i j t = w j := by
  have hc : ContinuousOn (fun t => ∑ i, w i * P i j t) (Icc 0 t) :=
    (continuousOn_finsetSum _ fun i _ => continuousOn_const.mul ((h j).continuousOn i)).mono Icc_subset_Ici_self
  have hd : ∀ x ∈ Ico 0 t, HasDerivWithinAt (fun t => ∑ i, w i * P i j t) 0 (Ici x) x := by
    intro x hx
    have h1 : HasDerivWithinAt (fun t => ∑ i, w i * P i j t) (∑ i, w i * (∑ k, W i k * P k j x - R i * P i j x)) (Ici x) x :=
      HasDerivWithinAt.fun_sum fun i _ => ((h j).backward i hx.1).const_mul _
    refine h1.congr_deriv ?_
    simp only [mul_sub, Finset.sum_sub_distrib, Finset.mul_sum]
    rw [Finset.sum_comm, sub_eq_zero]
    refine Finset.sum_congr rfl fun k _ => ?_
    have := hw k
    rw [← mul_assoc, ← this, Finset.sum_mul]
    exact Finset.sum_congr rfl fun i _ => by ring
  rw [constant_of_has_deriv_right_zero hc hd t ⟨ht, le_rfl⟩]
  have h0 : ∀ i k, P i k 0 = if i = k then 1 else 0 := fun i k => (h k).start i
  simp [h0]

end KMC.Chain
