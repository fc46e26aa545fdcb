import Verif.Props.Equilibrium

/-!
# C65: averages over time

The probability of given types, summed up over a time `t`, is the stationary weight times `t`, up to an amount that does not grow.
So averages over long runs are the averages with the stationary weights, whatever the types at the start.
-/

set_option linter.unusedSectionVars false

namespace KMC

open LatticeModel Interactions MeasureTheory Classical Filter

/-- A function that goes to `w` as fast as powers of `1 - δ`: the area between both is at most `1 / δ`. -/
theorem area_le {f : ℝ → ℝ} {w δ : ℝ} (hf : ContinuousOn f (Set.Ici 0)) (d1 : 0 < δ) (d2 : δ ≤ 1)
    (h : ∀ (m : ℕ) (t : ℝ), 0 ≤ t → |f (m + t) - w| ≤ (1 - δ) ^ m) {t : ℝ} (ht : 0 ≤ t) :
    |(∫ u in (0 : ℝ)..t, f u) - w * t| ≤ 1 / δ := by
  have hint : ∀ a b : ℝ, 0 ≤ a → 0 ≤ b → IntervalIntegrable (fun u => f u - w) volume a b := by
    intro a b ha hb
    refine ContinuousOn.intervalIntegrable ((hf.mono ?_).sub continuousOn_const)
    intro u hu
    exact (le_min ha hb).trans hu.1
  have piece : ∀ (m : ℕ) (x : ℝ), 0 ≤ x → x ≤ 1 → |∫ u in (m : ℝ)..(m + x), (f u - w)| ≤ (1 - δ) ^ m := by
    intro m x h0 h1
    have := intervalIntegral.norm_integral_le_of_norm_le_const (a := (m : ℝ)) (b := m + x) (C := (1 - δ) ^ m) (f := fun u => f u - w) (by
      intro u hu
      rw [Set.uIoc_of_le (by linarith)] at hu
      have := h m (u - m) (by linarith [hu.1])
      rwa [add_sub_cancel] at this)
    rw [Real.norm_eq_abs, add_sub_cancel_left, abs_of_nonneg h0] at this
    exact this.trans (mul_le_of_le_one_right (pow_nonneg (by linarith) _) h1)
  have whole : ∀ m : ℕ, |∫ u in (0 : ℝ)..m, (f u - w)| ≤ ∑ k ∈ Finset.range m, (1 - δ) ^ k := by
    intro m
    induction m with
    | zero => simp
    | succ m ih =>
      rw [Finset.sum_range_succ, ← intervalIntegral.integral_add_adjacent_intervals (hint 0 m le_rfl (by positivity))
        (hint m (m + 1 : ℕ) (by positivity) (by positivity))]
      refine (abs_add_le _ _).trans (add_le_add ih ?_)
      push_cast
      exact piece m 1 zero_le_one le_rfl
  have geom : ∀ m : ℕ, ∑ k ∈ Finset.range m, (1 - δ) ^ k ≤ 1 / δ := by
    intro m
    have := geom_sum_mul_neg (1 - δ) m
    rw [sub_sub_cancel] at this
    rw [le_div_iff₀ d1, this]
    linarith [pow_nonneg (show 0 ≤ 1 - δ by linarith) m]
  have e : (∫ u in (0 : ℝ)..t, f u) - w * t = ∫ u in (0 : ℝ)..t, (f u - w) := by
    rw [intervalIntegral.integral_sub ?_ intervalIntegrable_const, intervalIntegral.integral_const, sub_zero, smul_eq_mul, mul_comm]
    refine ContinuousOn.intervalIntegrable (hf.mono ?_)
    intro u hu
    exact (le_min le_rfl ht).trans hu.1
  have hfl := Nat.floor_le ht
  have hfl' := Nat.lt_floor_add_one t
  rw [e, ← intervalIntegral.integral_add_adjacent_intervals (hint 0 ⌊t⌋₊ le_rfl (by positivity)) (hint ⌊t⌋₊ t (by positivity) ht)]
  have p := piece ⌊t⌋₊ (t - ⌊t⌋₊) (by linarith) (by linarith)
  rw [add_sub_cancel] at p
  refine (abs_add_le _ _).trans ((add_le_add (whole _) p).trans ?_)
  rw [← Finset.sum_range_succ]
  exact geom _

variable {env : Env ℝ} {n nT : Nat} {cfg : Config ℝ} {procs : List (Proc ℝ)} {s s' : Sim ℝ}
variable {T : Finset (List Bucket)} {W : List Bucket → List Bucket → ℝ}

section
variable (hF : ClosedFamily env n nT cfg procs T W) (hr : PositiveRates env procs) {M : Nat}
  (hb : Bounded M cfg procs) (hf : FewEnough M procs)
  (hirr : ∀ x ∈ T, ∀ y ∈ T, Leads T W x y) {w : List Bucket → ℝ} (hw0 : ∀ x ∈ T, 0 ≤ w x) (hw1 : ∑ x ∈ T, w x = 1)
  (hw : ∀ y ∈ T, ∑ x ∈ T, w x * W x y = w y * ∑ x ∈ T, W y x)
include hF hr hb hf hirr hw0 hw1 hw

/-- **C65** The probability of given types, summed up over the times from 0 to `t`, is their stationary weight times `t`, up to a
constant that depends neither on the start nor on `t`. -/
theorem C65_average : ∃ C : ℝ, ∀ s, GoodRun env n nT negLog cfg procs s → s.ms.cfg.types ∈ T → ∀ y ∈ T, ∀ t : ℝ, 0 ≤ t →
    |(∫ u in (0 : ℝ)..t, (chance env s y u).toReal) - w y * t| ≤ C := by
  obtain ⟨δ, d1, d2, hd⟩ := C65_rate hF hr hb hf hirr hw0 hw1 hw
  refine ⟨1 / δ, fun s h ht y hy t h0 => area_le ?_ d1 d2 (fun m u hu => hd s h ht y hy m u hu) h0⟩
  let a : Member env n nT cfg procs T := ⟨s, h, ht⟩
  obtain ⟨σ, hσ, ha⟩ := exists_section hF a
  have := (renewal hF hr hb hf σ hσ ⟨y, hy⟩).continuousOn (typesOf a)
  rw [ha] at this
  exact this

/-- **C65** The average of a quantity of the types over the times from 0 to `t` goes to its average with the stationary weights. -/
theorem C65_ergodic (h : GoodRun env n nT negLog cfg procs s) (ht : s.ms.cfg.types ∈ T) (g : List Bucket → ℝ) :
    Tendsto (fun t : ℝ => ∑ y ∈ T, g y * ((∫ u in (0 : ℝ)..t, (chance env s y u).toReal) / t)) atTop
      (nhds (∑ y ∈ T, g y * w y)) := by
  obtain ⟨C, hC⟩ := C65_average hF hr hb hf hirr hw0 hw1 hw
  refine tendsto_finsetSum _ fun y hy => Tendsto.const_mul _ ?_
  rw [← tendsto_sub_nhds_zero_iff]
  refine squeeze_zero_norm' (a := fun t : ℝ => C / t) ?_ (tendsto_const_nhds.div_atTop tendsto_id)
  filter_upwards [eventually_gt_atTop (0 : ℝ)] with t h0
  have e : (∫ u in (0 : ℝ)..t, (chance env s y u).toReal) / t - w y =
      ((∫ u in (0 : ℝ)..t, (chance env s y u).toReal) - w y * t) / t := by
    field_simp
  rw [e, Real.norm_eq_abs, abs_div, abs_of_pos h0]
  exact div_le_div_of_nonneg_right (hC s h ht y hy t h0.le) h0.le

end

/-! ### Non-vacuity -/

/-- A site that turns from `A` to `B` with rate 2 and back with rate 3 is `A` for three fifths of the time. -/
example (h : GoodRun Sample.oneEnv 1 3 negLog Sample.oneSite Sample.toAndFro s) :
    Tendsto (fun t : ℝ => (∫ u in (0 : ℝ)..t, (chance Sample.oneEnv s [[0, 1, 0]] u).toReal) / t) atTop (nhds (3 / 5)) := by
  obtain ⟨hb, hf⟩ := bounded_one Sample.oneSite_one Sample.toAndFro_balanced
  have hAB : ([[0, 1, 0]] : List Bucket) ≠ [[0, 0, 1]] := by decide
  let w : List Bucket → ℝ := fun x => if x = [[0, 1, 0]] then 3 / 5 else 2 / 5
  have hpos : ∀ x, 0 < w x := fun x => by dsimp only [w]; split_ifs <;> norm_num
  have hbal : ∀ x ∈ ({[[0, 1, 0]], [[0, 0, 1]]} : Finset (List Bucket)), ∀ y ∈ ({[[0, 1, 0]], [[0, 0, 1]]} : Finset (List Bucket)),
      w x * toAndFroRate x y = w y * toAndFroRate y x := by
    intro x hx y hy
    simp only [Finset.mem_insert, Finset.mem_singleton] at hx hy
    rcases hx with rfl | rfl <;> rcases hy with rfl | rfl <;> norm_num [w, toAndFroRate]
  have := C65_ergodic toAndFro_family Sample.toAndFro_positive hb hf
    (fun x hx y hy => C65_connected toAndFro_family Sample.toAndFro_positive (fun _ h => toAndFro_all h) (fun x _ => hpos x) hbal hx hy)
    (w := w) (fun x _ => (hpos x).le) (by rw [Finset.sum_pair hAB]; norm_num [w]) (fun y hy => by
      rw [Finset.mul_sum]
      exact Finset.sum_congr rfl fun x hx => hbal x hx y hy) h (toAndFro_all h) (fun x => if x = [[0, 1, 0]] then 1 else 0)
  simpa [Finset.sum_pair hAB, w] using this

end KMC
