import Verif.Lemmas.Chain
import Mathlib.MeasureTheory.Function.Jacobian
import Mathlib.MeasureTheory.Constructions.Pi
import Mathlib.MeasureTheory.Measure.Prod
import Mathlib.MeasureTheory.Integral.IntervalIntegral.Basic
import Mathlib.Analysis.SpecialFunctions.Log.Deriv

/-!
# Jumps driven by random numbers

The state of a system after a given time, where each step takes three random numbers: one for the time and two for the event.
Nothing here refers to the model of the code.
-/

namespace KMC.Chain

open MeasureTheory Set

/-- A system that halts or jumps. -/
structure Jumps (S : Type _) where
  halted : S → Prop
  ev : S → Finset (ℕ × ℕ)
  pick : S → ℕ × ℕ → Set (ℝ × ℝ)
  next : S → ℕ × ℕ → S
  rate : S → ℕ × ℕ → ℝ
  total : S → ℝ
  total_pos : ∀ s, ¬ halted s → 0 < total s
  rate_nonneg : ∀ s e, e ∈ ev s → 0 ≤ rate s e
  measurable : ∀ s, ¬ halted s → ∀ e ∈ ev s, MeasurableSet (pick s e)
  volume_pick : ∀ s, ¬ halted s → ∀ e ∈ ev s, volume (pick s e) = ENNReal.ofReal (rate s e / total s)
  disjoint : ∀ s e e', e ≠ e' → Disjoint (pick s e) (pick s e')
  pick_sub : ∀ s e, pick s e ⊆ Ico (0 : ℝ) 1 ×ˢ Ico (0 : ℝ) 1
  sum_rate : ∀ s, ¬ halted s → ∑ e ∈ ev s, rate s e = total s

/-- The cube the random numbers are from. -/
def unitCube (N : ℕ) : Set (Fin N → ℝ × ℝ × ℝ) :=
  {w | ∀ i, (w i).1 ∈ Ico (0 : ℝ) 1 ∧ (w i).2.1 ∈ Ico (0 : ℝ) 1 ∧ (w i).2.2 ∈ Ico (0 : ℝ) 1}

theorem unitCube_eq (N : ℕ) : unitCube N = Set.pi univ fun _ : Fin N => Ico (0 : ℝ) 1 ×ˢ (Ico (0 : ℝ) 1 ×ˢ Ico (0 : ℝ) 1) := by
  ext w
  simp [unitCube, Set.mem_pi]

theorem measurableSet_unitCube (N : ℕ) : MeasurableSet (unitCube N) := by
  rw [unitCube_eq]
  exact MeasurableSet.univ_pi fun _ => measurableSet_Ico.prod (measurableSet_Ico.prod measurableSet_Ico)

theorem volume_unitCube (N : ℕ) : volume (unitCube N) = 1 := by
  rw [unitCube_eq, volume_pi_pi]
  simp [Measure.volume_eq_prod, Measure.prod_prod]

namespace Jumps
variable {S : Type _} (J : Jumps S)

/-- With these random numbers the state after time `t` satisfies `A`, and this is known after less than `N` jumps or at a
halt. -/
def At (A : S → Prop) : (N : ℕ) → S → ℝ → (Fin N → ℝ × ℝ × ℝ) → Prop
  | 0, _, _, _ => False
  | N + 1, s, t, w => (J.halted s ∧ A s ∧ w ∈ unitCube (N + 1)) ∨
      (¬ J.halted s ∧ ∃ e ∈ J.ev s, (w 0).2 ∈ J.pick s e ∧ (w 0).1 ∈ Ioo (0 : ℝ) 1 ∧
        ((t < -Real.log (w 0).1 / J.total s ∧ A s ∧ (fun i => w (Fin.succ i)) ∈ unitCube N) ∨
          (-Real.log (w 0).1 / J.total s ≤ t ∧
            At A N (J.next s e) (t - -Real.log (w 0).1 / J.total s) (fun i => w (Fin.succ i)))))

/-- The probability of `At`. -/
noncomputable def prob (A : S → Prop) (N : ℕ) (s : S) (t : ℝ) : ENNReal := volume {w | J.At A N s t w}

theorem measurable_at (A : S → Prop) (N : ℕ) (s : S) :
    MeasurableSet {x : ℝ × (Fin N → ℝ × ℝ × ℝ) | J.At A N s x.1 x.2} := by
  induction N generalizing s with
  | zero => exact MeasurableSet.empty
  | succ N ih =>
    by_cases hh : J.halted s
    · by_cases hA : A s
      · have : {x : ℝ × (Fin (N + 1) → ℝ × ℝ × ℝ) | J.At A (N + 1) s x.1 x.2} = Prod.snd ⁻¹' unitCube (N + 1) := by
          ext x
          simp [At, hh, hA]
        rw [this]
        exact measurable_snd (measurableSet_unitCube _)
      · have : {x : ℝ × (Fin (N + 1) → ℝ × ℝ × ℝ) | J.At A (N + 1) s x.1 x.2} = ∅ := by
          ext x
          simp [At, hh, hA]
        rw [this]
        exact MeasurableSet.empty
    · have h0 : Measurable fun x : ℝ × (Fin (N + 1) → ℝ × ℝ × ℝ) => x.2 0 := (measurable_pi_apply 0).comp measurable_snd
      have hd : Measurable fun x : ℝ × (Fin (N + 1) → ℝ × ℝ × ℝ) => -Real.log (x.2 0).1 / J.total s :=
        ((Real.measurable_log.comp (measurable_fst.comp h0)).neg).div_const _
      have ht : Measurable fun x : ℝ × (Fin (N + 1) → ℝ × ℝ × ℝ) => fun i : Fin N => x.2 i.succ :=
        measurable_pi_lambda _ fun i => (measurable_pi_apply _).comp measurable_snd
      have : {x : ℝ × (Fin (N + 1) → ℝ × ℝ × ℝ) | J.At A (N + 1) s x.1 x.2} =
          ⋃ e ∈ J.ev s, ({x | (x.2 0).2 ∈ J.pick s e} ∩ {x | (x.2 0).1 ∈ Ioo (0 : ℝ) 1} ∩
            (({x | x.1 < -Real.log (x.2 0).1 / J.total s} ∩ {_x | A s} ∩ {x | (fun i => x.2 (Fin.succ i)) ∈ unitCube N}) ∪
              ({x | -Real.log (x.2 0).1 / J.total s ≤ x.1} ∩
                (fun x : ℝ × (Fin (N + 1) → ℝ × ℝ × ℝ) => (x.1 - -Real.log (x.2 0).1 / J.total s, fun i : Fin N => x.2 i.succ)) ⁻¹'
                  {x | J.At A N (J.next s e) x.1 x.2}))) := by
        ext x
        simp only [At, hh, false_and, not_false_eq_true, true_and, false_or, mem_ofPred_eq, mem_iUnion, mem_inter_iff, mem_union,
          mem_preimage, exists_prop, and_assoc]
      rw [this]
      refine Finset.measurableSet_biUnion _ fun e he => ?_
      refine ((measurable_snd.comp h0) (J.measurable s hh e he)).inter ((measurable_fst.comp h0) measurableSet_Ioo) |>.inter ?_
      refine (((measurableSet_lt measurable_fst hd).inter (MeasurableSet.const _)).inter (ht (measurableSet_unitCube N))).union ?_
      exact (measurableSet_le hd measurable_fst).inter (((measurable_fst.sub hd).prodMk ht) (ih _))

theorem measurable_prob (A : S → Prop) (N : ℕ) (s : S) : Measurable (J.prob A N s) :=
  measurable_measure_prodMk_left (J.measurable_at A N s)

theorem measurable_section (A : S → Prop) (N : ℕ) (s : S) (t : ℝ) : MeasurableSet {w | J.At A N s t w} :=
  measurable_prodMk_left (J.measurable_at A N s)

theorem prob_halted {A : S → Prop} {s : S} (h : J.halted s) (N : ℕ) (t : ℝ) [Decidable (A s)] :
    J.prob A (N + 1) s t = if A s then 1 else 0 := by
  unfold prob
  split
  · next hA =>
    rw [← volume_unitCube (N + 1)]
    congr 1
    ext w
    simp [At, h, hA]
  · next hA =>
    have : {w | J.At A (N + 1) s t w} = ∅ := by
      ext w
      simp [At, h, hA]
    rw [this, measure_empty]

/-- What follows the first event. -/
noncomputable def after (A : S → Prop) [DecidablePred A] (N : ℕ) (s : S) (t : ℝ) (e : ℕ × ℕ) (u : ℝ) : ENNReal :=
  if t < -Real.log u / J.total s then (if A s then 1 else 0) else J.prob A N (J.next s e) (t - -Real.log u / J.total s)

theorem prob_first (A : S → Prop) [DecidablePred A] {s : S} (h : ¬ J.halted s) (N : ℕ) (t : ℝ) :
    J.prob A (N + 1) s t = ∑ e ∈ J.ev s, ENNReal.ofReal (J.rate s e / J.total s) * ∫⁻ u in Ioo (0 : ℝ) 1, J.after A N s t e u := by
  let B : ℕ × ℕ → Set (Fin (N + 1) → ℝ × ℝ × ℝ) := fun e => {w | (w 0).2 ∈ J.pick s e ∧ (w 0).1 ∈ Ioo (0 : ℝ) 1 ∧
        ((t < -Real.log (w 0).1 / J.total s ∧ A s ∧ (fun i => w (Fin.succ i)) ∈ unitCube N) ∨
          (-Real.log (w 0).1 / J.total s ≤ t ∧
            J.At A N (J.next s e) (t - -Real.log (w 0).1 / J.total s) (fun i => w (Fin.succ i))))}
  have h0 : Measurable fun w : Fin (N + 1) → ℝ × ℝ × ℝ => w 0 := measurable_pi_apply 0
  have hd : Measurable fun w : Fin (N + 1) → ℝ × ℝ × ℝ => -Real.log (w 0).1 / J.total s :=
    ((Real.measurable_log.comp (measurable_fst.comp h0)).neg).div_const _
  have ht : Measurable fun w : Fin (N + 1) → ℝ × ℝ × ℝ => fun i : Fin N => w i.succ :=
    measurable_pi_lambda _ fun i => measurable_pi_apply _
  have hB : ∀ e ∈ J.ev s, MeasurableSet (B e) := by
    intro e he
    have : B e = ({w | (w 0).2 ∈ J.pick s e} ∩ ({w | (w 0).1 ∈ Ioo (0 : ℝ) 1} ∩
            (({w | t < -Real.log (w 0).1 / J.total s} ∩ ({_w | A s} ∩ {w | (fun i => w (Fin.succ i)) ∈ unitCube N})) ∪
              ({w | -Real.log (w 0).1 / J.total s ≤ t} ∩
                (fun w : Fin (N + 1) → ℝ × ℝ × ℝ => (t - -Real.log (w 0).1 / J.total s, fun i : Fin N => w i.succ)) ⁻¹'
                  {x | J.At A N (J.next s e) x.1 x.2})))) := by
      ext w
      rfl
    rw [this]
    refine ((measurable_snd.comp h0) (J.measurable s h e he)).inter (((measurable_fst.comp h0) measurableSet_Ioo).inter ?_)
    refine ((measurableSet_lt measurable_const hd).inter ((MeasurableSet.const _).inter (ht (measurableSet_unitCube N)))).union ?_
    exact (measurableSet_le hd measurable_const).inter (((measurable_const.sub hd).prodMk ht) (J.measurable_at A N _))
  have hset : {w | J.At A (N + 1) s t w} = ⋃ e ∈ J.ev s, B e := by
    ext w
    simp only [At, h, false_and, not_false_eq_true, true_and, false_or, mem_ofPred_eq, mem_iUnion, exists_prop, B]
  unfold prob
  rw [hset, measure_biUnion_finset ?_ hB]
  · refine Finset.sum_congr rfl fun e he => ?_
    -- split off the first three random numbers
    have hprod : B e = MeasurableEquiv.piFinSuccAbove (fun _ : Fin (N + 1) => ℝ × ℝ × ℝ) 0 ⁻¹'
        {x : (ℝ × ℝ × ℝ) × (Fin N → ℝ × ℝ × ℝ) | x.1.2 ∈ J.pick s e ∧ x.1.1 ∈ Ioo (0 : ℝ) 1 ∧
          ((t < -Real.log x.1.1 / J.total s ∧ A s ∧ x.2 ∈ unitCube N) ∨
          (-Real.log x.1.1 / J.total s ≤ t ∧ J.At A N (J.next s e) (t - -Real.log x.1.1 / J.total s) x.2))} := by
      ext w
      rfl
    have hm : MeasurableSet {x : (ℝ × ℝ × ℝ) × (Fin N → ℝ × ℝ × ℝ) | x.1.2 ∈ J.pick s e ∧ x.1.1 ∈ Ioo (0 : ℝ) 1 ∧
          ((t < -Real.log x.1.1 / J.total s ∧ A s ∧ x.2 ∈ unitCube N) ∨
          (-Real.log x.1.1 / J.total s ≤ t ∧ J.At A N (J.next s e) (t - -Real.log x.1.1 / J.total s) x.2))} := by
      have := hB e he
      rw [hprod] at this
      exact (MeasurableEquiv.measurableSet_preimage _).1 this
    rw [hprod, (volume_preserving_piFinSuccAbove (fun _ : Fin (N + 1) => ℝ × ℝ × ℝ) 0).measure_preimage_equiv,
      Measure.volume_eq_prod, Measure.prod_apply hm]
    have hsec : ∀ d : ℝ × ℝ × ℝ, volume (Prod.mk d ⁻¹' {x : (ℝ × ℝ × ℝ) × (Fin N → ℝ × ℝ × ℝ) | x.1.2 ∈ J.pick s e ∧ x.1.1 ∈ Ioo (0 : ℝ) 1 ∧
          ((t < -Real.log x.1.1 / J.total s ∧ A s ∧ x.2 ∈ unitCube N) ∨
          (-Real.log x.1.1 / J.total s ≤ t ∧ J.At A N (J.next s e) (t - -Real.log x.1.1 / J.total s) x.2))}) =
        (Ioo (0 : ℝ) 1).indicator (J.after A N s t e) d.1 * (J.pick s e).indicator 1 d.2 := by
      rintro ⟨u, v⟩
      by_cases hv : v ∈ J.pick s e
      · by_cases hu : u ∈ Ioo (0 : ℝ) 1
        · rw [indicator_of_mem hu, indicator_of_mem hv, Pi.one_apply, mul_one]
          unfold after
          by_cases hlt : t < -Real.log u / J.total s
          · rw [if_pos hlt]
            by_cases hA : A s
            · rw [if_pos hA, ← volume_unitCube N]
              congr 1
              ext w
              simp only [mem_preimage, mem_ofPred_eq, hv, hu, hlt, hA, true_and, not_le.2 hlt, false_and, or_false]
            · rw [if_neg hA]
              convert measure_empty (μ := (volume : Measure (Fin N → ℝ × ℝ × ℝ)))
              ext w
              simp only [mem_preimage, mem_ofPred_eq, hv, hu, hlt, hA, true_and, not_le.2 hlt, false_and, or_false, mem_empty_iff_false]
          · rw [if_neg hlt]
            unfold prob
            congr 1
            ext w
            simp only [mem_preimage, mem_ofPred_eq, hv, hu, hlt, true_and, not_lt.1 hlt, false_and, false_or]
        · rw [indicator_of_notMem hu, zero_mul]
          convert measure_empty (μ := (volume : Measure (Fin N → ℝ × ℝ × ℝ)))
          ext w
          simp only [mem_preimage, mem_ofPred_eq, hu, false_and, and_false, mem_empty_iff_false]
      · rw [indicator_of_notMem hv, mul_zero]
        convert measure_empty (μ := (volume : Measure (Fin N → ℝ × ℝ × ℝ)))
        ext w
        simp only [mem_preimage, mem_ofPred_eq, hv, false_and, mem_empty_iff_false]
    simp only [hsec]
    have hma : Measurable (J.after A N s t e) := by
      unfold after
      have hlog : Measurable fun u : ℝ => -Real.log u / J.total s := (Real.measurable_log.neg).div_const _
      exact Measurable.ite (measurableSet_lt measurable_const hlog) measurable_const
        ((J.measurable_prob A N _).comp (measurable_const.sub hlog))
    rw [Measure.volume_eq_prod, lintegral_prod_mul (hma.indicator measurableSet_Ioo).aemeasurable
      ((measurable_one.indicator (J.measurable s h e he))).aemeasurable, lintegral_indicator measurableSet_Ioo,
      lintegral_indicator_one (J.measurable s h e he), J.volume_pick s h e he, mul_comm]
  · intro e he e' he' hne
    rw [Function.onFun, Set.disjoint_left]
    rintro w ⟨h1, -⟩ ⟨h2, -⟩
    exact Set.disjoint_left.1 (J.disjoint s e e' hne) h1 h2

/-- The random number for the time exchanged for the time that is left. -/
theorem lintegral_time {R t : ℝ} (hR : 0 < R) (g : ℝ → ENNReal) :
    ∫⁻ u in Ico (Real.exp (-(R * t))) 1, g (t - -Real.log u / R) =
      ∫⁻ σ in Ico (0 : ℝ) t, ENNReal.ofReal (R * Real.exp (R * (σ - t))) * g σ := by
  have himg : (fun σ => Real.exp (R * (σ - t))) '' Ico (0 : ℝ) t = Ico (Real.exp (-(R * t))) 1 := by
    ext u
    constructor
    · rintro ⟨σ, ⟨h0, h1⟩, rfl⟩
      refine ⟨Real.exp_le_exp.2 (by nlinarith), ?_⟩
      rw [← Real.exp_zero]
      exact Real.exp_lt_exp.2 (by nlinarith)
    · rintro ⟨h0, h1⟩
      have hu : 0 < u := (Real.exp_pos _).trans_le h0
      have hl0 : -(R * t) ≤ Real.log u := (Real.le_log_iff_exp_le hu).2 h0
      have hl1 : Real.log u < 0 := Real.log_neg hu h1
      refine ⟨t + Real.log u / R, ⟨?_, ?_⟩, ?_⟩
      · have : -t ≤ Real.log u / R := by
          rw [le_div_iff₀ hR]
          linarith [mul_comm R t]
        linarith
      · have : Real.log u / R < 0 := div_neg_of_neg_of_pos hl1 hR
        linarith
      · show Real.exp (R * (t + Real.log u / R - t)) = u
        rw [add_sub_cancel_left, mul_div_cancel₀ _ hR.ne', Real.exp_log hu]
  have hder : ∀ σ ∈ Ico (0 : ℝ) t, HasDerivWithinAt (fun σ => Real.exp (R * (σ - t))) (R * Real.exp (R * (σ - t))) (Ico 0 t) σ := by
    intro σ _
    have h1 : HasDerivAt (fun σ => R * (σ - t)) R σ := by
      simpa using ((hasDerivAt_id σ).sub_const t).const_mul R
    have h2 := h1.exp
    rw [mul_comm] at h2
    exact h2.hasDerivWithinAt
  have hinj : InjOn (fun σ => Real.exp (R * (σ - t))) (Ico (0 : ℝ) t) := by
    intro a _ b _ h
    have := Real.exp_injective h
    have := mul_left_cancel₀ hR.ne' this
    linarith
  rw [← himg, lintegral_image_eq_lintegral_abs_deriv_mul measurableSet_Ico hder hinj]
  refine setLIntegral_congr_fun measurableSet_Ico fun σ _ => ?_
  have h1 : |R * Real.exp (R * (σ - t))| = R * Real.exp (R * (σ - t)) := abs_of_pos (mul_pos hR (Real.exp_pos _))
  have h2 : t - -Real.log (Real.exp (R * (σ - t))) / R = σ := by
    rw [Real.log_exp]
    field_simp
    ring
  simp only [h1, h2]

theorem lintegral_after (A : S → Prop) [DecidablePred A] {s : S} (h : ¬ J.halted s) (N : ℕ) {t : ℝ} (ht : 0 ≤ t) (e : ℕ × ℕ) :
    ∫⁻ u in Ioo (0 : ℝ) 1, J.after A N s t e u = (if A s then 1 else 0) * ENNReal.ofReal (Real.exp (-(J.total s * t))) +
      ∫⁻ σ in Ico (0 : ℝ) t, ENNReal.ofReal (J.total s * Real.exp (J.total s * (σ - t))) * J.prob A N (J.next s e) σ := by
  have hR := J.total_pos s h
  set R := J.total s with hRdef
  have hle : Real.exp (-(R * t)) ≤ 1 := by
    rw [← Real.exp_zero]
    exact Real.exp_le_exp.2 (by nlinarith)
  have hcut : Ioo (0 : ℝ) 1 = Ioo 0 (Real.exp (-(R * t))) ∪ Ico (Real.exp (-(R * t))) 1 :=
    (Ioo_union_Ico_eq_Ioo (Real.exp_pos _) hle).symm
  have hdisj : Disjoint (Ioo (0 : ℝ) (Real.exp (-(R * t)))) (Ico (Real.exp (-(R * t))) 1) := by
    rw [Set.disjoint_left]
    rintro u ⟨-, h1⟩ ⟨h2, -⟩
    exact absurd h1 (not_lt.2 h2)
  rw [hcut, lintegral_union measurableSet_Ico hdisj]
  congr 1
  · rw [setLIntegral_congr_fun (g := fun _ => if A s then 1 else 0) measurableSet_Ioo]
    · rw [setLIntegral_const, Real.volume_Ioo, sub_zero]
    · rintro u ⟨h0, h1⟩
      have hl : Real.log u < -(R * t) := (Real.log_lt_iff_lt_exp h0).2 h1
      have : t < -Real.log u / J.total s := by
        rw [← hRdef, lt_div_iff₀ hR]
        linarith [mul_comm R t]
      simp only [after, if_pos this]
  · rw [← lintegral_time hR]
    refine setLIntegral_congr_fun measurableSet_Ico ?_
    rintro u ⟨h0, h1⟩
    have hu : 0 < u := (Real.exp_pos _).trans_le h0
    have hl : -(R * t) ≤ Real.log u := (Real.le_log_iff_exp_le hu).2 h0
    have : ¬ t < -Real.log u / J.total s := by
      rw [not_lt, ← hRdef, div_le_iff₀ hR]
      linarith [mul_comm R t]
    simp only [after, if_neg this, hRdef]

/-- The state after time `t`: either nothing has happened, or there was a first event. -/
theorem prob_succ (A : S → Prop) [DecidablePred A] {s : S} (h : ¬ J.halted s) (N : ℕ) {t : ℝ} (ht : 0 ≤ t) :
    J.prob A (N + 1) s t = (if A s then 1 else 0) * ENNReal.ofReal (Real.exp (-(J.total s * t))) +
      ∑ e ∈ J.ev s, ENNReal.ofReal (J.rate s e) *
        ∫⁻ σ in Ico (0 : ℝ) t, ENNReal.ofReal (Real.exp (J.total s * (σ - t))) * J.prob A N (J.next s e) σ := by
  have hR := J.total_pos s h
  rw [J.prob_first A h N t]
  have h1 : ∀ e ∈ J.ev s, ENNReal.ofReal (J.rate s e / J.total s) * ∫⁻ u in Ioo (0 : ℝ) 1, J.after A N s t e u =
      ENNReal.ofReal (J.rate s e / J.total s) * ((if A s then 1 else 0) * ENNReal.ofReal (Real.exp (-(J.total s * t)))) +
        ENNReal.ofReal (J.rate s e) *
          ∫⁻ σ in Ico (0 : ℝ) t, ENNReal.ofReal (Real.exp (J.total s * (σ - t))) * J.prob A N (J.next s e) σ := by
    intro e he
    rw [J.lintegral_after A h N ht e, mul_add]
    congr 1
    have : ∀ σ, ENNReal.ofReal (J.total s * Real.exp (J.total s * (σ - t))) * J.prob A N (J.next s e) σ =
        ENNReal.ofReal (J.total s) * (ENNReal.ofReal (Real.exp (J.total s * (σ - t))) * J.prob A N (J.next s e) σ) := by
      intro σ
      rw [ENNReal.ofReal_mul hR.le, mul_assoc]
    simp only [this]
    rw [lintegral_const_mul' _ _ ENNReal.ofReal_ne_top, ← mul_assoc,
      ← ENNReal.ofReal_mul (div_nonneg (J.rate_nonneg s e he) hR.le), div_mul_cancel₀ _ hR.ne']
  rw [Finset.sum_congr rfl h1, Finset.sum_add_distrib, ← Finset.sum_mul,
    ← ENNReal.ofReal_sum_of_nonneg (fun e he => div_nonneg (J.rate_nonneg s e he) hR.le), ← Finset.sum_div, J.sum_rate s h,
    div_self hR.ne', ENNReal.ofReal_one, one_mul]

theorem At.cube {A : S → Prop} {N : ℕ} {s : S} {t : ℝ} {w : Fin N → ℝ × ℝ × ℝ} (h : J.At A N s t w) : w ∈ unitCube N := by
  induction N generalizing s t with
  | zero => exact h.elim
  | succ N ih =>
    rcases h with ⟨-, -, h⟩ | ⟨-, e, -, hp, h0, h⟩
    · exact h
    · have htail : (fun i => w (Fin.succ i)) ∈ unitCube N := by
        rcases h with ⟨-, -, h⟩ | ⟨-, h⟩
        · exact h
        · exact ih h
      intro i
      refine Fin.cases ?_ (fun i => htail i) i
      obtain ⟨h1, h2⟩ := J.pick_sub s e hp
      exact ⟨⟨h0.1.le, h0.2⟩, h1, h2⟩

theorem prob_le_one (A : S → Prop) (N : ℕ) (s : S) (t : ℝ) : J.prob A N s t ≤ 1 := by
  rw [← volume_unitCube N]
  exact measure_mono fun w hw => At.cube J hw

theorem prob_mono (A : S → Prop) (s : S) {t : ℝ} (ht : 0 ≤ t) : Monotone fun N => J.prob A N s t := by
  classical
  refine monotone_nat_of_le_succ fun N => ?_
  induction N generalizing s t with
  | zero =>
    have : J.prob A 0 s t = 0 := by
      unfold prob
      exact measure_empty (μ := (volume : Measure (Fin 0 → ℝ × ℝ × ℝ)))
    rw [this]
    exact zero_le
  | succ N ih =>
    by_cases h : J.halted s
    · rw [J.prob_halted h, J.prob_halted h]
    · rw [J.prob_succ A h N ht, J.prob_succ A h (N + 1) ht]
      refine add_le_add_right (Finset.sum_le_sum fun e _ => mul_le_mul_right (lintegral_mono_ae ?_) _) _
      filter_upwards [ae_restrict_mem measurableSet_Ico] with σ hσ
      exact mul_le_mul_right (ih (J.next s e) hσ.1) _

/-- The probability that the state after time `t` satisfies `A`. -/
noncomputable def chance (A : S → Prop) (s : S) (t : ℝ) : ENNReal := ⨆ N, J.prob A N s t

theorem chance_le_one (A : S → Prop) (s : S) (t : ℝ) : J.chance A s t ≤ 1 := iSup_le fun N => J.prob_le_one A N s t

theorem measurable_chance (A : S → Prop) (s : S) : Measurable (J.chance A s) :=
  Measurable.iSup fun N => J.measurable_prob A N s

theorem chance_eq_succ (A : S → Prop) (s : S) {t : ℝ} (ht : 0 ≤ t) : J.chance A s t = ⨆ N, J.prob A (N + 1) s t :=
  ((J.prob_mono A s ht).iSup_nat_add 1).symm

theorem chance_halted (A : S → Prop) [DecidablePred A] {s : S} (h : J.halted s) {t : ℝ} (ht : 0 ≤ t) :
    J.chance A s t = if A s then 1 else 0 := by
  rw [J.chance_eq_succ A s ht]
  simp only [J.prob_halted h, ciSup_const]

theorem chance_jump (A : S → Prop) [DecidablePred A] {s : S} (h : ¬ J.halted s) {t : ℝ} (ht : 0 ≤ t) :
    J.chance A s t = (if A s then 1 else 0) * ENNReal.ofReal (Real.exp (-(J.total s * t))) +
      ∑ e ∈ J.ev s, ENNReal.ofReal (J.rate s e) *
        ∫⁻ σ in Ico (0 : ℝ) t, ENNReal.ofReal (Real.exp (J.total s * (σ - t))) * J.chance A (J.next s e) σ := by
  have hmono : ∀ e, Monotone fun N => ENNReal.ofReal (J.rate s e) *
      ∫⁻ σ in Ico (0 : ℝ) t, ENNReal.ofReal (Real.exp (J.total s * (σ - t))) * J.prob A N (J.next s e) σ := by
    intro e N M hNM
    refine mul_le_mul_right ?_ _
    refine lintegral_mono_ae ?_
    filter_upwards [ae_restrict_mem measurableSet_Ico] with σ hσ
    exact mul_le_mul_right (J.prob_mono A (J.next s e) hσ.1 hNM) _
  have hint : ∀ e, ∫⁻ σ in Ico (0 : ℝ) t, ENNReal.ofReal (Real.exp (J.total s * (σ - t))) * J.chance A (J.next s e) σ =
      ⨆ N, ∫⁻ σ in Ico (0 : ℝ) t, ENNReal.ofReal (Real.exp (J.total s * (σ - t))) * J.prob A N (J.next s e) σ := by
    intro e
    rw [← lintegral_iSup']
    · simp only [chance, ENNReal.mul_iSup]
    · intro N
      refine (Measurable.mul ?_ (J.measurable_prob A N _)).aemeasurable
      fun_prop
    · filter_upwards [ae_restrict_mem measurableSet_Ico] with σ hσ
      intro N M hNM
      exact mul_le_mul_right (J.prob_mono A (J.next s e) hσ.1 hNM) _
  rw [J.chance_eq_succ A s ht]
  simp only [J.prob_succ A h _ ht, hint, ENNReal.mul_iSup]
  rw [← ENNReal.add_iSup, ENNReal.finsetSum_iSup_of_monotone hmono]

/-- The states fall into classes, and the class decides the rates to the other classes. -/
structure Classes {ι : Type _} [Fintype ι] [DecidableEq ι] (cls : S → ι) (W : ι → ι → ℝ) (R : ι → ℝ) : Prop where
  halted : ∀ s, J.halted s → R (cls s) = 0 ∧ ∀ k, W (cls s) k = 0
  total : ∀ s, ¬ J.halted s → J.total s = R (cls s)
  rates : ∀ s, ¬ J.halted s → ∀ k, ∑ e ∈ J.ev s with cls (J.next s e) = k, J.rate s e = W (cls s) k

section classes
variable {ι : Type _} [Fintype ι] [DecidableEq ι] {cls : S → ι} {W : ι → ι → ℝ} {R : ι → ℝ} {J}

theorem Classes.halted_iff (h : J.Classes cls W R) {s s' : S} (hs : cls s = cls s') : J.halted s ↔ J.halted s' := by
  constructor
  · intro hh
    by_contra hn
    have h1 := J.total_pos s' hn
    rw [h.total s' hn, ← hs, (h.halted s hh).1] at h1
    exact lt_irrefl _ h1
  · intro hh
    by_contra hn
    have h1 := J.total_pos s hn
    rw [h.total s hn, hs, (h.halted s' hh).1] at h1
    exact lt_irrefl _ h1

/-- Sums over events are sums over the classes they lead to. -/
theorem Classes.sum_ev (h : J.Classes cls W R) {s : S} (hs : ¬ J.halted s) (F : ι → ENNReal) :
    ∑ e ∈ J.ev s, ENNReal.ofReal (J.rate s e) * F (cls (J.next s e)) = ∑ k, ENNReal.ofReal (W (cls s) k) * F k := by
  rw [← Finset.sum_fiberwise (J.ev s) (fun e => cls (J.next s e))]
  refine Finset.sum_congr rfl fun k _ => ?_
  rw [← h.rates s hs k, ENNReal.ofReal_sum_of_nonneg (fun e he => J.rate_nonneg s e (Finset.mem_filter.1 he).1), Finset.sum_mul]
  refine Finset.sum_congr rfl fun e he => ?_
  rw [(Finset.mem_filter.1 he).2]

variable {A : ι → Prop} {σ₀ : ι → S}

/-- The class decides the probabilities. -/
theorem Classes.prob (h : J.Classes cls W R) (hσ : ∀ i, cls (σ₀ i) = i) (N : ℕ) (s : S) {t : ℝ} (ht : 0 ≤ t) :
    J.prob (fun s => A (cls s)) N s t = J.prob (fun s => A (cls s)) N (σ₀ (cls s)) t := by
  classical
  induction N generalizing s t with
  | zero => rfl
  | succ N ih =>
    have hc : cls (σ₀ (cls s)) = cls s := hσ _
    by_cases hs : J.halted s
    · rw [J.prob_halted hs, J.prob_halted ((h.halted_iff hc).2 hs), hc]
    · have hs' : ¬ J.halted (σ₀ (cls s)) := fun hh => hs ((h.halted_iff hc).1 hh)
      have key : ∀ s, ¬ J.halted s → J.prob (fun s => A (cls s)) (N + 1) s t =
          (if A (cls s) then 1 else 0) * ENNReal.ofReal (Real.exp (-(R (cls s) * t))) + ∑ k, ENNReal.ofReal (W (cls s) k) *
            ∫⁻ σ in Ico (0 : ℝ) t, ENNReal.ofReal (Real.exp (R (cls s) * (σ - t))) * J.prob (fun s => A (cls s)) N (σ₀ k) σ := by
        intro s hs
        rw [J.prob_succ _ hs N ht, ← h.sum_ev hs, h.total s hs]
        congr 1
        refine Finset.sum_congr rfl fun e _ => ?_
        congr 1
        refine setLIntegral_congr_fun measurableSet_Ico fun σ hσ' => ?_
        rw [ih (J.next s e) hσ'.1]
      rw [key s hs, key _ hs', hc]

theorem Classes.chance (h : J.Classes cls W R) (hσ : ∀ i, cls (σ₀ i) = i) (s : S) {t : ℝ} (ht : 0 ≤ t) :
    J.chance (fun s => A (cls s)) s t = J.chance (fun s => A (cls s)) (σ₀ (cls s)) t := by
  unfold Jumps.chance
  exact iSup_congr fun N => h.prob hσ N s ht

/-- Probabilities of systems of jumps are solutions of the renewal equation. -/
theorem Classes.renewal (h : J.Classes cls W R) (hσ : ∀ i, cls (σ₀ i) = i) (hW : ∀ i k, 0 ≤ W i k) [DecidablePred A] :
    Renewal W R (fun i => if A i then 1 else 0) (fun i t => (J.chance (fun s => A (cls s)) (σ₀ i) t).toReal) where
  measurable i := (J.measurable_chance _ _).ennreal_toReal
  bound i t := by
    rw [abs_of_nonneg ENNReal.toReal_nonneg]
    exact ENNReal.toReal_le_of_le_ofReal zero_le_one (by simpa using J.chance_le_one _ _ _)
  eq i t ht := by
    have hfin : ∀ k σ, J.chance (fun s => A (cls s)) (σ₀ k) σ ≠ ⊤ := fun k σ =>
      ne_top_of_le_ne_top ENNReal.one_ne_top (J.chance_le_one _ _ _)
    by_cases hs : J.halted (σ₀ i)
    · have h1 := h.halted _ hs
      rw [hσ] at h1
      simp only [h1.1, h1.2, zero_mul, Finset.sum_const_zero, neg_zero, Real.exp_zero, add_zero, one_mul]
      rw [J.chance_halted _ hs ht, hσ]
      split <;> simp
    · have hint : ∀ k, ∫⁻ σ in Ico (0 : ℝ) t, ENNReal.ofReal (Real.exp (R i * (σ - t))) * J.chance (fun s => A (cls s)) (σ₀ k) σ =
          ENNReal.ofReal (Real.exp (-(R i * t)) *
            ∫ σ in (0 : ℝ)..t, Real.exp (R i * σ) * (J.chance (fun s => A (cls s)) (σ₀ k) σ).toReal) := by
        intro k
        rw [intervalIntegral.integral_of_le ht, ← integral_Ico_eq_integral_Ioc, ← integral_const_mul, ofReal_integral_eq_lintegral_ofReal]
        · refine setLIntegral_congr_fun measurableSet_Ico fun σ _ => ?_
          rw [← mul_assoc, ← Real.exp_add, ENNReal.ofReal_mul (Real.exp_pos _).le, ENNReal.ofReal_toReal (hfin k σ)]
          congr 3
          ring
        · refine Integrable.const_mul ?_ _
          have hb : IntegrableOn (fun σ => Real.exp (R i * σ)) (Ico 0 t) := by
            refine (ContinuousOn.integrableOn_Icc ?_).mono_set Ico_subset_Icc_self
            fun_prop
          refine hb.mul_bdd (c := 1) (J.measurable_chance _ _).ennreal_toReal.aestronglyMeasurable ?_
          refine Filter.Eventually.of_forall fun σ => ?_
          rw [Real.norm_eq_abs, abs_of_nonneg ENNReal.toReal_nonneg]
          exact ENNReal.toReal_le_of_le_ofReal zero_le_one (by simpa using J.chance_le_one _ _ _)
        · refine Filter.Eventually.of_forall fun σ => ?_
          show 0 ≤ _
          positivity
      have hpos : ∀ k, 0 ≤ Real.exp (-(R i * t)) *
            ∫ σ in (0 : ℝ)..t, Real.exp (R i * σ) * (J.chance (fun s => A (cls s)) (σ₀ k) σ).toReal := by
        intro k
        refine mul_nonneg (Real.exp_pos _).le (intervalIntegral.integral_nonneg ht fun σ _ => ?_)
        positivity
      have hsum := h.sum_ev hs fun k => ∫⁻ σ in Ico (0 : ℝ) t, ENNReal.ofReal (Real.exp (R i * (σ - t))) *
          J.chance (fun s => A (cls s)) (σ₀ k) σ
      have hsucc := J.chance_jump (fun s => A (cls s)) hs ht
      rw [h.total _ hs, hσ] at hsucc
      have hsame : ∀ e ∈ J.ev (σ₀ i), ENNReal.ofReal (J.rate (σ₀ i) e) * (∫⁻ σ in Ico (0 : ℝ) t,
            ENNReal.ofReal (Real.exp (R i * (σ - t))) * J.chance (fun s => A (cls s)) (J.next (σ₀ i) e) σ) =
          ENNReal.ofReal (J.rate (σ₀ i) e) * ∫⁻ σ in Ico (0 : ℝ) t, ENNReal.ofReal (Real.exp (R i * (σ - t))) *
            J.chance (fun s => A (cls s)) (σ₀ (cls (J.next (σ₀ i) e))) σ := by
        intro e _
        congr 1
        refine setLIntegral_congr_fun measurableSet_Ico fun σ hσ' => ?_
        rw [h.chance hσ (J.next (σ₀ i) e) hσ'.1]
      rw [Finset.sum_congr rfl hsame, hsum, hσ] at hsucc
      simp only [hint] at hsucc
      have hall : J.chance (fun s => A (cls s)) (σ₀ i) t = ENNReal.ofReal ((if A i then 1 else 0) * Real.exp (-(R i * t)) +
          ∑ k, W i k * (Real.exp (-(R i * t)) *
            ∫ σ in (0 : ℝ)..t, Real.exp (R i * σ) * (J.chance (fun s => A (cls s)) (σ₀ k) σ).toReal)) := by
        rw [hsucc, ENNReal.ofReal_add, ENNReal.ofReal_sum_of_nonneg]
        · congr 1
          · split <;> simp
          · refine Finset.sum_congr rfl fun k _ => ?_
            rw [ENNReal.ofReal_mul (hW i k)]
        · exact fun k _ => mul_nonneg (hW i k) (hpos k)
        · split <;> positivity
        · exact Finset.sum_nonneg fun k _ => mul_nonneg (hW i k) (hpos k)
      rw [hall, ENNReal.toReal_ofReal]
      · rw [mul_add, Finset.mul_sum, mul_comm (Real.exp _) (if A i then (1 : ℝ) else 0)]
        congr 1
        refine Finset.sum_congr rfl fun k _ => ?_
        ring
      · refine add_nonneg ?_ (Finset.sum_nonneg fun k _ => mul_nonneg (hW i k) (hpos k))
        split <;> positivity

end classes

end Jumps
end KMC.Chain
