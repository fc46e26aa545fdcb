import Verif.Lemmas.Jumps
import Mathlib.MeasureTheory.Measure.Lebesgue.Basic

/-!
# States at several times

The states of a system of jumps at several times. Nothing here refers to the model of the code.
-/

namespace KMC.Chain

open MeasureTheory Set

/-- Any solution of the renewal equation is a combination of the ones that start at one state. -/
theorem Renewal.combine {ι : Type _} [Fintype ι] [DecidableEq ι] {W : ι → ι → ℝ} {R a : ι → ℝ} {q : ι → ℝ → ℝ}
    {P : ι → ι → ℝ → ℝ} (h : ∀ j, Renewal W R (fun i => if i = j then 1 else 0) (fun i => P i j)) (hq : Renewal W R a q) (i : ι)
    {t : ℝ} (ht : 0 ≤ t) : q i t = ∑ j, P i j t * a j := by
  have : (fun t i => q i t) t = (fun t i => ∑ j, P i j t * a j) t := by
    refine unique (W := W) (R := R) (f := fun t i => q i t) (g := fun t i => ∑ j, P i j t * a j) ?_ ?_ ?_ ?_ ?_ ht
    · exact continuousOn_pi.2 fun i => hq.continuousOn i
    · refine continuousOn_pi.2 fun i => ?_
      exact continuousOn_finsetSum _ fun k _ => ((h k).continuousOn i).mul continuousOn_const
    · intro t ht
      exact hasDerivWithinAt_pi.2 fun i => hq.backward i ht
    · intro t ht
      refine hasDerivWithinAt_pi.2 fun i => ?_
      have h1 : HasDerivWithinAt (fun x => ∑ k, P i k x * a k) (∑ k, gen W R (fun i => P i k t) i * a k) (Ici t) t :=
        HasDerivWithinAt.fun_sum fun k _ => ((h k).backward i ht).mul_const _
      refine h1.congr_deriv ?_
      simp only [gen, sub_mul, Finset.sum_sub_distrib, Finset.mul_sum, Finset.sum_mul]
      rw [Finset.sum_comm]
      simp only [mul_assoc]
    · funext i
      have h0 : ∀ i k, P i k 0 = if i = k then 1 else 0 := fun i k => (h k).start i
      simp [h0, hq.start i]
  exact congrFun this i

/-- The first random number made larger by a factor. -/
def stretch {N : ℕ} (c : ℝ) (w : Fin (N + 1) → ℝ × ℝ × ℝ) : Fin (N + 1) → ℝ × ℝ × ℝ :=
  Fin.cons (c * (w 0).1, (w 0).2) fun i => w i.succ

theorem measurable_stretch {N : ℕ} : Measurable fun x : ℝ × (Fin (N + 1) → ℝ × ℝ × ℝ) => stretch x.1 x.2 := by
  refine measurable_pi_lambda _ fun i => ?_
  refine Fin.cases ?_ (fun i => ?_) i
  · show Measurable fun x : ℝ × (Fin (N + 1) → ℝ × ℝ × ℝ) => (x.1 * (x.2 0).1, (x.2 0).2)
    have h0 : Measurable fun x : ℝ × (Fin (N + 1) → ℝ × ℝ × ℝ) => x.2 0 := (measurable_pi_apply 0).comp measurable_snd
    exact (measurable_fst.mul (measurable_fst.comp h0)).prodMk (measurable_snd.comp h0)
  · show Measurable fun x : ℝ × (Fin (N + 1) → ℝ × ℝ × ℝ) => x.2 i.succ
    exact (measurable_pi_apply _).comp measurable_snd

theorem volume_stretch {N : ℕ} {c : ℝ} (hc : 0 < c) {G : Set (Fin (N + 1) → ℝ × ℝ × ℝ)} (hG : MeasurableSet G) :
    volume (stretch c ⁻¹' G) = ENNReal.ofReal c⁻¹ * volume G := by
  let e := MeasurableEquiv.piFinSuccAbove (fun _ : Fin (N + 1) => ℝ × ℝ × ℝ) 0
  have he : MeasurePreserving e volume volume := volume_preserving_piFinSuccAbove (fun _ : Fin (N + 1) => ℝ × ℝ × ℝ) 0
  let F : (ℝ × ℝ × ℝ) × (Fin N → ℝ × ℝ × ℝ) → (ℝ × ℝ × ℝ) × (Fin N → ℝ × ℝ × ℝ) := Prod.map (Prod.map (c * ·) id) id
  have hF : Measurable F := ((measurable_const.mul measurable_id).prodMap measurable_id).prodMap measurable_id
  have hG' : MeasurableSet (e.symm ⁻¹' G) := e.symm.measurable hG
  have h1 : stretch c ⁻¹' G = e ⁻¹' (F ⁻¹' (e.symm ⁻¹' G)) := by
    ext w
    have : stretch c w = e.symm (F (e w)) := by
      apply e.injective
      rw [e.apply_symm_apply]
      rfl
    rw [mem_preimage, mem_preimage, mem_preimage, mem_preimage, this]
  have h2 : G = e ⁻¹' (e.symm ⁻¹' G) := by
    ext w
    simp
  have hmap : Measure.map F volume = ENNReal.ofReal c⁻¹ • volume := by
    have hm1 : Measurable fun x : ℝ => c * x := measurable_const.mul measurable_id
    show Measure.map (Prod.map (Prod.map (c * ·) id) id) _ = _
    rw [Measure.volume_eq_prod (ℝ × ℝ × ℝ) (Fin N → ℝ × ℝ × ℝ), ← Measure.map_prod_map _ _ (hm1.prodMap measurable_id) measurable_id,
      Measure.volume_eq_prod ℝ (ℝ × ℝ), ← Measure.map_prod_map _ _ hm1 measurable_id, Measure.map_id, Measure.map_id,
      Real.map_volume_mul_left hc.ne', abs_of_pos (inv_pos.2 hc), Measure.prod_smul_left, Measure.prod_smul_left]
  rw [h1, he.measure_preimage_equiv, ← Measure.map_apply hF hG', hmap, Measure.smul_apply, smul_eq_mul]
  conv_rhs => rw [h2, he.measure_preimage_equiv]

namespace Jumps
variable {S : Type _} (J : Jumps S)

/-- The probability of a first event in time, and of what follows it. -/
theorem volume_jump {s : S} (h : ¬ J.halted s) (N : ℕ) (t : ℝ) (P : ℕ × ℕ → Set (ℝ × (Fin N → ℝ × ℝ × ℝ)))
    (hP : ∀ e ∈ J.ev s, MeasurableSet (P e)) :
    volume {w : Fin (N + 1) → ℝ × ℝ × ℝ | ∃ e ∈ J.ev s, (w 0).2 ∈ J.pick s e ∧ (w 0).1 ∈ Ioo (0 : ℝ) 1 ∧
        -Real.log (w 0).1 / J.total s ≤ t ∧ (t - -Real.log (w 0).1 / J.total s, fun i : Fin N => w i.succ) ∈ P e} =
      ∑ e ∈ J.ev s, ENNReal.ofReal (J.rate s e) *
        ∫⁻ σ in Ico (0 : ℝ) t, ENNReal.ofReal (Real.exp (J.total s * (σ - t))) * volume {w | (σ, w) ∈ P e} := by
  have hR := J.total_pos s h
  let B : ℕ × ℕ → Set (Fin (N + 1) → ℝ × ℝ × ℝ) := fun e => {w | (w 0).2 ∈ J.pick s e ∧ (w 0).1 ∈ Ioo (0 : ℝ) 1 ∧
        -Real.log (w 0).1 / J.total s ≤ t ∧ (t - -Real.log (w 0).1 / J.total s, fun i : Fin N => w i.succ) ∈ P e}
  have h0 : Measurable fun w : Fin (N + 1) → ℝ × ℝ × ℝ => w 0 := measurable_pi_apply 0
  have hd : Measurable fun w : Fin (N + 1) → ℝ × ℝ × ℝ => -Real.log (w 0).1 / J.total s :=
    ((Real.measurable_log.comp (measurable_fst.comp h0)).neg).div_const _
  have htl : Measurable fun w : Fin (N + 1) → ℝ × ℝ × ℝ => fun i : Fin N => w i.succ :=
    measurable_pi_lambda _ fun i => measurable_pi_apply _
  have hB : ∀ e ∈ J.ev s, MeasurableSet (B e) := by
    intro e he
    refine ((measurable_snd.comp h0) (J.measurable s h e he)).inter (((measurable_fst.comp h0) measurableSet_Ioo).inter ?_)
    exact (measurableSet_le hd measurable_const).inter (((measurable_const.sub hd).prodMk htl) (hP e he))
  have hset : {w : Fin (N + 1) → ℝ × ℝ × ℝ | ∃ e ∈ J.ev s, (w 0).2 ∈ J.pick s e ∧ (w 0).1 ∈ Ioo (0 : ℝ) 1 ∧
        -Real.log (w 0).1 / J.total s ≤ t ∧ (t - -Real.log (w 0).1 / J.total s, fun i : Fin N => w i.succ) ∈ P e} =
      ⋃ e ∈ J.ev s, B e := by
    ext w
    simp only [mem_ofPred_eq, mem_iUnion, exists_prop, B]
  rw [hset, measure_biUnion_finset ?_ hB]
  · refine Finset.sum_congr rfl fun e he => ?_
    let g : ℝ → ENNReal := fun σ => volume {w | (σ, w) ∈ P e}
    have hg : Measurable g := measurable_measure_prodMk_left (hP e he)
    let f : ℝ → ENNReal := (Ico (Real.exp (-(J.total s * t))) 1).indicator fun u => g (t - -Real.log u / J.total s)
    have hlog : Measurable fun u : ℝ => -Real.log u / J.total s := (Real.measurable_log.neg).div_const _
    have hf : Measurable f := (hg.comp (measurable_const.sub hlog)).indicator measurableSet_Ico
    have hprod : B e = MeasurableEquiv.piFinSuccAbove (fun _ : Fin (N + 1) => ℝ × ℝ × ℝ) 0 ⁻¹'
        {x : (ℝ × ℝ × ℝ) × (Fin N → ℝ × ℝ × ℝ) | x.1.2 ∈ J.pick s e ∧ x.1.1 ∈ Ioo (0 : ℝ) 1 ∧
          -Real.log x.1.1 / J.total s ≤ t ∧ (t - -Real.log x.1.1 / J.total s, x.2) ∈ P e} := by
      ext w
      rfl
    have hm : MeasurableSet {x : (ℝ × ℝ × ℝ) × (Fin N → ℝ × ℝ × ℝ) | x.1.2 ∈ J.pick s e ∧ x.1.1 ∈ Ioo (0 : ℝ) 1 ∧
          -Real.log x.1.1 / J.total s ≤ t ∧ (t - -Real.log x.1.1 / J.total s, x.2) ∈ P e} := by
      have := hB e he
      rw [hprod] at this
      exact (MeasurableEquiv.measurableSet_preimage _).1 this
    rw [hprod, (volume_preserving_piFinSuccAbove (fun _ : Fin (N + 1) => ℝ × ℝ × ℝ) 0).measure_preimage_equiv,
      Measure.volume_eq_prod, Measure.prod_apply hm]
    have hsec : ∀ d : ℝ × ℝ × ℝ, volume (Prod.mk d ⁻¹' {x : (ℝ × ℝ × ℝ) × (Fin N → ℝ × ℝ × ℝ) | x.1.2 ∈ J.pick s e ∧
          x.1.1 ∈ Ioo (0 : ℝ) 1 ∧ -Real.log x.1.1 / J.total s ≤ t ∧ (t - -Real.log x.1.1 / J.total s, x.2) ∈ P e}) =
        f d.1 * (J.pick s e).indicator 1 d.2 := by
      rintro ⟨u, v⟩
      by_cases hv : v ∈ J.pick s e
      · by_cases hu : u ∈ Ico (Real.exp (-(J.total s * t))) 1
        · have hu0 : 0 < u := (Real.exp_pos _).trans_le hu.1
          have hl : -(J.total s * t) ≤ Real.log u := (Real.le_log_iff_exp_le hu0).2 hu.1
          have hle : -Real.log u / J.total s ≤ t := by
            rw [div_le_iff₀ hR]
            linarith [mul_comm (J.total s) t]
          have hi : u ∈ Ioo (0 : ℝ) 1 := ⟨hu0, hu.2⟩
          simp only [f, indicator_of_mem hu, indicator_of_mem hv, Pi.one_apply, mul_one, g]
          congr 1
          ext w
          simp only [mem_preimage, mem_ofPred_eq, hv, hi, hle, true_and]
        · simp only [f, indicator_of_notMem hu, zero_mul]
          convert measure_empty (μ := (volume : Measure (Fin N → ℝ × ℝ × ℝ)))
          ext w
          simp only [mem_preimage, mem_ofPred_eq, mem_empty_iff_false, iff_false]
          rintro ⟨-, hi, hle, -⟩
          refine hu ⟨?_, hi.2⟩
          rw [div_le_iff₀ hR] at hle
          exact (Real.le_log_iff_exp_le hi.1).1 (by linarith [mul_comm (J.total s) t])
      · rw [indicator_of_notMem hv, mul_zero]
        convert measure_empty (μ := (volume : Measure (Fin N → ℝ × ℝ × ℝ)))
        ext w
        simp only [mem_preimage, mem_ofPred_eq, hv, false_and, mem_empty_iff_false]
    simp only [hsec]
    rw [Measure.volume_eq_prod, lintegral_prod_mul hf.aemeasurable
      ((measurable_one.indicator (J.measurable s h e he))).aemeasurable,
      lintegral_indicator_one (J.measurable s h e he), J.volume_pick s h e he, lintegral_indicator measurableSet_Ico,
      lintegral_time hR g]
    have : ∀ σ, ENNReal.ofReal (J.total s * Real.exp (J.total s * (σ - t))) * g σ =
        ENNReal.ofReal (J.total s) * (ENNReal.ofReal (Real.exp (J.total s * (σ - t))) * g σ) := by
      intro σ
      rw [ENNReal.ofReal_mul hR.le, mul_assoc]
    simp only [this]
    rw [lintegral_const_mul' _ _ ENNReal.ofReal_ne_top, mul_comm, ← mul_assoc,
      ← ENNReal.ofReal_mul (div_nonneg (J.rate_nonneg s e he) hR.le), div_mul_cancel₀ _ hR.ne']
  · intro e he e' he' hne
    rw [Function.onFun, Set.disjoint_left]
    rintro w ⟨h1, -⟩ ⟨h2, -⟩
    exact Set.disjoint_left.1 (J.disjoint s e e' hne) h1 h2

/-- With these random numbers the state after time `t` satisfies `A`, and `G` holds of that state and the random numbers from
there on. The first of them is the one already drawn, for the time that is left until the next event. -/
def Then (A : S → Prop) (G : (N : ℕ) → S → Set (Fin N → ℝ × ℝ × ℝ)) : (N : ℕ) → S → ℝ → (Fin N → ℝ × ℝ × ℝ) → Prop
  | 0, _, _, _ => False
  | N + 1, s, t, w => (J.halted s ∧ A s ∧ w ∈ G (N + 1) s) ∨
      (¬ J.halted s ∧ ((A s ∧ stretch (Real.exp (J.total s * t)) w ∈ G (N + 1) s) ∨
        ∃ e ∈ J.ev s, (w 0).2 ∈ J.pick s e ∧ (w 0).1 ∈ Ioo (0 : ℝ) 1 ∧ -Real.log (w 0).1 / J.total s ≤ t ∧
          Then A G N (J.next s e) (t - -Real.log (w 0).1 / J.total s) (fun i => w (Fin.succ i))))

/-- What is needed of the sets. -/
structure Proper (G : (N : ℕ) → S → Set (Fin N → ℝ × ℝ × ℝ)) : Prop where
  measurable : ∀ N s, MeasurableSet (G N s)
  first : ∀ N s, ¬ J.halted s → ∀ w ∈ G (N + 1) s, (w 0).1 ∈ Ioo (0 : ℝ) 1
  cube : ∀ N s, ∀ w ∈ G N s, w ∈ unitCube N

variable {J}

theorem Proper.measurable_then {G : (N : ℕ) → S → Set (Fin N → ℝ × ℝ × ℝ)} (hG : J.Proper G) (A : S → Prop) (N : ℕ) (s : S) :
    MeasurableSet {x : ℝ × (Fin N → ℝ × ℝ × ℝ) | J.Then A G N s x.1 x.2} := by
  induction N generalizing s with
  | zero => exact MeasurableSet.empty
  | succ N ih =>
    by_cases hh : J.halted s
    · have : {x : ℝ × (Fin (N + 1) → ℝ × ℝ × ℝ) | J.Then A G (N + 1) s x.1 x.2} = {_x | A s} ∩ Prod.snd ⁻¹' G (N + 1) s := by
        ext x
        simp [Then, hh]
      rw [this]
      exact (MeasurableSet.const _).inter (measurable_snd (hG.measurable _ _))
    · have h0 : Measurable fun x : ℝ × (Fin (N + 1) → ℝ × ℝ × ℝ) => x.2 0 := (measurable_pi_apply 0).comp measurable_snd
      have hd : Measurable fun x : ℝ × (Fin (N + 1) → ℝ × ℝ × ℝ) => -Real.log (x.2 0).1 / J.total s :=
        ((Real.measurable_log.comp (measurable_fst.comp h0)).neg).div_const _
      have ht : Measurable fun x : ℝ × (Fin (N + 1) → ℝ × ℝ × ℝ) => fun i : Fin N => x.2 i.succ :=
        measurable_pi_lambda _ fun i => (measurable_pi_apply _).comp measurable_snd
      have hx : Measurable fun x : ℝ × (Fin (N + 1) → ℝ × ℝ × ℝ) => stretch (Real.exp (J.total s * x.1)) x.2 :=
        measurable_stretch.comp ((Real.measurable_exp.comp (measurable_fst.const_mul _)).prodMk measurable_snd)
      have : {x : ℝ × (Fin (N + 1) → ℝ × ℝ × ℝ) | J.Then A G (N + 1) s x.1 x.2} =
          ({_x | A s} ∩ (fun x : ℝ × (Fin (N + 1) → ℝ × ℝ × ℝ) => stretch (Real.exp (J.total s * x.1)) x.2) ⁻¹' G (N + 1) s) ∪
          ⋃ e ∈ J.ev s, ({x | (x.2 0).2 ∈ J.pick s e} ∩ ({x | (x.2 0).1 ∈ Ioo (0 : ℝ) 1} ∩
              ({x | -Real.log (x.2 0).1 / J.total s ≤ x.1} ∩
                (fun x : ℝ × (Fin (N + 1) → ℝ × ℝ × ℝ) => (x.1 - -Real.log (x.2 0).1 / J.total s, fun i : Fin N => x.2 i.succ)) ⁻¹'
                  {x | J.Then A G N (J.next s e) x.1 x.2}))) := by
        ext x
        simp only [Then, hh, false_and, not_false_eq_true, true_and, false_or, mem_ofPred_eq, mem_iUnion, mem_inter_iff, mem_union,
          mem_preimage, exists_prop]
      rw [this]
      refine ((MeasurableSet.const _).inter (hx (hG.measurable _ _))).union ?_
      refine Finset.measurableSet_biUnion _ fun e he => ?_
      refine ((measurable_snd.comp h0) (J.measurable s hh e he)).inter (((measurable_fst.comp h0) measurableSet_Ioo).inter ?_)
      exact (measurableSet_le hd measurable_fst).inter (((measurable_fst.sub hd).prodMk ht) (ih _))

theorem Proper.then_cube {G : (N : ℕ) → S → Set (Fin N → ℝ × ℝ × ℝ)} (hG : J.Proper G) {A : S → Prop} {N : ℕ} {s : S} {t : ℝ}
    (ht : 0 ≤ t) {w : Fin N → ℝ × ℝ × ℝ} (h : J.Then A G N s t w) : w ∈ unitCube N := by
  induction N generalizing s t with
  | zero => exact h.elim
  | succ N ih =>
    rcases h with ⟨-, -, h⟩ | ⟨hh, ⟨-, h⟩ | ⟨e, -, hp, h0, hle, h⟩⟩
    · exact hG.cube _ _ _ h
    · have hc := hG.cube _ _ _ h
      have h1 := hG.first _ _ hh _ h
      intro i
      refine Fin.cases ?_ (fun i => hc i.succ) i
      refine ⟨?_, (hc 0).2⟩
      have h1 : Real.exp (J.total s * t) * (w 0).1 ∈ Ioo (0 : ℝ) 1 := h1
      have he : 1 ≤ Real.exp (J.total s * t) := Real.one_le_exp (mul_nonneg (J.total_pos s hh).le ht)
      have hw : 0 < (w 0).1 := pos_of_mul_pos_right h1.1 (Real.exp_pos _).le
      exact ⟨hw.le, by nlinarith [h1.2]⟩
    · have htail : (fun i => w (Fin.succ i)) ∈ unitCube N := ih (sub_nonneg.2 hle) h
      intro i
      refine Fin.cases ?_ (fun i => htail i) i
      obtain ⟨h1, h2⟩ := J.pick_sub s e hp
      exact ⟨⟨h0.1.le, h0.2⟩, h1, h2⟩

theorem Proper.then_first {G : (N : ℕ) → S → Set (Fin N → ℝ × ℝ × ℝ)} (hG : J.Proper G) {A : S → Prop} {N : ℕ} {s : S} {t : ℝ}
    (ht : 0 ≤ t) (hh : ¬ J.halted s) {w : Fin (N + 1) → ℝ × ℝ × ℝ} (h : J.Then A G (N + 1) s t w) : (w 0).1 ∈ Ioo (0 : ℝ) 1 := by
  rcases h with ⟨hh', -⟩ | ⟨-, ⟨-, h⟩ | ⟨e, -, hp, h0, hle, h⟩⟩
  · exact absurd hh' hh
  · have h1 : Real.exp (J.total s * t) * (w 0).1 ∈ Ioo (0 : ℝ) 1 := hG.first _ _ hh _ h
    have he : 1 ≤ Real.exp (J.total s * t) := Real.one_le_exp (mul_nonneg (J.total_pos s hh).le ht)
    have hw : 0 < (w 0).1 := pos_of_mul_pos_right h1.1 (Real.exp_pos _).le
    exact ⟨hw, by nlinarith [h1.2]⟩
  · exact h0

/-- Again sets of the kind. -/
theorem Proper.next {G : (N : ℕ) → S → Set (Fin N → ℝ × ℝ × ℝ)} (hG : J.Proper G) (A : S → Prop) {t : ℝ} (ht : 0 ≤ t) :
    J.Proper fun N s => {w | J.Then A G N s t w} where
  measurable N s := measurable_prodMk_left (hG.measurable_then A N s)
  first _ _ hh _ h := hG.then_first ht hh h
  cube _ _ _ h := hG.then_cube ht h

theorem proper_at (A : S → Prop) (t : ℝ) : J.Proper fun N s => {w | J.At A N s t w} where
  measurable N s := J.measurable_section A N s t
  first _ _ hh _ h := by
    rcases h with ⟨hh', -⟩ | ⟨-, e, -, -, h0, -⟩
    · exact absurd hh' hh
    · exact h0
  cube _ _ _ h := At.cube J h

variable (J) in
/-- Probabilities that follow the jumps. -/
structure Follows (a : ℕ → S → ENNReal) (f : ℕ → S → ℝ → ENNReal) : Prop where
  start_mono : ∀ s, Monotone fun N => a N s
  zero : ∀ s t, f 0 s t = 0
  measurable : ∀ N s, Measurable (f N s)
  le_one : ∀ N s t, 0 ≤ t → f N s t ≤ 1
  halted : ∀ N s t, J.halted s → 0 ≤ t → f (N + 1) s t = a (N + 1) s
  jump : ∀ N s t, ¬ J.halted s → 0 ≤ t → f (N + 1) s t = a (N + 1) s * ENNReal.ofReal (Real.exp (-(J.total s * t))) +
      ∑ e ∈ J.ev s, ENNReal.ofReal (J.rate s e) *
        ∫⁻ σ in Ico (0 : ℝ) t, ENNReal.ofReal (Real.exp (J.total s * (σ - t))) * f N (J.next s e) σ

theorem follows_at (A : S → Prop) [DecidablePred A] : J.Follows (fun _ s => if A s then 1 else 0) (J.prob A) where
  start_mono _ := monotone_const
  zero _ _ := measure_empty (μ := (volume : Measure (Fin 0 → ℝ × ℝ × ℝ)))
  measurable := J.measurable_prob A
  le_one N s t _ := J.prob_le_one A N s t
  halted N _ t h _ := J.prob_halted h N t
  jump N _ _ h ht := J.prob_succ A h N ht

theorem Follows.mono {a : ℕ → S → ENNReal} {f : ℕ → S → ℝ → ENNReal} (h : J.Follows a f) (s : S) {t : ℝ} (ht : 0 ≤ t) :
    Monotone fun N => f N s t := by
  refine monotone_nat_of_le_succ fun N => ?_
  induction N generalizing s t with
  | zero =>
    rw [h.zero]
    exact zero_le
  | succ N ih =>
    have ha : a (N + 1) s ≤ a (N + 1 + 1) s := h.start_mono s (Nat.le_succ _)
    by_cases hh : J.halted s
    · rw [h.halted _ _ _ hh ht, h.halted _ _ _ hh ht]
      exact ha
    · rw [h.jump _ _ _ hh ht, h.jump _ _ _ hh ht]
      refine add_le_add (mul_le_mul_left ha _) (Finset.sum_le_sum fun e _ => mul_le_mul_right (lintegral_mono_ae ?_) _)
      filter_upwards [ae_restrict_mem measurableSet_Ico] with σ hσ
      exact mul_le_mul_right (ih (J.next s e) hσ.1) _

theorem Follows.sup_halted {a : ℕ → S → ENNReal} {f : ℕ → S → ℝ → ENNReal} (h : J.Follows a f) {s : S} (hh : J.halted s) {t : ℝ}
    (ht : 0 ≤ t) : ⨆ N, f N s t = ⨆ N, a N s := by
  rw [← (h.mono s ht).iSup_nat_add 1, ← (h.start_mono s).iSup_nat_add 1]
  exact iSup_congr fun N => h.halted N s t hh ht

theorem Follows.sup_jump {a : ℕ → S → ENNReal} {f : ℕ → S → ℝ → ENNReal} (h : J.Follows a f) {s : S} (hh : ¬ J.halted s) {t : ℝ}
    (ht : 0 ≤ t) : ⨆ N, f N s t = (⨆ N, a N s) * ENNReal.ofReal (Real.exp (-(J.total s * t))) +
      ∑ e ∈ J.ev s, ENNReal.ofReal (J.rate s e) *
        ∫⁻ σ in Ico (0 : ℝ) t, ENNReal.ofReal (Real.exp (J.total s * (σ - t))) * ⨆ N, f N (J.next s e) σ := by
  have hmono : ∀ e, Monotone fun N => ENNReal.ofReal (J.rate s e) *
      ∫⁻ σ in Ico (0 : ℝ) t, ENNReal.ofReal (Real.exp (J.total s * (σ - t))) * f N (J.next s e) σ := by
    intro e N M hNM
    refine mul_le_mul_right ?_ _
    refine lintegral_mono_ae ?_
    filter_upwards [ae_restrict_mem measurableSet_Ico] with σ hσ
    exact mul_le_mul_right (h.mono (J.next s e) hσ.1 hNM) _
  have hint : ∀ e, ∫⁻ σ in Ico (0 : ℝ) t, ENNReal.ofReal (Real.exp (J.total s * (σ - t))) * (⨆ N, f N (J.next s e) σ) =
      ⨆ N, ∫⁻ σ in Ico (0 : ℝ) t, ENNReal.ofReal (Real.exp (J.total s * (σ - t))) * f N (J.next s e) σ := by
    intro e
    rw [← lintegral_iSup']
    · simp only [ENNReal.mul_iSup]
    · intro N
      refine (Measurable.mul ?_ (h.measurable N _)).aemeasurable
      fun_prop
    · filter_upwards [ae_restrict_mem measurableSet_Ico] with σ hσ
      intro N M hNM
      exact mul_le_mul_right (h.mono (J.next s e) hσ.1 hNM) _
  have ha : Monotone fun N => a (N + 1) s * ENNReal.ofReal (Real.exp (-(J.total s * t))) := fun N M hNM =>
    mul_le_mul_left (h.start_mono s (Nat.succ_le_succ hNM)) _
  have hsum : Monotone fun N => ∑ e ∈ J.ev s, ENNReal.ofReal (J.rate s e) *
      ∫⁻ σ in Ico (0 : ℝ) t, ENNReal.ofReal (Real.exp (J.total s * (σ - t))) * f N (J.next s e) σ := fun N M hNM =>
    Finset.sum_le_sum fun e _ => hmono e hNM
  rw [← (h.mono s ht).iSup_nat_add 1, ← (h.start_mono s).iSup_nat_add 1]
  simp only [h.jump _ _ _ hh ht, hint]
  simp only [ENNReal.mul_iSup, ENNReal.iSup_mul]
  rw [← ENNReal.iSup_add_iSup_of_monotone ha hsum, ENNReal.finsetSum_iSup_of_monotone hmono]

/-- What follows the sets. -/
theorem Proper.follows {G : (N : ℕ) → S → Set (Fin N → ℝ × ℝ × ℝ)} (hG : J.Proper G) (hm : ∀ s, Monotone fun N => volume (G N s))
    (A : S → Prop) [DecidablePred A] :
    J.Follows (fun N s => if A s then volume (G N s) else 0) fun N s t => volume {w | J.Then A G N s t w} where
  start_mono s := by
    by_cases hA : A s
    · simpa only [hA, if_true] using hm s
    · simpa only [hA, if_false] using monotone_const
  zero _ _ := measure_empty (μ := (volume : Measure (Fin 0 → ℝ × ℝ × ℝ)))
  measurable N s := measurable_measure_prodMk_left (hG.measurable_then A N s)
  le_one N s t ht := by
    rw [← volume_unitCube N]
    exact measure_mono fun w hw => hG.then_cube ht hw
  halted N s t hh _ := by
    by_cases hA : A s
    · rw [if_pos hA]
      congr 1
      ext w
      simp [Then, hh, hA]
    · rw [if_neg hA]
      convert measure_empty (μ := (volume : Measure (Fin (N + 1) → ℝ × ℝ × ℝ)))
      ext w
      simp [Then, hh, hA]
  jump N s t hh ht := by
    have hR := J.total_pos s hh
    have hset : {w | J.Then A G (N + 1) s t w} = {w | A s ∧ stretch (Real.exp (J.total s * t)) w ∈ G (N + 1) s} ∪
        {w : Fin (N + 1) → ℝ × ℝ × ℝ | ∃ e ∈ J.ev s, (w 0).2 ∈ J.pick s e ∧ (w 0).1 ∈ Ioo (0 : ℝ) 1 ∧
          -Real.log (w 0).1 / J.total s ≤ t ∧ (t - -Real.log (w 0).1 / J.total s, fun i : Fin N => w i.succ) ∈
            {x : ℝ × (Fin N → ℝ × ℝ × ℝ) | J.Then A G N (J.next s e) x.1 x.2}} := by
      ext w
      simp only [Then, hh, false_and, not_false_eq_true, true_and, false_or, mem_ofPred_eq, mem_union]
    have hmT : MeasurableSet {w | A s ∧ stretch (Real.exp (J.total s * t)) w ∈ G (N + 1) s} :=
      (MeasurableSet.const _).inter ((measurable_stretch.comp (measurable_const.prodMk measurable_id)) (hG.measurable _ _))
    rw [hset, measure_union' ?_ hmT, J.volume_jump hh N t _ fun e _ => hG.measurable_then A N _]
    · congr 1
      by_cases hA : A s
      · rw [if_pos hA]
        have : {w | A s ∧ stretch (Real.exp (J.total s * t)) w ∈ G (N + 1) s} = stretch (Real.exp (J.total s * t)) ⁻¹' G (N + 1) s := by
          ext w
          simp [hA]
        rw [this, volume_stretch (Real.exp_pos _) (hG.measurable _ _), Real.exp_neg, mul_comm]
      · rw [if_neg hA, zero_mul]
        convert measure_empty (μ := (volume : Measure (Fin (N + 1) → ℝ × ℝ × ℝ)))
        ext w
        simp [hA]
    · rw [Set.disjoint_left]
      rintro w ⟨-, h1⟩ ⟨e, -, -, h0, hle, -⟩
      have h1 : Real.exp (J.total s * t) * (w 0).1 ∈ Ioo (0 : ℝ) 1 := hG.first _ _ hh _ h1
      rw [div_le_iff₀ hR] at hle
      have h2 : Real.exp (-(J.total s * t)) ≤ (w 0).1 := (Real.le_log_iff_exp_le h0.1).1 (by linarith [mul_comm (J.total s) t])
      have h3 : Real.exp (J.total s * t) * Real.exp (-(J.total s * t)) = 1 := by rw [← Real.exp_add]; simp
      have := mul_le_mul_of_nonneg_left h2 (Real.exp_pos (J.total s * t)).le
      linarith [h1.2]

section classes
variable {ι : Type _} [Fintype ι] [DecidableEq ι] {cls : S → ι} {W : ι → ι → ℝ} {R : ι → ℝ} {σ₀ : ι → S}
  {a : ℕ → S → ENNReal} {f : ℕ → S → ℝ → ENNReal}

/-- The class decides the probabilities. -/
theorem Follows.class (hf : J.Follows a f) (h : J.Classes cls W R) (hσ : ∀ i, cls (σ₀ i) = i)
    (ha : ∀ N s, a N s = a N (σ₀ (cls s))) (N : ℕ) (s : S) {t : ℝ} (ht : 0 ≤ t) : f N s t = f N (σ₀ (cls s)) t := by
  induction N generalizing s t with
  | zero => rw [hf.zero, hf.zero]
  | succ N ih =>
    have hc : cls (σ₀ (cls s)) = cls s := hσ _
    by_cases hs : J.halted s
    · rw [hf.halted _ _ _ hs ht, hf.halted _ _ _ ((h.halted_iff hc).2 hs) ht, ha]
    · have hs' : ¬ J.halted (σ₀ (cls s)) := fun hh => hs ((h.halted_iff hc).1 hh)
      have key : ∀ s, ¬ J.halted s → f (N + 1) s t =
          a (N + 1) (σ₀ (cls s)) * ENNReal.ofReal (Real.exp (-(R (cls s) * t))) + ∑ k, ENNReal.ofReal (W (cls s) k) *
            ∫⁻ σ in Ico (0 : ℝ) t, ENNReal.ofReal (Real.exp (R (cls s) * (σ - t))) * f N (σ₀ k) σ := by
        intro s hs
        rw [hf.jump _ _ _ hs ht, ← h.sum_ev hs, h.total s hs, ha]
        congr 1
        refine Finset.sum_congr rfl fun e _ => ?_
        congr 1
        refine setLIntegral_congr_fun measurableSet_Ico fun σ hσ' => ?_
        rw [ih (J.next s e) hσ'.1]
      rw [key s hs, key _ hs', hc]

/-- Such probabilities are solutions of the renewal equation. -/
theorem Follows.renewal (hf : J.Follows a f) (h : J.Classes cls W R) (hσ : ∀ i, cls (σ₀ i) = i)
    (ha : ∀ N s, a N s = a N (σ₀ (cls s))) (ha1 : ∀ N s, a N s ≤ 1) (hW : ∀ i k, 0 ≤ W i k) :
    Renewal W R (fun i => (⨆ N, a N (σ₀ i)).toReal) (fun i t => (⨆ N, f N (σ₀ i) (max t 0)).toReal) where
  measurable i := (Measurable.iSup fun N => (hf.measurable N (σ₀ i)).comp (measurable_id.max measurable_const)).ennreal_toReal
  bound i t := by
    rw [abs_of_nonneg ENNReal.toReal_nonneg]
    exact ENNReal.toReal_le_of_le_ofReal zero_le_one (by simpa using fun N => hf.le_one N _ _ (le_max_right t 0))
  eq i t ht := by
    have hfin : ∀ k σ, (⨆ N, f N (σ₀ k) (max σ 0)) ≠ ⊤ := fun k σ =>
      ne_top_of_le_ne_top ENNReal.one_ne_top (iSup_le fun N => hf.le_one N _ _ (le_max_right σ 0))
    have hafin : (⨆ N, a N (σ₀ i)) ≠ ⊤ := ne_top_of_le_ne_top ENNReal.one_ne_top (iSup_le fun N => ha1 N _)
    by_cases hs : J.halted (σ₀ i)
    · have h1 := h.halted _ hs
      rw [hσ] at h1
      simp only [h1.1, h1.2, zero_mul, Finset.sum_const_zero, neg_zero, Real.exp_zero, add_zero, one_mul]
      rw [hf.sup_halted hs (le_max_right t 0)]
    · have hint : ∀ k, ∫⁻ σ in Ico (0 : ℝ) t, ENNReal.ofReal (Real.exp (R i * (σ - t))) * (⨆ N, f N (σ₀ k) (max σ 0)) =
          ENNReal.ofReal (Real.exp (-(R i * t)) *
            ∫ σ in (0 : ℝ)..t, Real.exp (R i * σ) * (⨆ N, f N (σ₀ k) (max σ 0)).toReal) := by
        intro k
        have hmeas : Measurable fun σ => (⨆ N, f N (σ₀ k) (max σ 0)).toReal :=
          (Measurable.iSup fun N => (hf.measurable N (σ₀ k)).comp (measurable_id.max measurable_const)).ennreal_toReal
        rw [intervalIntegral.integral_of_le ht, ← integral_Ico_eq_integral_Ioc, ← integral_const_mul, ofReal_integral_eq_lintegral_ofReal]
        · refine setLIntegral_congr_fun measurableSet_Ico fun σ _ => ?_
          rw [← mul_assoc, ← Real.exp_add, ENNReal.ofReal_mul (Real.exp_pos _).le, ENNReal.ofReal_toReal (hfin k σ)]
          congr 3
          ring
        · refine Integrable.const_mul ?_ _
          have hb : IntegrableOn (fun σ => Real.exp (R i * σ)) (Ico 0 t) := by
            refine (ContinuousOn.integrableOn_Icc ?_).mono_set Ico_subset_Icc_self
            fun_prop
          refine hb.mul_bdd (c := 1) hmeas.aestronglyMeasurable ?_
          refine Filter.Eventually.of_forall fun σ => ?_
          rw [Real.norm_eq_abs, abs_of_nonneg ENNReal.toReal_nonneg]
          exact ENNReal.toReal_le_of_le_ofReal zero_le_one (by simpa using fun N => hf.le_one N _ _ (le_max_right σ 0))
        · refine Filter.Eventually.of_forall fun σ => ?_
          show 0 ≤ _
          positivity
      have hpos : ∀ k, 0 ≤ Real.exp (-(R i * t)) *
            ∫ σ in (0 : ℝ)..t, Real.exp (R i * σ) * (⨆ N, f N (σ₀ k) (max σ 0)).toReal := by
        intro k
        refine mul_nonneg (Real.exp_pos _).le (intervalIntegral.integral_nonneg ht fun σ _ => ?_)
        positivity
      have hsum := h.sum_ev hs fun k => ∫⁻ σ in Ico (0 : ℝ) t, ENNReal.ofReal (Real.exp (R i * (σ - t))) *
          ⨆ N, f N (σ₀ k) (max σ 0)
      have hsucc := hf.sup_jump hs ht
      rw [h.total _ hs, hσ] at hsucc
      have hsame : ∀ e ∈ J.ev (σ₀ i), ENNReal.ofReal (J.rate (σ₀ i) e) * (∫⁻ σ in Ico (0 : ℝ) t,
            ENNReal.ofReal (Real.exp (R i * (σ - t))) * ⨆ N, f N (J.next (σ₀ i) e) σ) =
          ENNReal.ofReal (J.rate (σ₀ i) e) * ∫⁻ σ in Ico (0 : ℝ) t, ENNReal.ofReal (Real.exp (R i * (σ - t))) *
            ⨆ N, f N (σ₀ (cls (J.next (σ₀ i) e))) (max σ 0) := by
        intro e _
        congr 1
        refine setLIntegral_congr_fun measurableSet_Ico fun σ hσ' => ?_
        congr 1
        refine iSup_congr fun N => ?_
        rw [max_eq_left hσ'.1]
        exact hf.class h hσ ha N (J.next (σ₀ i) e) hσ'.1
      rw [Finset.sum_congr rfl hsame, hsum, hσ] at hsucc
      simp only [hint] at hsucc
      have hall : ⨆ N, f N (σ₀ i) t = ENNReal.ofReal ((⨆ N, a N (σ₀ i)).toReal * Real.exp (-(R i * t)) +
          ∑ k, W i k * (Real.exp (-(R i * t)) *
            ∫ σ in (0 : ℝ)..t, Real.exp (R i * σ) * (⨆ N, f N (σ₀ k) (max σ 0)).toReal)) := by
        rw [hsucc, ENNReal.ofReal_add, ENNReal.ofReal_sum_of_nonneg]
        · congr 1
          · rw [ENNReal.ofReal_mul ENNReal.toReal_nonneg, ENNReal.ofReal_toReal hafin]
          · refine Finset.sum_congr rfl fun k _ => ?_
            rw [ENNReal.ofReal_mul (hW i k)]
        · exact fun k _ => mul_nonneg (hW i k) (hpos k)
        · positivity
        · exact Finset.sum_nonneg fun k _ => mul_nonneg (hW i k) (hpos k)
      rw [max_eq_left ht, hall, ENNReal.toReal_ofReal]
      · rw [mul_add, Finset.mul_sum, mul_comm (Real.exp _) (⨆ N, a N (σ₀ i)).toReal]
        congr 1
        refine Finset.sum_congr rfl fun k _ => ?_
        ring
      · exact add_nonneg (by positivity) (Finset.sum_nonneg fun k _ => mul_nonneg (hW i k) (hpos k))

variable (J cls) in
/-- With these random numbers the class after time `t` is `y`, and so on for the list, with the times from each to the next. -/
def Visits : ℝ → ι → List (ℝ × ι) → (N : ℕ) → S → Set (Fin N → ℝ × ℝ × ℝ)
  | t, y, [] => fun N s => {w | J.At (fun s => cls s = y) N s t w}
  | t, y, (g, z) :: l => fun N s => {w | J.Then (fun s => cls s = y) (Visits g z l) N s t w}

/-- The product of the probabilities along the list. -/
def along (P : ι → ι → ℝ → ℝ) : ι → List (ℝ × ι) → ℝ
  | _, [] => 1
  | i, (t, y) :: l => P i y t * along P y l

omit [Fintype ι] [DecidableEq ι] in
theorem proper_visits {t : ℝ} (ht : 0 ≤ t) (y : ι) {l : List (ℝ × ι)} (hl : ∀ o ∈ l, 0 ≤ o.1) : J.Proper (J.Visits cls t y l) := by
  induction l generalizing t y with
  | nil => exact proper_at _ t
  | cons o l ih =>
    exact (ih (hl o List.mem_cons_self) o.2 fun o ho => hl o (List.mem_cons_of_mem _ ho)).next _ ht

/-- The classes at several times: the probabilities from each to the next, multiplied. -/
theorem volume_visits (h : J.Classes cls W R) (hσ : ∀ i, cls (σ₀ i) = i) (hW : ∀ i k, 0 ≤ W i k) {t : ℝ} (ht : 0 ≤ t) (y : ι)
    {l : List (ℝ × ι)} (hl : ∀ o ∈ l, 0 ≤ o.1) :
    (∀ s, Monotone fun N => volume (J.Visits cls t y l N s)) ∧
      (∀ N s, volume (J.Visits cls t y l N s) = volume (J.Visits cls t y l N (σ₀ (cls s)))) ∧
      ∀ i, (⨆ N, volume (J.Visits cls t y l N (σ₀ i))).toReal =
        along (fun i j t => (J.chance (fun s => cls s = j) (σ₀ i) t).toReal) i ((t, y) :: l) := by
  induction l generalizing t y with
  | nil =>
    refine ⟨fun s => J.prob_mono _ s ht, fun N s => h.prob (A := fun i => i = y) hσ N s ht, fun i => ?_⟩
    rw [along, along, mul_one]
    rfl
  | cons o l ih =>
    obtain ⟨g, z⟩ := o
    have hg : 0 ≤ g := hl (g, z) List.mem_cons_self
    have hl' : ∀ o ∈ l, 0 ≤ o.1 := fun o ho => hl o (List.mem_cons_of_mem _ ho)
    obtain ⟨hm, hc, hp⟩ := ih hg z hl'
    have hG : J.Proper (J.Visits cls g z l) := proper_visits hg z hl'
    have hf := hG.follows hm fun s => cls s = y
    have ha : ∀ (N : ℕ) (s : S), (if cls s = y then volume (J.Visits cls g z l N s) else 0) =
        if cls (σ₀ (cls s)) = y then volume (J.Visits cls g z l N (σ₀ (cls s))) else 0 := by
      intro N s
      rw [hσ, hc N s]
    refine ⟨fun s => hf.mono s ht, fun N s => hf.class h hσ ha N s ht, fun i => ?_⟩
    have hr := hf.renewal h hσ ha (fun N s => by
      split
      · rw [← volume_unitCube N]
        exact measure_mono fun w hw => hG.cube _ _ _ hw
      · exact zero_le) hW
    have hP : ∀ j, Renewal W R (fun i => if i = j then 1 else 0) (fun i t => (J.chance (fun s => cls s = j) (σ₀ i) t).toReal) :=
      fun j => h.renewal (A := fun i => i = j) hσ hW
    have := Renewal.combine hP hr i ht
    rw [max_eq_left ht] at this
    rw [along, ← hp y]
    refine this.trans ?_
    rw [Finset.sum_eq_single y]
    · simp only [hσ, if_true]
    · intro j _ hj
      simp only [hσ, hj, if_false]
      simp
    · exact fun h => absurd (Finset.mem_univ y) h

omit [Fintype ι] [DecidableEq ι] in
theorem visits_zero (t : ℝ) (y : ι) (l : List (ℝ × ι)) (s : S) (w : Fin 0 → ℝ × ℝ × ℝ) : w ∉ J.Visits cls t y l 0 s := by
  cases l <;> exact fun h => h

omit [Fintype ι] [DecidableEq ι] in
theorem visits_halted {s : S} (hh : J.halted s) (t : ℝ) (y : ι) (l : List (ℝ × ι)) (N : ℕ) (w : Fin (N + 1) → ℝ × ℝ × ℝ) :
    w ∈ J.Visits cls t y l (N + 1) s ↔ (∀ o ∈ (t, y) :: l, cls s = o.2) ∧ w ∈ unitCube (N + 1) := by
  induction l generalizing t y with
  | nil => simp [Visits, At, hh]
  | cons o l ih =>
    have : w ∈ J.Visits cls t y (o :: l) (N + 1) s ↔ cls s = y ∧ w ∈ J.Visits cls o.1 o.2 l (N + 1) s := by
      simp [Visits, Then, hh]
    rw [this, ih, List.forall_mem_cons, List.forall_mem_cons, List.forall_mem_cons, and_assoc]
    exact ⟨fun h => ⟨⟨h.1, h.2.1, h.2.2.1⟩, h.2.2.2⟩, fun h => ⟨h.1.1, h.1.2.1, h.1.2.2, h.2⟩⟩

/-- The list while the class is `i` for a time `d`. -/
def Stay (i : ι) (K : ℝ → ι → List (ℝ × ι) → Prop) (C : Prop) : ℝ → List (ℝ × ι) → Prop
  | _, [] => C
  | d, (g, z) :: l => (g < d ∧ i = z ∧ Stay i K C (d - g) l) ∨ (d ≤ g ∧ K (g - d) z l)

omit [Fintype ι] [DecidableEq ι] in
/-- The first event, and the part of the list before it. -/
theorem visits_jump {s : S} (hh : ¬ J.halted s) {t : ℝ} (ht : 0 ≤ t) (y : ι) {l : List (ℝ × ι)} (hl : ∀ o ∈ l, 0 ≤ o.1) (N : ℕ)
    (w : Fin (N + 1) → ℝ × ℝ × ℝ) :
    w ∈ J.Visits cls t y l (N + 1) s ↔ ∃ e ∈ J.ev s, (w 0).2 ∈ J.pick s e ∧ (w 0).1 ∈ Ioo (0 : ℝ) 1 ∧
      Stay (cls s) (fun t y l => (fun i => w (Fin.succ i)) ∈ J.Visits cls t y l N (J.next s e))
        ((fun i => w (Fin.succ i)) ∈ unitCube N) (-Real.log (w 0).1 / J.total s) ((t, y) :: l) := by
  have hR := J.total_pos s hh
  induction l generalizing t y w with
  | nil => simp only [Visits, At, hh, false_and, not_false_eq_true, true_and, false_or, mem_ofPred_eq, Stay]
  | cons o l ih =>
    obtain ⟨g, z⟩ := o
    have hg : 0 ≤ g := hl (g, z) List.mem_cons_self
    have hl' : ∀ o ∈ l, 0 ≤ o.1 := fun o ho => hl o (List.mem_cons_of_mem _ ho)
    have hx : w ∈ J.Visits cls t y ((g, z) :: l) (N + 1) s ↔
        (cls s = y ∧ stretch (Real.exp (J.total s * t)) w ∈ J.Visits cls g z l (N + 1) s) ∨
        ∃ e ∈ J.ev s, (w 0).2 ∈ J.pick s e ∧ (w 0).1 ∈ Ioo (0 : ℝ) 1 ∧ -Real.log (w 0).1 / J.total s ≤ t ∧
          (fun i => w (Fin.succ i)) ∈ J.Visits cls (t - -Real.log (w 0).1 / J.total s) y ((g, z) :: l) N (J.next s e) := by
      simp only [Visits, Then, hh, false_and, not_false_eq_true, true_and, false_or, mem_ofPred_eq]
    have he1 : 1 ≤ Real.exp (J.total s * t) := Real.one_le_exp (mul_nonneg hR.le ht)
    have hlog : ∀ u : ℝ, 0 < u → -Real.log (Real.exp (J.total s * t) * u) / J.total s = -Real.log u / J.total s - t := by
      intro u hu
      rw [Real.log_mul (Real.exp_pos _).ne' hu.ne', Real.log_exp]
      field_simp
      ring
    have hlt : ∀ u : ℝ, 0 < u → (Real.exp (J.total s * t) * u < 1 ↔ t < -Real.log u / J.total s) := by
      intro u hu
      rw [← Real.log_neg_iff (mul_pos (Real.exp_pos _) hu), Real.log_mul (Real.exp_pos _).ne' hu.ne', Real.log_exp, lt_div_iff₀ hR]
      constructor <;> intro h <;> linarith [mul_comm (J.total s) t]
    refine hx.trans ((or_congr_left (and_congr_right fun _ => ih hg z hl' (stretch (Real.exp (J.total s * t)) w))).trans ?_)
    have e0 : (stretch (Real.exp (J.total s * t)) w) 0 = (Real.exp (J.total s * t) * (w 0).1, (w 0).2) := rfl
    have e1 : (fun i : Fin N => stretch (Real.exp (J.total s * t)) w i.succ) = fun i => w (Fin.succ i) := rfl
    rw [e0, e1]
    dsimp only
    constructor
    · rintro (⟨hy, e, he, hp, ⟨h0, h1⟩, h⟩ | ⟨e, he, hp, h0, hle, h⟩)
      · have hw : 0 < (w 0).1 := pos_of_mul_pos_right h0 (Real.exp_pos _).le
        refine ⟨e, he, hp, ⟨hw, by nlinarith⟩, .inl ⟨(hlt _ hw).1 h1, hy, ?_⟩⟩
        rw [hlog _ hw] at h
        exact h
      · exact ⟨e, he, hp, h0, .inr ⟨hle, h⟩⟩
    · rintro ⟨e, he, hp, h0, ⟨h1, hy, h⟩ | ⟨hle, h⟩⟩
      · refine .inl ⟨hy, e, he, hp, ⟨mul_pos (Real.exp_pos _) h0.1, (hlt _ h0.1).2 h1⟩, ?_⟩
        rw [hlog _ h0.1]
        exact h
      · exact .inr ⟨e, he, hp, h0, hle, h⟩

/-- The times from the start, for a list with the times from each to the next. -/
def stops {α : Type _} : ℝ → List (ℝ × α) → List (ℝ × α)
  | _, [] => []
  | c, (g, z) :: l => (c + g, z) :: stops (c + g) l

theorem le_stops {α : Type _} (c : ℝ) {l : List (ℝ × α)} (hl : ∀ o ∈ l, 0 ≤ o.1) : ∀ o ∈ stops c l, c ≤ o.1 := by
  induction l generalizing c with
  | nil => exact fun o h => absurd h List.not_mem_nil
  | cons a l ih =>
    have ha := hl a List.mem_cons_self
    intro o ho
    rcases List.mem_cons.1 ho with rfl | ho
    · show c ≤ c + a.1
      linarith
    · have := ih (c + a.1) (fun o ho => hl o (List.mem_cons_of_mem _ ho)) o ho
      linarith

theorem map_stops {α : Type _} (c d : ℝ) (l : List (ℝ × α)) : (stops c l).map (fun o => (o.1 - d, o.2)) = stops (c - d) l := by
  induction l generalizing c with
  | nil => rfl
  | cons a l ih =>
    show (c + a.1 - d, a.2) :: (stops (c + a.1) l).map _ = (c - d + a.1, a.2) :: stops (c - d + a.1) l
    rw [ih, add_sub_right_comm]

omit [Fintype ι] [DecidableEq ι] in
/-- The same with times from the start. -/
theorem stay_stops {i : ι} {K : ℝ → ι → List (ℝ × ι) → Prop} {C : Prop} {K' : List (ℝ × ι) → Prop} (hC : C ↔ K' [])
    (hK : ∀ t y l, 0 ≤ t → (∀ o ∈ l, 0 ≤ o.1) → (K t y l ↔ K' (stops 0 ((t, y) :: l)))) (c d : ℝ) {l : List (ℝ × ι)}
    (hl : ∀ o ∈ l, 0 ≤ o.1) : Stay i K C (d - c) l ↔ (∀ o ∈ stops c l, o.1 < d → i = o.2) ∧
      K' (((stops c l).filter fun o => d ≤ o.1).map fun o => (o.1 - d, o.2)) := by
  induction l generalizing c with
  | nil => simp [Stay, stops, hC]
  | cons o l ih =>
    obtain ⟨g, z⟩ := o
    have hg : 0 ≤ g := hl (g, z) List.mem_cons_self
    have hl' : ∀ o ∈ l, 0 ≤ o.1 := fun o ho => hl o (List.mem_cons_of_mem _ ho)
    rcases lt_or_ge (c + g) d with h | h
    · have h1 : g < d - c := by linarith
      have h2 : d - c - g = d - (c + g) := by ring
      rw [Stay, stops, List.filter_cons_of_neg (by simpa using h), List.forall_mem_cons, h2, ih (c + g) hl']
      simp only [h1, h, not_le.2 h1, true_and, false_and, or_false, forall_const, and_assoc]
    · have h1 : d - c ≤ g := by linarith
      have hge : ∀ o ∈ stops c ((g, z) :: l), d ≤ o.1 := by
        intro o ho
        rcases List.mem_cons.1 ho with rfl | ho
        · exact h
        · exact h.trans (le_stops _ hl' o ho)
      rw [Stay, List.filter_eq_self.2 fun o ho => by simpa using hge o ho, map_stops, hK _ _ _ (by linarith) hl']
      have e : stops (c - d) ((g, z) :: l) = stops 0 ((g - (d - c), z) :: l) := by
        show (c - d + g, z) :: stops (c - d + g) l = (0 + (g - (d - c)), z) :: stops (0 + (g - (d - c))) l
        rw [show c - d + g = 0 + (g - (d - c)) by ring]
      rw [e]
      constructor
      · rintro (⟨h2, -⟩ | ⟨-, h2⟩)
        · exact absurd h2 (not_lt.2 h1)
        · exact ⟨fun o ho hlt => absurd hlt (not_lt.2 (hge o ho)), h2⟩
      · exact fun h2 => .inr ⟨h1, h2.2⟩

end classes

end Jumps
end KMC.Chain
