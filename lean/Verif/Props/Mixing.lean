import Verif.Props.SampledAverage

/-!
# C72: equilibrium at several times, and forgetting

A start drawn with the stationary weights makes the types at several times independent of when one begins to look. And what
happens a long time later is independent of what happened before.
-/

set_option linter.unusedSectionVars false

namespace KMC

open LatticeModel Interactions MeasureTheory Classical Filter

variable {env : Env ℝ} {n nT : Nat} {cfg : Config ℝ} {procs : List (Proc ℝ)} {s s' : Sim ℝ}
variable {T : Finset (List Bucket)} {W : List Bucket → List Bucket → ℝ}

section
variable (hF : ClosedFamily env n nT cfg procs T W) (hr : PositiveRates env procs) {M : Nat}
  (hb : Bounded M cfg procs) (hf : FewEnough M procs) {st : List Bucket → Sim ℝ}
  (hst : ∀ x ∈ T, GoodRun env n nT negLog cfg procs (st x)) (htypes : ∀ x ∈ T, (st x).ms.cfg.types = x)
include hF hr hb hf hst htypes

/-- **C72** From a start with the stationary weights, the probability of types at several times is the same when all times are
later by `c`. -/
theorem C72_stationary {w : List Bucket → ℝ} (hw : ∀ y ∈ T, ∑ x ∈ T, w x * W x y = w y * ∑ x ∈ T, W y x) {c t : ℝ} (hc : 0 ≤ c)
    (h0 : 0 ≤ t) {y : List Bucket} (hy : y ∈ T) {l : List (ℝ × List Bucket)} (hl : ∀ o ∈ l, 0 ≤ o.1 ∧ o.2 ∈ T) :
    ∑ x ∈ T, w x * (chanceAll env (st x) (sums c ((t, y) :: l))).toReal =
      ∑ x ∈ T, w x * (chanceAll env (st x) (sums 0 ((t, y) :: l))).toReal := by
  have key : ∀ u : ℝ, 0 ≤ u → ∑ x ∈ T, w x * (chanceAll env (st x) (sums 0 ((u, y) :: l))).toReal =
      w y * courseChance env st y l := by
    intro u hu
    have h1 : ∀ x ∈ T, w x * (chanceAll env (st x) (sums 0 ((u, y) :: l))).toReal =
        (w x * (chance env (st x) y u).toReal) * courseChance env st y l := by
      intro x hx
      rw [C72_times hF hr hb hf hst htypes (hst x hx) (by rw [htypes x hx]; exact hx) (l := (u, y) :: l)
        (List.forall_mem_cons.2 ⟨⟨hu, hy⟩, hl⟩), htypes x hx]
      show _ * (_ * courseChance env st y l) = _
      ring
    rw [Finset.sum_congr rfl h1, ← Finset.sum_mul]
    congr 1
    exact C64_stationary hF hr hb hf hst htypes hw hy hu
  have e : sums c ((t, y) :: l) = sums 0 ((c + t, y) :: l) := by simp only [sums, zero_add]
  rw [e, key _ (by linarith), key _ h0]

/-- **C72** What comes more than `m` later is nearly independent of what came before: the probability of a course, and of types `y`
a time `m + t` after its end, differs from the product of the probability of the course and the stationary weight of `y` by at
most the `m`-th power of a number below one. -/
theorem C72_mixing (hirr : ∀ x ∈ T, ∀ y ∈ T, Leads T W x y) {w : List Bucket → ℝ} (hw0 : ∀ x ∈ T, 0 ≤ w x)
    (hw1 : ∑ x ∈ T, w x = 1) (hw : ∀ y ∈ T, ∑ x ∈ T, w x * W x y = w y * ∑ x ∈ T, W y x) :
    ∃ δ : ℝ, 0 < δ ∧ δ ≤ 1 ∧ ∀ s, GoodRun env n nT negLog cfg procs s → s.ms.cfg.types ∈ T →
      ∀ c : List (ℝ × List Bucket), (∀ o ∈ c, 0 ≤ o.1 ∧ o.2 ∈ T) → ∀ y ∈ T, ∀ (m : ℕ) (t : ℝ), 0 ≤ t →
        |(chanceAll env s (sums 0 (c ++ [((m : ℝ) + t, y)]))).toReal - (chanceAll env s (sums 0 c)).toReal * w y| ≤
          (chanceAll env s (sums 0 c)).toReal * (1 - δ) ^ m := by
  obtain ⟨δ, d1, d2, hd⟩ := C65_rate hF hr hb hf hirr hw0 hw1 hw
  refine ⟨δ, d1, d2, fun s h ht c hc y hy m t h0 => ?_⟩
  have hend : ∀ (c : List (ℝ × List Bucket)) (x : List Bucket), x ∈ T → (∀ o ∈ c, 0 ≤ o.1 ∧ o.2 ∈ T) → courseEnd x c ∈ T := by
    intro c
    induction c with
    | nil => exact fun x hx _ => hx
    | cons o c ih => exact fun x _ hc => ih o.2 (hc o List.mem_cons_self).2 fun o ho => hc o (List.mem_cons_of_mem _ ho)
  have hz := hend c _ ht hc
  have hm : (0 : ℝ) ≤ m + t := by positivity
  have hy' : ∀ o ∈ [((m : ℝ) + t, y)], 0 ≤ o.1 ∧ o.2 ∈ T := by
    intro o ho
    rw [List.mem_singleton.1 ho]
    exact ⟨hm, hy⟩
  have hzt : (st (courseEnd s.ms.cfg.types c)).ms.cfg.types ∈ T := by rw [htypes _ hz]; exact hz
  rw [C72_later hF hr hb hf hst htypes h ht hc hy' (hst _ hz) (htypes _ hz),
    C72_times hF hr hb hf hst htypes (hst _ hz) hzt hy', htypes _ hz]
  have e : courseChance env st (courseEnd s.ms.cfg.types c) [((m : ℝ) + t, y)] =
      (chance env (st (courseEnd s.ms.cfg.types c)) y (m + t)).toReal := mul_one _
  rw [e, ← mul_sub, abs_mul, abs_of_nonneg ENNReal.toReal_nonneg]
  exact mul_le_mul_of_nonneg_left (hd _ (hst _ hz) hzt y hy m t h0) ENNReal.toReal_nonneg

end

/-! ### Non-vacuity -/

/-- A site that turns from `A` to `B` with rate 2 and back with rate 3, drawn with the weights 3 and 2 at the start: when one looks
first does not matter. -/
example {st : List Bucket → Sim ℝ} (hst : ∀ x ∈ ({[[0, 1, 0]], [[0, 0, 1]]} : Finset (List Bucket)),
      GoodRun Sample.oneEnv 1 3 negLog Sample.oneSite Sample.toAndFro (st x))
    (htypes : ∀ x ∈ ({[[0, 1, 0]], [[0, 0, 1]]} : Finset (List Bucket)), (st x).ms.cfg.types = x) {c u : ℝ} (hc : 0 ≤ c) (hu : 0 ≤ u) :
    3 * (chanceAll Sample.oneEnv (st [[0, 1, 0]]) [(c, [[0, 1, 0]]), (c + u, [[0, 0, 1]])]).toReal +
        2 * (chanceAll Sample.oneEnv (st [[0, 0, 1]]) [(c, [[0, 1, 0]]), (c + u, [[0, 0, 1]])]).toReal =
      3 * (chanceAll Sample.oneEnv (st [[0, 1, 0]]) [(0, [[0, 1, 0]]), (u, [[0, 0, 1]])]).toReal +
        2 * (chanceAll Sample.oneEnv (st [[0, 0, 1]]) [(0, [[0, 1, 0]]), (u, [[0, 0, 1]])]).toReal := by
  obtain ⟨hb, hf⟩ := bounded_one Sample.oneSite_one Sample.toAndFro_balanced
  have hAB : ([[0, 1, 0]] : List Bucket) ≠ [[0, 0, 1]] := by decide
  have := C72_stationary toAndFro_family Sample.toAndFro_positive hb hf hst htypes
    (w := fun x => if x = [[0, 1, 0]] then 3 else 2) (by
      intro y hy
      simp only [Finset.mem_insert, Finset.mem_singleton] at hy
      rcases hy with rfl | rfl <;> rw [Finset.sum_pair hAB, Finset.sum_pair hAB] <;> norm_num [toAndFroRate])
    hc le_rfl (y := [[0, 1, 0]]) (by simp) (l := [(u, [[0, 0, 1]])]) (by simp [hu])
  rw [Finset.sum_pair hAB, Finset.sum_pair hAB] at this
  simpa [sums] using this

end KMC
