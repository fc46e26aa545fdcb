import Verif.Props.Equilibrium

/-!
# C71: with detailed balance a run looks the same forwards and backwards

C59 is about the rates. Here the probabilities over any time are compared: those of going from `x` to `y` and of going back are in the
ratio of the weights. It follows that correlations in time are symmetric, that a quantity is never correlated negatively with itself at
a later time, and that the probability to be back where a run has started is at least the one of equilibrium.
-/

set_option linter.unusedSectionVars false

namespace KMC

open LatticeModel Interactions MeasureTheory Classical Filter

namespace Chain

variable {ι : Type _} [Fintype ι] [DecidableEq ι] {W : ι → ι → ℝ} {R : ι → ℝ} {P : ι → ι → ℝ → ℝ}

theorem reversible (h : ∀ j, Renewal W R (fun i => if i = j then 1 else 0) (fun i => P i j)) {w : ι → ℝ}
    (hw : ∀ i j, w i * W i j = w j * W j i) (i j : ι) {t : ℝ} (ht : 0 ≤ t) : w i * P i j t = w j * P j i t := by
  have := unique (W := fun i k => W k i) (R := R) (f := fun t i => w i * P i j t) (g := fun t i => w j * P j i t) ?_ ?_ ?_ ?_ ?_ ht
  · exact congrFun this i
  · exact continuousOn_pi.2 fun i => continuousOn_const.mul ((h j).continuousOn i)
  · exact continuousOn_pi.2 fun i => continuousOn_const.mul ((h i).continuousOn j)
  · intro t ht
    refine hasDerivWithinAt_pi.2 fun i => (((h j).backward i ht).const_mul (w i)).congr_deriv ?_
    unfold gen
    rw [mul_sub, Finset.mul_sum]
    congr 1
    · refine Finset.sum_congr rfl fun k _ => ?_
      rw [← mul_assoc, hw i k]
      ring
    · ring
  · intro t ht
    refine hasDerivWithinAt_pi.2 fun i => ((forward h j i ht).const_mul (w j)).congr_deriv ?_
    unfold gen
    rw [mul_sub, Finset.mul_sum]
    congr 1
    · exact Finset.sum_congr rfl fun k _ => by ring
    · ring
  · funext i
    show w i * P i j 0 = w j * P j i 0
    rw [(h j).start i, (h i).start j]
    by_cases hij : i = j
    · subst hij; rfl
    · rw [if_neg hij, if_neg (Ne.symm hij), mul_zero, mul_zero]

end Chain

variable {env : Env ℝ} {n nT : Nat} {cfg : Config ℝ} {procs : List (Proc ℝ)} {s s' : Sim ℝ}
variable {T : Finset (List Bucket)} {W : List Bucket → List Bucket → ℝ}

/-- The probability of the types `x1`, `x2`, … after the times `t1`, `t1 + t2`, …, if one starts from `st x`. -/
noncomputable def courseChance (env : Env ℝ) (st : List Bucket → Sim ℝ) : List Bucket → List (ℝ × List Bucket) → ℝ
  | _, [] => 1
  | x, (t, y) :: c => (chance env (st x) y t).toReal * courseChance env st y c

/-- The last types of a course. -/
def courseEnd : List Bucket → List (ℝ × List Bucket) → List Bucket
  | x, [] => x
  | _, (_, y) :: c => courseEnd y c

/-- The course as seen backwards: `acc` is what follows the start of the course, seen backwards. -/
def courseBack : List Bucket → List (ℝ × List Bucket) → List (ℝ × List Bucket) → List (ℝ × List Bucket)
  | _, [], acc => acc
  | x, (t, y) :: c, acc => courseBack y c ((t, x) :: acc)

section
variable (hF : ClosedFamily env n nT cfg procs T W) (hr : PositiveRates env procs) {M : Nat}
  (hb : Bounded M cfg procs) (hf : FewEnough M procs) {w : List Bucket → ℝ}
  (hw : ∀ x ∈ T, ∀ y ∈ T, w x * W x y = w y * W y x)
include hF hr hb hf hw

/-- **C71** With detailed balance the probabilities to go from some types to others in a time `t` and to go back are in the ratio of the
weights. -/
theorem C71_reversible (h : GoodRun env n nT negLog cfg procs s) (h' : GoodRun env n nT negLog cfg procs s')
    (ht : s.ms.cfg.types ∈ T) (ht' : s'.ms.cfg.types ∈ T) {t : ℝ} (h0 : 0 ≤ t) :
    w s.ms.cfg.types * (chance env s s'.ms.cfg.types t).toReal = w s'.ms.cfg.types * (chance env s' s.ms.cfg.types t).toReal := by
  let a : Member env n nT cfg procs T := ⟨s, h, ht⟩
  let b : Member env n nT cfg procs T := ⟨s', h', ht'⟩
  obtain ⟨σ, hσ, ha⟩ := exists_section hF a
  have := Chain.reversible (P := fun i j t => (chance env (σ i).1 j.1 t).toReal) (fun j => renewal hF hr hb hf σ hσ j)
    (w := fun i => w i.1) (fun i j => hw i.1 i.2 j.1 j.2) (typesOf a) (typesOf b) h0
  rw [ha, C64_types hF hr hb hf (σ (typesOf b)).2.1 h' (σ (typesOf b)).2.2 (congrArg Subtype.val (hσ (typesOf b))) _ h0] at this
  exact this

variable {st : List Bucket → Sim ℝ} (hst : ∀ x ∈ T, GoodRun env n nT negLog cfg procs (st x))
  (htypes : ∀ x ∈ T, (st x).ms.cfg.types = x)
include hst htypes

theorem reversible_types {x y : List Bucket} (hx : x ∈ T) (hy : y ∈ T) {t : ℝ} (h0 : 0 ≤ t) :
    w x * (chance env (st x) y t).toReal = w y * (chance env (st y) x t).toReal := by
  have := C71_reversible hF hr hb hf hw (hst x hx) (hst y hy) (by rw [htypes x hx]; exact hx) (by rw [htypes y hy]; exact hy) h0
  rwa [htypes x hx, htypes y hy] at this

theorem courseBack_chance (c : List (ℝ × List Bucket)) : ∀ (x : List Bucket) (acc : List (ℝ × List Bucket)), x ∈ T →
    (∀ e ∈ c, 0 ≤ e.1 ∧ e.2 ∈ T) →
    w x * courseChance env st x c * courseChance env st x acc =
      w (courseEnd x c) * courseChance env st (courseEnd x c) (courseBack x c acc) := by
  induction c with
  | nil =>
    intro x acc _ _
    simp [courseChance, courseEnd, courseBack]
  | cons e c ih =>
    intro x acc hx hc
    obtain ⟨t, y⟩ := e
    obtain ⟨h0, hy⟩ := hc (t, y) (by simp)
    have := ih y ((t, x) :: acc) hy (fun e he => hc e (by simp [he]))
    have e1 : courseEnd x ((t, y) :: c) = courseEnd y c := rfl
    have e2 : courseBack x ((t, y) :: c) acc = courseBack y c ((t, x) :: acc) := rfl
    have e3 : courseChance env st x ((t, y) :: c) = (chance env (st x) y t).toReal * courseChance env st y c := rfl
    have e4 : courseChance env st y ((t, x) :: acc) = (chance env (st y) x t).toReal * courseChance env st x acc := rfl
    rw [e1, e2, ← this, e3, e4]
    have hxy := reversible_types hF hr hb hf hw hst htypes hx hy h0
    calc w x * ((chance env (st x) y t).toReal * courseChance env st y c) * courseChance env st x acc
        = (w x * (chance env (st x) y t).toReal) * courseChance env st y c * courseChance env st x acc := by ring
      _ = w y * (chance env (st y) x t).toReal * courseChance env st y c * courseChance env st x acc := by rw [hxy]
      _ = _ := by ring

/-- **C71** A course through given types at given times and the same course backwards have the same probability, if the first types are
drawn with the weights. -/
theorem C71_backwards {x : List Bucket} (hx : x ∈ T) {c : List (ℝ × List Bucket)} (hc : ∀ e ∈ c, 0 ≤ e.1 ∧ e.2 ∈ T) :
    w x * courseChance env st x c = w (courseEnd x c) * courseChance env st (courseEnd x c) (courseBack x c []) := by
  have := courseBack_chance hF hr hb hf hw hst htypes c x [] hx hc
  rwa [show courseChance env st x [] = 1 from rfl, mul_one] at this

/-- **C71** Correlations in time are symmetric: of `f` now with `g` later, and of `g` now with `f` later. -/
theorem C71_correlation (f g : List Bucket → ℝ) {t : ℝ} (h0 : 0 ≤ t) :
    ∑ x ∈ T, ∑ y ∈ T, w x * (chance env (st x) y t).toReal * (f x * g y) =
      ∑ x ∈ T, ∑ y ∈ T, w x * (chance env (st x) y t).toReal * (g x * f y) := by
  rw [Finset.sum_comm]
  refine Finset.sum_congr rfl fun y hy => Finset.sum_congr rfl fun x hx => ?_
  rw [reversible_types hF hr hb hf hw hst htypes hx hy h0]
  ring

variable (hw0 : ∀ x ∈ T, 0 < w x)
include hw0

/-- **C71** A quantity is never correlated negatively with itself at a later time. -/
theorem C71_autocorrelation (f : List Bucket → ℝ) {t : ℝ} (h0 : 0 ≤ t) :
    0 ≤ ∑ x ∈ T, ∑ y ∈ T, w x * (chance env (st x) y t).toReal * (f x * f y) := by
  have h2 : 0 ≤ t / 2 := by linarith
  have key : ∑ x ∈ T, ∑ y ∈ T, w x * (chance env (st x) y t).toReal * (f x * f y) =
      ∑ z ∈ T, w z * (∑ x ∈ T, (chance env (st z) x (t / 2)).toReal * f x) ^ 2 := by
    calc _ = ∑ x ∈ T, ∑ y ∈ T, ∑ z ∈ T, (w z * (chance env (st z) x (t / 2)).toReal * f x) *
          ((chance env (st z) y (t / 2)).toReal * f y) := by
          refine Finset.sum_congr rfl fun x hx => Finset.sum_congr rfl fun y hy => ?_
          rw [show (chance env (st x) y t) = chance env (st x) y (t / 2 + t / 2) by rw [add_halves],
            C65_semigroup hF hr hb hf (hst x hx) (by rw [htypes x hx]; exact hx) hst htypes hy h2 h2, Finset.mul_sum, Finset.sum_mul]
          refine Finset.sum_congr rfl fun z hz => ?_
          rw [← reversible_types hF hr hb hf hw hst htypes hx hz h2]
          ring
      _ = _ := by
          rw [Finset.sum_congr rfl fun x _ => Finset.sum_comm, Finset.sum_comm]
          refine Finset.sum_congr rfl fun z _ => ?_
          rw [sq, Finset.sum_mul_sum, Finset.mul_sum]
          refine Finset.sum_congr rfl fun x _ => ?_
          rw [Finset.mul_sum]
          exact Finset.sum_congr rfl fun y _ => by ring
  rw [key]
  exact Finset.sum_nonneg fun z hz => mul_nonneg (hw0 z hz).le (sq_nonneg _)

/-- **C71** The probability to have the types of the start is never less than in equilibrium. -/
theorem C71_return {x : List Bucket} (hx : x ∈ T) {t : ℝ} (h0 : 0 ≤ t) :
    w x / ∑ y ∈ T, w y ≤ (chance env (st x) x t).toReal := by
  have h2 : 0 ≤ t / 2 := by linarith
  have hsum : (chance env (st x) x t).toReal = w x * ∑ y ∈ T, (chance env (st x) y (t / 2)).toReal ^ 2 / w y := by
    rw [show (chance env (st x) x t) = chance env (st x) x (t / 2 + t / 2) by rw [add_halves],
      C65_semigroup hF hr hb hf (hst x hx) (by rw [htypes x hx]; exact hx) hst htypes hx h2 h2, Finset.mul_sum]
    refine Finset.sum_congr rfl fun y hy => ?_
    have := reversible_types hF hr hb hf hw hst htypes hx hy h2
    have hy0 := (hw0 y hy).ne'
    field_simp
    linear_combination (-(chance env (st x) y (t / 2)).toReal) * this
  have htot := C64_total hF hr hb hf (hst x hx) (by rw [htypes x hx]; exact hx) h2
  have hcs := Finset.sum_sq_le_sum_mul_sum_of_sq_le_mul T (r := fun y => (chance env (st x) y (t / 2)).toReal)
    (f := fun y => w y) (g := fun y => (chance env (st x) y (t / 2)).toReal ^ 2 / w y) (fun y hy => (hw0 y hy).le)
    (fun y hy => div_nonneg (sq_nonneg _) (hw0 y hy).le) (fun y hy => by
      have := (hw0 y hy).ne'
      refine le_of_eq ?_
      field_simp)
  rw [htot, one_pow] at hcs
  have hpos : 0 < ∑ y ∈ T, w y := Finset.sum_pos hw0 ⟨x, hx⟩
  rw [hsum, div_le_iff₀ hpos, mul_assoc]
  refine le_mul_of_one_le_right (hw0 x hx).le ?_
  rw [mul_comm]
  exact hcs

end

/-- **C71** In a model with constant rates where every process has its reverse, possibly around another place, and the rates of both are
in the ratio of factors of the particles, the weights are the products of the factors of the particles. -/
theorem C71_product {P : PyLattice ℝ} (ho : OnSites P env cfg) (hr : PositiveRates env procs) {M : Nat}
    (hb : Bounded M cfg procs) (hf : FewEnough M procs) {rev : Nat → Nat} {δ : Nat → Coord ℝ} {b : Nat → Nat}
    (hrev : ReversibleOn P env.dist procs rev δ b) (hc : ∀ p ∈ procs, p.custom = false) (z : Nat → ℝ) (hz : ∀ k, 0 < z k)
    (hq : ∀ (j : Nat) (p q : Proc ℝ), procs[j]? = some p → procs[rev j]? = some q →
      p.rate = q.rate * ∏ k ∈ Finset.range nT, z k ^ p.net k)
    (h : GoodRun env n nT negLog cfg procs s) (h' : GoodRun env n nT negLog cfg procs s') {t : ℝ} (h0 : 0 ≤ t) :
    productWeight nT z s.ms.cfg.types * (chance env s s'.ms.cfg.types t).toReal =
      productWeight nT z s'.ms.cfg.types * (chance env s' s.ms.cfg.types t).toReal := by
  obtain ⟨T, W, hF, hT⟩ := C64_family (n := n) (nT := nT) hr hb hf hc
  refine C71_reversible hF hr hb hf (w := productWeight nT z) ?_ h h' (hT s h).1 (hT s' h').1 h0
  intro x hx y hy
  obtain ⟨a, ha, rfl⟩ := hF.reached x hx
  obtain ⟨b, hb', rfl⟩ := hF.reached y hy
  rw [(hT a ha).2, (hT b hb').2]
  exact C59_elsewhere_product ha hb' ho hr hb hf hrev hc z hz hq

/-! ### Non-vacuity -/

/-- On a ring of four sites with hops to the right and to the left with the same rate, a particle is as likely to go from one site to
another in a given time as to go back. -/
example (h : GoodRun Sample.realRingEnv 4 3 negLog Sample.realRingStart Sample.realHops s)
    (h' : GoodRun Sample.realRingEnv 4 3 negLog Sample.realRingStart Sample.realHops s') {t : ℝ} (h0 : 0 ≤ t) :
    (chance Sample.realRingEnv s s'.ms.cfg.types t).toReal = (chance Sample.realRingEnv s' s.ms.cfg.types t).toReal := by
  obtain ⟨hb, hf⟩ := bounded_one (cfg := Sample.realRingStart) (by decide) Sample.realHops_balanced
  have := C71_product (n := 4) (nT := 3) Sample.realRing_onSites Sample.realHops_positive hb hf
    Sample.realHops_reversible (by
      intro p hp
      rcases Sample.mem_realHops.1 hp with rfl | rfl <;> rfl) (fun _ => 1) (fun _ => one_pos) (by
      intro j p q hp hq
      simp only [one_zpow, Finset.prod_const_one, mul_one]
      rcases Sample.mem_realHops.1 (List.mem_of_getElem? hp) with rfl | rfl <;>
      rcases Sample.mem_realHops.1 (List.mem_of_getElem? hq) with rfl | rfl <;> rfl) h h' h0
  simpa [productWeight] using this

/-- A site that turns from `A` to `B` with rate 2 and back with rate 3: three times the probability of going from `A` to `B` in a given
time is twice the one of going back, and a site with `A` has `A` at any later time with a probability of at least 3/5. -/
example : ∃ sA sB, GoodRun Sample.oneEnv 1 3 negLog Sample.oneSite Sample.toAndFro sA ∧
    GoodRun Sample.oneEnv 1 3 negLog Sample.oneSite Sample.toAndFro sB ∧ sA.ms.cfg.types = [[0, 1, 0]] ∧
    sB.ms.cfg.types = [[0, 0, 1]] ∧ ∀ t : ℝ, 0 ≤ t →
    3 * (chance Sample.oneEnv sA [[0, 0, 1]] t).toReal = 2 * (chance Sample.oneEnv sB [[0, 1, 0]] t).toReal ∧
      3 / 5 ≤ (chance Sample.oneEnv sA [[0, 1, 0]] t).toReal := by
  obtain ⟨hb, hf⟩ := bounded_one Sample.oneSite_one Sample.toAndFro_balanced
  obtain ⟨sA, hA, tA⟩ := toAndFro_family.reached [[0, 1, 0]] (by simp)
  obtain ⟨sB, hB, tB⟩ := toAndFro_family.reached [[0, 0, 1]] (by simp)
  refine ⟨sA, sB, hA, hB, tA, tB, fun t h0 => ?_⟩
  have hBA : ([[0, 0, 1]] : List Bucket) ≠ [[0, 1, 0]] := by decide
  let w : List Bucket → ℝ := fun x => if x = [[0, 1, 0]] then 3 else 2
  have hwA : w [[0, 1, 0]] = 3 := if_pos rfl
  have hwB : w [[0, 0, 1]] = 2 := if_neg hBA
  let st : List Bucket → Sim ℝ := fun x => if x = [[0, 1, 0]] then sA else sB
  have hsA : st [[0, 1, 0]] = sA := if_pos rfl
  have hsB : st [[0, 0, 1]] = sB := if_neg hBA
  have hw : ∀ x ∈ ({[[0, 1, 0]], [[0, 0, 1]]} : Finset (List Bucket)), ∀ y ∈ ({[[0, 1, 0]], [[0, 0, 1]]} : Finset (List Bucket)),
      w x * toAndFroRate x y = w y * toAndFroRate y x := by
    intro x hx y hy
    simp only [Finset.mem_insert, Finset.mem_singleton] at hx hy
    rcases hx with rfl | rfl <;> rcases hy with rfl | rfl <;> simp [hwA, hwB, toAndFroRate]
    all_goals norm_num
  have hst : ∀ x ∈ ({[[0, 1, 0]], [[0, 0, 1]]} : Finset (List Bucket)),
      GoodRun Sample.oneEnv 1 3 negLog Sample.oneSite Sample.toAndFro (st x) ∧ (st x).ms.cfg.types = x ∧ 0 < w x := by
    intro x hx
    simp only [Finset.mem_insert, Finset.mem_singleton] at hx
    rcases hx with rfl | rfl
    · rw [hsA, hwA]; exact ⟨hA, tA, by norm_num⟩
    · rw [hsB, hwB]; exact ⟨hB, tB, by norm_num⟩
  have k1 := reversible_types toAndFro_family Sample.toAndFro_positive hb hf hw (fun x hx => (hst x hx).1) (fun x hx => (hst x hx).2.1)
    (x := [[0, 1, 0]]) (y := [[0, 0, 1]]) (by simp) (by simp) h0
  have k2 := C71_return toAndFro_family Sample.toAndFro_positive hb hf hw (fun x hx => (hst x hx).1) (fun x hx => (hst x hx).2.1)
    (fun x hx => (hst x hx).2.2) (x := [[0, 1, 0]]) (by simp) h0
  rw [hwA, hwB, hsA, hsB] at k1
  rw [Finset.sum_pair hBA.symm, hwA, hwB, hsA] at k2
  refine ⟨k1, le_trans (le_of_eq ?_) k2⟩
  norm_num

end KMC
