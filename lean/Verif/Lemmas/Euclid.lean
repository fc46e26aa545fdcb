import Verif.Spec.Robust
import Mathlib.Analysis.Real.Sqrt
import Mathlib.Tactic.Linarith

/-!
# The length of a coordinate, computed
-/

namespace KMC

/-- The length of a coordinate. -/
noncomputable def euclid (c : Coord ℝ) : ℝ := √(c.x ^ 2 + c.y ^ 2 + c.z ^ 2)

variable {fl : ℝ → ℝ} {u : ℝ}

theorem Within.of_nonneg (h : Within fl u) {x : ℝ} (hx : 0 ≤ x) : (1 - u) * x ≤ fl x ∧ fl x ≤ (1 + u) * x := by
  have := h.err x
  rw [abs_of_nonneg hx, abs_le] at this
  constructor <;> linarith [this.1, this.2]

theorem Within.sum (h : Within fl u) {a b x y : ℝ} {l m : ℝ} (hx : 0 ≤ x) (hy : 0 ≤ y) (hl : 0 ≤ l) (h1 : l * x ≤ a ∧ a ≤ m * x)
    (h2 : l * y ≤ b ∧ b ≤ m * y) : (1 - u) * l * (x + y) ≤ fl (a + b) ∧ fl (a + b) ≤ (1 + u) * m * (x + y) := by
  have ha : 0 ≤ a := le_trans (mul_nonneg hl hx) h1.1
  have hb : 0 ≤ b := le_trans (mul_nonneg hl hy) h2.1
  obtain ⟨k1, k2⟩ := h.of_nonneg (add_nonneg ha hb)
  have hu := h.nonneg
  have hs := h.small
  constructor
  · refine le_trans ?_ k1
    rw [mul_assoc]
    exact mul_le_mul_of_nonneg_left (by linarith [h1.1, h2.1]) (by linarith)
  · refine le_trans k2 ?_
    rw [mul_assoc]
    exact mul_le_mul_of_nonneg_left (by linarith [h1.2, h2.2]) (by linarith)

/-- The computed length has a relative error of at most four roundings. -/
theorem norm_close (h : Within fl u) (c : Coord ℝ) : |InDouble.norm fl Real.sqrt c - euclid c| ≤ 4 * u * euclid c := by
  have hu := h.nonneg
  have hs := h.small
  have sq : ∀ x : ℝ, (1 - u) * x ^ 2 ≤ fl (x * x) ∧ fl (x * x) ≤ (1 + u) * x ^ 2 := by
    intro x
    have := h.of_nonneg (mul_self_nonneg x)
    rwa [← pow_two] at this ⊢
  have h1 := h.sum (sq_nonneg c.x) (sq_nonneg c.y) (by linarith) (sq c.x) (sq c.y)
  have hz : (1 - u) * (1 - u) * c.z ^ 2 ≤ fl (c.z * c.z) ∧ fl (c.z * c.z) ≤ (1 + u) * (1 + u) * c.z ^ 2 := by
    obtain ⟨k1, k2⟩ := sq c.z
    have := sq_nonneg c.z
    constructor <;> nlinarith
  have h2 := h.sum (add_nonneg (sq_nonneg c.x) (sq_nonneg c.y)) (sq_nonneg c.z) (mul_nonneg (by linarith) (by linarith)) h1 hz
  unfold InDouble.norm euclid
  set S := c.x ^ 2 + c.y ^ 2 + c.z ^ 2 with hS
  have hS0 : 0 ≤ S := by positivity
  set T := fl (fl (fl (c.x * c.x) + fl (c.y * c.y)) + fl (c.z * c.z)) with hT
  have hr0 := Real.sqrt_nonneg S
  have lo : (1 - 2 * u) * √S ≤ √T := by
    apply Real.le_sqrt_of_sq_le
    rw [mul_pow, Real.sq_sqrt hS0]
    refine le_trans ?_ h2.1
    refine mul_le_mul_of_nonneg_right ?_ hS0
    nlinarith [mul_nonneg hu hu, mul_nonneg hu (mul_nonneg hu hu)]
  have hi : √T ≤ (1 + 2 * u) * √S := by
    apply Real.sqrt_le_iff.2
    refine ⟨mul_nonneg (by linarith) hr0, ?_⟩
    rw [mul_pow, Real.sq_sqrt hS0]
    refine le_trans h2.2 ?_
    refine mul_le_mul_of_nonneg_right ?_ hS0
    nlinarith [mul_nonneg hu hu, mul_nonneg hu (mul_nonneg hu hu)]
  obtain ⟨k1, k2⟩ := h.of_nonneg (Real.sqrt_nonneg T)
  have huS : 0 ≤ u * √S := mul_nonneg hu hr0
  rw [abs_le]
  constructor
  · have : (1 - u) * ((1 - 2 * u) * √S) ≤ fl √T := le_trans (mul_le_mul_of_nonneg_left lo (by linarith)) k1
    nlinarith [mul_nonneg hu huS]
  · have : fl √T ≤ (1 + u) * ((1 + 2 * u) * √S) := le_trans k2 (mul_le_mul_of_nonneg_left hi (by linarith))
    nlinarith [mul_nonneg hu huS]

theorem euclid_le {c : Coord ℝ} {B : ℝ} (h : c.Bounded B) : euclid c ≤ 2 * B := by
  have hB : 0 ≤ B := le_trans (abs_nonneg _) h.x
  unfold euclid
  apply Real.sqrt_le_iff.2
  refine ⟨by linarith, ?_⟩
  have hx := sq_le_sq' (abs_le.1 h.x).1 (abs_le.1 h.x).2
  have hy := sq_le_sq' (abs_le.1 h.y).1 (abs_le.1 h.y).2
  have hz := sq_le_sq' (abs_le.1 h.z).1 (abs_le.1 h.z).2
  nlinarith

/-- The triangle inequality, for components. -/
theorem euclid_triangle (c d : Coord ℝ) : euclid (c + d) ≤ euclid c + euclid d := by
  unfold euclid
  have hc : 0 ≤ c.x ^ 2 + c.y ^ 2 + c.z ^ 2 := by positivity
  have hd : 0 ≤ d.x ^ 2 + d.y ^ 2 + d.z ^ 2 := by positivity
  apply Real.sqrt_le_iff.2
  refine ⟨add_nonneg (Real.sqrt_nonneg _) (Real.sqrt_nonneg _), ?_⟩
  rw [add_sq, Real.sq_sqrt hc, Real.sq_sqrt hd]
  have key : c.x * d.x + c.y * d.y + c.z * d.z ≤ √(c.x ^ 2 + c.y ^ 2 + c.z ^ 2) * √(d.x ^ 2 + d.y ^ 2 + d.z ^ 2) := by
    rw [← Real.sqrt_mul hc]
    apply Real.le_sqrt_of_sq_le
    nlinarith [sq_nonneg (c.x * d.y - c.y * d.x), sq_nonneg (c.x * d.z - c.z * d.x), sq_nonneg (c.y * d.z - c.z * d.y)]
  show (c.x + d.x) ^ 2 + (c.y + d.y) ^ 2 + (c.z + d.z) ^ 2 ≤ _
  nlinarith

theorem euclid_close {c c' : Coord ℝ} {δ : ℝ} (h : c.Close δ c') : |euclid c' - euclid c| ≤ 2 * δ := by
  have b : (c' - c).Bounded δ := ⟨h.x, h.y, h.z⟩
  have b' : (c - c').Bounded δ := by
    refine ⟨?_, ?_, ?_⟩
    · show |c.x - c'.x| ≤ δ
      rw [abs_sub_comm]; exact h.x
    · show |c.y - c'.y| ≤ δ
      rw [abs_sub_comm]; exact h.y
    · show |c.z - c'.z| ≤ δ
      rw [abs_sub_comm]; exact h.z
  have h1 : euclid c' ≤ euclid c + euclid (c' - c) := by
    have := euclid_triangle c (c' - c)
    have e : c + (c' - c) = c' := by
      ext
      · show c.x + (c'.x - c.x) = c'.x; ring
      · show c.y + (c'.y - c.y) = c'.y; ring
      · show c.z + (c'.z - c.z) = c'.z; ring
    rwa [e] at this
  have h2 : euclid c ≤ euclid c' + euclid (c - c') := by
    have := euclid_triangle c' (c - c')
    have e : c' + (c - c') = c := by
      ext
      · show c'.x + (c.x - c'.x) = c.x; ring
      · show c'.y + (c.y - c'.y) = c.y; ring
      · show c'.z + (c.z - c'.z) = c.z; ring
    rwa [e] at this
  have h3 := euclid_le b
  have h4 := euclid_le b'
  rw [abs_le]
  constructor <;> linarith

/-- The computed length of a computed coordinate. -/
theorem length_close (h : Within fl u) {B : ℝ} :
    LengthClose (40 * u * B) (164 * u * B) (3 * B) euclid (InDouble.norm fl Real.sqrt) := by
  intro c c' hb hc
  have hB : 0 ≤ B := by
    have := le_trans (abs_nonneg _) hb.x
    linarith
  have hu := h.nonneg
  have hs := h.small
  have huB : 0 ≤ u * B := mul_nonneg hu hB
  have h1 := norm_close h c'
  have h2 := euclid_close hc
  have h3 := euclid_le hb
  have h4 : euclid c' ≤ 16 * B := by
    have := (abs_le.1 h2).2
    nlinarith
  have h5 : 4 * u * euclid c' ≤ 64 * (u * B) := by
    have := mul_le_mul_of_nonneg_left h4 hu
    linarith
  rw [abs_le] at h1 h2 ⊢
  constructor <;> linarith [h1.1, h1.2, h2.1, h2.2]

end KMC
