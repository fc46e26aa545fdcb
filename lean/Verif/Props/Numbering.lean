import Verif.Lemmas.Numbering

/-!
# Property C54: the numbering of sites in double precision
-/

namespace KMC
namespace LatticeMap

variable {fl : ℚ → ℚ}

/-- C54 (partial: up to 2^24 cells; `C54_wrong_cell` is about more). With rounded arithmetic, however ties are broken,
every index is in the cell it is in with exact arithmetic. -/
theorem C54_cell_partial (h : Rounding fl) (L : LatticeMap) (hL : L.WF) (hc : L.repA * L.repB * L.repC ≤ 2 ^ 24)
    (n : Nat) (hn : n < L.nSites) : L.indexToCellFl fl n = L.indexToCell n := by
  have hA := L.cellA_lt hL hn
  rw [indexToCell_eq L hL n]
  unfold cellA at hA
  obtain ⟨_, hA0, hB, hC⟩ := hL
  unfold indexToCellFl
  set q := n / L.nBasis with hq
  have hBC : 0 < L.repB * L.repC := Nat.mul_pos hB hC
  have hrow : L.repB * L.repC ≤ 2 ^ 24 := by
    rw [Nat.mul_assoc] at hc
    exact (Nat.le_mul_of_pos_left _ hA0).trans hc
  have h1 := trunc_div_fl h q (L.repB * L.repC) hBC (by
    refine le_trans (Nat.mul_le_mul_right _ hA) ?_
    rw [← Nat.mul_assoc]
    exact hc)
  have e1 : ((q : Int) + 1 - ((q / (L.repB * L.repC) : Nat) : Int) * ((L.repB : Int) * L.repC))
      = ((q % (L.repB * L.repC) : Nat) : Int) + 1 := by
    have := Nat.div_add_mod q (L.repB * L.repC)
    have h : ((L.repB * L.repC : Nat) : Int) * ((q / (L.repB * L.repC) : Nat) : Int)
      + ((q % (L.repB * L.repC) : Nat) : Int) = (q : Int) := by exact_mod_cast this
    push_cast at h ⊢
    linarith
  have h2 := trunc_div_fl h (q % (L.repB * L.repC)) L.repC hC (by
    refine le_trans (Nat.mul_le_mul_right _ ?_) hrow
    exact Nat.succ_le_of_lt ((Nat.div_lt_iff_lt_mul hC).2 (Nat.mod_lt _ hBC)))
  have e2 : ((q : Int) + 1 - (((q / (L.repB * L.repC) : Nat) : Int) * ((L.repB : Int) * L.repC)
      + ((q % (L.repB * L.repC) / L.repC : Nat) : Int) * L.repC))
      = ((q % L.repC : Nat) : Int) + 1 := by
    have := Nat.div_add_mod (q % (L.repB * L.repC)) L.repC
    rw [Nat.mod_mul_left_mod] at this
    have h : (L.repC : Int) * ((q % (L.repB * L.repC) / L.repC : Nat) : Int)
      + ((q % L.repC : Nat) : Int) = ((q % (L.repB * L.repC) : Nat) : Int) := by exact_mod_cast this
    push_cast at h e1 ⊢
    linarith
  have h3 := trunc_sub_fl h (q % L.repC) (by
    refine (Nat.succ_le_of_lt (Nat.mod_lt _ hC)).trans ?_
    exact (Nat.le_mul_of_pos_left _ hB).trans hrow)
  simp only [Nat.cast_mul, Int.cast_mul] at h1
  simp only [Int.cast_mul]
  rw [h1, e1, h2, e2, h3]

/-- C54 (partial: up to 2^24 cells). The neighbourhoods are those of exact arithmetic, to which C02 and C03 apply. -/
theorem C54_neighbours_partial (h : Rounding fl) (L : LatticeMap) (hL : L.WF)
    (hc : L.repA * L.repB * L.repC ≤ 2 ^ 24) (n shells : Nat) (hn : n < L.nSites) :
    L.neighbourIndicesFl fl n shells = L.neighbourIndices n shells := by
  unfold neighbourIndicesFl
  rw [C54_cell_partial h L hL hc n hn]
  rfl

private theorem trunc_small {x : ℚ} (h0 : -(1 / 2) ≤ x) (h1 : x ≤ 0) : truncInt x = 0 := by
  unfold truncInt
  split
  · rw [show x = 0 by linarith]
    simp
  · rw [Int.ceil_eq_iff]
    push_cast
    constructor <;> linarith

/-- C54 fails for larger lattices. From 2^24 on the constant 1e-9 is lost when it is subtracted from the number of a
cell, so that the last cell of each layer, (i - 1, B - 1, C - 1), is taken to be (i, 0, 0). -/
theorem C54_wrong_cell (h : Rounding fl) (L : LatticeMap) (hL : L.WF) (n i : Nat)
    (hi : n / L.nBasis + 1 = i * (L.repB * L.repC)) (h24 : 2 ^ 24 < i * (L.repB * L.repC))
    (h53 : i * (L.repB * L.repC) ≤ 2 ^ 53) :
    L.indexToCellFl fl n = ((i : Int), 0, 0) ∧
      L.indexToCell n = ((i : Int) - 1, (L.repB : Int) - 1, (L.repC : Int) - 1) := by
  have hL' := hL
  obtain ⟨_, _, hB, hC⟩ := hL'
  have hBC : 0 < L.repB * L.repC := Nat.mul_pos hB hC
  have hi0 : 0 < i := by
    rcases Nat.eq_zero_or_pos i with h0 | h0
    · rw [h0, Nat.zero_mul] at hi
      exact absurd hi (Nat.succ_ne_zero _)
    · exact h0
  constructor
  · have hidx : (((n / L.nBasis : Nat) : Int) + 1) = (i : Int) * ((L.repB : Int) * L.repC) := by exact_mod_cast hi
    have hfl : fl (((((n / L.nBasis : Nat) : Int) + 1 : Int) : ℚ) - fl (1 / 1000000000)) =
        ((i * (L.repB * L.repC) : Nat) : ℚ) := by
      rw [hidx]
      have := sub_eps_eq h h24 h53
      push_cast at this ⊢
      exact this
    have hfI : (((L.repB : Int) * L.repC : Int) : ℚ) ≠ 0 := by
      have : (((L.repB * L.repC : Nat)) : ℚ) ≠ 0 := Nat.cast_ne_zero.2 hBC.ne'
      push_cast at this ⊢
      exact this
    have hi53 : i ≤ 2 ^ 53 := (Nat.le_mul_of_pos_right _ hBC).trans h53
    have hii : truncInt (fl (fl (((((n / L.nBasis : Nat) : Int) + 1 : Int) : ℚ) - fl (1 / 1000000000)) /
        (((L.repB : Int) * L.repC : Int) : ℚ))) = (i : Int) := by
      rw [hfl]
      have : ((i * (L.repB * L.repC) : Nat) : ℚ) / (((L.repB : Int) * L.repC : Int) : ℚ) = i := by
        rw [div_eq_iff hfI]
        push_cast
        ring
      rw [this, h.self (isDouble_nat hi53)]
      unfold truncInt
      rw [if_pos (Nat.cast_nonneg i)]
      exact Int.floor_natCast i
    obtain ⟨e1, e2⟩ := eps_bounds h
    have hp : (0 : ℚ) < 1 / 2 ^ 30 := by norm_num
    have hp' : (1 : ℚ) / 2 ^ 29 ≤ 1 / 2 := by norm_num
    have hhalf : IsDouble (-(1 / 2) : ℚ) := ⟨-1, -1, by norm_num, by norm_num⟩
    have l1 : -(1 / 2) ≤ fl (((0 : Int) : ℚ) - fl (1 / 1000000000)) := h.le hhalf (by push_cast; linarith)
    have u1 : fl (((0 : Int) : ℚ) - fl (1 / 1000000000)) ≤ 0 := h.ge isDouble_zero (by push_cast; linarith)
    have hC1 : (1 : ℚ) ≤ ((L.repC : Int) : ℚ) := by exact_mod_cast hC
    have hCp : (0 : ℚ) < ((L.repC : Int) : ℚ) := by linarith
    have hjj : truncInt (fl (fl (((0 : Int) : ℚ) - fl (1 / 1000000000)) / ((L.repC : Int) : ℚ))) = 0 := by
      apply trunc_small
      · apply h.le hhalf
        rw [le_div_iff₀ hCp]
        nlinarith
      · apply h.ge isDouble_zero
        exact div_nonpos_of_nonpos_of_nonneg u1 hCp.le
    have hkk := trunc_small l1 u1
    unfold indexToCellFl
    have z1 : (((n / L.nBasis : Nat) : Int) + 1) - (i : Int) * ((L.repB : Int) * L.repC) = 0 := by rw [hidx]; ring
    have z2 : (((n / L.nBasis : Nat) : Int) + 1) - ((i : Int) * ((L.repB : Int) * L.repC) + 0 * (L.repC : Int)) = 0 := by
      rw [hidx]; ring
    simp only [hii, z1, hjj, z2, hkk]
  · rw [indexToCell_eq L hL n]
    have hcell : n / L.nBasis = ((i - 1) * L.repB + (L.repB - 1)) * L.repC + (L.repC - 1) := by
      obtain ⟨i', rfl⟩ : ∃ i', i = i' + 1 := ⟨i - 1, by omega⟩
      obtain ⟨b, hb⟩ : ∃ b, L.repB = b + 1 := ⟨L.repB - 1, by omega⟩
      obtain ⟨c, hc⟩ : ∃ c, L.repC = c + 1 := ⟨L.repC - 1, by omega⟩
      rw [hb, hc] at hi ⊢
      simp only [Nat.add_sub_cancel]
      have : (i' + 1) * ((b + 1) * (c + 1)) = (i' * (b + 1) + b) * (c + 1) + c + 1 := by ring
      rw [this] at hi
      exact Nat.succ_injective hi
    obtain ⟨c1, c2, c3⟩ := cell_div_mod L.repB L.repC (i - 1) (L.repB - 1) (L.repC - 1) (by omega) (by omega)
    rw [hcell, c1, c2, c3]
    refine Prod.ext ?_ (Prod.ext ?_ ?_)
    · exact Int.ofNat_sub hi0
    · exact Int.ofNat_sub hB
    · exact Int.ofNat_sub hC

/-- C54: a consequence. In every lattice with more than 2^24 cells (and more than `2 * shells + 1` in the second
direction) the site at the end is not given all its neighbours, whether or not the lattice is periodic: those `shells`
cells before it in the second direction are left out. -/
theorem C54_neighbour_missed (h : Rounding fl) (L : LatticeMap) (hL : L.WF) (shells : Nat)
    (h24 : 2 ^ 24 < L.repA * (L.repB * L.repC)) (h53 : L.repA * (L.repB * L.repC) ≤ 2 ^ 53)
    (hs : 2 * shells + 1 < L.repB) (n t : Nat)
    (hnA : L.cellA n + 1 = L.repA) (hnB : L.cellB n + 1 = L.repB) (hnC : L.cellC n + 1 = L.repC)
    (htA : L.cellA t = L.cellA n) (htB : L.cellB t + shells = L.cellB n) (htC : L.cellC t = L.cellC n) :
    t ∈ L.neighbourIndices n shells ∧ t ∉ L.neighbourIndicesFl fl n shells := by
  have hcell : n / L.nBasis + 1 = L.repA * (L.repB * L.repC) := by
    have h2 := Nat.div_add_mod (n / L.nBasis) (L.repB * L.repC)
    have h3 := Nat.div_add_mod (n / L.nBasis % (L.repB * L.repC)) L.repC
    rw [Nat.mod_mul_left_mod] at h3
    change L.repB * L.repC * L.cellA n + _ = _ at h2
    change L.repC * L.cellB n + L.cellC n = _ at h3
    rw [← h2, ← h3, ← hnA]
    rw [← hnC, ← hnB]
    ring
  refine ⟨?_, ?_⟩
  · rw [mem_neighbourIndices_raw L hL]
    have hA := hL.2.1
    refine ⟨⟨L.cellA n, by omega, by omega, ?_⟩, ⟨(L.cellB t : Int), by omega, by omega, ?_⟩,
      ⟨L.cellC n, by omega, by omega, ?_⟩, by omega⟩
    · unfold wrapCell
      split <;> [split; skip] <;> [omega; split; omega] <;> omega
    · unfold wrapCell
      split <;> [split; skip] <;> [omega; split; omega] <;> omega
    · unfold wrapCell
      split <;> [split; skip] <;> [omega; split; omega] <;> omega
  · intro hm
    unfold neighbourIndicesFl at hm
    rw [(C54_wrong_cell h L hL n L.repA hcell h24 h53).1] at hm
    unfold neighboursOfCell at hm
    simp only [List.mem_flatMap, mem_cellRange] at hm
    obtain ⟨i, hi, hm⟩ := hm
    split at hm
    case isFalse => simp at hm
    case isTrue hii =>
    simp only [List.mem_flatMap, mem_cellRange] at hm
    obtain ⟨j, hj, hm⟩ := hm
    split at hm
    case isFalse => simp at hm
    case isTrue hjj =>
    simp only [List.mem_flatMap, mem_cellRange] at hm
    obtain ⟨k, hk, hm⟩ := hm
    split at hm
    case isFalse => simp at hm
    case isTrue hkk =>
    rw [mem_indicesFromCell L _ _ _ _ (by omega) (by omega)] at hm
    obtain ⟨_, h2, _, _⟩ := hm
    unfold wrapCell at h2 hjj
    split at h2
    · rename_i hp
      rw [if_pos hp] at hjj
      split at h2
      · rename_i hneg
        rw [if_pos hneg] at hjj
        omega
      · rename_i hneg
        rw [if_neg hneg] at hjj
        split at h2
        · omega
        · omega
    · omega

/-- The rounding of the hardware is one that C54 applies to. -/
example : Rounding toDouble := toDouble_rounding

/-- A lattice that is small enough. -/
example : let L : LatticeMap := ⟨2, 256, 256, 256, true, true, true⟩
    L.WF ∧ L.repA * L.repB * L.repC ≤ 2 ^ 24 ∧ 33554431 < L.nSites ∧
      L.indexToCellFl toDouble 33554431 = (255, 255, 255) := by decide +kernel

/-- A lattice that is not: the last of the 257 · 256 · 256 cells has the wrong number, and the site two cells before it
is not in its neighbourhood. -/
example : let L : LatticeMap := ⟨1, 257, 256, 256, true, true, true⟩
    L.WF ∧ L.indexToCell 16842751 = (256, 255, 255) ∧ L.indexToCellFl toDouble 16842751 = (257, 0, 0) ∧
      L.cellA 16842751 + 1 = L.repA ∧ L.cellB 16842751 + 1 = L.repB ∧ L.cellC 16842751 + 1 = L.repC ∧
      L.cellA 16842239 = L.cellA 16842751 ∧ L.cellB 16842239 + 2 = L.cellB 16842751 ∧
      L.cellC 16842239 = L.cellC 16842751 := by decide +kernel

end LatticeMap
end KMC
