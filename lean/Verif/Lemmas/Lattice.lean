import Mathlib.Tactic.Linarith
import Mathlib.Tactic.Ring
import Mathlib.Tactic.NormNum
import Mathlib.Tactic.Positivity
import Mathlib.Tactic.FieldSimp
import Mathlib.Tactic.LinearCombination
import Mathlib.Algebra.Order.Floor.Ring
import Verif.Model.PyLattice
import Verif.Lemmas.Coord

namespace KMC
namespace LatticeMap

/-- The truncated division with epsilon of `indexToCell` is integer division. -/
theorem trunc_div (q f : Nat) (hf : 0 < f) :
    truncInt ((((((q : Int) + 1 : Int) : ℚ)) - 1 / 1000000000) / (((f : Int)) : ℚ))
      = ((q / f : Nat) : Int) := by
  have hq : q = f * (q / f) + q % f := (Nat.div_add_mod q f).symm
  have hr : q % f < f := Nat.mod_lt _ hf
  have hfQ : (0 : ℚ) < (f : ℚ) := by exact_mod_cast hf
  have hqQ : (q : ℚ) = f * ((q / f : Nat) : ℚ) + ((q % f : Nat) : ℚ) := by exact_mod_cast hq
  have hrQ : ((q % f : Nat) : ℚ) + 1 ≤ f := by exact_mod_cast hr
  have hr0 : (0 : ℚ) ≤ ((q % f : Nat) : ℚ) := by positivity
  have hx : (0 : ℚ) ≤ (((((q : Int) + 1 : Int) : ℚ)) - 1 / 1000000000) / (((f : Int)) : ℚ) := by
    apply div_nonneg
    · push_cast; have : (0:ℚ) ≤ q := by positivity
      linarith
    · positivity
  unfold truncInt
  rw [if_pos hx, Int.floor_eq_iff]
  simp only [Int.cast_natCast, Int.cast_add, Int.cast_one]
  constructor
  · rw [le_div_iff₀ hfQ]; linarith
  · rw [div_lt_iff₀ hfQ]; linarith

theorem trunc_sub (q : Nat) :
    truncInt ((((((q : Int) + 1 : Int) : ℚ)) - 1 / 1000000000)) = (q : Int) := by
  have h := trunc_div q 1 Nat.one_pos
  simpa using h

/-- The cell computed with floating point epsilon is the exact one. -/
theorem indexToCell_eq (L : LatticeMap) (hL : L.WF) (n : Nat) :
    L.indexToCell n =
      (((n / L.nBasis / (L.repB * L.repC) : Nat) : Int),
       ((n / L.nBasis % (L.repB * L.repC) / L.repC : Nat) : Int),
       ((n / L.nBasis % L.repC : Nat) : Int)) := by
  obtain ⟨_, _, hB, hC⟩ := hL
  unfold indexToCell
  set q := n / L.nBasis with hq
  have hBC : 0 < L.repB * L.repC := Nat.mul_pos hB hC
  have h1 := trunc_div q (L.repB * L.repC) hBC
  have e1 : ((q : Int) + 1 - ((q / (L.repB * L.repC) : Nat) : Int) * ((L.repB : Int) * L.repC))
      = ((q % (L.repB * L.repC) : Nat) : Int) + 1 := by
    have := Nat.div_add_mod q (L.repB * L.repC)
    have h : ((L.repB * L.repC : Nat) : Int) * ((q / (L.repB * L.repC) : Nat) : Int)
      + ((q % (L.repB * L.repC) : Nat) : Int) = (q : Int) := by exact_mod_cast this
    push_cast at h ⊢
    linarith
  have h2 := trunc_div (q % (L.repB * L.repC)) L.repC hC
  have e2 : ((q : Int) + 1 - (((q / (L.repB * L.repC) : Nat) : Int) * ((L.repB : Int) * L.repC)
      + ((q % (L.repB * L.repC) / L.repC : Nat) : Int) * L.repC))
      = ((q % L.repC : Nat) : Int) + 1 := by
    have := Nat.div_add_mod (q % (L.repB * L.repC)) L.repC
    rw [Nat.mod_mul_left_mod] at this
    have h : (L.repC : Int) * ((q % (L.repB * L.repC) / L.repC : Nat) : Int)
      + ((q % L.repC : Nat) : Int) = ((q % (L.repB * L.repC) : Nat) : Int) := by exact_mod_cast this
    push_cast at h e1 ⊢
    linarith
  have h3 := trunc_sub (q % L.repC)
  simp only [Nat.cast_mul, Int.cast_mul] at h1
  simp only [Int.cast_mul]
  rw [h1, e1, h2, e2, h3]

/-- The cell number of a cell. -/
theorem cell_div_mod (B C i j k : Nat) (hj : j < B) (hk : k < C) :
    ((i * B + j) * C + k) / (B * C) = i ∧ ((i * B + j) * C + k) % (B * C) / C = j ∧
      ((i * B + j) * C + k) % C = k := by
  have hC : 0 < C := by omega
  have hB : 0 < B := by omega
  have hlt : j * C + k < B * C := by
    have : (j + 1) * C ≤ B * C := Nat.mul_le_mul_right _ hj
    nlinarith
  have e : (i * B + j) * C + k = (j * C + k) + i * (B * C) := by ring
  refine ⟨?_, ?_, ?_⟩
  · rw [e, Nat.add_mul_div_right _ _ (Nat.mul_pos hB hC), Nat.div_eq_of_lt hlt, Nat.zero_add]
  · rw [e, Nat.add_mul_mod_self_right, Nat.mod_eq_of_lt hlt, Nat.add_comm,
      Nat.add_mul_div_right _ _ hC, Nat.div_eq_of_lt hk, Nat.zero_add]
  · rw [Nat.add_comm, Nat.add_mul_mod_self_right, Nat.mod_eq_of_lt hk]

theorem siteIndex_lt (A B C N i j k b : Nat) (hi : i < A) (hj : j < B) (hk : k < C) (hb : b < N) :
    ((i * B + j) * C + k) * N + b < A * B * C * N := by
  have h1 : i * B + j + 1 ≤ A * B := by
    have : (i + 1) * B ≤ A * B := Nat.mul_le_mul_right _ hi
    nlinarith
  have h2 : (i * B + j) * C + k + 1 ≤ A * B * C := by
    have : (i * B + j + 1) * C ≤ A * B * C := Nat.mul_le_mul_right _ h1
    nlinarith
  have : ((i * B + j) * C + k + 1) * N ≤ A * B * C * N := Nat.mul_le_mul_right _ h2
  nlinarith

theorem siteIndex_div (N q b : Nat) (hb : b < N) : (q * N + b) / N = q ∧ (q * N + b) % N = b := by
  have hN : 0 < N := by omega
  constructor
  · rw [Nat.add_comm, Nat.add_mul_div_right _ _ hN, Nat.div_eq_of_lt hb, Nat.zero_add]
  · rw [Nat.add_comm, Nat.add_mul_mod_self_right, Nat.mod_eq_of_lt hb]

/-- Cells of an index, as naturals. -/
def cellA (L : LatticeMap) (n : Nat) : Nat := n / L.nBasis / (L.repB * L.repC)
def cellB (L : LatticeMap) (n : Nat) : Nat := n / L.nBasis % (L.repB * L.repC) / L.repC
def cellC (L : LatticeMap) (n : Nat) : Nat := n / L.nBasis % L.repC

theorem cellA_lt (L : LatticeMap) (hL : L.WF) {n : Nat} (hn : n < L.nSites) : L.cellA n < L.repA := by
  obtain ⟨hN, _, hB, hC⟩ := hL
  unfold cellA
  rw [Nat.div_lt_iff_lt_mul (Nat.mul_pos hB hC), Nat.div_lt_iff_lt_mul hN, ← Nat.mul_assoc]
  exact hn

theorem cellB_lt (L : LatticeMap) (hL : L.WF) (n : Nat) : L.cellB n < L.repB := by
  obtain ⟨hN, _, hB, hC⟩ := hL
  unfold cellB
  rw [Nat.div_lt_iff_lt_mul hC]
  exact Nat.mod_lt _ (Nat.mul_pos hB hC)

theorem cellC_lt (L : LatticeMap) (hL : L.WF) (n : Nat) : L.cellC n < L.repC :=
  Nat.mod_lt _ hL.2.2.2

theorem basis_lt (L : LatticeMap) (hL : L.WF) (n : Nat) : L.basisSite n < L.nBasis :=
  Nat.mod_lt _ hL.1

theorem index_eq (L : LatticeMap) (n : Nat) :
    ((L.cellA n * L.repB + L.cellB n) * L.repC + L.cellC n) * L.nBasis + L.basisSite n = n := by
  unfold cellA cellB cellC basisSite
  have h1 := Nat.div_add_mod n L.nBasis
  have h2 := Nat.div_add_mod (n / L.nBasis) (L.repB * L.repC)
  have h3 := Nat.div_add_mod (n / L.nBasis % (L.repB * L.repC)) L.repC
  rw [Nat.mod_mul_left_mod] at h3
  have e : (n / L.nBasis / (L.repB * L.repC) * L.repB
      + n / L.nBasis % (L.repB * L.repC) / L.repC) * L.repC + n / L.nBasis % L.repC
      = n / L.nBasis := by
    rw [← h2]
    conv_rhs => rw [← h3]
    conv_lhs => rw [h2]
    ring
  rw [e, Nat.mul_comm]; exact h1

theorem indexToCell_nat (L : LatticeMap) (hL : L.WF) (n : Nat) :
    L.indexToCell n = ((L.cellA n : Int), (L.cellB n : Int), (L.cellC n : Int)) :=
  indexToCell_eq L hL n

theorem cells_of_siteIndex (L : LatticeMap) (i j k b : Nat) (hj : j < L.repB)
    (hk : k < L.repC) (hb : b < L.nBasis) :
    L.cellA (((i * L.repB + j) * L.repC + k) * L.nBasis + b) = i ∧
    L.cellB (((i * L.repB + j) * L.repC + k) * L.nBasis + b) = j ∧
    L.cellC (((i * L.repB + j) * L.repC + k) * L.nBasis + b) = k ∧
    L.basisSite (((i * L.repB + j) * L.repC + k) * L.nBasis + b) = b := by
  obtain ⟨h1, h2⟩ := siteIndex_div L.nBasis ((i * L.repB + j) * L.repC + k) b hb
  obtain ⟨h3, h4, h5⟩ := cell_div_mod L.repB L.repC i j k hj hk
  unfold cellA cellB cellC basisSite
  rw [h1]
  exact ⟨h3, h4, h5, h2⟩

theorem mem_indicesFromCell (L : LatticeMap) (i j k n : Nat) (hj : j < L.repB) (hk : k < L.repC) :
    n ∈ L.indicesFromCell i j k ↔ L.cellA n = i ∧ L.cellB n = j ∧ L.cellC n = k ∧ 0 < L.nBasis := by
  unfold indicesFromCell
  simp only [List.mem_map, List.mem_range]
  constructor
  · rintro ⟨b, hb, rfl⟩
    obtain ⟨h1, h2, h3, _⟩ := cells_of_siteIndex L i j k b hj hk hb
    exact ⟨h1, h2, h3, by omega⟩
  · rintro ⟨rfl, rfl, rfl, hN⟩
    exact ⟨L.basisSite n, Nat.mod_lt _ hN, index_eq L n⟩

theorem mem_cellRange (c i : Int) (s : Nat) : i ∈ cellRange c s ↔ c - s ≤ i ∧ i ≤ c + s := by
  unfold cellRange
  simp only [List.mem_map, List.mem_range]
  constructor
  · rintro ⟨t, ht, rfl⟩; omega
  · rintro ⟨h1, h2⟩
    exact ⟨(i - (c - s)).toNat, by omega, by omega⟩

theorem nodup_cellRange (c : Int) (s : Nat) : (cellRange c s).Nodup := by
  unfold cellRange
  refine List.Nodup.map ?_ List.nodup_range
  intro a b h
  simp only at h
  omega

/-- Raw membership in the neighbour list, before interpretation. -/
theorem mem_neighbourIndices_raw (L : LatticeMap) (hL : L.WF) (s t r : Nat) :
    t ∈ L.neighbourIndices s r ↔
      (∃ i, (L.cellA s : Int) - r ≤ i ∧ i ≤ L.cellA s + r ∧ wrapCell L.perA L.repA i = L.cellA t) ∧
      (∃ j, (L.cellB s : Int) - r ≤ j ∧ j ≤ L.cellB s + r ∧ wrapCell L.perB L.repB j = L.cellB t) ∧
      (∃ k, (L.cellC s : Int) - r ≤ k ∧ k ≤ L.cellC s + r ∧ wrapCell L.perC L.repC k = L.cellC t) ∧
      L.cellA t < L.repA := by
  unfold neighbourIndices
  rw [indexToCell_nat L hL]
  simp only [List.mem_flatMap, mem_cellRange]
  constructor
  · rintro ⟨i, hi, h⟩
    split at h
    case isFalse => simp at h
    case isTrue hii =>
    simp only [List.mem_flatMap, mem_cellRange] at h
    obtain ⟨j, hj, h⟩ := h
    split at h
    case isFalse => simp at h
    case isTrue hjj =>
    simp only [List.mem_flatMap, mem_cellRange] at h
    obtain ⟨k, hk, h⟩ := h
    split at h
    case isFalse => simp at h
    case isTrue hkk =>
    rw [mem_indicesFromCell L _ _ _ _ (by omega) (by omega)] at h
    obtain ⟨h1, h2, h3, _⟩ := h
    exact ⟨⟨i, hi.1, hi.2, by omega⟩, ⟨j, hj.1, hj.2, by omega⟩, ⟨k, hk.1, hk.2, by omega⟩, by omega⟩
  · rintro ⟨⟨i, hi1, hi2, hi3⟩, ⟨j, hj1, hj2, hj3⟩, ⟨k, hk1, hk2, hk3⟩, hA⟩
    refine ⟨i, ⟨hi1, hi2⟩, ?_⟩
    rw [if_pos (by omega)]
    simp only [List.mem_flatMap, mem_cellRange]
    have hB := cellB_lt L hL t
    have hC := cellC_lt L hL t
    refine ⟨j, ⟨hj1, hj2⟩, ?_⟩
    rw [if_pos (by omega)]
    simp only [List.mem_flatMap, mem_cellRange]
    refine ⟨k, ⟨hk1, hk2⟩, ?_⟩
    rw [if_pos (by omega)]
    rw [mem_indicesFromCell L _ _ _ _ (by omega) (by omega)]
    exact ⟨by omega, by omega, by omega, hL.1⟩

theorem cellA_lt_iff (L : LatticeMap) (hL : L.WF) (n : Nat) : L.cellA n < L.repA ↔ n < L.nSites := by
  obtain ⟨hN, _, hB, hC⟩ := hL
  unfold cellA nSites
  rw [Nat.div_lt_iff_lt_mul (Nat.mul_pos hB hC), Nat.div_lt_iff_lt_mul hN, ← Nat.mul_assoc]

end LatticeMap
end KMC
