import Verif.Lemmas.Lattice
import Verif.Spec.Lattice
import Mathlib.Algebra.Order.Group.Abs
import Mathlib.Algebra.Order.Ring.Int

namespace KMC
namespace LatticeMap
open Spec

theorem axis_near_iff (per : Bool) (rep r c d : Nat) (hc : c < rep) (hd : d < rep) :
    (∃ i : Int, (c : Int) - r ≤ i ∧ i ≤ c + r ∧ wrapCell per rep i = d) ↔ NearOnAxis per rep r c d := by
  unfold NearOnAxis wrapCell
  cases per
  · simp only [Bool.false_eq_true, if_false, abs_le]
    constructor
    · rintro ⟨i, h1, h2, rfl⟩; omega
    · intro h; exact ⟨d, by omega, by omega, rfl⟩
  · simp only [if_true, abs_le]
    constructor
    · rintro ⟨i, h1, h2, h3⟩
      split at h3
      · exact ⟨-1, by omega, by omega⟩
      · split at h3
        · exact ⟨1, by omega, by omega⟩
        · exact ⟨0, by omega, by omega⟩
    · rintro ⟨m, h1, h2⟩
      by_cases h0 : m = 0
      · subst h0
        refine ⟨d, by omega, by omega, ?_⟩
        rw [if_neg (by omega), if_neg (by omega)]
      by_cases hp : m = 1
      · subst hp
        refine ⟨d + rep, by omega, by omega, ?_⟩
        rw [if_neg (by omega), if_pos (by omega)]; omega
      by_cases hm : m = -1
      · subst hm
        refine ⟨d - rep, by omega, by omega, ?_⟩
        rw [if_pos (by omega)]; omega
      have hr : (rep : Int) ≤ r := by
        rcases lt_or_gt_of_ne h0 with h | h
        · have : m ≤ -2 := by omega
          have : m * (rep : Int) ≤ -2 * rep := by nlinarith
          omega
        · have : 2 ≤ m := by omega
          have : 2 * (rep : Int) ≤ m * rep := by nlinarith
          omega
      refine ⟨d, by omega, by omega, ?_⟩
      rw [if_neg (by omega), if_neg (by omega)]

/-- The address of a site index. -/
def addr (L : LatticeMap) (n : Nat) : Address := ⟨L.cellA n, L.cellB n, L.cellC n, L.basisSite n⟩

/-- The index of an address. -/
def siteNo (L : LatticeMap) (s : Address) : Nat := ((s.a * L.repB + s.b) * L.repC + s.c) * L.nBasis + s.l

theorem siteNo_addr (L : LatticeMap) (n : Nat) : L.siteNo (L.addr n) = n := index_eq L n

theorem addr_siteNo (L : LatticeMap) (s : Address) (hs : s.Valid L) : L.addr (L.siteNo s) = s := by
  obtain ⟨h1, h2, h3, h4⟩ := cells_of_siteIndex L s.a s.b s.c s.l hs.2.1 hs.2.2.1 hs.2.2.2
  unfold addr siteNo
  rw [h1, h2, h3, h4]

theorem addr_valid (L : LatticeMap) (hL : L.WF) (n : Nat) (hn : n < L.nSites) : (L.addr n).Valid L :=
  ⟨cellA_lt L hL hn, cellB_lt L hL n, cellC_lt L hL n, basis_lt L hL n⟩

theorem siteNo_lt (L : LatticeMap) (s : Address) (hs : s.Valid L) : L.siteNo s < L.nSites :=
  siteIndex_lt _ _ _ _ _ _ _ _ hs.1 hs.2.1 hs.2.2.1 hs.2.2.2

theorem mem_neighbourIndices (L : LatticeMap) (hL : L.WF) (s t r : Nat) (hs : s < L.nSites) :
    t ∈ L.neighbourIndices s r ↔ t < L.nSites ∧ Near L r (L.addr s) (L.addr t) := by
  rw [mem_neighbourIndices_raw L hL]
  have hB := cellB_lt L hL t
  have hC := cellC_lt L hL t
  have hB' := cellB_lt L hL s
  have hC' := cellC_lt L hL s
  have hA' := cellA_lt L hL hs
  rw [← cellA_lt_iff L hL t]
  unfold Near addr
  constructor
  · rintro ⟨h1, h2, h3, hA⟩
    exact ⟨hA, (axis_near_iff _ _ _ _ _ hA' hA).1 h1, (axis_near_iff _ _ _ _ _ hB' hB).1 h2,
      (axis_near_iff _ _ _ _ _ hC' hC).1 h3⟩
  · rintro ⟨hA, h1, h2, h3⟩
    exact ⟨(axis_near_iff _ _ _ _ _ hA' hA).2 h1, (axis_near_iff _ _ _ _ _ hB' hB).2 h2,
      (axis_near_iff _ _ _ _ _ hC' hC).2 h3, hA⟩

theorem nearOnAxis_symm (per : Bool) (rep r c d : Nat) (h : NearOnAxis per rep r c d) :
    NearOnAxis per rep r d c := by
  unfold NearOnAxis at *
  cases per
  · simp only [Bool.false_eq_true, if_false] at *
    rwa [abs_sub_comm]
  · simp only [if_true] at *
    obtain ⟨m, hm⟩ := h
    refine ⟨-m, ?_⟩
    rw [← abs_neg]
    have : -((c : Int) - d + -m * rep) = (d : Int) - c + m * rep := by ring
    rwa [this]

theorem near_symm (L : LatticeMap) (r : Nat) (s t : Address) (h : Near L r s t) : Near L r t s :=
  ⟨nearOnAxis_symm _ _ _ _ _ h.1, nearOnAxis_symm _ _ _ _ _ h.2.1, nearOnAxis_symm _ _ _ _ _ h.2.2⟩

theorem near_self (L : LatticeMap) (r : Nat) (s : Address) : Near L r s s := by
  have : ∀ per rep c, NearOnAxis per rep r c c := by
    intro per rep c
    unfold NearOnAxis
    split
    · exact ⟨0, by simp⟩
    · simp
  exact ⟨this _ _ _, this _ _ _, this _ _ _⟩

theorem nodup_flatMap_axis {β : Type _} (per : Bool) (rep r c : Nat)
    (hw : per = true → 2 * r + 1 ≤ rep) (f : Int → List β)
    (hf : ∀ i : Int, 0 ≤ i → i < rep → (f i).Nodup)
    (hdisj : ∀ i j : Int, 0 ≤ i → i < rep → 0 ≤ j → j < rep → i ≠ j → List.Disjoint (f i) (f j)) :
    ((cellRange c r).flatMap fun i =>
      let ii := wrapCell per rep i
      if ii ≥ 0 ∧ ii < rep then f ii else []).Nodup := by
  rw [List.nodup_flatMap]
  constructor
  · intro i _
    simp only
    split
    · rename_i h; exact hf _ h.1 h.2
    · exact List.nodup_nil
  · refine List.Pairwise.imp_of_mem ?_ (nodup_cellRange c r)
    intro i j hi hj hij
    rw [mem_cellRange] at hi hj
    simp only [Function.onFun]
    split
    · split
      · rename_i h1 h2
        refine hdisj _ _ h1.1 h1.2 h2.1 h2.2 ?_
        unfold wrapCell at *
        cases per
        · simpa using hij
        · have := hw rfl
          simp only [if_true] at *
          split_ifs at * <;> omega
      · exact List.disjoint_nil_right _
    · exact List.disjoint_nil_left _

theorem nodup_indicesFromCell (L : LatticeMap) (i j k : Nat) : (L.indicesFromCell i j k).Nodup := by
  unfold indicesFromCell
  refine List.Nodup.map ?_ List.nodup_range
  intro a b h
  simp only at h
  omega

theorem nodup_neighbourIndices (L : LatticeMap) (hL : L.WF) (s r : Nat)
    (hA : L.perA = true → 2 * r + 1 ≤ L.repA) (hB : L.perB = true → 2 * r + 1 ≤ L.repB)
    (hC : L.perC = true → 2 * r + 1 ≤ L.repC) : (L.neighbourIndices s r).Nodup := by
  unfold neighbourIndices
  rw [indexToCell_nat L hL]
  simp only
  have hmem : ∀ (ii jj : Int) (n : Nat), n ∈ ((cellRange (L.cellC s) r).flatMap fun k =>
            let kk := wrapCell L.perC L.repC k
            if kk ≥ 0 ∧ kk < L.repC then
              L.indicesFromCell ii.toNat jj.toNat kk.toNat
            else []) → jj.toNat < L.repB → L.cellA n = ii.toNat ∧ L.cellB n = jj.toNat := by
    intro ii jj n h hj
    simp only [List.mem_flatMap] at h
    obtain ⟨k, _, h⟩ := h
    split at h
    · rw [mem_indicesFromCell L _ _ _ _ hj (by omega)] at h
      exact ⟨h.1, h.2.1⟩
    · simp at h
  have hmem2 : ∀ (ii : Int) (n : Nat), n ∈ ((cellRange (L.cellB s) r).flatMap fun j =>
        let jj := wrapCell L.perB L.repB j
        if jj ≥ 0 ∧ jj < L.repB then
          (cellRange (L.cellC s) r).flatMap fun k =>
            let kk := wrapCell L.perC L.repC k
            if kk ≥ 0 ∧ kk < L.repC then
              L.indicesFromCell ii.toNat jj.toNat kk.toNat
            else []
        else []) → L.cellA n = ii.toNat := by
    intro ii n h
    simp only [List.mem_flatMap] at h
    obtain ⟨j, _, h⟩ := h
    split at h
    · exact (hmem ii _ n (by simpa only [List.mem_flatMap] using h) (by omega)).1
    · simp at h
  refine nodup_flatMap_axis L.perA L.repA r (L.cellA s) hA
    (fun ii => (cellRange (L.cellB s) r).flatMap fun j =>
        let jj := wrapCell L.perB L.repB j
        if jj ≥ 0 ∧ jj < L.repB then
          (cellRange (L.cellC s) r).flatMap fun k =>
            let kk := wrapCell L.perC L.repC k
            if kk ≥ 0 ∧ kk < L.repC then
              L.indicesFromCell ii.toNat jj.toNat kk.toNat
            else []
        else []) ?_ ?_
  · intro ii _ _
    refine nodup_flatMap_axis L.perB L.repB r (L.cellB s) hB
      (fun jj => (cellRange (L.cellC s) r).flatMap fun k =>
            let kk := wrapCell L.perC L.repC k
            if kk ≥ 0 ∧ kk < L.repC then
              L.indicesFromCell ii.toNat jj.toNat kk.toNat
            else []) ?_ ?_
    · intro jj hj0 hj1
      have hj : jj.toNat < L.repB := by omega
      · refine nodup_flatMap_axis L.perC L.repC r (L.cellC s) hC
          (fun kk => L.indicesFromCell ii.toNat jj.toNat kk.toNat) ?_ ?_
        · intro kk _ _; exact nodup_indicesFromCell _ _ _ _
        · intro k1 k2 h1 h1' h2 h2' h12 n hn1 hn2
          rw [mem_indicesFromCell L _ _ _ _ hj (by omega)] at hn1 hn2
          omega
    · intro j1 j2 h1 h1' h2 h2' h12 n hn1 hn2
      have e1 := (hmem ii j1 n hn1 (by omega)).2
      have e2 := (hmem ii j2 n hn2 (by omega)).2
      omega
  · intro i1 i2 h1 h1' h2 h2' h12 n hn1 hn2
    have e1 := hmem2 i1 n hn1
    have e2 := hmem2 i2 n hn2
    omega

theorem mem_uniqueAdj (l : List Nat) (n : Nat) : n ∈ uniqueAdj l ↔ n ∈ l := by
  fun_induction uniqueAdj l with
  | case1 => simp
  | case2 => simp
  | case3 b l ih => rw [ih]; simp
  | case4 a b l h ih => rw [List.mem_cons, ih]; simp

theorem uniqueAdj_strict (l : List Nat) (h : l.Pairwise (· ≤ ·)) : (uniqueAdj l).Pairwise (· < ·) := by
  fun_induction uniqueAdj l with
  | case1 => simp
  | case2 => simp
  | case3 b l ih => exact ih h.of_cons
  | case4 a b l hab ih =>
    rw [List.pairwise_cons]
    refine ⟨?_, ih h.of_cons⟩
    intro n hn
    rw [mem_uniqueAdj] at hn
    have h1 := List.pairwise_cons.1 h
    have h2 := List.pairwise_cons.1 h1.2
    have hb := h1.1 b (by simp)
    rcases List.mem_cons.1 hn with rfl | hn
    · omega
    · have := h2.1 n hn; omega

theorem mem_superset (L : LatticeMap) (xs : List Nat) (r n : Nat) :
    n ∈ L.supersetNeighbourIndices xs r ↔ ∃ s ∈ xs, n ∈ L.neighbourIndices s r := by
  unfold supersetNeighbourIndices
  rw [mem_uniqueAdj, List.mem_insertionSort, List.mem_flatMap]

theorem superset_sorted (L : LatticeMap) (xs : List Nat) (r : Nat) :
    (L.supersetNeighbourIndices xs r).Pairwise (· < ·) :=
  uniqueAdj_strict _ (List.pairwise_insertionSort _ _)

end LatticeMap
end KMC
