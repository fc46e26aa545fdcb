import Verif.Lemmas.Lattice2

namespace KMC

theorem getElem?_flatMap_range {β : Type _} (f : Nat → List β) (m : Nat) :
    ∀ n, (∀ i < n, (f i).length = m) → ∀ i < n, ∀ j < m,
      ((List.range n).flatMap f)[i * m + j]? = (f i)[j]? ∧
      ((List.range n).flatMap f).length = n * m := by
  intro n
  induction n with
  | zero => intro _ i hi; omega
  | succ n ih =>
    intro hlen i hi j hj
    rw [List.range_succ, List.flatMap_append]
    have hL : ((List.range n).flatMap f).length = n * m := by
      by_cases hn : n = 0
      · subst hn; simp
      · exact (ih (fun i hi => hlen i (by omega)) 0 (by omega) j hj).2
    constructor
    · by_cases hin : i < n
      · have hlt : i * m + j < ((List.range n).flatMap f).length := by
          rw [hL]
          have : (i + 1) * m ≤ n * m := Nat.mul_le_mul_right _ hin
          nlinarith
        rw [List.getElem?_append_left hlt]
        exact (ih (fun i hi => hlen i (by omega)) i hin j hj).1
      · have hi' : i = n := by omega
        subst hi'
        rw [List.getElem?_append_right (by omega), hL]
        simp
    · rw [List.length_append, hL]
      simp only [List.flatMap_cons, List.flatMap_nil, List.append_nil]
      rw [hlen n (by omega)]
      ring

theorem length_flatMap_range {β : Type _} (f : Nat → List β) (m : Nat) (n : Nat)
    (h : ∀ i < n, (f i).length = m) : ((List.range n).flatMap f).length = n * m := by
  induction n with
  | zero => simp
  | succ n ih =>
    rw [List.range_succ, List.flatMap_append, List.length_append, ih (fun i hi => h i (by omega))]
    simp only [List.flatMap_cons, List.flatMap_nil, List.append_nil]
    rw [h n (by omega)]
    ring

namespace PyLattice
variable {K : Type _} [Field K]

theorem length_sites (P : PyLattice K) : P.sites.length = P.map.nSites := by
  unfold sites LatticeMap.nSites map
  simp only
  rw [length_flatMap_range _ (P.repB * (P.repC * P.basis.length))]
  · ring
  · intro i _
    apply length_flatMap_range
    intro j _
    apply length_flatMap_range
    intro k _
    simp

theorem getElem?_sites (P : PyLattice K) (i j k b : Nat) (hi : i < P.repA) (hj : j < P.repB)
    (hk : k < P.repC) (hb : b < P.basis.length) :
    P.sites[P.globalIndex i j k b]? = (P.basis[b]?).map (fun c => c + ⟨(i : K), (j : K), (k : K)⟩) := by
  have e : P.globalIndex i j k b =
      i * (P.repB * (P.repC * P.basis.length)) + (j * (P.repC * P.basis.length)
        + (k * P.basis.length + b)) := by
    unfold globalIndex; ring
  have hk' : k * P.basis.length + b < P.repC * P.basis.length := by
    have : (k + 1) * P.basis.length ≤ P.repC * P.basis.length := Nat.mul_le_mul_right _ hk
    nlinarith
  have hj' : j * (P.repC * P.basis.length) + (k * P.basis.length + b)
      < P.repB * (P.repC * P.basis.length) := by
    have : (j + 1) * (P.repC * P.basis.length) ≤ P.repB * (P.repC * P.basis.length) :=
      Nat.mul_le_mul_right _ hj
    nlinarith
  rw [e]
  unfold sites
  rw [(getElem?_flatMap_range _ _ _ ?_ i hi _ hj').1]
  · rw [(getElem?_flatMap_range _ _ _ ?_ j hj _ hk').1]
    · rw [(getElem?_flatMap_range _ _ _ ?_ k hk _ hb).1]
      · rw [List.getElem?_map]
      · intro k _; simp
    · intro j _
      apply length_flatMap_range
      intro k _; simp
  · intro i _
    apply length_flatMap_range
    intro j _
    apply length_flatMap_range
    intro k _; simp

omit [Field K] in
theorem globalIndex_eq_siteNo (P : PyLattice K) (i j k b : Nat) :
    P.globalIndex i j k b = P.map.siteNo ⟨i, j, k, b⟩ := by
  unfold globalIndex LatticeMap.siteNo map
  simp only
  ring

end PyLattice

namespace LatticeMap

theorem getElem?_indicesFromCell (L : LatticeMap) (s : Spec.Address) (hs : s.l < L.nBasis) :
    (L.indicesFromCell s.a s.b s.c)[s.l]? = some (L.siteNo s) := by
  unfold indicesFromCell siteNo
  simp [hs]

theorem wrapComp_spec {K : Type _} [Field K] [LinearOrder K] [IsStrictOrderedRing K]
    (rep : Nat) (c : K) (h1 : -(rep : K) ≤ c) (h2 : c ≤ rep) (hr : 0 < rep) :
    -((rep : K) / 2) ≤ wrapComp rep c ∧ wrapComp rep c < (rep : K) / 2 ∧
      ∃ m : Int, wrapComp rep c = c + m * rep := by
  have hR : (0 : K) < rep := by exact_mod_cast hr
  unfold wrapComp
  simp only [one_mul]
  split_ifs with ha hb
  · refine ⟨by linarith, by linarith, -1, by push_cast; ring⟩
  · refine ⟨by linarith, by linarith, 1, by push_cast; ring⟩
  · refine ⟨by linarith, by linarith, 0, by push_cast; ring⟩

end LatticeMap
end KMC
