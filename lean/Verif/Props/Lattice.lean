import Verif.Lemmas.Sites

/-!
# Properties C01–C05: lattice numbering, neighbourhoods, minimum image
-/

namespace KMC
open Spec

/-! ## C01 Site numbering is one-to-one -/

/-- C01. Every index below the number of sites denotes exactly one site address (cell and basis
position, as computed by the backend), and the backend's own cell-to-indices table gives the index
back. -/
theorem C01_index_to_address (L : LatticeMap) (hL : L.WF) (n : Nat) (hn : n < L.nSites) :
    ∃! s : Address, s.Valid L ∧
      L.indexToCell n = ((s.a : Int), (s.b : Int), (s.c : Int)) ∧ L.basisSite n = s.l ∧
      (L.indicesFromCell s.a s.b s.c)[s.l]? = some n := by
  refine ⟨L.addr n, ⟨L.addr_valid hL n hn, L.indexToCell_nat hL n, rfl, ?_⟩, ?_⟩
  · rw [LatticeMap.getElem?_indicesFromCell L _ (L.basis_lt hL n), L.siteNo_addr]
  · rintro s ⟨hs, _, _, h⟩
    rw [LatticeMap.getElem?_indicesFromCell L _ hs.2.2.2, Option.some_inj] at h
    rw [← h, L.addr_siteNo s hs]

/-- C01. Every site address has exactly one index, below the number of sites, from which the backend
recovers the address. -/
theorem C01_address_to_index (L : LatticeMap) (hL : L.WF) (s : Address) (hs : s.Valid L) :
    ∃! n : Nat, n < L.nSites ∧ (L.indicesFromCell s.a s.b s.c)[s.l]? = some n ∧
      L.indexToCell n = ((s.a : Int), (s.b : Int), (s.c : Int)) ∧ L.basisSite n = s.l := by
  have h := L.addr_siteNo s hs
  have hA : L.cellA (L.siteNo s) = s.a := congrArg Address.a h
  have hB : L.cellB (L.siteNo s) = s.b := congrArg Address.b h
  have hC : L.cellC (L.siteNo s) = s.c := congrArg Address.c h
  have hl : L.basisSite (L.siteNo s) = s.l := congrArg Address.l h
  refine ⟨L.siteNo s, ⟨L.siteNo_lt s hs, LatticeMap.getElem?_indicesFromCell L s hs.2.2.2, ?_, hl⟩, ?_⟩
  · rw [L.indexToCell_nat hL, hA, hB, hC]
  · rintro n ⟨_, h, _, _⟩
    rw [LatticeMap.getElem?_indicesFromCell L s hs.2.2.2, Option.some_inj] at h
    exact h.symm

/-- C01. The Python front end numbers sites as the backend does, and the list of site coordinates
it generates is in this order: position `_globalIndex(i,j,k,b)` holds basis point `b` of cell
`(i,j,k)`. -/
theorem C01_front_end_agrees {K : Type _} [Field K] (P : PyLattice K) (s : Address)
    (hs : s.Valid P.map) :
    (P.map.indicesFromCell s.a s.b s.c)[s.l]? = some (P.globalIndex s.a s.b s.c s.l) ∧
    P.globalIndex s.a s.b s.c s.l < P.sites.length ∧
    P.sites.length = P.map.nSites ∧
    ∃ b, P.basis[s.l]? = some b ∧
      P.sites[P.globalIndex s.a s.b s.c s.l]? =
        some ⟨b.x + (s.a : K), b.y + (s.b : K), b.z + (s.c : K)⟩ := by
  have hl : s.l < P.basis.length := hs.2.2.2
  refine ⟨?_, ?_, P.length_sites, P.basis[s.l], List.getElem?_eq_getElem hl, ?_⟩
  · rw [LatticeMap.getElem?_indicesFromCell _ _ hl, P.globalIndex_eq_siteNo]
  · rw [P.length_sites, P.globalIndex_eq_siteNo]; exact LatticeMap.siteNo_lt _ _ hs
  · rw [P.getElem?_sites _ _ _ _ hs.1 hs.2.1 hs.2.2.1 hl, List.getElem?_eq_getElem hl]
    rfl

/-- A 3×4×2 lattice with two basis points: index 37 is basis point 1 of cell (2,1,0). -/
example : let L : LatticeMap := ⟨2, 3, 4, 2, true, false, true⟩
    L.WF ∧ 37 < L.nSites ∧ L.indexToCell 37 = (2, 1, 0) ∧ L.basisSite 37 = 1 ∧
      (⟨2, 1, 0, 1⟩ : Address).Valid L ∧ (L.indicesFromCell 2 1 0)[1]? = some 37 := by
  refine ⟨by decide, by decide, by decide +kernel, by decide, by unfold Address.Valid; decide, by decide⟩

/-! ## C02 Neighbourhoods are exactly the surrounding cells -/

/-- C02. The neighbourhood of a site is exactly the set of existing sites whose cell is within the
given number of cells along each axis (through periodic boundaries only). Sites are named by their
address; `n` and `m` are their indices in the numbering of C01. -/
theorem C02_neighbourhood (L : LatticeMap) (hL : L.WF) (r : Nat) (s t : Address) (n m : Nat)
    (hs : s.Valid L) (ht : t.Valid L)
    (hn : (L.indicesFromCell s.a s.b s.c)[s.l]? = some n)
    (hm : (L.indicesFromCell t.a t.b t.c)[t.l]? = some m) :
    m ∈ L.neighbourIndices n r ↔ Near L r s t := by
  rw [LatticeMap.getElem?_indicesFromCell _ _ hs.2.2.2, Option.some_inj] at hn
  rw [LatticeMap.getElem?_indicesFromCell _ _ ht.2.2.2, Option.some_inj] at hm
  subst hn hm
  rw [L.mem_neighbourIndices hL _ _ _ (L.siteNo_lt s hs), L.addr_siteNo s hs, L.addr_siteNo t ht]
  exact ⟨fun h => h.2, fun h => ⟨L.siteNo_lt t ht, h⟩⟩

/-- C02. A neighbourhood never contains an invalid index. -/
theorem C02_valid (L : LatticeMap) (hL : L.WF) (r n m : Nat) (hn : n < L.nSites)
    (h : m ∈ L.neighbourIndices n r) : m < L.nSites :=
  ((L.mem_neighbourIndices hL _ _ _ hn).1 h).1

/-- C02. Each site occurs once if every periodic axis is at least as wide as the neighbourhood. -/
theorem C02_nodup (L : LatticeMap) (hL : L.WF) (r n : Nat)
    (hA : L.perA = true → 2 * r + 1 ≤ L.repA) (hB : L.perB = true → 2 * r + 1 ≤ L.repB)
    (hC : L.perC = true → 2 * r + 1 ≤ L.repC) : (L.neighbourIndices n r).Nodup :=
  L.nodup_neighbourIndices hL n r hA hB hC

/-- C02. On a narrower periodic box the same site is listed more than once. -/
theorem C02_narrow_box_duplicates :
    ∃ L : LatticeMap, L.WF ∧ ¬ (L.neighbourIndices 0 1).Nodup :=
  ⟨⟨1, 2, 1, 1, true, false, false⟩, by decide, by decide +kernel⟩

/-- The premises of C02 are met by a 3×4×2 lattice, periodic along a. -/
example : let L : LatticeMap := ⟨2, 3, 4, 2, true, false, false⟩
    L.WF ∧ (L.perA = true → 2 * 1 + 1 ≤ L.repA) ∧
    Near L 1 ⟨0, 1, 0, 0⟩ ⟨2, 0, 1, 1⟩ ∧ ¬ Near L 1 ⟨0, 0, 0, 0⟩ ⟨0, 3, 0, 0⟩ ∧
    (L.neighbourIndices 0 1).length = 24 := by
  refine ⟨by decide, by decide, ⟨?_, ?_, ?_⟩, ?_, by decide +kernel⟩
  · show ∃ m : Int, |((2 : Nat) : Int) - (0 : Nat) + m * (3 : Nat)| ≤ (1 : Nat)
    exact ⟨-1, by decide⟩
  · show |((0 : Nat) : Int) - (1 : Nat)| ≤ (1 : Nat); decide
  · show |((1 : Nat) : Int) - (0 : Nat)| ≤ (1 : Nat); decide
  · rintro ⟨_, h, _⟩
    have h : |((3 : Nat) : Int) - (0 : Nat)| ≤ (1 : Nat) := h
    revert h; decide

/-! ## C03 Being neighbours is mutual -/

/-- C03. No assumption on box size, range or periodicity. -/
theorem C03_mutual (L : LatticeMap) (hL : L.WF) (r n m : Nat) (hn : n < L.nSites)
    (h : m ∈ L.neighbourIndices n r) : n ∈ L.neighbourIndices m r := by
  have hm := (L.mem_neighbourIndices hL _ _ _ hn).1 h
  rw [L.mem_neighbourIndices hL _ _ _ hm.1]
  exact ⟨hn, L.near_symm r _ _ hm.2⟩

/-- C03. Every site is in its own neighbourhood. -/
theorem C03_self (L : LatticeMap) (hL : L.WF) (r n : Nat) (hn : n < L.nSites) :
    n ∈ L.neighbourIndices n r :=
  (L.mem_neighbourIndices hL _ _ _ hn).2 ⟨hn, L.near_self r _⟩

example : let L : LatticeMap := ⟨1, 2, 5, 1, true, true, false⟩
    L.WF ∧ 0 < L.nSites ∧ 4 ∈ L.neighbourIndices 0 3 ∧ 0 ∈ L.neighbourIndices 4 3 := by
  refine ⟨by decide, by decide, by decide +kernel, by decide +kernel⟩

/-! ## C04 The set of sites to re-examine -/

/-- C04. Strictly increasing, hence each site once; exactly the union of the neighbourhoods. -/
theorem C04_superset (L : LatticeMap) (changed : List Nat) (r : Nat) :
    (L.supersetNeighbourIndices changed r).Pairwise (· < ·) ∧
    ∀ n, n ∈ L.supersetNeighbourIndices changed r ↔ ∃ s ∈ changed, n ∈ L.neighbourIndices s r :=
  ⟨L.superset_sorted _ _, fun n => L.mem_superset _ _ n⟩

example : (⟨1, 6, 1, 1, true, false, false⟩ : LatticeMap).supersetNeighbourIndices [0, 1, 0] 1
    = [0, 1, 2, 5] := by decide +kernel

/-! ## C05 Minimum image convention -/

/-- C05. For two sites of a lattice whose basis points lie in [0,1)³ (checked by the front end), the
relative coordinate used by the backend lies in [-L/2, L/2) along periodic axes, where it differs from
the raw difference by a whole number of box lengths, and is the raw difference along the others. -/
theorem C05_minimum_image {K : Type _} [Field K] [LinearOrder K] [IsStrictOrderedRing K]
    (P : PyLattice K) (hP : P.map.WF)
    (hbasis : ∀ b ∈ P.basis, (0 ≤ b.x ∧ b.x < 1) ∧ (0 ≤ b.y ∧ b.y < 1) ∧ (0 ≤ b.z ∧ b.z < 1))
    (p q : Coord K) (hp : p ∈ P.sites) (hq : q ∈ P.sites) :
    (if P.perA then
        -((P.repA : K) / 2) ≤ (P.map.wrap (p - q)).x ∧ (P.map.wrap (p - q)).x < (P.repA : K) / 2 ∧
        ∃ m : Int, (P.map.wrap (p - q)).x = (p.x - q.x) + m * P.repA
      else (P.map.wrap (p - q)).x = p.x - q.x) ∧
    (if P.perB then
        -((P.repB : K) / 2) ≤ (P.map.wrap (p - q)).y ∧ (P.map.wrap (p - q)).y < (P.repB : K) / 2 ∧
        ∃ m : Int, (P.map.wrap (p - q)).y = (p.y - q.y) + m * P.repB
      else (P.map.wrap (p - q)).y = p.y - q.y) ∧
    (if P.perC then
        -((P.repC : K) / 2) ≤ (P.map.wrap (p - q)).z ∧ (P.map.wrap (p - q)).z < (P.repC : K) / 2 ∧
        ∃ m : Int, (P.map.wrap (p - q)).z = (p.z - q.z) + m * P.repC
      else (P.map.wrap (p - q)).z = p.z - q.z) := by
  have key : ∀ s ∈ P.sites, (0 ≤ s.x ∧ s.x < P.repA) ∧ (0 ≤ s.y ∧ s.y < P.repB) ∧
      (0 ≤ s.z ∧ s.z < P.repC) := by
    intro s hs
    unfold PyLattice.sites at hs
    simp only [List.mem_flatMap, List.mem_range, List.mem_map] at hs
    obtain ⟨i, hi, j, hj, k, hk, b, hb, rfl⟩ := hs
    obtain ⟨hx, hy, hz⟩ := hbasis b hb
    have hi' : (i : K) + 1 ≤ P.repA := by exact_mod_cast hi
    have hj' : (j : K) + 1 ≤ P.repB := by exact_mod_cast hj
    have hk' : (k : K) + 1 ≤ P.repC := by exact_mod_cast hk
    have hi0 : (0 : K) ≤ i := by positivity
    have hj0 : (0 : K) ≤ j := by positivity
    have hk0 : (0 : K) ≤ k := by positivity
    refine ⟨⟨?_, ?_⟩, ⟨?_, ?_⟩, ⟨?_, ?_⟩⟩ <;>
      simp only [HAdd.hAdd, Add.add, Coord.add] <;>
      first
        | exact add_nonneg hx.1 hi0 | exact add_nonneg hy.1 hj0 | exact add_nonneg hz.1 hk0
        | exact lt_of_lt_of_le (add_lt_add_left hx.2 _) (by linarith)
        | exact lt_of_lt_of_le (add_lt_add_left hy.2 _) (by linarith)
        | exact lt_of_lt_of_le (add_lt_add_left hz.2 _) (by linarith)
  obtain ⟨⟨px0, px1⟩, ⟨py0, py1⟩, ⟨pz0, pz1⟩⟩ := key p hp
  obtain ⟨⟨qx0, qx1⟩, ⟨qy0, qy1⟩, ⟨qz0, qz1⟩⟩ := key q hq
  refine ⟨?_, ?_, ?_⟩
  · split
    · rename_i h
      have := LatticeMap.wrapComp_spec P.repA (p.x - q.x) (by linarith) (by linarith) hP.2.1
      simpa [LatticeMap.wrap, PyLattice.map, h] using this
    · rename_i h
      simp [LatticeMap.wrap, PyLattice.map, h]
  · split
    · rename_i h
      have := LatticeMap.wrapComp_spec P.repB (p.y - q.y) (by linarith) (by linarith) hP.2.2.1
      simpa [LatticeMap.wrap, PyLattice.map, h] using this
    · rename_i h
      simp [LatticeMap.wrap, PyLattice.map, h]
  · split
    · rename_i h
      have := LatticeMap.wrapComp_spec P.repC (p.z - q.z) (by linarith) (by linarith) hP.2.2.2
      simpa [LatticeMap.wrap, PyLattice.map, h] using this
    · rename_i h
      simp [LatticeMap.wrap, PyLattice.map, h]

/-- A 4×3×1 lattice with basis {0, (1/2,1/2,1/2)}: raw difference 3.5 along the periodic axis of
length 4 becomes -0.5. -/
example : let P : PyLattice ℚ := ⟨[⟨0, 0, 0⟩, ⟨1/2, 1/2, 1/2⟩], 4, 3, 1, true, false, true⟩
    P.map.WF ∧ (⟨7/2, 1/2, 1/2⟩ : Coord ℚ) ∈ P.sites ∧ (⟨0, 0, 0⟩ : Coord ℚ) ∈ P.sites ∧
    P.map.wrap ((⟨7/2, 1/2, 1/2⟩ : Coord ℚ) - ⟨0, 0, 0⟩) = ⟨-1/2, 1/2, -1/2⟩ := by
  refine ⟨by decide, by decide +kernel, by decide +kernel, by decide +kernel⟩

end KMC
