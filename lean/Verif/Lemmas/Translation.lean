import Verif.Lemmas.Environment

/-!
# Environments look the same from equivalent sites
-/

set_option linter.unusedSectionVars false

namespace KMC

variable {K : Type _} [Field K] [LinearOrder K] [IsStrictOrderedRing K]

/-- A value moved by a multiple of the box has the same minimum image. -/
theorem wrapComp_congr {rep : Nat} (hr : 0 < rep) {a b : K} (ha : -(rep : K) ≤ a ∧ a ≤ rep)
    (hb : -(rep : K) ≤ b ∧ b ≤ rep) {m : Int} (h : a = b + m * rep) :
    LatticeMap.wrapComp rep a = LatticeMap.wrapComp rep b := by
  have hR : (0 : K) < rep := by exact_mod_cast hr
  obtain ⟨a1, a2, ma, hma⟩ := LatticeMap.wrapComp_spec rep a ha.1 ha.2 hr
  obtain ⟨b1, b2, mb, hmb⟩ := LatticeMap.wrapComp_spec rep b hb.1 hb.2 hr
  have hd : LatticeMap.wrapComp rep a - LatticeMap.wrapComp rep b = ((ma + m - mb : Int) : K) * rep := by
    rw [hma, hmb, h]; push_cast; ring
  have hz : ma + m - mb = 0 := by
    have h1 : -(rep : K) < ((ma + m - mb : Int) : K) * rep := by rw [← hd]; linarith
    have h2 : ((ma + m - mb : Int) : K) * rep < rep := by rw [← hd]; linarith
    have h3 : (-1 : K) < ((ma + m - mb : Int) : K) := by
      by_contra hc
      push Not at hc
      nlinarith
    have h4 : ((ma + m - mb : Int) : K) < 1 := by
      by_contra hc
      push Not at hc
      nlinarith
    have h3' : (-1 : Int) < ma + m - mb := by exact_mod_cast h3
    have h4' : ma + m - mb < (1 : Int) := by exact_mod_cast h4
    omega
  rw [hz] at hd
  simp only [Int.cast_zero, zero_mul] at hd
  linarith

/-- Values less than a box apart with the same minimum image are equal. -/
theorem wrapComp_inj {rep : Nat} (hr : 0 < rep) {a b : K} (ha : -(rep : K) ≤ a ∧ a ≤ rep)
    (hb : -(rep : K) ≤ b ∧ b ≤ rep) (hab : |a - b| < rep)
    (h : LatticeMap.wrapComp rep a = LatticeMap.wrapComp rep b) : a = b := by
  have hR : (0 : K) < rep := by exact_mod_cast hr
  obtain ⟨-, -, ma, hma⟩ := LatticeMap.wrapComp_spec rep a ha.1 ha.2 hr
  obtain ⟨-, -, mb, hmb⟩ := LatticeMap.wrapComp_spec rep b hb.1 hb.2 hr
  have hd : a - b = ((mb - ma : Int) : K) * rep := by
    rw [hma, hmb] at h; push_cast; linarith
  rw [hd, abs_lt] at hab
  have h3 : (-1 : K) < ((mb - ma : Int) : K) := by
    by_contra hc
    push Not at hc
    nlinarith [hab.1]
  have h4 : ((mb - ma : Int) : K) < 1 := by
    by_contra hc
    push Not at hc
    nlinarith [hab.2]
  have h3' : (-1 : Int) < mb - ma := by exact_mod_cast h3
  have h4' : mb - ma < (1 : Int) := by exact_mod_cast h4
  have : mb - ma = 0 := by omega
  rw [this] at hd
  simp only [Int.cast_zero, zero_mul] at hd
  linarith

/-- Along one axis the surroundings of cells `c` and `c'` are alike: the same cell, or a periodic
axis at least as long as the range, or both at least `r` cells away from the open ends. -/
def AxisAlike (per : Bool) (rep r c c' : Nat) : Prop :=
  c = c' ∨ (per = true ∧ r ≤ rep) ∨
    (per = false ∧ (r ≤ c ∧ c + r < rep) ∧ (r ≤ c' ∧ c' + r < rep))

/-- The minimum image along one axis. -/
def wrapAxis (per : Bool) (rep : Nat) (x : K) : K := if per then LatticeMap.wrapComp rep x else x

open LatticeMap in
theorem axisAlike_shift {per : Bool} {rep r c c' : Nat} (h : AxisAlike per rep r c c') (hc : c < rep)
    (hc' : c' < rep) (t : Nat) (ht : t < 2 * r + 1) :
    ((wrapCell per rep ((c : Int) - r + t) ≥ 0 ∧ wrapCell per rep ((c : Int) - r + t) < rep) ↔
      (wrapCell per rep ((c' : Int) - r + t) ≥ 0 ∧ wrapCell per rep ((c' : Int) - r + t) < rep)) ∧
    ((wrapCell per rep ((c : Int) - r + t) ≥ 0 ∧ wrapCell per rep ((c : Int) - r + t) < rep) →
      ∀ x : K, -1 < x → x < 1 →
        wrapAxis per rep (x + ((wrapCell per rep ((c : Int) - r + t)).toNat : K) - c) =
        wrapAxis per rep (x + ((wrapCell per rep ((c' : Int) - r + t)).toNat : K) - c')) := by
  rcases h with rfl | ⟨hp, hr⟩ | ⟨hp, ⟨h1, h2⟩, ⟨h3, h4⟩⟩
  · exact ⟨Iff.rfl, fun _ x _ _ => rfl⟩
  · subst hp
    have hv : ∀ c : Nat, c < rep → (wrapCell true rep ((c : Int) - r + t) ≥ 0 ∧
        wrapCell true rep ((c : Int) - r + t) < rep) := by
      intro c hc
      unfold wrapCell
      simp only [if_true]
      split_ifs <;> omega
    have hm : ∀ c : Nat, c < rep → ∃ m : Int,
        wrapCell true rep ((c : Int) - r + t) = (c : Int) - r + t + m * rep := by
      intro c hc
      unfold wrapCell
      simp only [if_true]
      split_ifs
      · exact ⟨1, by ring⟩
      · exact ⟨-1, by ring⟩
      · exact ⟨0, by ring⟩
    refine ⟨by simp only [hv c hc, hv c' hc'], fun _ x hx1 hx2 => ?_⟩
    obtain ⟨w, hw⟩ := Int.eq_ofNat_of_zero_le (hv c hc).1
    obtain ⟨w', hw'⟩ := Int.eq_ofNat_of_zero_le (hv c' hc').1
    obtain ⟨m, hm1⟩ := hm c hc
    obtain ⟨m', hm2⟩ := hm c' hc'
    have hwl := (hv c hc).2
    have hwl' := (hv c' hc').2
    rw [hw] at hm1 hwl ⊢
    rw [hw'] at hm2 hwl' ⊢
    simp only [Int.toNat_natCast]
    unfold wrapAxis
    simp only [if_true]
    have b1 : (w : K) + 1 ≤ rep := by exact_mod_cast hwl
    have b2 : (w' : K) + 1 ≤ rep := by exact_mod_cast hwl'
    have b3 : (c : K) + 1 ≤ rep := by exact_mod_cast hc
    have b4 : (c' : K) + 1 ≤ rep := by exact_mod_cast hc'
    have n1 : (0 : K) ≤ w := by positivity
    have n2 : (0 : K) ≤ w' := by positivity
    have n3 : (0 : K) ≤ c := by positivity
    have n4 : (0 : K) ≤ c' := by positivity
    apply wrapComp_congr (by omega) ⟨by linarith, by linarith⟩ ⟨by linarith, by linarith⟩ (m := m - m')
    have e1 : (w : K) = (c : K) - r + t + m * rep := by exact_mod_cast hm1
    have e2 : (w' : K) = (c' : K) - r + t + m' * rep := by exact_mod_cast hm2
    rw [e1, e2]
    push_cast
    ring
  · subst hp
    unfold wrapCell wrapAxis
    simp only [Bool.false_eq_true, if_false]
    refine ⟨by constructor <;> intro <;> omega, fun hv x _ _ => ?_⟩
    have e : ∀ c : Nat, r ≤ c → ((((c : Int) - r + t).toNat : Nat) : K) = (c : K) - r + t := by
      intro c hrc
      have : ((c : Int) - r + t).toNat = c - r + t := by omega
      rw [this]
      push_cast [Nat.cast_sub hrc]
      ring
    rw [e c h1, e c' h3]
    ring

namespace PyLattice

/-- The position of a site. -/
def pos (P : PyLattice K) (n : Nat) : Coord K :=
  (P.basis.getD (P.map.basisSite n) 0) + ⟨(P.map.cellA n : K), (P.map.cellB n : K), (P.map.cellC n : K)⟩

theorem sites_eq_pos (P : PyLattice K) (hP : P.map.WF) {n : Nat} (hn : n < P.map.nSites) :
    P.sites[n]? = some (P.pos n) := by
  obtain ⟨b, h1, h2⟩ := P.sites_getElem? hP hn
  rw [h2, pos, List.getD_eq_getElem?_getD, h1]
  rfl

/-- The minimum-image position of site `n` seen from site `s`. -/
def rel (P : PyLattice K) (s n : Nat) : Coord K := P.map.wrap (P.pos n - P.pos s)

/-- Two sites see their surroundings alike. -/
def Alike (P : PyLattice K) (r s s' : Nat) : Prop :=
  P.map.basisSite s = P.map.basisSite s' ∧
  AxisAlike P.perA P.repA r (P.map.cellA s) (P.map.cellA s') ∧
  AxisAlike P.perB P.repB r (P.map.cellB s) (P.map.cellB s') ∧
  AxisAlike P.perC P.repC r (P.map.cellC s) (P.map.cellC s')

theorem getD_basis_range (P : PyLattice K) (hb : P.BasisOk) (l : Nat) :
    let b := P.basis.getD l 0
    (0 ≤ b.x ∧ b.x < 1) ∧ (0 ≤ b.y ∧ b.y < 1) ∧ (0 ≤ b.z ∧ b.z < 1) := by
  intro b
  by_cases hl : l < P.basis.length
  · have : b = P.basis[l] := by simp [b, hl]
    rw [this]
    exact hb _ (List.getElem_mem _)
  · have : b = 0 := by
      simp only [b, List.getD_eq_getElem?_getD]
      rw [List.getElem?_eq_none (by omega)]
      rfl
    rw [this]
    simp

theorem wrap_eq (L : LatticeMap) (c : Coord K) :
    L.wrap c = ⟨wrapAxis L.perA L.repA c.x, wrapAxis L.perB L.repB c.y, wrapAxis L.perC L.repC c.z⟩ := rfl

open LatticeMap in
theorem rel_neighbours (P : PyLattice K) (hP : P.map.WF) (hb : P.BasisOk) {r s s' : Nat}
    (hs : s < P.map.nSites) (hs' : s' < P.map.nSites) (h : P.Alike r s s') :
    (P.map.neighbourIndices s r).map (P.rel s) = (P.map.neighbourIndices s' r).map (P.rel s') := by
  obtain ⟨h0, hA, hB, hC⟩ := h
  have vs := P.map.addr_valid hP s hs
  have vs' := P.map.addr_valid hP s' hs'
  unfold neighbourIndices
  rw [indexToCell_nat P.map hP, indexToCell_nat P.map hP]
  unfold cellRange
  simp only [List.map_flatMap, List.flatMap_map]
  apply List.flatMap_congr
  intro t ht
  obtain ⟨iA, eA⟩ := axisAlike_shift (K := K) hA vs.1 vs'.1 t (List.mem_range.1 ht)
  simp only [show P.map.perA = P.perA from rfl, show P.map.repA = P.repA from rfl,
    show P.map.perB = P.perB from rfl, show P.map.repB = P.repB from rfl,
    show P.map.perC = P.perC from rfl, show P.map.repC = P.repC from rfl]
  by_cases hvA : (wrapCell P.perA P.repA ((P.map.cellA s : Int) - r + t) ≥ 0 ∧
      wrapCell P.perA P.repA ((P.map.cellA s : Int) - r + t) < P.repA)
  swap
  · rw [if_neg hvA, if_neg (fun h => hvA (iA.2 h))]; rfl
  rw [if_pos hvA, if_pos (iA.1 hvA)]
  simp only [List.map_flatMap]
  apply List.flatMap_congr
  intro u hu
  obtain ⟨iB, eB⟩ := axisAlike_shift (K := K) hB vs.2.1 vs'.2.1 u (List.mem_range.1 hu)
  by_cases hvB : (wrapCell P.perB P.repB ((P.map.cellB s : Int) - r + u) ≥ 0 ∧
      wrapCell P.perB P.repB ((P.map.cellB s : Int) - r + u) < P.repB)
  swap
  · rw [if_neg hvB, if_neg (fun h => hvB (iB.2 h))]; rfl
  rw [if_pos hvB, if_pos (iB.1 hvB)]
  simp only [List.map_flatMap]
  apply List.flatMap_congr
  intro v hv
  obtain ⟨iC, eC⟩ := axisAlike_shift (K := K) hC vs.2.2.1 vs'.2.2.1 v (List.mem_range.1 hv)
  by_cases hvC : (wrapCell P.perC P.repC ((P.map.cellC s : Int) - r + v) ≥ 0 ∧
      wrapCell P.perC P.repC ((P.map.cellC s : Int) - r + v) < P.repC)
  swap
  · rw [if_neg hvC, if_neg (fun h => hvC (iC.2 h))]; rfl
  rw [if_pos hvC, if_pos (iC.1 hvC)]
  have hvA' := iA.1 hvA
  have hvB' := iB.1 hvB
  have hvC' := iC.1 hvC
  unfold indicesFromCell
  simp only [List.map_map]
  apply List.map_congr_left
  intro l hl
  have hl' := List.mem_range.1 hl
  simp only [Function.comp, rel, pos]
  obtain ⟨a1, a2, a3, a4⟩ := P.map.cells_of_siteIndex
    (wrapCell P.perA P.repA ((P.map.cellA s : Int) - r + t)).toNat
    (wrapCell P.perB P.repB ((P.map.cellB s : Int) - r + u)).toNat
    (wrapCell P.perC P.repC ((P.map.cellC s : Int) - r + v)).toNat l
    (by show _ < P.repB; omega) (by show _ < P.repC; omega) hl'
  obtain ⟨b1, b2, b3, b4⟩ := P.map.cells_of_siteIndex
    (wrapCell P.perA P.repA ((P.map.cellA s' : Int) - r + t)).toNat
    (wrapCell P.perB P.repB ((P.map.cellB s' : Int) - r + u)).toNat
    (wrapCell P.perC P.repC ((P.map.cellC s' : Int) - r + v)).toNat l
    (by show _ < P.repB; omega) (by show _ < P.repC; omega) hl'
  rw [a1, a2, a3, a4, b1, b2, b3, b4, ← h0]
  have r1 := P.getD_basis_range hb l
  have r2 := P.getD_basis_range hb (P.map.basisSite s)
  simp only at r1 r2
  generalize P.basis.getD l 0 = bl at r1 ⊢
  generalize P.basis.getD (P.map.basisSite s) 0 = bs at r2 ⊢
  rw [wrap_eq, wrap_eq]
  have fin : ∀ (per : Bool) (rep : Nat) (x y w c w' c' : K), -1 < x - y → x - y < 1 →
      (∀ d : K, -1 < d → d < 1 → wrapAxis per rep (d + w - c) = wrapAxis per rep (d + w' - c')) →
      wrapAxis per rep (x + w - (y + c)) = wrapAxis per rep (x + w' - (y + c')) := by
    intro per rep x y w c w' c' h1 h2 h
    have := h (x - y) h1 h2
    rw [show x + w - (y + c) = x - y + w - c by ring, this]
    congr 1
    ring
  ext
  · exact fin _ _ _ _ _ _ _ _ (by linarith [r1.1.1, r2.1.2]) (by linarith [r1.1.2, r2.1.1]) (eA hvA)
  · exact fin _ _ _ _ _ _ _ _ (by linarith [r1.2.1.1, r2.2.1.2]) (by linarith [r1.2.1.2, r2.2.1.1]) (eB hvB)
  · exact fin _ _ _ _ _ _ _ _ (by linarith [r1.2.2.1, r2.2.2.2]) (by linarith [r1.2.2.2, r2.2.2.1]) (eC hvC)

/-- Different sites are seen at different positions. -/
theorem rel_inj (P : PyLattice K) (hP : P.map.WF) (hb : P.BasisOk) (hnd : P.basis.Nodup)
    {s m n : Nat} (hs : s < P.map.nSites) (hm : m < P.map.nSites) (hn : n < P.map.nSites)
    (h : P.rel s m = P.rel s n) : m = n := by
  have vs := P.map.addr_valid hP s hs
  have vm := P.map.addr_valid hP m hm
  have vn := P.map.addr_valid hP n hn
  have rs := P.getD_basis_range hb (P.map.basisSite s)
  have rm := P.getD_basis_range hb (P.map.basisSite m)
  have rn := P.getD_basis_range hb (P.map.basisSite n)
  simp only at rs rm rn
  have axis : ∀ (per : Bool) (rep i j k : Nat) (a b d : K), i < rep → j < rep → k < rep →
      (0 ≤ a ∧ a < 1) → (0 ≤ b ∧ b < 1) → (0 ≤ d ∧ d < 1) →
      wrapAxis per rep (a + (i : K) - (d + (k : K))) = wrapAxis per rep (b + (j : K) - (d + (k : K))) →
      a = b ∧ i = j := by
    intro per rep i j k a b d hi hj hk ha hb hd h0
    have hi' : (i : K) + 1 ≤ rep := by exact_mod_cast hi
    have hj' : (j : K) + 1 ≤ rep := by exact_mod_cast hj
    have hk' : (k : K) + 1 ≤ rep := by exact_mod_cast hk
    have hi0 : (0 : K) ≤ i := by positivity
    have hj0 : (0 : K) ≤ j := by positivity
    have hk0 : (0 : K) ≤ k := by positivity
    apply frac_unique ha hb
    unfold wrapAxis at h0
    cases per
    · simp only [Bool.false_eq_true, if_false] at h0; linarith
    · simp only [if_true] at h0
      have := wrapComp_inj (by omega) ⟨by linarith [ha.1, hd.2], by linarith [ha.2, hd.1]⟩
        ⟨by linarith [hb.1, hd.2], by linarith [hb.2, hd.1]⟩ (by
          rw [abs_lt]; constructor <;> linarith [ha.1, ha.2, hb.1, hb.2]) h0
      linarith
  unfold rel at h
  rw [wrap_eq, wrap_eq] at h
  have hx := congrArg Coord.x h
  have hy := congrArg Coord.y h
  have hz := congrArg Coord.z h
  have ex := axis P.perA P.repA _ _ _ _ _ _ vm.1 vn.1 vs.1 rm.1 rn.1 rs.1 hx
  have ey := axis P.perB P.repB _ _ _ _ _ _ vm.2.1 vn.2.1 vs.2.1 rm.2.1 rn.2.1 rs.2.1 hy
  have ez := axis P.perC P.repC _ _ _ _ _ _ vm.2.2.1 vn.2.2.1 vs.2.2.1 rm.2.2 rn.2.2 rs.2.2 hz
  have hbc := Coord.ext ex.1 ey.1 ez.1
  have hl : P.map.basisSite m = P.map.basisSite n := by
    have h1 : P.map.basisSite m < P.basis.length := vm.2.2.2
    have h2 : P.map.basisSite n < P.basis.length := vn.2.2.2
    simp only [List.getD_eq_getElem?_getD, List.getElem?_eq_getElem h1, List.getElem?_eq_getElem h2,
      Option.getD_some] at hbc
    exact (List.Nodup.getElem_inj_iff hnd).1 hbc
  rw [← P.map.siteNo_addr m, ← P.map.siteNo_addr n]
  congr 1
  exact (Spec.Address.mk.injEq ..).mpr ⟨ex.2, ey.2, ez.2, hl⟩

end PyLattice
end KMC
