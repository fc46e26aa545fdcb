import Verif.Lemmas.Elsewhere
import Verif.Spec.Symmetric
import Mathlib.Data.Fintype.EquivFin

/-!
# Mirror images and exchanged axes: the sites
-/

set_option linter.unusedSectionVars false

namespace KMC

variable {K : Type _} [Field K] [LinearOrder K] [IsStrictOrderedRing K]

/-- A map that is one-to-one on the first `n` numbers reaches all of them. -/
theorem reached_of_injective {n : Nat} {τ : Nat → Nat} (h1 : ∀ s < n, τ s < n) (h2 : ∀ s < n, ∀ t < n, τ s = τ t → s = t) {u : Nat}
    (hu : u < n) : ∃ s < n, τ s = u := by
  have inj : Function.Injective (fun i : Fin n => (⟨τ i, h1 i i.2⟩ : Fin n)) := by
    intro i j hij
    exact Fin.ext (h2 i i.2 j j.2 (by simpa using hij))
  obtain ⟨i, hi⟩ := Finite.injective_iff_surjective.1 inj ⟨u, hu⟩
  exact ⟨i, i.2, by simpa using hi⟩

/-- A number in the half-open box that differs by whole boxes is the wrapped one. -/
theorem wrapComp_unique {rep : Nat} {x y : K} (hx : -(rep : K) < x ∧ x < rep) (hy : -(rep : K) ≤ 2 * y ∧ 2 * y < rep) {m : Int}
    (h : x = y + m * rep) : LatticeMap.wrapComp rep x = y := by
  have hr : (0 : K) < rep := by linarith
  have h1 : (m : K) * rep < 2 * rep := by linarith [hx.2, hy.1]
  have h2 : (-2 : K) * rep < m * rep := by linarith [hx.1, hy.2]
  have h1 := lt_of_mul_lt_mul_right h1 hr.le
  have h2 := lt_of_mul_lt_mul_right h2 hr.le
  have h1 : m < 2 := by exact_mod_cast h1
  have h2 : -2 < m := by exact_mod_cast h2
  have h3 : m = -1 ∨ m = 0 ∨ m = 1 := by omega
  unfold LatticeMap.wrapComp
  dsimp only
  rcases h3 with rfl | rfl | rfl
  · push_cast at h
    rw [if_neg (by linarith [hy.2]), if_pos (by linarith [hy.2])]
    linarith
  · push_cast at h
    rw [if_neg (by linarith [hy.2]), if_neg (by linarith [hy.1])]
    linarith
  · push_cast at h
    rw [if_pos (by linarith [hy.1])]
    linarith

theorem wrapComp_range {rep : Nat} {x : K} (hx : -(rep : K) < x ∧ x < rep) :
    -(rep : K) ≤ 2 * LatticeMap.wrapComp rep x ∧ 2 * LatticeMap.wrapComp rep x < rep := by
  unfold LatticeMap.wrapComp
  dsimp only
  split_ifs <;> constructor <;> linarith [hx.1, hx.2]

/-- The wrapped difference of mirror images is the mirror image of the wrapped difference, except at half the box. -/
theorem wrapComp_mirror {rep : Nat} {x y d : K} (hx : -(rep : K) < x ∧ x < rep) (hy : -(rep : K) < y ∧ y < rep) {m : Int}
    (h : y = -x + m * rep) (hd : 2 * |d| ≠ rep) : LatticeMap.wrapComp rep y = -d ↔ LatticeMap.wrapComp rep x = d := by
  have far : ∀ {e : K}, 2 * |e| ≠ rep → 2 * e ≠ rep ∧ 2 * e ≠ -rep := by
    intro e he
    have hr : (0 : K) < rep := by linarith
    constructor
    · intro h2
      apply he
      rw [abs_of_pos (by linarith), h2]
    · intro h2
      apply he
      rw [abs_of_neg (by linarith)]
      linarith
  have key : ∀ {x y d : K} {m : Int}, (-(rep : K) < x ∧ x < rep) → (-(rep : K) < y ∧ y < rep) → y = -x + m * rep → 2 * |d| ≠ rep →
      LatticeMap.wrapComp rep x = d → LatticeMap.wrapComp rep y = -d := by
    intro x y d m hx hy h hd e
    obtain ⟨k, -, hk⟩ := wrapAxis_shift true rep x
    have hk : LatticeMap.wrapComp rep x = x + k * rep := hk
    obtain ⟨r1, r2⟩ := wrapComp_range hx
    rw [e] at hk r1 r2
    obtain ⟨f1, f2⟩ := far hd
    refine wrapComp_unique hy ⟨by linarith, ?_⟩ (m := m + k) ?_
    · have := lt_of_le_of_ne r1 (Ne.symm f2)
      linarith
    · rw [h]
      push_cast
      linarith
  constructor
  · intro e
    have := key (d := -d) hy hx (m := m) (by linarith) (by rwa [abs_neg]) e
    rwa [neg_neg] at this
  · exact key hx hy h hd

namespace PyLattice
variable {P : PyLattice K}

theorem pos_difference (hP : P.map.WF) (hb : P.BasisOk) {s t : Nat} (hs : s < P.map.nSites) (ht : t < P.map.nSites) :
    -(P.repA : K) < (P.pos t).x - (P.pos s).x ∧ (P.pos t).x - (P.pos s).x < P.repA := by
  obtain ⟨⟨a1, a2⟩, -⟩ := pos_range hP hb hs
  obtain ⟨⟨b1, b2⟩, -⟩ := pos_range hP hb ht
  constructor <;> linarith

/-! ### The mirror image -/

theorem mirror_map : P.mirror.map = P.map := by
  unfold mirror PyLattice.map
  simp

theorem mirror_basis (hb : P.BasisOk) : P.mirror.BasisOk := by
  intro c hc
  obtain ⟨a, ha, rfl⟩ := List.mem_map.1 hc
  obtain ⟨h1, h2, h3⟩ := hb a ha
  refine ⟨?_, h2, h3⟩
  dsimp only
  split
  · constructor <;> norm_num
  · next hne =>
    have := lt_of_le_of_ne h1.1 (Ne.symm hne)
    constructor <;> linarith [h1.2]

theorem mirror_distinct (hb : P.BasisOk) (h : P.basis.Nodup) : P.mirror.basis.Nodup := by
  refine List.Nodup.map_on ?_ h
  intro a ha b hb' e
  obtain ⟨⟨a1, a2⟩, -⟩ := hb a ha
  obtain ⟨⟨b1, b2⟩, -⟩ := hb b hb'
  have ex := congrArg Coord.x e
  have ey := congrArg Coord.y e
  have ez := congrArg Coord.z e
  dsimp only at ex ey ez
  ext
  · split at ex <;> split at ex
    · next h1 h2 => rw [h1, h2]
    · linarith
    · linarith
    · linarith
  · exact ey
  · exact ez

theorem mirror_valid (hP : P.map.WF) {s : Nat} (hs : s < P.map.nSites) : Spec.Address.Valid P.map
    ⟨if (P.basis.getD (P.map.basisSite s) 0).x = 0 then (P.repA - P.map.cellA s) % P.repA else P.repA - 1 - P.map.cellA s,
      P.map.cellB s, P.map.cellC s, P.map.basisSite s⟩ := by
  obtain ⟨v1, v2, v3, v4⟩ := P.map.addr_valid hP s hs
  have hA : 0 < P.repA := hP.2.1
  refine ⟨?_, v2, v3, v4⟩
  have hz : 0 < P.repA := hA
  show (if (P.basis.getD (P.map.basisSite s) 0).x = 0 then (P.repA - P.map.cellA s) % P.repA else P.repA - 1 - P.map.cellA s) < P.repA
  split
  · exact Nat.mod_lt _ hA
  · generalize P.map.cellA s = i
    generalize P.repA = m at hz
    omega

theorem mirror_cells (hP : P.map.WF) {s : Nat} (hs : s < P.map.nSites) :
    P.map.cellA (P.mirrorSite s) = (if (P.basis.getD (P.map.basisSite s) 0).x = 0 then (P.repA - P.map.cellA s) % P.repA else
      P.repA - 1 - P.map.cellA s) ∧ P.map.cellB (P.mirrorSite s) = P.map.cellB s ∧ P.map.cellC (P.mirrorSite s) = P.map.cellC s ∧
      P.map.basisSite (P.mirrorSite s) = P.map.basisSite s := by
  have := P.map.addr_siteNo _ (mirror_valid hP hs)
  exact ⟨congrArg Spec.Address.a this, congrArg Spec.Address.b this, congrArg Spec.Address.c this, congrArg Spec.Address.l this⟩

theorem mirror_pos (hP : P.map.WF) (hb : P.BasisOk) {s : Nat} (hs : s < P.map.nSites) :
    (∃ m : Int, (P.mirror.pos (P.mirrorSite s)).x = -(P.pos s).x + m * P.repA) ∧
      (P.mirror.pos (P.mirrorSite s)).y = (P.pos s).y ∧ (P.mirror.pos (P.mirrorSite s)).z = (P.pos s).z := by
  obtain ⟨c1, c2, c3, c4⟩ := mirror_cells hP hs
  obtain ⟨v1, v2, v3, v4⟩ := P.map.addr_valid hP s hs
  have v4 : P.map.basisSite s < P.basis.length := v4
  have v1 : P.map.cellA s < P.repA := v1
  have eb : P.mirror.basis.getD (P.map.basisSite s) 0 =
      ⟨if (P.basis.getD (P.map.basisSite s) 0).x = 0 then 0 else 1 - (P.basis.getD (P.map.basisSite s) 0).x,
        (P.basis.getD (P.map.basisSite s) 0).y, (P.basis.getD (P.map.basisSite s) 0).z⟩ := by
    unfold mirror
    rw [List.getD_eq_getElem?_getD, List.getD_eq_getElem?_getD, List.getElem?_map, List.getElem?_eq_getElem v4]
    rfl
  unfold pos
  rw [mirror_map, c1, c2, c3, c4, eb]
  refine ⟨?_, rfl, rfl⟩
  show ∃ m : Int, (if (P.basis.getD (P.map.basisSite s) 0).x = 0 then (0 : K) else 1 - (P.basis.getD (P.map.basisSite s) 0).x) +
    ((if (P.basis.getD (P.map.basisSite s) 0).x = 0 then (P.repA - P.map.cellA s) % P.repA else P.repA - 1 - P.map.cellA s : Nat) : K) =
      -((P.basis.getD (P.map.basisSite s) 0).x + ((P.map.cellA s : Nat) : K)) + m * P.repA
  split
  · next h0 =>
    by_cases hz : P.map.cellA s = 0
    · refine ⟨0, ?_⟩
      rw [hz, h0]
      simp
    · refine ⟨1, ?_⟩
      rw [Nat.mod_eq_of_lt (by omega), Nat.cast_sub v1.le, h0]
      push_cast
      ring
  · refine ⟨1, ?_⟩
    rw [Nat.sub_sub, Nat.cast_sub (by omega)]
    push_cast
    ring

theorem mirror_siteMap (hP : P.map.WF) : P.SiteMap P.mirror P.mirrorSite where
  size := by rw [mirror_map]
  lt := fun s hs => P.map.siteNo_lt _ (mirror_valid hP hs)
  inj := by
    intro s hs t ht e
    obtain ⟨c1, c2, c3, c4⟩ := mirror_cells hP hs
    obtain ⟨d1, d2, d3, d4⟩ := mirror_cells hP ht
    obtain ⟨v1, -⟩ := P.map.addr_valid hP s hs
    obtain ⟨w1, -⟩ := P.map.addr_valid hP t ht
    have v1 : P.map.cellA s < P.repA := v1
    have w1 : P.map.cellA t < P.repA := w1
    rw [e] at c1 c2 c3 c4
    have e4 := c4.symm.trans d4
    have e3 := c3.symm.trans d3
    have e2 := c2.symm.trans d2
    have e1 := c1.symm.trans d1
    rw [e4] at e1
    have e1 : P.map.cellA s = P.map.cellA t := by
      split at e1
      · by_cases hz : P.map.cellA s = 0
        · by_cases hz' : P.map.cellA t = 0
          · omega
          · rw [hz, Nat.sub_zero, Nat.mod_self, Nat.mod_eq_of_lt (by omega)] at e1
            omega
        · by_cases hz' : P.map.cellA t = 0
          · rw [hz', Nat.sub_zero, Nat.mod_self, Nat.mod_eq_of_lt (by omega)] at e1
            omega
          · rw [Nat.mod_eq_of_lt (by omega), Nat.mod_eq_of_lt (by omega)] at e1
            omega
      · omega
    rw [← P.map.siteNo_addr s, ← P.map.siteNo_addr t]
    congr 1
    show Spec.Address.mk _ _ _ _ = Spec.Address.mk _ _ _ _
    rw [e1, e2, e3, e4]

/-- The mirror images of sites have the mirrored displacement, unless it is half the box. -/
theorem mirror_carries (hP : P.map.WF) (hb : P.BasisOk) (hper : P.perA = true) (b : Nat) {d : Coord K} (hd : 2 * |d.x| ≠ P.repA) :
    P.Carries P.mirror P.mirrorSite Coord.mirror b d := by
  intro s hs t ht _
  have hP' : P.mirror.map.WF := by rw [mirror_map]; exact hP
  have hs' : P.mirrorSite s < P.mirror.map.nSites := by rw [mirror_map]; exact (mirror_siteMap hP).lt s hs
  have ht' : P.mirrorSite t < P.mirror.map.nSites := by rw [mirror_map]; exact (mirror_siteMap hP).lt t ht
  rw [at_iff hP' hs' ht', at_iff hP hs ht]
  unfold rel
  rw [mirror_map, wrap_eq, wrap_eq]
  obtain ⟨⟨m, m1⟩, m2, m3⟩ := mirror_pos hP hb hs
  obtain ⟨⟨k, k1⟩, k2, k3⟩ := mirror_pos hP hb ht
  have hx := pos_difference hP hb hs ht
  have hy := pos_difference hP' (mirror_basis hb) hs' ht'
  have hper : P.map.perA = true := hper
  have key := wrapComp_mirror (d := d.x) hx hy (m := k - m) (by rw [m1, k1]; push_cast; ring) hd
  have ey : (P.mirror.pos (P.mirrorSite t) - P.mirror.pos (P.mirrorSite s)).y = (P.pos t - P.pos s).y := by
    show (P.mirror.pos (P.mirrorSite t)).y - (P.mirror.pos (P.mirrorSite s)).y = _
    rw [m2, k2]; rfl
  have ez : (P.mirror.pos (P.mirrorSite t) - P.mirror.pos (P.mirrorSite s)).z = (P.pos t - P.pos s).z := by
    show (P.mirror.pos (P.mirrorSite t)).z - (P.mirror.pos (P.mirrorSite s)).z = _
    rw [m3, k3]; rfl
  rw [ey, ez, hper]
  constructor
  · intro e
    have e1 := congrArg Coord.x e
    have e2 := congrArg Coord.y e
    have e3 := congrArg Coord.z e
    ext
    · exact key.1 e1
    · exact e2
    · exact e3
  · intro e
    have e1 := congrArg Coord.x e
    have e2 := congrArg Coord.y e
    have e3 := congrArg Coord.z e
    ext
    · exact key.2 e1
    · exact e2
    · exact e3

/-! ### Axes exchanged: swapXY -/

theorem swapXY_wf (hP : P.map.WF) : P.swapXY.map.WF := by
  obtain ⟨h0, hA, hB, hC⟩ := hP
  have h0 : 0 < P.swapXY.map.nBasis := by
    show 0 < (P.basis.map _).length
    rw [List.length_map]
    exact h0
  exact ⟨h0, hB, hA, hC⟩

theorem swapXY_basis (hb : P.BasisOk) : P.swapXY.BasisOk := by
  intro c hc
  obtain ⟨a, ha, rfl⟩ := List.mem_map.1 hc
  obtain ⟨h1, h2, h3⟩ := hb a ha
  exact ⟨h2, h1, h3⟩

theorem swapXY_distinct (h : P.basis.Nodup) : P.swapXY.basis.Nodup := by
  refine List.Nodup.map ?_ h
  intro a b e
  have ex := congrArg Coord.x e
  have ey := congrArg Coord.y e
  have ez := congrArg Coord.z e
  ext
  · exact ey
  · exact ex
  · exact ez

theorem swapXY_valid (hP : P.map.WF) {s : Nat} (hs : s < P.map.nSites) : Spec.Address.Valid P.swapXY.map
    ⟨P.map.cellB s, P.map.cellA s, P.map.cellC s, P.map.basisSite s⟩ := by
  obtain ⟨v1, v2, v3, v4⟩ := P.map.addr_valid hP s hs
  refine ⟨v2, v1, v3, ?_⟩
  show _ < (P.basis.map _).length
  rw [List.length_map]
  exact v4

theorem swapXY_cells (hP : P.map.WF) {s : Nat} (hs : s < P.map.nSites) :
    P.swapXY.map.cellA (P.swapXYSite s) = P.map.cellB s ∧ P.swapXY.map.cellB (P.swapXYSite s) = P.map.cellA s ∧
      P.swapXY.map.cellC (P.swapXYSite s) = P.map.cellC s ∧ P.swapXY.map.basisSite (P.swapXYSite s) = P.map.basisSite s := by
  have := P.swapXY.map.addr_siteNo _ (swapXY_valid hP hs)
  exact ⟨congrArg Spec.Address.a this, congrArg Spec.Address.b this, congrArg Spec.Address.c this, congrArg Spec.Address.l this⟩

theorem swapXY_pos (hP : P.map.WF) {s : Nat} (hs : s < P.map.nSites) :
    P.swapXY.pos (P.swapXYSite s) = (P.pos s).swapXY := by
  obtain ⟨c1, c2, c3, c4⟩ := swapXY_cells hP hs
  obtain ⟨-, -, -, v4⟩ := P.map.addr_valid hP s hs
  have v4 : P.map.basisSite s < P.basis.length := v4
  have eb : P.swapXY.basis.getD (P.map.basisSite s) 0 = (P.basis.getD (P.map.basisSite s) 0).swapXY := by
    unfold swapXY
    rw [List.getD_eq_getElem?_getD, List.getD_eq_getElem?_getD, List.getElem?_map, List.getElem?_eq_getElem v4]
    rfl
  unfold pos
  rw [c1, c2, c3, c4, eb]
  rfl

theorem swapXY_size : P.swapXY.map.nSites = P.map.nSites := by
  unfold swapXY PyLattice.map LatticeMap.nSites
  dsimp only
  rw [List.length_map]
  ring

theorem swapXY_siteMap (hP : P.map.WF) : P.SiteMap P.swapXY P.swapXYSite where
  size := swapXY_size
  lt := fun s hs => by rw [← swapXY_size]; exact P.swapXY.map.siteNo_lt _ (swapXY_valid hP hs)
  inj := by
    intro s hs t ht e
    obtain ⟨c1, c2, c3, c4⟩ := swapXY_cells hP hs
    obtain ⟨d1, d2, d3, d4⟩ := swapXY_cells hP ht
    rw [e] at c1 c2 c3 c4
    have e4 := c4.symm.trans d4
    have e3 := c3.symm.trans d3
    have e2 := c2.symm.trans d2
    have e1 := c1.symm.trans d1
    rw [← P.map.siteNo_addr s, ← P.map.siteNo_addr t]
    congr 1
    show Spec.Address.mk _ _ _ _ = Spec.Address.mk _ _ _ _
    rw [e1, e2, e3, e4]

/-- The images of sites have the displacement with the components exchanged. -/
theorem swapXY_carries (hP : P.map.WF) (b : Nat) (d : Coord K) : P.Carries P.swapXY P.swapXYSite Coord.swapXY b d := by
  intro s hs t ht _
  have hP' := swapXY_wf hP
  have hs' : P.swapXYSite s < P.swapXY.map.nSites := by rw [swapXY_size]; exact (swapXY_siteMap hP).lt s hs
  have ht' : P.swapXYSite t < P.swapXY.map.nSites := by rw [swapXY_size]; exact (swapXY_siteMap hP).lt t ht
  rw [at_iff hP' hs' ht', at_iff hP hs ht]
  unfold rel
  rw [swapXY_pos hP hs, swapXY_pos hP ht]
  have : P.swapXY.map.wrap ((P.pos t).swapXY - (P.pos s).swapXY) = (P.map.wrap (P.pos t - P.pos s)).swapXY := rfl
  rw [this]
  constructor
  · intro e
    have e1 := congrArg Coord.x e
    have e2 := congrArg Coord.y e
    have e3 := congrArg Coord.z e
    ext
    · exact e2
    · exact e1
    · exact e3
  · intro e
    rw [e]

/-! ### Axes exchanged: swapYZ -/

theorem swapYZ_wf (hP : P.map.WF) : P.swapYZ.map.WF := by
  obtain ⟨h0, hA, hB, hC⟩ := hP
  have h0 : 0 < P.swapYZ.map.nBasis := by
    show 0 < (P.basis.map _).length
    rw [List.length_map]
    exact h0
  exact ⟨h0, hA, hC, hB⟩

theorem swapYZ_basis (hb : P.BasisOk) : P.swapYZ.BasisOk := by
  intro c hc
  obtain ⟨a, ha, rfl⟩ := List.mem_map.1 hc
  obtain ⟨h1, h2, h3⟩ := hb a ha
  exact ⟨h1, h3, h2⟩

theorem swapYZ_distinct (h : P.basis.Nodup) : P.swapYZ.basis.Nodup := by
  refine List.Nodup.map ?_ h
  intro a b e
  have ex := congrArg Coord.x e
  have ey := congrArg Coord.y e
  have ez := congrArg Coord.z e
  ext
  · exact ex
  · exact ez
  · exact ey

theorem swapYZ_valid (hP : P.map.WF) {s : Nat} (hs : s < P.map.nSites) : Spec.Address.Valid P.swapYZ.map
    ⟨P.map.cellA s, P.map.cellC s, P.map.cellB s, P.map.basisSite s⟩ := by
  obtain ⟨v1, v2, v3, v4⟩ := P.map.addr_valid hP s hs
  refine ⟨v1, v3, v2, ?_⟩
  show _ < (P.basis.map _).length
  rw [List.length_map]
  exact v4

theorem swapYZ_cells (hP : P.map.WF) {s : Nat} (hs : s < P.map.nSites) :
    P.swapYZ.map.cellA (P.swapYZSite s) = P.map.cellA s ∧ P.swapYZ.map.cellB (P.swapYZSite s) = P.map.cellC s ∧
      P.swapYZ.map.cellC (P.swapYZSite s) = P.map.cellB s ∧ P.swapYZ.map.basisSite (P.swapYZSite s) = P.map.basisSite s := by
  have := P.swapYZ.map.addr_siteNo _ (swapYZ_valid hP hs)
  exact ⟨congrArg Spec.Address.a this, congrArg Spec.Address.b this, congrArg Spec.Address.c this, congrArg Spec.Address.l this⟩

theorem swapYZ_pos (hP : P.map.WF) {s : Nat} (hs : s < P.map.nSites) :
    P.swapYZ.pos (P.swapYZSite s) = (P.pos s).swapYZ := by
  obtain ⟨c1, c2, c3, c4⟩ := swapYZ_cells hP hs
  obtain ⟨-, -, -, v4⟩ := P.map.addr_valid hP s hs
  have v4 : P.map.basisSite s < P.basis.length := v4
  have eb : P.swapYZ.basis.getD (P.map.basisSite s) 0 = (P.basis.getD (P.map.basisSite s) 0).swapYZ := by
    unfold swapYZ
    rw [List.getD_eq_getElem?_getD, List.getD_eq_getElem?_getD, List.getElem?_map, List.getElem?_eq_getElem v4]
    rfl
  unfold pos
  rw [c1, c2, c3, c4, eb]
  rfl

theorem swapYZ_size : P.swapYZ.map.nSites = P.map.nSites := by
  unfold swapYZ PyLattice.map LatticeMap.nSites
  dsimp only
  rw [List.length_map]
  ring

theorem swapYZ_siteMap (hP : P.map.WF) : P.SiteMap P.swapYZ P.swapYZSite where
  size := swapYZ_size
  lt := fun s hs => by rw [← swapYZ_size]; exact P.swapYZ.map.siteNo_lt _ (swapYZ_valid hP hs)
  inj := by
    intro s hs t ht e
    obtain ⟨c1, c2, c3, c4⟩ := swapYZ_cells hP hs
    obtain ⟨d1, d2, d3, d4⟩ := swapYZ_cells hP ht
    rw [e] at c1 c2 c3 c4
    have e4 := c4.symm.trans d4
    have e3 := c3.symm.trans d3
    have e2 := c2.symm.trans d2
    have e1 := c1.symm.trans d1
    rw [← P.map.siteNo_addr s, ← P.map.siteNo_addr t]
    congr 1
    show Spec.Address.mk _ _ _ _ = Spec.Address.mk _ _ _ _
    rw [e1, e2, e3, e4]

/-- The images of sites have the displacement with the components exchanged. -/
theorem swapYZ_carries (hP : P.map.WF) (b : Nat) (d : Coord K) : P.Carries P.swapYZ P.swapYZSite Coord.swapYZ b d := by
  intro s hs t ht _
  have hP' := swapYZ_wf hP
  have hs' : P.swapYZSite s < P.swapYZ.map.nSites := by rw [swapYZ_size]; exact (swapYZ_siteMap hP).lt s hs
  have ht' : P.swapYZSite t < P.swapYZ.map.nSites := by rw [swapYZ_size]; exact (swapYZ_siteMap hP).lt t ht
  rw [at_iff hP' hs' ht', at_iff hP hs ht]
  unfold rel
  rw [swapYZ_pos hP hs, swapYZ_pos hP ht]
  have : P.swapYZ.map.wrap ((P.pos t).swapYZ - (P.pos s).swapYZ) = (P.map.wrap (P.pos t - P.pos s)).swapYZ := rfl
  rw [this]
  constructor
  · intro e
    have e1 := congrArg Coord.x e
    have e2 := congrArg Coord.y e
    have e3 := congrArg Coord.z e
    ext
    · exact e1
    · exact e3
    · exact e2
  · intro e
    rw [e]

end PyLattice
end KMC
