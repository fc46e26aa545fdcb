import Mathlib.Algebra.Order.Floor.Ring
import Mathlib.Tactic.LinearCombination
import Mathlib.Tactic.FieldSimp
import Verif.Lemmas.Environment
import Verif.Model.PyUnitCell

/-!
# C53: the lattices that the front end accepts

What a unit cell and a lattice must satisfy to be accepted, and what the sites of an accepted lattice are.
-/

namespace KMC

open Spec

section
variable {K : Type _} [Field K] [LinearOrder K]

/-- The rows of a list of coordinates. -/
def rowsOf (l : List (Coord K)) : List (List K) := l.map fun p => [p.x, p.y, p.z]

omit [Field K] [LinearOrder K] in
theorem PyUnitCell.checkCoordinate_ok {row : List K} {p : Coord K} :
    PyUnitCell.checkCoordinate row = .ok p ↔ row = [p.x, p.y, p.z] := by
  unfold PyUnitCell.checkCoordinate
  split
  · constructor
    · intro h; obtain rfl := Except.ok.inj h; rfl
    · intro h
      simp only [List.cons.injEq, and_true] at h
      obtain ⟨rfl, rfl, rfl⟩ := h
      rfl
  · next h =>
    constructor
    · intro h'; cases h'
    · intro h'; exact (h _ _ _ h').elim

omit [Field K] [LinearOrder K] in
theorem PyUnitCell.checkCoordinateList_ok {rows : List (List K)} {l : List (Coord K)} :
    PyUnitCell.checkCoordinateList rows = .ok l ↔ l ≠ [] ∧ rows = rowsOf l := by
  have key : ∀ (rows : List (List K)) (l : List (Coord K)),
      mapMM PyUnitCell.checkCoordinate rows = .ok l ↔ rows = rowsOf l := by
    intro rows l
    rw [mapMM_ok_iff]
    induction rows generalizing l with
    | nil => cases l <;> simp [rowsOf]
    | cons r rows ih =>
      cases l with
      | nil => simp [rowsOf]
      | cons p l =>
        rw [List.forall₂_cons, ih]
        simp [rowsOf, PyUnitCell.checkCoordinate_ok]
  unfold PyUnitCell.checkCoordinateList
  by_cases h : rows.length < 1
  · rw [if_pos h]
    constructor
    · intro h'; cases h'
    · rintro ⟨h1, rfl⟩
      cases l with
      | nil => exact (h1 rfl).elim
      | cons => simp [rowsOf] at h
  · rw [if_neg h]
    have e : (do let _ ← (pure PUnit.unit : M PUnit); mapMM PyUnitCell.checkCoordinate rows)
        = mapMM PyUnitCell.checkCoordinate rows := rfl
    rw [e, key]
    constructor
    · rintro rfl
      refine ⟨?_, rfl⟩
      rintro rfl
      simp [rowsOf] at h
    · exact fun h => h.2

/-- C53. The unit cells that are accepted: three cell vectors with a determinant of at least 1/100000, and at least one
basis point, each with coordinates in [0, 1). The cell is kept as given. -/
theorem C53_unit_cell (cell basis : List (List K)) (u : PyUnitCell K) :
    PyUnitCell.make cell basis = .ok u ↔
      cell = [[u.a.x, u.a.y, u.a.z], [u.b.x, u.b.y, u.b.z], [u.c.x, u.c.y, u.c.z]] ∧
      basis = u.basis.map (fun p => [p.x, p.y, p.z]) ∧ u.basis ≠ [] ∧
      1 / 100000 ≤ u.a.x * (u.b.y * u.c.z - u.b.z * u.c.y) + u.a.y * (u.b.z * u.c.x - u.b.x * u.c.z)
        + u.a.z * (u.b.x * u.c.y - u.b.y * u.c.x) ∧
      ∀ p ∈ u.basis, ∀ v ∈ [p.x, p.y, p.z], 0 ≤ v ∧ v < 1 := by
  have hdet : ∀ a b c : Coord K, PyUnitCell.determinant a b c =
      a.x * (b.y * c.z - b.z * c.y) + a.y * (b.z * c.x - b.x * c.z) + a.z * (b.x * c.y - b.y * c.x) := by
    intro a b c
    unfold PyUnitCell.determinant
    ring
  have hcell : ∀ a b c : Coord K, PyUnitCell.checkCellVectors cell = .ok (a, b, c) ↔
      cell = rowsOf [a, b, c] ∧ ¬ PyUnitCell.determinant a b c < 1 / 100000 := by
    intro a b c
    unfold PyUnitCell.checkCellVectors
    rw [bind_ok]
    constructor
    · rintro ⟨l, h1, h2⟩
      rw [PyUnitCell.checkCoordinateList_ok] at h1
      split at h2
      · split at h2
        · cases h2
        · next h =>
          have := Except.ok.inj h2
          simp only [Prod.mk.injEq] at this
          obtain ⟨rfl, rfl, rfl⟩ := this
          exact ⟨h1.2, h⟩
      · cases h2
    · rintro ⟨h1, h2⟩
      exact ⟨[a, b, c], PyUnitCell.checkCoordinateList_ok.2 ⟨by simp, h1⟩, if_neg h2⟩
  have hfrac : ∀ l : List (Coord K), l.all PyUnitCell.fractional = true ↔
      ∀ p ∈ l, ∀ v ∈ [p.x, p.y, p.z], 0 ≤ v ∧ v < 1 := by
    intro l
    simp only [List.all_eq_true, PyUnitCell.fractional, Bool.and_eq_true, decide_eq_true_eq, ge_iff_le, and_comm]
  unfold PyUnitCell.make
  rw [bind_ok]
  constructor
  · rintro ⟨⟨a, b, c⟩, h1, h⟩
    obtain ⟨l, h2, h⟩ := bind_ok.1 h
    rw [hcell] at h1
    rw [PyUnitCell.checkCoordinateList_ok] at h2
    split at h
    · cases h
    · next hf =>
      obtain rfl := Except.ok.inj h
      rw [Bool.not_eq_false, hfrac] at hf
      refine ⟨h1.1, h2.2, h2.1, ?_, hf⟩
      have := h1.2
      rw [hdet, not_lt] at this
      exact this
  · rintro ⟨h1, h2, h3, h4, h5⟩
    refine ⟨(u.a, u.b, u.c), (hcell _ _ _).2 ⟨h1, ?_⟩, bind_ok.2 ⟨u.basis, ?_, ?_⟩⟩
    · rw [hdet, not_lt]; exact h4
    · exact PyUnitCell.checkCoordinateList_ok.2 ⟨h3, h2⟩
    · rw [if_neg (by rw [Bool.not_eq_false, hfrac]; exact h5)]
      rfl

omit [Field K] [LinearOrder K] in
/-- C53. The lattices that are accepted: three repetitions, each at least one, and three flags. Left out, the repetitions
are one and every direction is periodic. The basis is that of the unit cell. -/
theorem C53_lattice (u : PyUnitCell K) (rep : Option (List Int)) (per : Option (List Bool)) (P : PyLattice K) :
    PyLattice.make u rep per = .ok P ↔
      rep.getD [1, 1, 1] = [(P.repA : Int), (P.repB : Int), (P.repC : Int)] ∧
      (1 ≤ P.repA ∧ 1 ≤ P.repB ∧ 1 ≤ P.repC) ∧
      per.getD [true, true, true] = [P.perA, P.perB, P.perC] ∧ P.basis = u.basis := by
  have hr : ∀ x : Nat × Nat × Nat, PyLattice.checkRepetitions rep = .ok x ↔
      rep.getD [1, 1, 1] = [(x.1 : Int), (x.2.1 : Int), (x.2.2 : Int)] ∧ (1 ≤ x.1 ∧ 1 ≤ x.2.1 ∧ 1 ≤ x.2.2) := by
    intro x
    unfold PyLattice.checkRepetitions
    split
    · simp only [Option.getD_none, List.cons.injEq, and_true]
      constructor
      · intro h; obtain rfl := Except.ok.inj h; simp
      · rintro ⟨⟨h1, h2, h3⟩, -⟩
        congr 1
        ext <;> simp <;> omega
    · simp only [Option.getD_some, List.cons.injEq, and_true]
      split
      · constructor
        · intro h; cases h
        · rintro ⟨⟨h1, h2, h3⟩, h4⟩; omega
      · constructor
        · intro h
          obtain rfl := Except.ok.inj h
          simp only
          omega
        · rintro ⟨⟨h1, h2, h3⟩, h4⟩
          congr 1
          ext <;> simp <;> omega
    · next l h =>
      constructor
      · intro h'; cases h'
      · rintro ⟨h1, -⟩
        exact (h _ _ _ h1).elim
  have hp : ∀ x : Bool × Bool × Bool, PyLattice.checkPeriodic per = .ok x ↔
      per.getD [true, true, true] = [x.1, x.2.1, x.2.2] := by
    intro x
    unfold PyLattice.checkPeriodic
    split
    · simp only [Option.getD_none, List.cons.injEq, and_true]
      constructor
      · intro h; obtain rfl := Except.ok.inj h; simp
      · rintro ⟨h1, h2, h3⟩
        congr 1
        ext <;> simp_all
    · simp only [Option.getD_some, List.cons.injEq, and_true]
      constructor
      · intro h; obtain rfl := Except.ok.inj h; simp
      · rintro ⟨rfl, rfl, rfl⟩; rfl
    · next l h =>
      constructor
      · intro h'; cases h'
      · intro h1
        exact (h _ _ _ h1).elim
  unfold PyLattice.make
  rw [bind_ok]
  constructor
  · rintro ⟨x, h1, h⟩
    obtain ⟨y, h2, h⟩ := bind_ok.1 h
    obtain rfl := Except.ok.inj h
    rw [hr] at h1
    rw [hp] at h2
    exact ⟨h1.1, h1.2, h2, rfl⟩
  · rintro ⟨h1, h2, h3, h4⟩
    refine ⟨(P.repA, P.repB, P.repC), (hr _).2 ⟨h1, h2⟩, bind_ok.2 ⟨(P.perA, P.perB, P.perC), (hp _).2 h3, ?_⟩⟩
    cases P
    simp only at h4
    subst h4
    rfl

end

section
variable {K : Type _} [Field K] [LinearOrder K] [IsStrictOrderedRing K]

/-- A lattice accepted by the front end. -/
def Accepted (P : PyLattice K) (u : PyUnitCell K) : Prop :=
  ∃ cell basis rep per, PyUnitCell.make cell basis = .ok u ∧ PyLattice.make u rep per = .ok P

omit [IsStrictOrderedRing K] in
/-- C53. An accepted lattice satisfies the assumptions of the theorems on lattices. -/
theorem C53_assumptions {P : PyLattice K} {u : PyUnitCell K} (h : Accepted P u) : P.map.WF ∧ P.BasisOk := by
  obtain ⟨cell, basis, rep, per, h1, h2⟩ := h
  obtain ⟨-, -, hb, -, hf⟩ := (C53_unit_cell _ _ _).1 h1
  obtain ⟨-, ⟨r1, r2, r3⟩, -, hbasis⟩ := (C53_lattice _ _ _ _).1 h2
  constructor
  · refine ⟨?_, r1, r2, r3⟩
    show 0 < P.basis.length
    rw [hbasis]
    exact List.length_pos_iff.2 hb
  · intro b hm
    rw [hbasis] at hm
    have := hf b hm
    simpa using this

/-- C53. The sites of an accepted lattice: there are as many as cells times basis points, each cell and basis point has
one at the number given by `_globalIndex`, and the cell of a site is read off its coordinates. -/
theorem C53_sites [FloorRing K] {P : PyLattice K} {u : PyUnitCell K} (h : Accepted P u) :
    P.sites.length = P.repA * P.repB * P.repC * u.basis.length ∧ 0 < P.sites.length ∧
    (∀ i j k b p, i < P.repA → j < P.repB → k < P.repC → u.basis[b]? = some p →
      ∃ s, P.sites[P.globalIndex i j k b]? = some s ∧ (⌊s.x⌋ = i ∧ ⌊s.y⌋ = j ∧ ⌊s.z⌋ = k) ∧
        (Int.fract s.x = p.x ∧ Int.fract s.y = p.y ∧ Int.fract s.z = p.z)) ∧
    ∀ n < P.sites.length, ∃ i j k b, i < P.repA ∧ j < P.repB ∧ k < P.repC ∧ b < u.basis.length ∧
      n = P.globalIndex i j k b := by
  obtain ⟨hw, hb⟩ := C53_assumptions h
  obtain ⟨cell, basis, rep, per, h1, h2⟩ := h
  obtain ⟨-, -, -, hbasis⟩ := (C53_lattice _ _ _ _).1 h2
  have hlen : P.sites.length = P.repA * P.repB * P.repC * u.basis.length := by
    rw [P.length_sites, ← hbasis]
    rfl
  refine ⟨hlen, ?_, ?_, ?_⟩
  · rw [hlen, ← hbasis]
    exact Nat.mul_pos (Nat.mul_pos (Nat.mul_pos hw.2.1 hw.2.2.1) hw.2.2.2) hw.1
  · intro i j k b p hi hj hk hp
    rw [← hbasis] at hp
    have hs := P.getElem?_sites i j k b hi hj hk (List.getElem?_eq_some_iff.1 hp).1
    rw [hp, Option.map_some] at hs
    refine ⟨_, hs, ?_⟩
    have key : ∀ (v : K) (m : Nat), 0 ≤ v ∧ v < 1 → ⌊v + (m : K)⌋ = (m : Int) ∧ Int.fract (v + (m : K)) = v := by
      intro v m hv
      have e : ⌊v + (m : K)⌋ = (m : Int) := by
        rw [Int.floor_eq_iff]
        push_cast
        constructor <;> linarith [hv.1, hv.2]
      refine ⟨e, ?_⟩
      rw [Int.fract, e]
      push_cast
      ring
    obtain ⟨bx, by', bz⟩ := hb p (List.mem_of_getElem? hp)
    have kx := key p.x i bx
    have ky := key p.y j by'
    have kz := key p.z k bz
    exact ⟨⟨kx.1, ky.1, kz.1⟩, kx.2, ky.2, kz.2⟩
  · intro n hn
    rw [P.length_sites] at hn
    have hv := P.map.addr_valid hw n hn
    refine ⟨_, _, _, (P.map.addr n).l, hv.1, hv.2.1, hv.2.2.1, ?_, ?_⟩
    · rw [← hbasis]; exact hv.2.2.2
    · rw [P.globalIndex_eq_siteNo]
      exact (P.map.siteNo_addr n).symm

/-- C53. The sites of an accepted lattice are at different places exactly if the basis points are. -/
theorem C53_distinct {P : PyLattice K} {u : PyUnitCell K} (h : Accepted P u) : P.sites.Nodup ↔ u.basis.Nodup := by
  obtain ⟨hw, hb⟩ := C53_assumptions h
  obtain ⟨cell, basis, rep, per, h1, h2⟩ := h
  obtain ⟨-, ⟨r1, r2, r3⟩, -, hbasis⟩ := (C53_lattice _ _ _ _).1 h2
  rw [← hbasis]
  constructor
  · intro hs
    rw [List.nodup_iff_injective_getElem]
    intro x y hxy
    have hg : ∀ b < P.basis.length, P.sites[b]? = P.basis[b]?.map (fun c => c + ⟨0, 0, 0⟩) := by
      intro b hb
      have := P.getElem?_sites 0 0 0 b r1 r2 r3 hb
      simpa [PyLattice.globalIndex] using this
    have e : P.sites[x.1]? = P.sites[y.1]? := by
      rw [hg _ x.2, hg _ y.2, List.getElem?_eq_getElem x.2, List.getElem?_eq_getElem y.2]
      exact congrArg (fun c => some (c + (⟨0, 0, 0⟩ : Coord K))) hxy
    have hl : P.basis.length ≤ P.sites.length := by
      rw [P.length_sites]
      show _ ≤ P.repA * P.repB * P.repC * P.basis.length
      exact Nat.le_mul_of_pos_left _ (Nat.mul_pos (Nat.mul_pos r1 r2) r3)
    have hx : x.1 < P.sites.length := lt_of_lt_of_le x.2 hl
    have hy : y.1 < P.sites.length := lt_of_lt_of_le y.2 hl
    rw [List.getElem?_eq_getElem hx, List.getElem?_eq_getElem hy, Option.some.injEq] at e
    exact Fin.ext (hs.getElem_inj_iff.1 e)
  · intro hnd
    rw [List.nodup_iff_injective_getElem]
    intro x y hxy
    apply Fin.ext
    refine P.wrap_eq_zero hw hb hnd (p := P.sites[x.1]) (q := P.sites[y.1]) (List.getElem?_eq_getElem x.2)
      (List.getElem?_eq_getElem y.2) ?_
    have hxy : P.sites[x.1] = P.sites[y.1] := hxy
    rw [hxy]
    have hz : P.sites[y.1] - P.sites[y.1] = (0 : Coord K) := by
      ext <;> exact sub_self _
    rw [hz]
    have hw0 : ∀ rep : Nat, 0 < rep → LatticeMap.wrapComp rep (0 : K) = 0 := by
      intro rep hr
      have hR : (0 : K) < rep := by exact_mod_cast hr
      unfold LatticeMap.wrapComp
      rw [if_neg (by linarith), if_neg (by linarith)]
    have e0 : (0 : Coord K).x = 0 ∧ (0 : Coord K).y = 0 ∧ (0 : Coord K).z = 0 := ⟨rfl, rfl, rfl⟩
    unfold LatticeMap.wrap
    rw [e0.1, e0.2.1, e0.2.2]
    ext <;> simp [PyLattice.map, hw0 _ r1, hw0 _ r2, hw0 _ r3]

/-- C53. Different fractional coordinates are different places in space: the cell vectors of an accepted unit cell are
linearly independent. -/
theorem C53_cartesian {cell basis : List (List K)} {u : PyUnitCell K} (h : PyUnitCell.make cell basis = .ok u)
    (r s : Coord K) : u.toCartesian r = u.toCartesian s ↔ r = s := by
  constructor
  swap
  · rintro rfl; rfl
  intro hrs
  obtain ⟨-, -, -, hd, -⟩ := (C53_unit_cell _ _ _).1 h
  have hpos : (0 : K) < 1 / 100000 := by norm_num
  have hne := (lt_of_lt_of_le hpos hd).ne'
  have ex := congrArg Coord.x hrs
  have ey := congrArg Coord.y hrs
  have ez := congrArg Coord.z hrs
  simp only [PyUnitCell.toCartesian] at ex ey ez
  ext
  · refine sub_eq_zero.1 ((mul_eq_zero.1 (?_ : (r.x - s.x) * _ = 0)).resolve_right hne)
    linear_combination (u.b.y * u.c.z - u.b.z * u.c.y) * ex + (u.b.z * u.c.x - u.b.x * u.c.z) * ey
      + (u.b.x * u.c.y - u.b.y * u.c.x) * ez
  · refine sub_eq_zero.1 ((mul_eq_zero.1 (?_ : (r.y - s.y) * _ = 0)).resolve_right hne)
    linear_combination (u.c.y * u.a.z - u.c.z * u.a.y) * ex + (u.c.z * u.a.x - u.c.x * u.a.z) * ey
      + (u.c.x * u.a.y - u.c.y * u.a.x) * ez
  · refine sub_eq_zero.1 ((mul_eq_zero.1 (?_ : (r.z - s.z) * _ = 0)).resolve_right hne)
    linear_combination (u.a.y * u.b.z - u.a.z * u.b.y) * ex + (u.a.z * u.b.x - u.a.x * u.b.z) * ey
      + (u.a.x * u.b.y - u.a.y * u.b.x) * ez

end

/-! ### Where the check is too strict or too weak -/

/-- C53. Three orthogonal vectors of unit length are rejected as linearly dependent if they are left-handed, and so are
three orthogonal vectors of length 1/100. -/
theorem C53_independent_rejected :
    PyUnitCell.make (K := ℚ) [[0, 1, 0], [1, 0, 0], [0, 0, 1]] [[0, 0, 0]] = .error .exception ∧
    PyUnitCell.make (K := ℚ) [[1 / 100, 0, 0], [0, 1 / 100, 0], [0, 0, 1 / 100]] [[0, 0, 0]] = .error .exception := by
  decide +kernel

/-- C53. A basis point given twice is accepted, and gives two sites at the same place. -/
theorem C53_coinciding_accepted :
    (do
      let u ← PyUnitCell.make (K := ℚ) [[1, 0, 0], [0, 1, 0], [0, 0, 1]] [[0, 0, 0], [0, 0, 0]]
      let P ← PyLattice.make u none none
      return P.sites) = .ok [⟨0, 0, 0⟩, ⟨0, 0, 0⟩] := by
  decide +kernel

/-- Non-vacuity: an accepted lattice of six cells with two sites each. -/
example : ∃ (P : PyLattice ℚ) (u : PyUnitCell ℚ), Accepted P u ∧ u.basis.Nodup ∧ P.sites.length = 12 := by
  obtain ⟨u, hu, h1⟩ : ∃ u, PyUnitCell.make (K := ℚ) [[2, 0, 0], [1, 1, 0], [0, 0, 1]] [[0, 0, 0], [1 / 2, 1 / 2, 0]]
      = .ok u ∧ u.basis.Nodup := ⟨⟨⟨2, 0, 0⟩, ⟨1, 1, 0⟩, ⟨0, 0, 1⟩, [⟨0, 0, 0⟩, ⟨1 / 2, 1 / 2, 0⟩]⟩, by decide +kernel,
        by decide +kernel⟩
  refine ⟨⟨u.basis, 3, 2, 1, true, true, false⟩, u, ⟨_, _, some [3, 2, 1], some [true, true, false], hu, rfl⟩, h1, ?_⟩
  obtain ⟨e, -⟩ := C53_sites (P := ⟨u.basis, 3, 2, 1, true, true, false⟩) (u := u)
    ⟨_, _, some [3, 2, 1], some [true, true, false], hu, rfl⟩
  rw [e]
  obtain ⟨-, e2, -⟩ := (C53_unit_cell _ _ _).1 hu
  have := congrArg List.length e2
  simp only [List.length_cons, List.length_nil, List.length_map] at this
  rw [← this]
  rfl

end KMC
