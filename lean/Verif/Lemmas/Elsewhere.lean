import Verif.Lemmas.Prepare
import Verif.Lemmas.Reverse
import Verif.Spec.Elsewhere

/-!
# Displacements between sites, and processes around different central sites
-/

set_option linter.unusedSectionVars false

namespace KMC

variable {K : Type _} [Field K] [LinearOrder K] [IsStrictOrderedRing K]

theorem wrapAxis_shift (per : Bool) (rep : Nat) (x : K) :
    ∃ m : Int, (per = false → m = 0) ∧ wrapAxis per rep x = x + m * rep := by
  unfold wrapAxis
  cases per
  · exact ⟨0, fun _ => rfl, by simp⟩
  · simp only [if_true]
    unfold LatticeMap.wrapComp
    dsimp only
    split_ifs
    · exact ⟨-1, (fun h => absurd h (by simp)), (by push_cast; ring)⟩
    · exact ⟨1, (fun h => absurd h (by simp)), (by push_cast; ring)⟩
    · exact ⟨0, (fun h => absurd h (by simp)), (by push_cast; ring)⟩

/-- Positions in a box that differ by whole boxes are the same. -/
theorem same_in_box {rep : Nat} {x y : K} (hx : 0 ≤ x ∧ x < rep) (hy : 0 ≤ y ∧ y < rep) {m : Int}
    (h : x - y = m * rep) : x = y := by
  have hm : m = 0 := by
    have h1 : (m : K) * rep < 1 * rep := by rw [← h]; linarith
    have h2 : (-1 : K) * rep < m * rep := by rw [← h]; linarith
    have hr : (0 : K) < rep := by linarith
    have h1 := lt_of_mul_lt_mul_right h1 hr.le
    have h2 := lt_of_mul_lt_mul_right h2 hr.le
    have h1 : m < 1 := by exact_mod_cast h1
    have h2 : -1 < m := by exact_mod_cast h2
    omega
  rw [hm] at h
  simp at h
  linarith

namespace PyLattice
variable {P : PyLattice K}

theorem pos_range (hP : P.map.WF) (hb : P.BasisOk) {t : Nat} (ht : t < P.map.nSites) :
    (0 ≤ (P.pos t).x ∧ (P.pos t).x < P.repA) ∧ (0 ≤ (P.pos t).y ∧ (P.pos t).y < P.repB) ∧
      (0 ≤ (P.pos t).z ∧ (P.pos t).z < P.repC) := by
  obtain ⟨v1, v2, v3, -⟩ := P.map.addr_valid hP t ht
  have r := P.getD_basis_range hb (P.map.basisSite t)
  simp only at r
  have e : ∀ (a : K) (c rep : Nat), 0 ≤ a ∧ a < 1 → c < rep → 0 ≤ a + (c : K) ∧ a + (c : K) < rep := by
    intro a c rep h1 h2
    have h3 : (c : K) + 1 ≤ rep := by exact_mod_cast h2
    have h4 : (0 : K) ≤ c := by positivity
    constructor <;> linarith [h1.1, h1.2]
  exact ⟨e _ _ _ r.1 v1, e _ _ _ r.2.1 v2, e _ _ _ r.2.2 v3⟩

theorem pos_inj (hP : P.map.WF) (hb : P.BasisOk) (hnd : P.basis.Nodup) {t t' : Nat} (ht : t < P.map.nSites)
    (ht' : t' < P.map.nSites) (h : P.pos t = P.pos t') : t = t' :=
  P.rel_inj hP hb hnd ht ht ht' (by unfold rel; rw [h])

/-- A place seen from one site and the same place seen from another site are the same site. -/
theorem rel_chain (hP : P.map.WF) (hb : P.BasisOk) (hnd : P.basis.Nodup) {s s' t t' : Nat} (ht : t < P.map.nSites)
    (ht' : t' < P.map.nSites) {c δ : Coord K} (h1 : P.rel s s' = δ) (h2 : P.rel s t = c) (h3 : P.rel s' t' = c - δ) :
    t = t' := by
  obtain ⟨a1, a2, a3⟩ := pos_range hP hb ht
  obtain ⟨b1, b2, b3⟩ := pos_range hP hb ht'
  have key : ∀ (per : Bool) (rep : Nat) (x x' y y' c δ : K), 0 ≤ y ∧ y < rep → 0 ≤ y' ∧ y' < rep →
      wrapAxis per rep (x' - x) = δ → wrapAxis per rep (y - x) = c → wrapAxis per rep (y' - x') = c - δ → y = y' := by
    intro per rep x x' y y' c δ hy hy' e1 e2 e3
    obtain ⟨m1, -, f1⟩ := wrapAxis_shift per rep (x' - x)
    obtain ⟨m2, -, f2⟩ := wrapAxis_shift per rep (y - x)
    obtain ⟨m3, -, f3⟩ := wrapAxis_shift per rep (y' - x')
    refine same_in_box hy hy' (m := m1 + m3 - m2) ?_
    push_cast
    linarith
  apply pos_inj hP hb hnd ht ht'
  unfold rel at h1 h2 h3
  rw [wrap_eq] at h1 h2 h3
  ext
  · exact key P.perA P.repA _ _ _ _ _ _ a1 b1 (congrArg Coord.x h1) (congrArg Coord.x h2) (congrArg Coord.x h3)
  · exact key P.perB P.repB _ _ _ _ _ _ a2 b2 (congrArg Coord.y h1) (congrArg Coord.y h2) (congrArg Coord.y h3)
  · exact key P.perC P.repC _ _ _ _ _ _ a3 b3 (congrArg Coord.z h1) (congrArg Coord.z h2) (congrArg Coord.z h3)

theorem at_iff (hP : P.map.WF) {s t : Nat} (hs : s < P.map.nSites) (ht : t < P.map.nSites) {d : Coord K} :
    P.At s d t ↔ P.rel s t = d := by
  constructor
  · rintro ⟨cs, ct, h1, h2, h3⟩
    rw [P.sites_eq_pos hP hs, Option.some.injEq] at h1
    rw [P.sites_eq_pos hP ht, Option.some.injEq] at h2
    rw [← h3, ← h1, ← h2]; rfl
  · intro h
    exact ⟨_, _, P.sites_eq_pos hP hs, P.sites_eq_pos hP ht, h⟩

theorem At.lt {s t : Nat} {d : Coord K} (h : P.At s d t) : s < P.map.nSites ∧ t < P.map.nSites := by
  obtain ⟨cs, ct, h1, h2, -⟩ := h
  rw [← P.length_sites]
  exact ⟨(List.getElem?_eq_some_iff.1 h1).1, (List.getElem?_eq_some_iff.1 h2).1⟩

/-- There is at most one site at a displacement. -/
theorem At.unique (hP : P.map.WF) (hb : P.BasisOk) (hnd : P.basis.Nodup) {s t t' : Nat} {d : Coord K} (h : P.At s d t)
    (h' : P.At s d t') : t = t' := by
  obtain ⟨h1, h2⟩ := h.lt
  obtain ⟨-, h3⟩ := h'.lt
  rw [at_iff hP h1 h2] at h
  rw [at_iff hP h1 h3] at h'
  exact P.rel_inj hP hb hnd h1 h2 h3 (h.trans h'.symm)

theorem Uniform.alike {r s s' : Nat} (h : P.Uniform r) (hP : P.map.WF) (hs : s < P.map.nSites) (hs' : s' < P.map.nSites)
    (hb : P.map.basisSite s = P.map.basisSite s') : P.Alike r s s' := by
  obtain ⟨v1, v2, v3, -⟩ := P.map.addr_valid hP s hs
  obtain ⟨w1, w2, w3, -⟩ := P.map.addr_valid hP s' hs'
  have e : ∀ (per : Bool) (rep c c' : Nat), (per = true ∧ r ≤ rep) ∨ rep = 1 → c < rep → c' < rep →
      AxisAlike per rep r c c' := by
    intro per rep c c' h h1 h2
    rcases h with h | h
    · exact .inr (.inl h)
    · exact .inl (by omega)
  exact ⟨hb, e _ _ _ _ h.1 v1 w1, e _ _ _ _ h.2.1 v2 w2, e _ _ _ _ h.2.2 v3 w3⟩

/-- Which kind of site is at a displacement. -/
theorem Joins.basis {b b' : Nat} {δ : Coord K} (h : P.Joins b b' δ) (hP : P.map.WF) (hb : P.BasisOk) (hnd : P.basis.Nodup)
    {s s' : Nat} (hs : P.map.basisSite s = b) (ha : P.At s δ s') : P.map.basisSite s' = b' := by
  obtain ⟨h1, h2⟩ := ha.lt
  rw [at_iff hP h1 h2] at ha
  obtain ⟨c, c', e1, e2, i, j, k, rfl⟩ := h
  have v := (P.map.addr_valid hP s' h2).2.2.2
  have v : P.map.basisSite s' < P.basis.length := v
  have r1 := hb _ (List.mem_of_getElem? e2)
  have r2 := hb _ (List.getElem_mem v)
  have ec : P.basis.getD (P.map.basisSite s) 0 = c := by
    rw [hs, List.getD_eq_getElem?_getD, e1]; rfl
  have ed : P.basis.getD (P.map.basisSite s') 0 = P.basis[P.map.basisSite s'] := by
    rw [List.getD_eq_getElem?_getD, List.getElem?_eq_getElem v]; rfl
  unfold rel pos at ha
  rw [wrap_eq, ec, ed] at ha
  have key : ∀ (per : Bool) (rep : Nat) (x c c' : K) (u v : Nat) (i : Int), 0 ≤ x ∧ x < 1 → 0 ≤ c' ∧ c' < 1 →
      wrapAxis per rep (x + u - (c + v)) = c' - c + i → x = c' := by
    intro per rep x c c' u v i hx hc e
    obtain ⟨m, -, f⟩ := wrapAxis_shift per rep (x + u - (c + v))
    have : x - c' = ((i - u + v - m * rep : Int) : K) * ((1 : Nat) : K) := by push_cast; linarith
    exact same_in_box (by simpa using hx) (by simpa using hc) this
  have he : P.basis[P.map.basisSite s'] = c' := by
    ext
    · exact key _ _ _ _ _ _ _ _ r2.1 r1.1 (congrArg Coord.x ha)
    · exact key _ _ _ _ _ _ _ _ r2.2.1 r1.2.1 (congrArg Coord.y ha)
    · exact key _ _ _ _ _ _ _ _ r2.2.2 r1.2.2 (congrArg Coord.z ha)
  obtain ⟨hl, hl'⟩ := List.getElem?_eq_some_iff.1 e2
  exact (List.Nodup.getElem_inj_iff hnd).1 (he.trans hl'.symm)

end PyLattice

/-- The prepared process, from the given one. -/
theorem prepared_update {env : Env K} {cfg cfg1 : Config K} {procs procs1 : List (Proc K)}
    (hw : env.implicitWildcards = true) (hp : Prepared env cfg procs cfg1 procs1) {j : Nat} {p p1 : Proc K}
    (hj : procs[j]? = some p) (h1 : procs1[j]? = some p1) :
    Interactions.updateMatchListOf cfg1 env.L p.clearSites = .ok p1 := by
  obtain ⟨e1, e2⟩ := hp
  have hc : (Interactions.clearMatching procs)[j]? = some p.clearSites := by
    unfold Interactions.clearMatching
    rw [List.getElem?_map, hj]; rfl
  unfold Interactions.updateProcessMatchLists at e2
  rw [if_neg (by rw [hw]; simp)] at e2
  obtain ⟨a, a1, a2⟩ := mapMM_getElem?' e2 h1
  rw [hc] at a1
  rw [← Option.some.inj a1] at a2
  exact a2

end KMC
