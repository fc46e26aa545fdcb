import Verif.Spec.Model
import Verif.Lemmas.Order
import Verif.Lemmas.Sites
import Verif.Lemmas.Lattice2

/-!
# Match lists of the configuration
-/

set_option linter.unusedSectionVars false

namespace KMC
namespace Config

variable {K : Type _} [Field K] [LinearOrder K]

theorem relCoord_eq (L : LatticeMap) (c center : Coord K) :
    relCoord L c center = L.wrap (c - center) := by
  unfold relCoord LatticeMap.wrap
  by_cases h : L.perA ∧ L.perB ∧ L.perC
  · simp [h]
  · by_cases h2 : L.perA ∧ L.perB
    · have h3 : ¬ (L.perC = true) := fun hc => h ⟨h2.1, h2.2, hc⟩
      simp [h2, h3]
    · simp [h, h2]

/-- `e` is the entry for site `i` in the environment of a site at `center`. -/
structure EntryFor (dist : Coord K → K) (L : LatticeMap) (cfg : Config K) (center : Coord K) (i : Nat)
    (e : CEntry K) : Prop where
  index : e.index = i
  coord : ∃ c, cfg.coords[i]? = some c ∧ e.coord = L.wrap (c - center)
  distance : e.distance = dist e.coord
  types : cfg.types[i]? = some e.matchTypes

theorem cEntry_ok (dist : Coord K → K) (L : LatticeMap) (cfg : Config K) (center : Coord K) (i : Nat)
    (e : CEntry K) : cEntry dist L cfg center i = .ok e ↔ EntryFor dist L cfg center i e := by
  unfold cEntry
  rw [bind_ok]
  constructor
  · rintro ⟨c, hc, h⟩
    rw [bind_ok] at h
    obtain ⟨t, ht, h⟩ := h
    cases h
    exact ⟨rfl, ⟨c, rd_ok.1 hc, relCoord_eq _ _ _⟩, rfl, rd_ok.1 ht⟩
  · rintro ⟨h1, ⟨c, hc, h2⟩, h3, h4⟩
    refine ⟨c, rd_of_getElem? hc, ?_⟩
    rw [bind_ok]
    refine ⟨e.matchTypes, rd_of_getElem? h4, ?_⟩
    dsimp only
    rw [relCoord_eq, ← h2, ← h3, ← h1]
    rfl

theorem configMatchList_ok {dist : Coord K → K} {L : LatticeMap} {cfg : Config K} {n : Nat}
    (hs : cfg.Shape n) {origin : Nat} (ho : origin < n) {indices : List Nat}
    (hi : ∀ i ∈ indices, i < n) :
    ∃ l center, cfg.coords[origin]? = some center ∧
      configMatchList dist L cfg origin indices = .ok (sortC l) ∧
      List.Forall₂ (EntryFor dist L cfg center) indices l := by
  have ho' : origin < cfg.coords.length := by rw [hs.coords]; exact ho
  have hc := List.getElem?_eq_getElem ho'
  obtain ⟨l, hl⟩ := mapMM_isOk (f := cEntry dist L cfg cfg.coords[origin]) (xs := indices) (by
    intro i him
    have h1 : i < cfg.coords.length := by rw [hs.coords]; exact hi i him
    have h2 : i < cfg.types.length := by rw [hs.types]; exact hi i him
    refine ⟨⟨i, dist (L.wrap (cfg.coords[i] - cfg.coords[origin])),
      L.wrap (cfg.coords[i] - cfg.coords[origin]), cfg.types[i]⟩, ?_⟩
    rw [cEntry_ok]
    exact ⟨rfl, ⟨_, List.getElem?_eq_getElem h1, rfl⟩, rfl, List.getElem?_eq_getElem h2⟩)
  refine ⟨l, cfg.coords[origin], hc, ?_, ?_⟩
  · unfold configMatchList
    rw [rd_of_getElem? hc, ok_bind, hl]
    rfl
  · rw [mapMM_ok_iff] at hl
    exact hl.imp fun i e h => (cEntry_ok _ _ _ _ _ _).1 h

theorem loopM_wr_zip {α : Type _} : ∀ (vs : List α) (k : Nat) (a : List α), k + vs.length ≤ a.length →
    ∃ b, loopM (fun (m : List α) (p : Nat × α) => wr m p.1 p.2) ((List.range' k vs.length).zip vs) a = .ok b ∧
      b.length = a.length ∧
      ∀ i, b[i]? = if k ≤ i ∧ i < k + vs.length then vs[i - k]? else a[i]?
  | [], k, a, _ => ⟨a, rfl, rfl, by intro i; rw [if_neg]; simp⟩
  | v :: vs, k, a, h => by
    simp only [List.length_cons] at h
    have hk : k < a.length := by omega
    obtain ⟨b, hb, hl, hg⟩ := loopM_wr_zip vs (k + 1) (a.set k v) (by simp; omega)
    refine ⟨b, ?_, by simpa using hl, ?_⟩
    · rw [List.length_cons, List.range'_succ, List.zip_cons_cons, loopM_cons, wr_of_lt hk, ok_bind]
      exact hb
    · intro i
      rw [hg, List.length_cons]
      by_cases hik : i = k
      · subst hik
        rw [if_neg (by omega), if_pos (by omega)]
        simp [hk]
      · by_cases h2 : k + 1 ≤ i ∧ i < k + 1 + vs.length
        · rw [if_pos h2, if_pos (by omega)]
          have : i - k = (i - (k + 1)) + 1 := by omega
          rw [this, List.getElem?_cons_succ]
        · rw [if_neg h2, if_neg (by omega), List.getElem?_set]
          simp [Ne.symm hik]

theorem foldl_max_ge {α : Type _} (f : α → Nat) (l : List α) (m : Nat) :
    m ≤ l.foldl (fun m x => if f x > m then f x else m) m ∧
    ∀ x ∈ l, f x ≤ l.foldl (fun m x => if f x > m then f x else m) m := by
  induction l generalizing m with
  | nil => simp
  | cons a l ih =>
    simp only [List.foldl_cons, List.mem_cons]
    have := ih (if f a > m then f a else m)
    constructor
    · refine le_trans ?_ this.1
      split <;> omega
    · rintro x (rfl | hx)
      · refine le_trans ?_ this.1
        split <;> omega
      · exact this.2 x hx

theorem length_resize {α : Type _} (xs : List α) (n : Nat) (d : α) : (resize xs n d).length = n := by
  unfold resize
  simp only [List.length_append, List.length_take, List.length_replicate]
  omega

/-- What initMatchLists does. -/
theorem initMatchLists_ok {dist : Coord K → K} {L : LatticeMap} (hL : L.WF) {cfg : Config K} {n : Nat}
    (hs : cfg.Shape n) (hn : L.nSites = n) (range : Nat) :
    ∃ cfg', cfg.initMatchLists dist L range = .ok cfg' ∧
      cfg' = { cfg with matchLists := cfg'.matchLists, movedIds := cfg'.movedIds,
                        moveVectors := cfg'.moveVectors } ∧
      cfg'.Shape n ∧ cfg'.movedIds.length = cfg'.moveVectors.length ∧
      ∀ i < n, ∃ l center, cfg.coords[i]? = some center ∧
        cfg'.matchLists[i]? = some (sortC l) ∧ l.length ≤ cfg'.movedIds.length ∧
        List.Forall₂ (EntryFor dist L cfg center) (L.neighbourIndices i range) l := by
  have hval : ∀ i < n, ∀ j ∈ L.neighbourIndices i range, j < n := by
    intro i hi j hj
    rw [← hn] at hi ⊢
    exact ((L.mem_neighbourIndices hL _ _ _ hi).1 hj).1
  obtain ⟨lists, hlists⟩ := mapMM_isOk
    (f := fun i => configMatchList dist L cfg i (L.neighbourIndices i range)) (xs := List.range n) (by
    intro i hi
    have hi' := List.mem_range.1 hi
    obtain ⟨l, c, -, h, -⟩ := configMatchList_ok (dist := dist) (L := L) hs hi' (hval i hi')
    exact ⟨_, h⟩)
  have hll : lists.length = n := by rw [mapMM_length hlists, List.length_range]
  obtain ⟨b, hb, hbl, hbg⟩ := loopM_wr_zip lists 0 cfg.matchLists (by rw [hs.matchLists, hll]; omega)
  have heq : cfg.initMatchLists dist L range = .ok { cfg with
      matchLists := b,
      movedIds := resize cfg.movedIds (lists.foldl (fun m l => if l.length > m then l.length else m) 0) 0,
      moveVectors := resize cfg.moveVectors
        (lists.foldl (fun m l => if l.length > m then l.length else m) 0) 0 } := by
    unfold initMatchLists
    rw [hs.types, hlists, ok_bind]
    rw [hll, ← List.range_eq_range'] at hb
    rw [hb]
    rfl
  refine ⟨_, heq, rfl, ⟨hs.coords, hs.elements, hs.types, hs.atomId, hs.atomIdElements, hs.atomIdCoords,
    by rw [← hs.matchLists]; exact hbl⟩, by rw [length_resize, length_resize], ?_⟩
  intro i hi
  obtain ⟨l, c, hc, h, hf⟩ := configMatchList_ok (dist := dist) (L := L) hs hi (hval i hi)
  have hr : (List.range n)[i]? = some i := by simp [hi]
  obtain ⟨y, hy, hfy⟩ := mapMM_getElem? hlists hr
  rw [h] at hfy
  cases hfy
  refine ⟨l, c, hc, ?_, ?_, hf⟩
  · show b[i]? = _
    rw [hbg, if_pos (by omega)]
    simpa using hy
  · show _ ≤ (resize _ _ _).length
    rw [length_resize]
    have := (foldl_max_ge (fun l : List (CEntry K) => l.length) lists 0).2 _
      (List.mem_of_getElem? hy)
    rwa [(perm_sortC l).length_eq] at this

end Config

/-! ### Distinct sites have distinct relative positions -/

section
variable {K : Type _} [Field K] [LinearOrder K] [IsStrictOrderedRing K]

/-- Basis points as accepted by the front end (python/src/KMCLib/CoreComponents/KMCUnitCell.py:40-43).
-/
def PyLattice.BasisOk (P : PyLattice K) : Prop :=
  ∀ b ∈ P.basis, (0 ≤ b.x ∧ b.x < 1) ∧ (0 ≤ b.y ∧ b.y < 1) ∧ (0 ≤ b.z ∧ b.z < 1)

theorem frac_unique {a b : K} {i j : Nat} (ha : 0 ≤ a ∧ a < 1) (hb : 0 ≤ b ∧ b < 1)
    (h : a + (i : K) = b + (j : K)) : a = b ∧ i = j := by
  have hij : i = j := by
    by_contra hne
    rcases Nat.lt_or_gt_of_ne hne with h' | h'
    · have : (i : K) + 1 ≤ (j : K) := by exact_mod_cast h'
      linarith [ha.1, ha.2, hb.1, hb.2]
    · have : (j : K) + 1 ≤ (i : K) := by exact_mod_cast h'
      linarith [ha.1, ha.2, hb.1, hb.2]
  subst hij
  exact ⟨by linarith, rfl⟩

theorem wrapComp_zero {rep : Nat} (hr : 0 < rep) {c : K} (h1 : -(rep : K) < c) (h2 : c < rep)
    (h : LatticeMap.wrapComp rep c = 0) : c = 0 := by
  have hR : (0 : K) < rep := by exact_mod_cast hr
  unfold LatticeMap.wrapComp at h
  simp only [one_mul] at h
  split_ifs at h with ha hb
  · linarith
  · linarith
  · exact h

theorem PyLattice.sites_getElem? (P : PyLattice K) (hP : P.map.WF) {n : Nat} (hn : n < P.map.nSites) :
    ∃ b, P.basis[P.map.basisSite n]? = some b ∧
      P.sites[n]? = some ⟨b.x + (P.map.cellA n : K), b.y + (P.map.cellB n : K),
        b.z + (P.map.cellC n : K)⟩ := by
  have hv := P.map.addr_valid hP n hn
  have hl : P.map.basisSite n < P.basis.length := hv.2.2.2
  refine ⟨P.basis[P.map.basisSite n], List.getElem?_eq_getElem hl, ?_⟩
  have := P.getElem?_sites (P.map.cellA n) (P.map.cellB n) (P.map.cellC n) (P.map.basisSite n)
    hv.1 hv.2.1 hv.2.2.1 hl
  rw [P.globalIndex_eq_siteNo] at this
  have h2 : P.map.siteNo ⟨P.map.cellA n, P.map.cellB n, P.map.cellC n, P.map.basisSite n⟩ = n :=
    P.map.siteNo_addr n
  rw [h2, List.getElem?_eq_getElem hl] at this
  rw [this]
  rfl

/-- On a lattice with distinct basis points, only the site itself is at relative position zero. -/
theorem PyLattice.wrap_eq_zero (P : PyLattice K) (hP : P.map.WF) (hb : P.BasisOk)
    (hnd : P.basis.Nodup) {m n : Nat} {p q : Coord K} (hp : P.sites[m]? = some p)
    (hq : P.sites[n]? = some q) (h : P.map.wrap (p - q) = 0) : m = n := by
  have hm : m < P.map.nSites := by rw [← P.length_sites]; exact (List.getElem?_eq_some_iff.1 hp).1
  have hn : n < P.map.nSites := by rw [← P.length_sites]; exact (List.getElem?_eq_some_iff.1 hq).1
  obtain ⟨b, hb1, hb2⟩ := P.sites_getElem? hP hm
  obtain ⟨c, hc1, hc2⟩ := P.sites_getElem? hP hn
  rw [hp, Option.some.injEq] at hb2
  rw [hq, Option.some.injEq] at hc2
  have hbo := hb b (List.mem_of_getElem? hb1)
  have hco := hb c (List.mem_of_getElem? hc1)
  have vm := P.map.addr_valid hP m hm
  have vn := P.map.addr_valid hP n hn
  have axis : ∀ (per : Bool) (rep i j : Nat) (a b : K), i < rep → j < rep → (0 ≤ a ∧ a < 1) →
      (0 ≤ b ∧ b < 1) → (if per then LatticeMap.wrapComp rep (a + (i : K) - (b + (j : K)))
        else a + (i : K) - (b + (j : K))) = 0 → a = b ∧ i = j := by
    intro per rep i j a b hi hj ha hb h0
    have hi' : (i : K) + 1 ≤ rep := by exact_mod_cast hi
    have hj' : (j : K) + 1 ≤ rep := by exact_mod_cast hj
    have hi0 : (0 : K) ≤ i := by positivity
    have hj0 : (0 : K) ≤ j := by positivity
    apply frac_unique ha hb
    cases per
    · simp only [Bool.false_eq_true, if_false] at h0; linarith
    · simp only [if_true] at h0
      have := wrapComp_zero (by omega) (by linarith [ha.1, ha.2, hb.1, hb.2])
        (by linarith [ha.1, ha.2, hb.1, hb.2]) h0
      linarith
  subst hb2 hc2
  have hx := congrArg Coord.x h
  have hy := congrArg Coord.y h
  have hz := congrArg Coord.z h
  have ex := axis P.perA P.repA _ _ _ _ vm.1 vn.1 hbo.1 hco.1 hx
  have ey := axis P.perB P.repB _ _ _ _ vm.2.1 vn.2.1 hbo.2.1 hco.2.1 hy
  have ez := axis P.perC P.repC _ _ _ _ vm.2.2.1 vn.2.2.1 hbo.2.2 hco.2.2 hz
  have hbc : b = c := Coord.ext ex.1 ey.1 ez.1
  subst hbc
  have hl : P.map.basisSite m = P.map.basisSite n := by
    obtain ⟨h1, h1'⟩ := List.getElem?_eq_some_iff.1 hb1
    obtain ⟨h2, h2'⟩ := List.getElem?_eq_some_iff.1 hc1
    exact (List.Nodup.getElem_inj_iff hnd).1 (h1'.trans h2'.symm)
  rw [← P.map.siteNo_addr m, ← P.map.siteNo_addr n]
  congr 1
  exact (Spec.Address.mk.injEq ..).mpr ⟨ex.2, ey.2, ez.2, hl⟩

end
end KMC
