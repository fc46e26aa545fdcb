import Verif.Lemmas.Environment

/-!
# C08 (local environments), C09 (tolerance order)
-/

set_option linter.unusedSectionVars false

namespace KMC

variable {K : Type _} [Field K] [LinearOrder K] [IsStrictOrderedRing K]

/-! ## C09 -/

/-- **C09** On entries whose distances are equal or at least the tolerance apart, the comparison is
the strict lexicographic order on (distance, x, y, z); in particular it is irreflexive, transitive,
asymmetric, and entries that compare equal are at the same point (so "comparing equal" is
transitive too). Missing: distances closer than the tolerance without being equal, where the claim
is false, see `C09_not_transitive`. -/
theorem C09_strict_order_partial (S : K → Prop)
    (hS : ∀ a b, S a → S b → a = b ∨ 1 / 100000 ≤ |b - a|) :
    (∀ a b : CEntry K, S a.distance → S b.distance →
      (CEntry.lt a b = true ↔ a.distance < b.distance ∨ (a.distance = b.distance ∧
        (a.coord.x < b.coord.x ∨ (a.coord.x = b.coord.x ∧ (a.coord.y < b.coord.y ∨
          (a.coord.y = b.coord.y ∧ a.coord.z < b.coord.z))))))) ∧
    (∀ a : CEntry K, S a.distance → CEntry.lt a a = false) ∧
    (∀ a b c : CEntry K, S a.distance → S b.distance → S c.distance →
      CEntry.lt a b = true → CEntry.lt b c = true → CEntry.lt a c = true) ∧
    (∀ a b : CEntry K, S a.distance → S b.distance → CEntry.lt a b = false → CEntry.lt b a = false →
      a.distance = b.distance ∧ a.coord = b.coord) := by
  have hS' : Separated S := hS
  refine ⟨?_, ?_, ?_, ?_⟩
  · intro a b ha hb
    rw [CEntry.lt_eq, ptLt_iff hS' (p := a.pt) (q := b.pt) ha hb]
    rfl
  · intro a ha
    rw [← Bool.not_eq_true, CEntry.lt_eq, ptLt_iff hS' (p := a.pt) (q := a.pt) ha ha]
    exact ptBefore_irrefl _
  · intro a b c ha hb hc
    rw [CEntry.lt_eq, CEntry.lt_eq, CEntry.lt_eq, ptLt_iff hS' (p := a.pt) (q := b.pt) ha hb,
      ptLt_iff hS' (p := b.pt) (q := c.pt) hb hc, ptLt_iff hS' (p := a.pt) (q := c.pt) ha hc]
    exact ptBefore_trans
  · intro a b ha hb
    rw [← Bool.not_eq_true, ← Bool.not_eq_true, CEntry.lt_eq, CEntry.lt_eq,
      ptLt_iff hS' (p := a.pt) (q := b.pt) ha hb, ptLt_iff hS' (p := b.pt) (q := a.pt) hb ha]
    intro h1 h2
    rcases ptBefore_trichotomy a.pt b.pt with h | h | h
    · exact absurd h h1
    · exact ⟨congrArg Prod.fst h, congrArg Prod.snd h⟩
    · exact absurd h h2

/-- The comparison of process entries and the comparison of configuration entries are the same
function of distance and coordinate. -/
theorem C09_same_for_processes (a b : CEntry K) (p q : PEntry K) (ha : a.distance = p.distance)
    (ha' : a.coord = p.coord) (hb : b.distance = q.distance) (hb' : b.coord = q.coord) :
    CEntry.lt a b = PEntry.lt p q := by
  unfold CEntry.lt PEntry.lt
  rw [ha, ha', hb, hb']

/-- **C09** is false in general: with distances 0.6 tolerances apart the comparison is not
transitive, it even has a cycle. -/
theorem C09_not_transitive :
    ∃ a b c : CEntry ℚ, CEntry.lt a b = true ∧ CEntry.lt b c = true ∧ CEntry.lt c a = true ∧
      a.distance = 1 ∧ b.distance = 1 - 6 / 1000000 ∧ c.distance = 1 - 12 / 1000000 := by
  refine ⟨⟨0, 1, ⟨-1, 0, 0⟩, [0, 1]⟩, ⟨1, 1 - 6 / 1000000, ⟨0, 0, 0⟩, [0, 1]⟩,
    ⟨2, 1 - 12 / 1000000, ⟨1, 0, 0⟩, [0, 1]⟩, ?_, ?_, ?_, rfl, rfl, rfl⟩ <;> decide +kernel

/-- The distances 0, 1, 2 are separated, so C09 applies to the entries of a cubic chain. -/
example : ∀ a b : ℚ, (a = 0 ∨ a = 1 ∨ a = 2) → (b = 0 ∨ b = 1 ∨ b = 2) →
    a = b ∨ 1 / 100000 ≤ |b - a| := by
  rintro a b (rfl | rfl | rfl) (rfl | rfl | rfl) <;> first | exact .inl rfl | (right; decide +kernel)

/-! ## C08 -/

/-- **C08** The environment list computed for every site: as a multiset of sites it is the
neighbourhood; every entry has the minimum-image relative coordinate of its site (C05), the length
of that coordinate as its distance, and the types now at that site. -/
theorem C08_complete (dist : Coord K → K) (L : LatticeMap) (hL : L.WF) (cfg : Config K)
    (hs : cfg.Shape L.nSites) (range : Nat) :
    ∃ cfg', cfg.initMatchLists dist L range = .ok cfg' ∧
      ∀ s < L.nSites, ∃ env, cfg'.matchLists[s]? = some env ∧
        (env.map (·.index)).Perm (L.neighbourIndices s range) ∧
        ∀ e ∈ env, ∃ c0 c, cfg.coords[s]? = some c0 ∧ cfg.coords[e.index]? = some c ∧
          e.coord = L.wrap (c - c0) ∧ e.distance = dist e.coord ∧
          cfg.types[e.index]? = some e.matchTypes := by
  obtain ⟨cfg', h, -, -, -, hl⟩ := Config.initMatchLists_ok (dist := dist) hL hs rfl range
  refine ⟨cfg', h, fun s hs' => ?_⟩
  obtain ⟨l, c0, hc0, hg, -, hf⟩ := hl s hs'
  refine ⟨sortC l, hg, ?_, ?_⟩
  · have : l.map (·.index) = L.neighbourIndices s range := by
      have aux : ∀ (is : List Nat) (es : List (CEntry K)),
          List.Forall₂ (Config.EntryFor dist L cfg c0) is es → es.map (·.index) = is := by
        intro is es h
        induction h with
        | nil => rfl
        | cons h _ ih => rw [List.map_cons, h.index, ih]
      exact aux _ _ hf
    rw [← this]
    exact (perm_sortC l).map _
  · intro e he
    have he' : e ∈ l := (perm_sortC l).mem_iff.1 he
    obtain ⟨i, hi, hil⟩ := List.getElem_of_mem he'
    have hil' : i < (L.neighbourIndices s range).length := by rw [hf.length_eq]; exact hi
    have := List.Forall₂.get hf hil' hi
    simp only [List.get_eq_getElem, hil] at this
    obtain ⟨c, hc, hw⟩ := this.coord
    exact ⟨c0, c, hc0, by rw [this.index]; exact hc, hw, this.distance, by
      rw [this.index]; exact this.types⟩

/-- **C08** If the distances occurring in it are equal or at least the tolerance apart, the list is
ordered by distance, then x, y, z. Missing: other distances, for which the comparison is not an order
(C09). -/
theorem C08_sorted_partial (dist : Coord K → K) (L : LatticeMap) (cfg : Config K) (origin : Nat)
    (indices : List Nat) (env : List (CEntry K))
    (h : cfg.configMatchList dist L origin indices = .ok env)
    (hsep : ∀ a ∈ env, ∀ b ∈ env, a.distance = b.distance ∨ 1 / 100000 ≤ |b.distance - a.distance|) :
    env.Pairwise (fun a b => a.distance < b.distance ∨ (a.distance = b.distance ∧
        (a.coord.x < b.coord.x ∨ (a.coord.x = b.coord.x ∧ (a.coord.y < b.coord.y ∨
          (a.coord.y = b.coord.y ∧ a.coord.z ≤ b.coord.z)))))) := by
  unfold Config.configMatchList at h
  rw [bind_ok] at h
  obtain ⟨c0, -, h⟩ := h
  rw [bind_ok] at h
  obtain ⟨l, -, h⟩ := h
  cases h
  have hS : Separated (fun d => ∃ a ∈ sortC l, a.distance = d) := by
    rintro _ _ ⟨a, ha, rfl⟩ ⟨b, hb, rfl⟩
    exact hsep a ha b hb
  have := sortPts_pairwise hS (l.map CEntry.pt) (by
    intro p hp
    obtain ⟨a, ha, rfl⟩ := List.mem_map.1 hp
    exact ⟨a, (perm_sortC l).mem_iff.2 ha, rfl⟩)
  rw [← pts_sortC] at this
  refine List.Pairwise.imp ?_ (List.pairwise_map.1 this)
  rintro a b (h | h)
  · rcases h with h | ⟨h1, h | ⟨h2, h | ⟨h3, h⟩⟩⟩
    · exact .inl h
    · exact .inr ⟨h1, .inl h⟩
    · exact .inr ⟨h1, .inr ⟨h2, .inl h⟩⟩
    · exact .inr ⟨h1, .inr ⟨h2, .inr ⟨h3, le_of_lt h⟩⟩⟩
  · have h1 : a.distance = b.distance := congrArg Prod.fst h
    have h2 : a.coord = b.coord := congrArg Prod.snd h
    rw [h1, h2]
    exact .inr ⟨rfl, .inr ⟨rfl, .inr ⟨rfl, le_rfl⟩⟩⟩

/-- **C08** On a lattice with distinct basis points, and with separated distances, the list of a site
starts with the site itself at relative coordinate zero. -/
theorem C08_starts_with_itself_partial (dist : Coord K → K) (hd0 : dist 0 = 0)
    (hdp : ∀ c, c ≠ 0 → 0 < dist c) (P : PyLattice K) (hP : P.map.WF)
    (hb : ∀ b ∈ P.basis, (0 ≤ b.x ∧ b.x < 1) ∧ (0 ≤ b.y ∧ b.y < 1) ∧ (0 ≤ b.z ∧ b.z < 1))
    (hnd : P.basis.Nodup) (cfg : Config K) (hs : cfg.Shape P.map.nSites)
    (hcoords : cfg.coords = P.sites) (range : Nat) (s : Nat) (hsn : s < P.map.nSites)
    (env : List (CEntry K))
    (h : cfg.configMatchList dist P.map s (P.map.neighbourIndices s range) = .ok env)
    (hsep : ∀ a ∈ env, ∀ b ∈ env, a.distance = b.distance ∨ 1 / 100000 ≤ |b.distance - a.distance|) :
    ∃ e rest, env = e :: rest ∧ e.index = s ∧ e.coord = 0 ∧ e.distance = 0 := by
  obtain ⟨l, c0, hc0, hok, hf⟩ := Config.configMatchList_ok (dist := dist) (L := P.map) hs hsn
    (indices := P.map.neighbourIndices s range)
    (fun i hi => ((P.map.mem_neighbourIndices hP _ _ _ hsn).1 hi).1)
  have hsorted := C08_sorted_partial dist P.map cfg s _ env h hsep
  rw [hok] at h
  cases h
  -- the site itself is in the list, at distance zero
  have hself : s ∈ P.map.neighbourIndices s range :=
    (P.map.mem_neighbourIndices hP _ _ _ hsn).2 ⟨hsn, P.map.near_self _ _⟩
  have wrap0 : P.map.wrap (c0 - c0) = 0 := by
    have hz : ∀ rep : Nat, LatticeMap.wrapComp rep (0 : K) = 0 ∨ rep = 0 := by
      intro rep
      by_cases hr : rep = 0
      · exact .inr hr
      · left
        have : (0 : K) < rep := by exact_mod_cast Nat.pos_of_ne_zero hr
        unfold LatticeMap.wrapComp
        simp only [one_mul]
        rw [if_neg (by rw [ge_iff_le, not_le]; positivity), if_neg (by rw [not_lt]; simp; positivity)]
    rw [Coord.sub_self']
    unfold LatticeMap.wrap
    have hA := (hz P.map.repA).resolve_right hP.2.1.ne'
    have hB := (hz P.map.repB).resolve_right hP.2.2.1.ne'
    have hC := (hz P.map.repC).resolve_right hP.2.2.2.ne'
    ext <;> simp [hA, hB, hC]
  obtain ⟨k, hk, hks⟩ := List.getElem_of_mem hself
  have hkl : k < l.length := by rw [← hf.length_eq]; exact hk
  have he := List.Forall₂.get hf hk hkl
  simp only [List.get_eq_getElem, hks] at he
  have hzero : l[k].distance = 0 := by
    obtain ⟨c, hc, hw⟩ := he.coord
    rw [hc0, Option.some.injEq] at hc
    subst hc
    rw [he.distance, hw, wrap0, hd0]
  have hmem : l[k] ∈ sortC l := (perm_sortC l).mem_iff.2 (List.getElem_mem _)
  cases hcase : sortC l with
  | nil => rw [hcase] at hmem; simp at hmem
  | cons e rest =>
    refine ⟨e, rest, rfl, ?_⟩
    have hel : e ∈ l := (perm_sortC l).mem_iff.1 (by rw [hcase]; simp)
    obtain ⟨i, hi, hie⟩ := List.getElem_of_mem hel
    have hil' : i < (P.map.neighbourIndices s range).length := by rw [hf.length_eq]; exact hi
    have hent := List.Forall₂.get hf hil' hi
    simp only [List.get_eq_getElem, hie] at hent
    have hle : e.distance ≤ 0 := by
      rw [hcase] at hmem hsorted
      rcases List.mem_cons.1 hmem with h | h
      · rw [← h, hzero]
      · have := (List.pairwise_cons.1 hsorted).1 _ h
        rw [hzero] at this
        rcases this with h | h
        · exact h.le
        · exact h.1.le
    have hc : e.coord = 0 := by
      by_contra hne
      have := hdp _ hne
      rw [← hent.distance] at this
      exact absurd hle (not_le.2 this)
    refine ⟨?_, hc, by rw [hent.distance, hc, hd0]⟩
    obtain ⟨c, hcc, hw⟩ := hent.coord
    rw [hent.index]
    rw [hcoords] at hcc hc0
    exact P.wrap_eq_zero hP hb hnd hcc hc0 (by rw [← hw, hc])

/-- A periodic chain of four sites with one particle each: the environment of site 3, range 1. -/
example :
    let P : PyLattice ℚ := ⟨[⟨0, 0, 0⟩], 4, 1, 1, true, false, false⟩
    let cfg : Config ℚ := {
      coords := P.sites, elements := [["A"], ["B"], ["A"], ["B"]],
      types := [[0, 1, 0], [0, 0, 1], [0, 1, 0], [0, 0, 1]], typeNames := ["*", "A", "B"],
      possibleTypes := [("*", 0), ("A", 1), ("B", 2)], atomId := [0, 1, 2, 3],
      atomIdElements := ["A", "B", "A", "B"], atomIdCoords := P.sites,
      matchLists := [[], [], [], []], movedIds := [], moveVectors := [], nMoved := 0,
      latestProcess := 0, latestSite := 0 }
    P.map.WF ∧ cfg.Shape P.map.nSites ∧
    (cfg.configMatchList (fun c => |c.x| + |c.y| + |c.z|) P.map 3 (P.map.neighbourIndices 3 1)).map
      (fun l => l.map (fun e => (e.index, e.distance, e.coord.x, e.matchTypes)))
      = .ok [(3, 0, 0, [0, 0, 1]), (2, 1, -1, [0, 1, 0]), (0, 1, 1, [0, 1, 0])] := by
  refine ⟨by decide, ⟨?_, ?_, ?_, ?_, ?_, ?_, ?_⟩, ?_⟩ <;> decide +kernel

end KMC
