import Verif.Lemmas.Init
import Verif.Lemmas.Construct
import Verif.Spec.Placed
import Verif.Model.PyBucket

/-!
# The insertion of wildcards goes through
-/

set_option linter.unusedSectionVars false

namespace KMC

variable {K : Type _} [Field K] [LinearOrder K]

/-- All entries are found when they are all there. -/
theorem alignLoop_all {ps : List (PEntry K)} {cs : List (CEntry K)} {old new : Nat} {m : List Nat}
    {r} (h : Interactions.alignLoop ps cs old new m = .ok r) (hcompat : Compat ps (cs.map CEntry.pt))
    (hall : ∀ p ∈ ps, ∃ c ∈ cs, samePoint p c = true) : r.2.2 = old + ps.length := by
  fun_induction Interactions.alignLoop ps cs old new m generalizing r with
  | case1 => cases h; rfl
  | case2 p ps =>
    obtain ⟨c, hc, -⟩ := hall p (by simp)
    simp at hc
  | case3 p ps c cs old new m hsp ih =>
    rw [bind_ok] at h
    obtain ⟨w, hw, h⟩ := h
    rw [bind_ok] at h
    obtain ⟨r', hr', h⟩ := h
    cases h
    show r'.2.2 = _
    refine ih hr' hcompat.tail ?_
    have hp : ∃ c' ∈ cs, samePoint p c' = true := by
      obtain ⟨c', hc', h1⟩ := hall p (by simp)
      rcases List.mem_cons.1 hc' with rfl | hc'
      · rw [hsp] at h1; cases h1
      · exact ⟨c', hc', h1⟩
    intro q hq
    obtain ⟨c', hc', h1⟩ := hall q hq
    rcases List.mem_cons.1 hc' with rfl | hc'
    · exfalso
      rcases List.mem_cons.1 hq with rfl | hq
      · rw [hsp] at h1; cases h1
      · obtain ⟨d, hd, h2⟩ := hp
        obtain ⟨l, hl⟩ := List.mem_iff_getElem?.1 hd
        have := (List.pairwise_cons.1 hcompat).1 q hq (l + 1) 0 d.pt c'.pt
          (by rw [List.map_cons, List.getElem?_cons_succ, List.getElem?_map, hl]; rfl) rfl h2 h1
        omega
    · exact ⟨c', hc', h1⟩
  | case4 p ps c cs old new m hsp ih =>
    rw [bind_ok] at h
    obtain ⟨m', hm', h⟩ := h
    rw [bind_ok] at h
    obtain ⟨r', hr', h⟩ := h
    cases h
    have hsp : samePoint p c = true := by simpa using hsp
    have := ih m' hr' (List.pairwise_cons.1 hcompat.tail).2 (by
      intro q hq
      obtain ⟨c', hc', h1⟩ := hall q (by simp [hq])
      rcases List.mem_cons.1 hc' with rfl | hc'
      · have := (List.pairwise_cons.1 hcompat).1 q hq 0 0 c'.pt c'.pt rfl rfl hsp h1
        omega
      · exact ⟨c', hc', h1⟩)
    simp only [List.length_cons]
    show r'.2.2 = _
    omega

/-- The insertion of wildcards goes through for a process without moves, and for one with moves when all its entries
are found. -/
theorem updateMatchListOf_isOk {cfg : Config K} {L : LatticeMap} {p : Proc K} {nT : Nat} (hT : 0 < nT)
    (hc : ∀ l ∈ cfg.matchLists, SizedC nT l)
    (hb : ∀ b, p.basisSites = [b] → ∃ i cml, (L.indicesFromCell (L.repA / 2) (L.repB / 2) (L.repC / 2))[b]? = some i ∧
      cfg.matchLists[i]? = some cml ∧
      (p.idMoves = [] ∨ Compat p.matchList (cml.map CEntry.pt) ∧ ∀ e ∈ p.matchList, ∃ c ∈ cml, samePoint e c = true))
    (hm : ∀ mv ∈ p.idMoves, mv.1 < p.matchList.length ∧ mv.2 < p.matchList.length) :
    ∃ p', Interactions.updateMatchListOf cfg L p = .ok p' := by
  unfold Interactions.updateMatchListOf
  split
  · next b hpb =>
    obtain ⟨i, cml, h1, h2, h3⟩ := hb b hpb
    rw [rd_of_getElem? h1, ok_bind, rd_of_getElem? h2, ok_bind]
    have hne : ∀ c ∈ cml, c.matchTypes ≠ [] := by
      intro c hcm h0
      have := hc _ (List.mem_of_getElem? h2) c hcm
      rw [h0] at this
      simp at this
      omega
    obtain ⟨r, hr⟩ := alignLoop_total (ps := p.matchList) (old := 0) (new := 0) (m := List.replicate cml.length 0)
      hne le_rfl (by simp)
    rw [hr, ok_bind]
    dsimp only
    rcases h3 with h3 | ⟨h3, h4⟩
    · rw [h3]
      exact ⟨_, rfl⟩
    · have hall := alignLoop_all hr h3 h4
      obtain ⟨m1, m2, m3, -⟩ := alignLoop_mapping hr
      obtain ⟨al, m5, -⟩ := alignLoop_mapping hr
      have hlen : r.2.2 ≤ r.2.1.length := by
        by_contra hlt
        push Not at hlt
        obtain ⟨k, q, hk, -⟩ := (alignLoop_mapping hr).2.2.2.2.1 (r.2.2 - 1) (by omega) (by omega)
        have := (List.getElem?_eq_some_iff.1 hk).1
        omega
      obtain ⟨ids, hids⟩ := mapMM_isOk (f := fun (mv : Nat × Nat) => (do
          let a ← rd (r.2.1.take r.2.2) mv.1
          let b ← rd (r.2.1.take r.2.2) mv.2
          return (a, b) : M (Nat × Nat))) (xs := p.idMoves) (by
        intro mv hmv
        obtain ⟨a1, a2⟩ := hm mv hmv
        have hl : (r.2.1.take r.2.2).length = p.matchList.length := by
          rw [List.length_take]; omega
        rw [rd_of_lt (by omega), ok_bind, rd_of_lt (by omega), ok_bind]
        exact ⟨_, rfl⟩)
      rw [hids]
      exact ⟨_, rfl⟩
  · exact ⟨p, rfl⟩

section
variable [IsStrictOrderedRing K] [FloorRing K]
variable {env : Env K} {n nT : Nat} {cfg : Config K} {procs : List (Proc K)}

theorem sees_iff {P : PyLattice K} (hP : P.map.WF) {r s : Nat} (hs : s < P.map.nSites) {d : Coord K} :
    Sees P r s d ↔ ∃ t ∈ P.map.neighbourIndices s r, d = P.rel s t := by
  have hmem : ∀ i ∈ P.map.neighbourIndices s r, i < P.map.nSites :=
    fun i hi => ((P.map.mem_neighbourIndices hP _ _ _ hs).1 hi).1
  constructor
  · rintro ⟨t, ht, cs, ct, h1, h2, h3⟩
    rw [P.sites_eq_pos hP hs, Option.some.injEq] at h1
    rw [P.sites_eq_pos hP (hmem t ht), Option.some.injEq] at h2
    subst h1 h2
    exact ⟨t, ht, h3⟩
  · rintro ⟨t, ht, h⟩
    exact ⟨t, ht, _, _, P.sites_eq_pos hP hs, P.sites_eq_pos hP (hmem t ht), h⟩

/-- Whether coordinates are placed is a matter of the sites around the middle. -/
theorem placed_of {dist : Coord K → K} {P : PyLattice K} (hP : P.map.WF) {r b : Nat} (hb : b < P.map.nBasis)
    {cs : List (Coord K)}
    (h1 : ∀ c ∈ cs, ∃ t ∈ P.map.neighbourIndices (central P b) r, c = P.rel (central P b) t)
    (h2 : ∀ t ∈ P.map.neighbourIndices (central P b) r, ∀ u ∈ P.map.neighbourIndices (central P b) r,
      ptSame (dist (P.rel (central P b) t)) (P.rel (central P b) t) (dist (P.rel (central P b) u)) (P.rel (central P b) u) = true →
      P.rel (central P b) t = P.rel (central P b) u)
    (h3 : ∀ t ∈ P.map.neighbourIndices (central P b) r, ∀ u ∈ P.map.neighbourIndices (central P b) r,
      dist (P.rel (central P b) t) = dist (P.rel (central P b) u) ∨
      epsi ≤ |dist (P.rel (central P b) u) - dist (P.rel (central P b) t)|) :
    Placed dist P r b cs := by
  have vadr : Spec.Address.Valid P.map ⟨P.repA / 2, P.repB / 2, P.repC / 2, b⟩ := by
    obtain ⟨-, hA, hB, hC⟩ := hP
    exact ⟨Nat.div_lt_self hA (by omega), Nat.div_lt_self hB (by omega), Nat.div_lt_self hC (by omega), hb⟩
  have hcn : central P b < P.map.nSites := P.map.siteNo_lt _ vadr
  refine ⟨fun c hc => (sees_iff hP hcn).2 (h1 c hc), ?_, ?_⟩
  · intro c d hc hd h
    obtain ⟨t, ht, rfl⟩ := (sees_iff hP hcn).1 hc
    obtain ⟨u, hu, rfl⟩ := (sees_iff hP hcn).1 hd
    exact h2 t ht u hu h
  · rintro x y ⟨c, hc, rfl⟩ ⟨d, hd, rfl⟩
    obtain ⟨t, ht, rfl⟩ := (sees_iff hP hcn).1 hc
    obtain ⟨u, hu, rfl⟩ := (sees_iff hP hcn).1 hd
    exact h3 t ht u hu

/-- What the insertion of wildcards needs of a process: with a single basis site the lattice has that site, and when
ids are moved the coordinates are those of sites. -/
structure Proc.Insertable (dist : Coord K → K) (P : PyLattice K) (r : Nat) (p : Proc K) : Prop where
  basis : ∀ b, p.basisSites = [b] → b < P.map.nBasis
  sorted : ∃ entries, p.matchList = sortP entries ∧ (entries.map (·.coord)).Nodup ∧ ∀ e ∈ entries, e.distance = dist e.coord
  placed : ∀ b, p.basisSites = [b] → p.idMoves ≠ [] → Placed dist P r b (p.matchList.map (·.coord))

/-- The model can be prepared. -/
theorem prepared_of_sites (h : WellFormed env n nT cfg procs) (P : PyLattice K) (hL : env.L = P.map)
    (hc : cfg.coords = P.sites)
    (hp : env.implicitWildcards = true → ∀ p ∈ procs, p.Insertable env.dist P (Interactions.maxRange procs)) :
    ∃ cfg1 procs1, Prepared env cfg procs cfg1 procs1 := by
  have hP : P.map.WF := by rw [← hL]; exact h.lattice
  have hn : P.map.nSites = n := by rw [← hL]; exact h.sites
  obtain ⟨cfg1, e1, -⟩ := Config.initMatchLists_ok (dist := env.dist) h.lattice h.config.shape
    h.sites (Interactions.maxRange procs)
  have hl := lists_of h e1
  have hsz := hl.sized h.config
  refine ⟨cfg1, ?_⟩
  unfold Prepared Interactions.updateProcessMatchLists
  split
  · exact ⟨_, e1, rfl⟩
  next himp =>
  have himp : env.implicitWildcards = true := by simpa using himp
  obtain ⟨procs1, hp1⟩ := mapMM_isOk (f := Interactions.updateMatchListOf cfg1 env.L)
      (xs := Interactions.clearMatching procs) (by
    intro p' hp'
    obtain ⟨p, hpm, rfl⟩ := List.mem_map.1 hp'
    obtain ⟨i1, ⟨entries, i2, i3, i4⟩, i5⟩ := hp himp p hpm
    refine updateMatchListOf_isOk h.typed hsz ?_ ?_
    · intro b hb
      have hb : p.basisSites = [b] := hb
      have hbl := i1 b hb
      have vadr : Spec.Address.Valid P.map ⟨P.repA / 2, P.repB / 2, P.repC / 2, b⟩ := by
        obtain ⟨-, hA, hB, hC⟩ := hP
        exact ⟨Nat.div_lt_self hA (by omega), Nat.div_lt_self hB (by omega), Nat.div_lt_self hC (by omega), hbl⟩
      have hcn := P.map.siteNo_lt _ vadr
      rw [show P.map.siteNo ⟨P.repA / 2, P.repB / 2, P.repC / 2, b⟩ = central P b from rfl] at hcn
      obtain ⟨l, center, l1, l2, -, l4⟩ := hl.list (central P b) (by rw [← hn]; exact hcn)
      refine ⟨central P b, sortC l, ?_, l2, ?_⟩
      · rw [hL]
        exact P.map.getElem?_indicesFromCell ⟨P.repA / 2, P.repB / 2, P.repC / 2, b⟩ hbl
      by_cases hid : p.idMoves = []
      · exact .inl hid
      right
      obtain ⟨p1, p2, p3⟩ := i5 b hb hid
      rw [hL] at l4
      obtain ⟨hlpts, hlent⟩ := env_points env.dist P hP cfg hc hcn l1 l4
      have hpd : ∀ e ∈ p.matchList, e.distance = env.dist e.coord := by
        intro e he
        rw [i2] at he
        exact i4 e ((perm_sortP entries).mem_iff.1 he)
      have hcd : ∀ x ∈ sortC l, x.distance = env.dist x.coord ∧ Sees P (Interactions.maxRange procs) (central P b) x.coord := by
        intro x hx
        have hxl := (perm_sortC l).mem_iff.1 hx
        have : x.pt ∈ l.map CEntry.pt := List.mem_map_of_mem hxl
        rw [hlpts, List.mem_map] at this
        obtain ⟨y, -, hy⟩ := this
        have h1 := congrArg Prod.fst hy
        have h2 := congrArg Prod.snd hy
        simp only [CEntry.pt] at h1 h2
        refine ⟨by rw [← h1, ← h2], (sees_iff hP hcn).2 ⟨x.index, (hlent x hxl).1, (hlent x hxl).2.1⟩⟩
      have hpc : ∀ e ∈ p.matchList, Sees P (Interactions.maxRange procs) (central P b) e.coord :=
        fun e he => p1 _ (List.mem_map_of_mem he)
      constructor
      · show Compat p.matchList _
        apply compat_of_sorted
        · have hw := sortPts_pairwise p3 (entries.map PEntry.pt) (by
            intro q hq
            obtain ⟨e, he, rfl⟩ := List.mem_map.1 hq
            have he' : e ∈ p.matchList := by rw [i2]; exact (perm_sortP entries).mem_iff.2 he
            exact ⟨e.coord, hpc e he', hpd e he'⟩)
          rw [← pts_sortP, ← i2] at hw
          have hnodup : (p.matchList.map PEntry.pt).Nodup := by
            have h1 : (p.matchList.map (·.coord)).Nodup := by
              rw [i2]
              exact ((perm_sortP entries).map _).nodup_iff.2 i3
            have h2 : (p.matchList.map PEntry.pt).map Prod.snd = p.matchList.map (·.coord) := by
              rw [List.map_map]; rfl
            rw [← h2] at h1
            exact List.Nodup.of_map _ h1
          refine List.Pairwise.imp_of_mem ?_ (hw.and hnodup)
          rintro a c - - ⟨h | h, hne⟩
          · exact h
          · exact absurd h hne
        · have hw := sortPts_pairwise p3 (l.map CEntry.pt) (by
            intro q hq
            obtain ⟨x, hx, rfl⟩ := List.mem_map.1 hq
            obtain ⟨a, b⟩ := hcd x ((perm_sortC l).mem_iff.2 hx)
            exact ⟨x.coord, b, a⟩)
          rwa [← pts_sortC] at hw
        · intro e he c hcm hsp
          obtain ⟨x, hx, rfl⟩ := List.mem_map.1 hcm
          obtain ⟨a, b⟩ := hcd x hx
          have hsp : ptSame e.distance e.coord x.distance x.coord = true := hsp
          rw [hpd e he, a] at hsp
          have := p2 _ _ (hpc e he) b hsp
          unfold PEntry.pt CEntry.pt
          rw [hpd e he, a, this]
      · show ∀ e ∈ p.matchList, _
        intro e he
        obtain ⟨t, ht, hd⟩ := (sees_iff hP hcn).1 (hpc e he)
        have : (env.dist (P.rel (central P b) t), P.rel (central P b) t) ∈ l.map CEntry.pt := by
          rw [hlpts, List.map_map]
          exact List.mem_map.2 ⟨t, ht, rfl⟩
        obtain ⟨c, hcl, hcpt⟩ := List.mem_map.1 this
        refine ⟨c, (perm_sortC l).mem_iff.2 hcl, ?_⟩
        have hcd : c.distance = env.dist (P.rel (central P b) t) := congrArg Prod.fst hcpt
        have hccoord : c.coord = P.rel (central P b) t := congrArg Prod.snd hcpt
        unfold samePoint ptSame
        rw [hcd, hccoord, ← hd, hpd e he]
        have : (0 : K) ≤ epsi := epsi_pos.le
        simp [not_lt.2 this]
    · intro mv hmv
      obtain ⟨e, f, h1, h2, -, -⟩ := (h.processes p hpm).moves mv hmv
      exact ⟨(List.getElem?_eq_some_iff.1 h1).1, (List.getElem?_eq_some_iff.1 h2).1⟩)
  exact ⟨procs1, e1, hp1⟩

/-- The entries of a process. -/
theorem mkProcess_entries {dist : Coord K → K} {first second : Config K} {info : List (List (String × Int))} {rate : K}
    {basis : List Nat} {moves : List (Nat × Coord K)} {number : Nat} {q : Proc K}
    (hq : mkProcess dist first second info rate basis moves number = .ok q)
    (hlen : first.elements.length = first.coords.length) :
    ∃ entries origin, first.coords[0]? = some origin ∧ q.matchList = sortP entries ∧ entries.map (·.coord) = first.coords ∧
      (∀ e ∈ entries, e.distance = dist (e.coord - origin)) ∧ (moves = [] → q.idMoves = []) := by
  unfold mkProcess at hq
  obtain ⟨us, hu, hq⟩ := bind_ok.1 hq
  obtain ⟨origin, ho, hq⟩ := bind_ok.1 hq
  obtain ⟨entries, he, hq⟩ := bind_ok.1 hq
  obtain ⟨wm, hm, hq⟩ := bind_ok.1 hq
  have hq : q = _ := (Except.ok.inj hq).symm
  obtain ⟨m1, -, m3⟩ := setMove_loop _ _ _ hm
  have hone : ∀ (i : Nat) (e : PEntry K), wm[i]? = some e → first.coords[i]? = some e.coord ∧ e.distance = dist (e.coord - origin) := by
    intro i e hi
    obtain ⟨e0, h1, h2, -⟩ := m3 i e hi
    obtain ⟨i', h5, h6⟩ := mapMM_getElem?' he h1
    rw [List.getElem?_eq_some_iff] at h5
    obtain ⟨h5, h5'⟩ := h5
    rw [List.getElem_range] at h5'
    subst h5'
    unfold entryOf at h6
    obtain ⟨c, q1, h6⟩ := bind_ok.1 h6
    obtain ⟨t, q2, h6⟩ := bind_ok.1 h6
    obtain ⟨u, q3, h6⟩ := bind_ok.1 h6
    have h6 : e0 = _ := (Except.ok.inj h6).symm
    have e1 : e.coord = c := by rw [h2, h6]
    have e2 : e.distance = dist (c - origin) := by rw [h2, h6]
    rw [e1, e2]
    exact ⟨rd_ok.1 q1, rfl⟩
  refine ⟨wm, origin, rd_ok.1 ho, by rw [hq], ?_, ?_, ?_⟩
  · apply List.ext_getElem?
    intro i
    rw [List.getElem?_map]
    cases hw : wm[i]? with
    | some e => rw [(hone i e hw).1]; rfl
    | none =>
      rw [List.getElem?_eq_none_iff] at hw
      rw [m1, mapMM_length he, List.length_range, hlen] at hw
      rw [List.getElem?_eq_none hw]
      rfl
  · intro e hem
    obtain ⟨i, hi⟩ := List.mem_iff_getElem?.1 hem
    exact (hone i e hi).2
  · intro h0
    have hno : ∀ e ∈ sortP wm, e.hasMove = false := by
      intro e hem
      obtain ⟨i, hi⟩ := List.mem_iff_getElem?.1 ((perm_sortP wm).mem_iff.1 hem)
      obtain ⟨e0, h1, -, h3⟩ := m3 i e hi
      obtain ⟨i', -, h6⟩ := mapMM_getElem?' he h1
      unfold entryOf at h6
      obtain ⟨c, q1, h6⟩ := bind_ok.1 h6
      obtain ⟨t, q2, h6⟩ := bind_ok.1 h6
      obtain ⟨u, q3, h6⟩ := bind_ok.1 h6
      have h6 : e0 = _ := (Except.ok.inj h6).symm
      by_contra hm
      rw [Bool.not_eq_false] at hm
      rcases h3 hm with h | h
      · rw [h6] at h; cases h
      · rw [h0] at h; simp at h
    rw [hq]
    show idMovesOf dist (sortP wm) = []
    unfold idMovesOf
    rw [List.filterMap_eq_nil_iff]
    intro i _
    cases hi : (sortP wm)[i]? with
    | none => rfl
    | some e =>
      simp only
      rw [if_neg (by rw [hno e (List.mem_of_getElem? hi)]; simp)]

/-- With or without a calculator the entries, moves and basis sites are those of the ordinary process. -/
theorem Calculator.process_parts {rc : Option (Calculator K)} {dist : Coord K → K} {first second : Config K}
    {info : List (List (String × Int))} {rate : K} {basis : List Nat} {moves : List (Nat × Coord K)} {number : Nat} {q : Proc K}
    (h : Calculator.process rc dist first second info rate basis moves number = .ok q) :
    ∃ q0, mkProcess dist first second info rate basis moves number = .ok q0 ∧ q.matchList = q0.matchList ∧
      q.idMoves = q0.idMoves ∧ q.basisSites = basis := by
  have hbasis : ∀ q0, mkProcess dist first second info rate basis moves number = .ok q0 → q0.basisSites = basis := by
    intro q0 h0
    unfold mkProcess at h0
    obtain ⟨_, _, h0⟩ := bind_ok.1 h0
    obtain ⟨_, _, h0⟩ := bind_ok.1 h0
    obtain ⟨_, _, h0⟩ := bind_ok.1 h0
    obtain ⟨_, _, h0⟩ := bind_ok.1 h0
    rw [← Except.ok.inj h0]
  cases rc with
  | none => exact ⟨q, h, rfl, rfl, hbasis q h⟩
  | some c =>
    have h : mkCustomProcess dist first second info rate basis (c.cutoff.getD 1) moves number
      (c.cacheRates && !decide (number ∈ c.exclude)) = .ok q := h
    unfold mkCustomProcess at h
    obtain ⟨q0, h0, h⟩ := bind_ok.1 h
    rw [← Except.ok.inj h]
    exact ⟨q0, h0, rfl, rfl, hbasis q0 h0⟩

end
end KMC
