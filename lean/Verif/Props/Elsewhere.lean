import Verif.Lemmas.Elsewhere
import Verif.Props.Reverse
import Verif.Props.Matching

/-!
# C10, C17, C59: events and their reverses, place by place on the lattice

Here the statements are about sites at given displacements, in the states of runs. In the theorems on reverse processes
(C59) the reverse may be given around any place of the process, as one usually does: a particle that hops to the right,
and a particle that hops to the left.
-/

set_option linter.unusedSectionVars false

namespace KMC

open LatticeModel Interactions

section
variable {K : Type _} [Field K] [LinearOrder K] [IsStrictOrderedRing K] [FloorRing K]
variable {env : Env K} {n nT : Nat} {negLog : K → Option K} {cfg : Config K} {procs : List (Proc K)} {s s1 s2 : Sim K}
variable {P : PyLattice K}

theorem OnSites.wf (ho : OnSites P env cfg) (h : GoodRun env n nT negLog cfg procs s) : P.map.WF ∧ P.map.nSites = n := by
  rw [← ho.lattice]
  exact ⟨h.input.lattice, h.input.sites⟩

theorem central_lt (hP : P.map.WF) {b : Nat} (hb : b < P.map.nBasis) : central P b < P.map.nSites := by
  refine P.map.siteNo_lt _ ?_
  obtain ⟨-, hA, hB, hC⟩ := hP
  exact ⟨Nat.div_lt_self hA (by omega), Nat.div_lt_self hB (by omega), Nat.div_lt_self hC (by omega), hb⟩

theorem central_basis (hP : P.map.WF) {b : Nat} (hb : b < P.map.nBasis) : P.map.basisSite (central P b) = b := by
  have vadr : Spec.Address.Valid P.map ⟨P.repA / 2, P.repB / 2, P.repC / 2, b⟩ := by
    obtain ⟨-, hA, hB, hC⟩ := hP
    exact ⟨Nat.div_lt_self hA (by omega), Nat.div_lt_self hB (by omega), Nat.div_lt_self hC (by omega), hb⟩
  exact congrArg Spec.Address.l (P.map.addr_siteNo _ vadr)

theorem central_cells (hP : P.map.WF) {b : Nat} (hb : b < P.map.nBasis) : P.map.cellA (central P b) = P.repA / 2 ∧
    P.map.cellB (central P b) = P.repB / 2 ∧ P.map.cellC (central P b) = P.repC / 2 := by
  have vadr : Spec.Address.Valid P.map ⟨P.repA / 2, P.repB / 2, P.repC / 2, b⟩ := by
    obtain ⟨-, hA, hB, hC⟩ := hP
    exact ⟨Nat.div_lt_self hA (by omega), Nat.div_lt_self hB (by omega), Nat.div_lt_self hC (by omega), hb⟩
  have := P.map.addr_siteNo _ vadr
  exact ⟨congrArg Spec.Address.a this, congrArg Spec.Address.b this, congrArg Spec.Address.c this⟩

theorem sees_alike (hP : P.map.WF) (hb : P.BasisOk) {r s s' : Nat} (hs : s < P.map.nSites) (hs' : s' < P.map.nSites)
    (h : P.Alike r s s') {d : Coord K} : Sees P r s d ↔ Sees P r s' d := by
  rw [sees_iff hP hs, sees_iff hP hs']
  have := P.rel_neighbours hP hb hs hs' h
  constructor
  · rintro ⟨t, ht, rfl⟩
    have hm : P.rel s t ∈ (P.map.neighbourIndices s r).map (P.rel s) := List.mem_map_of_mem ht
    rw [this] at hm
    obtain ⟨u, hu, e⟩ := List.mem_map.1 hm
    exact ⟨u, hu, e.symm⟩
  · rintro ⟨t, ht, rfl⟩
    have hm : P.rel s' t ∈ (P.map.neighbourIndices s' r).map (P.rel s') := List.mem_map_of_mem ht
    rw [← this] at hm
    obtain ⟨u, hu, e⟩ := List.mem_map.1 hm
    exact ⟨u, hu, e.symm⟩

theorem mem_range_of_seen (hP : P.map.WF) (hb : P.BasisOk) (hnd : P.basis.Nodup) {r s t : Nat} {d : Coord K}
    (h : Sees P r s d) (ha : P.At s d t) : t ∈ P.map.neighbourIndices s r := by
  obtain ⟨h1, h2⟩ := ha.lt
  obtain ⟨u, hu, e⟩ := (sees_iff hP h1).1 h
  have hu' : u < P.map.nSites := ((P.map.mem_neighbourIndices hP _ _ _ h1).1 hu).1
  have : t = u := ha.unique hP hb hnd ((PyLattice.at_iff hP h1 hu').2 e.symm)
  rw [this]
  exact hu

/-- **C10** In every state of every run, a process whose places are at sites is available at a site exactly when for each
of its places there is a site at that displacement with the required types. The site must see its surroundings like the
sites in the middle of the lattice.

Missing: as in `C10_offered_iff_partial`. -/
theorem C10_available_iff_partial (h : GoodRun env n nT negLog cfg procs s) (ho : OnSites P env cfg) {j b : Nat} {p : Proc K}
    (hj : procs[j]? = some p) (hp : p.Sited env.dist P (maxRange procs) b) {site : Nat} (hs : site < n)
    (hsb : P.map.basisSite site = b) (ha : P.Alike (maxRange procs) site (central P b)) :
    ∃ p1, s.ms.procs[j]? = some p1 ∧ (site ∈ p1.sites ↔ ∀ e ∈ p.matchList, ∃ t present, P.At site e.coord t ∧
      s.ms.cfg.types[t]? = some present ∧ Accepts e present) := by
  obtain ⟨hP, hn⟩ := ho.wf h
  have hbl : b < P.map.nBasis := by
    rw [← hsb]; exact (P.map.addr_valid hP site (by rw [hn]; exact hs)).2.2.2
  have hcn := central_lt hP hbl
  have hsn : site < P.map.nSites := by rw [hn]; exact hs
  obtain ⟨cfg1, procs1, hprep, hok, ⟨⟨A, hI⟩, -⟩, -⟩ := h.inv
  have hlen : procs1.length = procs.length := prepared_length hprep
  obtain ⟨p1, hp1⟩ : ∃ p1, s.ms.procs[j]? = some p1 := by
    refine ⟨_, List.getElem?_eq_getElem ?_⟩
    have e1 : s.ms.procs.map Proc.still = procs1.map Proc.still := hI.procs
    have e2 := congrArg List.length e1
    rw [List.length_map, List.length_map] at e2
    rw [e2, hlen]
    exact (List.getElem?_eq_some_iff.1 hj).1
  have e1 : (procs1.map Proc.still)[j]? = some p1.still := hI.proc hp1
  rw [List.getElem?_map, Option.map_eq_some_iff] at e1
  obtain ⟨p', hp', hst⟩ := e1
  have hml : p'.matchList = p1.matchList := by have h := congrArg Proc.matchList hst; exact h
  have hbs : p'.basisSites = p1.basisSites := by have h := congrArg Proc.basisSites hst; exact h
  have hupd := prepared_update ho.wildcards hprep hj hp'
  rw [ho.lattice] at hupd
  obtain ⟨entries, en1, en2, en3⟩ := hp.sorted
  have hpd : ∀ e ∈ p.matchList, e.distance = env.dist e.coord := by
    intro e he
    rw [en1] at he
    exact en3 e ((perm_sortP entries).mem_iff.1 he)
  have hseen : ∀ d, Sees P (maxRange procs) site d ↔ Sees P (maxRange procs) (central P b) d :=
    fun d => sees_alike hP ho.basis hsn hcn ha
  have hthere : ∀ e ∈ p.matchList, Sees P (maxRange procs) site e.coord := fun e he =>
    (hseen _).2 (hp.placed.there _ (List.mem_map_of_mem he))
  have hg := h.good
  have hmem : ∀ t ∈ P.map.neighbourIndices site (maxRange procs), t < P.map.nSites :=
    fun t ht => ((P.map.mem_neighbourIndices hP _ _ _ hsn).1 ht).1
  obtain ⟨l, -, -, hl, -⟩ := Config.configMatchList_ok (dist := env.dist) (L := P.map) (cfg := s.ms.cfg) (n := P.map.nSites)
    (by rw [hn]; exact hg.shape) hsn hmem
  have hh := hprep.1
  rw [ho.lattice] at hh
  obtain ⟨hcA, hcB, hcC⟩ := central_cells hP hbl
  obtain ⟨-, haA, haB, haC⟩ := ha
  rw [hcA] at haA
  rw [hcB] at haB
  rw [hcC] at haC
  obtain ⟨res, hres, hiff⟩ := C10_offered_iff_partial env.dist P hP ho.basis ho.distinct nT h.input.typed (maxRange procs)
    cfg cfg1 s.ms.cfg (by rw [hn]; exact h.input.config.shape) ho.coords h.input.config.bucket hh (by rw [hn]; exact hg.shape)
    (by rw [h.coords]; exact ho.coords) hg.bucket p.clearSites p' b hp.basis
    (h.input.processes p (List.mem_of_getElem? hj)).sized hpd entries en1 en2 hupd site hsn hsb ⟨haA, haB, haC⟩
    (by
      intro e he t ht cs ct h1 h2 hsame
      rw [hpd e he] at hsame
      exact hp.placed.clear _ _ ((hseen _).1 (hthere e he)) ((hseen _).1 ⟨t, ht, cs, ct, h1, h2, rfl⟩) hsame)
    (by
      intro x y hx hy
      apply hp.placed.distances
      · rcases hx with ⟨e, he, rfl⟩ | ⟨t, ht, cs, ct, h1, h2, rfl⟩
        · exact ⟨_, (hseen _).1 (hthere e he), hpd e he⟩
        · exact ⟨_, (hseen _).1 ⟨t, ht, cs, ct, h1, h2, rfl⟩, rfl⟩
      · rcases hy with ⟨e, he, rfl⟩ | ⟨t, ht, cs, ct, h1, h2, rfl⟩
        · exact ⟨_, (hseen _).1 (hthere e he), hpd e he⟩
        · exact ⟨_, (hseen _).1 ⟨t, ht, cs, ct, h1, h2, rfl⟩, rfl⟩)
    _ hl
  refine ⟨p1, hp1, ?_⟩
  rw [C24_available h hp1 site]
  have hsur : Surroundings env procs s.ms.cfg site = .ok (sortC l) := by
    unfold Surroundings
    rw [ho.lattice]; exact hl
  have hbase : env.L.basisSite site ∈ p1.basisSites := by
    rw [ho.lattice, hsb, ← hbs]
    obtain ⟨q, hq, -, hq2⟩ := prepared_proc h.input hprep hp'
    rw [hj] at hq
    obtain rfl := Option.some.inj hq
    rw [hq2]
    show b ∈ p.basisSites
    rw [hp.basis]; simp
  constructor
  · rintro ⟨-, -, ml, hml1, hml2⟩ e he
    rw [hsur] at hml1
    obtain rfl := Except.ok.inj hml1
    rw [← hml, hres] at hml2
    obtain ⟨t, cs, ct, present, ht, h1, h2, h3, h4, h5⟩ := hiff.1 (Except.ok.inj hml2) e he
    exact ⟨t, present, ⟨cs, ct, h1, h2, h3⟩, h4, h5⟩
  · intro hall
    refine ⟨hs, hbase, _, hsur, ?_⟩
    rw [← hml, hres, hiff.2]
    intro e he
    obtain ⟨t, present, hat, h4, h5⟩ := hall e he
    have ht := mem_range_of_seen hP ho.basis ho.distinct (hthere e he) hat
    obtain ⟨cs, ct, h1, h2, h3⟩ := hat
    exact ⟨t, cs, ct, present, ht, h1, h2, h3, h4, h5⟩

/-- **C17** What an event does, place by place: at each site that is at the displacement of a place of the process the types
change by what the process says for this place, and all other sites stay as they are. The site must see its surroundings
like the sites in the middle of the lattice, where the places of the process are at sites.

Missing: processes with several basis sites; sites near open ends. -/
theorem C17_places_partial (h : GoodRun env n nT negLog cfg procs s) (ho : OnSites P env cfg) {d : Draws K} {j site : Nat}
    {ps : List (Proc K)} (hsel : select s.ms.procs s.table d.process d.site = .ok (j, site, ps))
    (hs : step env negLog s d = .ok s1) {b : Nat} {p : Proc K} (hj : procs[j]? = some p)
    (hp : p.Sited env.dist P (maxRange procs) b) (ha : P.Alike (maxRange procs) site (central P b)) (t : Nat) :
    (∀ e ∈ p.matchList, P.At site e.coord t → ∃ x, s.ms.cfg.types[t]? = some x ∧
      s1.ms.cfg.types[t]? = some (List.zipWith (· + ·) x e.updateTypes)) ∧
    ((∀ e ∈ p.matchList, ¬ P.At site e.coord t) → s1.ms.cfg.types[t]? = s.ms.cfg.types[t]?) := by
  obtain ⟨hP, hn⟩ := ho.wf h
  obtain ⟨cfg1, procs1, hprep, hok, ⟨hI, -⟩, -⟩ := h.inv
  obtain ⟨p1, sk, hp1, hsk, hsite, hfit, htook⟩ := h.took hsel hs hprep
  obtain ⟨p0, hp0, hfrom⟩ := World.source hprep hI hp1
  rw [hj] at hp0
  obtain rfl := Option.some.inj hp0
  have hw := h.input.processes p (List.mem_of_getElem? hj)
  have hav := (C24_available h hp1 site).1 hsite
  have hsn : site < P.map.nSites := by rw [hn]; exact hav.1
  have hsb : P.map.basisSite site = b := by
    have := hav.2.1
    rw [hfrom.basis, hp.basis, ho.lattice] at this
    simpa using this
  have hbl : b < P.map.nBasis := by rw [← hsb]; exact (P.map.addr_valid hP site hsn).2.2.2
  have hcn := central_lt hP hbl
  have hseen : ∀ d, Sees P (maxRange procs) site d ↔ Sees P (maxRange procs) (central P b) d :=
    fun d => sees_alike hP ho.basis hsn hcn ha
  have hl := lists_of h.input hprep.1
  obtain ⟨l, center, l1, l2, -, l4⟩ := hl.list site hav.1
  rw [hsk] at l2
  obtain rfl := Option.some.inj l2
  rw [ho.lattice] at l4
  obtain ⟨hlpts, hlent⟩ := env_points env.dist P hP cfg ho.coords hsn l1 l4
  have hmem : ∀ t ∈ P.map.neighbourIndices site (maxRange procs), t < P.map.nSites :=
    fun t ht => ((P.map.mem_neighbourIndices hP _ _ _ hsn).1 ht).1
  have hcd : ∀ x ∈ sortC l, x.index < P.map.nSites ∧ P.rel site x.index = x.coord ∧ x.distance = env.dist x.coord ∧
      Sees P (maxRange procs) site x.coord := by
    intro x hx
    have hxl := (perm_sortC l).mem_iff.1 hx
    have : x.pt ∈ l.map CEntry.pt := List.mem_map_of_mem hxl
    rw [hlpts, List.mem_map] at this
    obtain ⟨y, -, hy⟩ := this
    have h1 := congrArg Prod.fst hy
    have h2 := congrArg Prod.snd hy
    simp only [CEntry.pt] at h1 h2
    obtain ⟨a1, a2, -⟩ := hlent x hxl
    exact ⟨hmem _ a1, a2.symm, by rw [← h1, ← h2], (sees_iff hP hsn).2 ⟨x.index, a1, a2⟩⟩
  obtain ⟨entries, en1, en2, en3⟩ := hp.sorted
  have hpd : ∀ e ∈ p.matchList, e.distance = env.dist e.coord := by
    intro e he
    rw [en1] at he
    exact en3 e ((perm_sortP entries).mem_iff.1 he)
  have hnd : (p.matchList.map (·.coord)).Nodup := by
    rw [en1]
    exact ((perm_sortP entries).map _).nodup_iff.2 en2
  -- the place of an entry that changes something
  have hplace : ∀ (k : Nat) (e : PEntry K) (c : CEntry K), p1.matchList[k]? = some e → (sortC l)[k]? = some c → e.Changes →
      e ∈ p.matchList ∧ P.At site e.coord c.index := by
    intro k e c hk hc hch
    have hem := hfrom.mem (List.mem_of_getElem? hk) (.inl hch)
    refine ⟨hem, ?_⟩
    obtain ⟨c0, hc0, hf⟩ := fits_positions.1 hfit k e hk
    unfold seen at hc0
    rw [List.getElem?_map, hc] at hc0
    obtain rfl := Option.some.inj hc0
    obtain ⟨g1, g2, g3, g4⟩ := hcd c (List.mem_of_getElem? hc)
    rcases hf with hwild | ⟨hpt, -⟩
    · exact absurd hwild (hw.notWild e hem (.inl hch))
    · rw [samePoint_look] at hpt
      unfold samePoint at hpt
      rw [hpd e hem, g3] at hpt
      have := hp.placed.clear _ _ (hp.placed.there _ (List.mem_map_of_mem hem)) ((hseen _).1 g4) hpt
      rw [PyLattice.at_iff hP hsn g1, this, g2]
  have hexists : ∀ e ∈ p.matchList, e.Changes → ∃ (k : Nat) (c : CEntry K), p1.matchList[k]? = some e ∧ (sortC l)[k]? = some c := by
    intro e he hch
    have hm : e ∈ p1.matchList := by
      have := hfrom.keep (fun e => decide e.Changes) (fun c => decide_eq_false (not_changes_wildcardFor c))
      have hm : e ∈ p.matchList.filter (fun e => decide e.Changes) := List.mem_filter.2 ⟨he, decide_eq_true hch⟩
      rw [← this] at hm
      exact (List.mem_filter.1 hm).1
    obtain ⟨k, hk⟩ := List.mem_iff_getElem?.1 hm
    obtain ⟨c0, hc0, -⟩ := fits_positions.1 hfit k e hk
    unfold seen at hc0
    rw [List.getElem?_map, Option.map_eq_some_iff] at hc0
    obtain ⟨c, hc, -⟩ := hc0
    exact ⟨k, c, hk, hc⟩
  constructor
  · intro e he hat
    by_cases hch : e.Changes
    · obtain ⟨k, c, hk, hc⟩ := hexists e he hch
      have : c.index = t := (hplace k e c hk hc hch).2.unique hP ho.basis ho.distinct hat
      rw [← this]
      exact htook.changed k e c hk hc hch
    · have htn : t < s.ms.cfg.types.length := by
        rw [h.good.shape.types, ← hn]; exact hat.lt.2
      refine ⟨_, List.getElem?_eq_getElem htn, ?_⟩
      rw [htook.kept t, List.getElem?_eq_getElem htn, zipWith_add_zero]
      · rw [hw.updates e he]
        exact h.good.bucket _ (List.getElem_mem htn)
      · intro x hx
        by_contra h0
        exact hch ⟨x, hx, h0⟩
      · intro k e' c hk hc hch' hidx
        obtain ⟨g1, g2⟩ := hplace k e' c hk hc hch'
        rw [hidx] at g2
        have hcc : e.coord = e'.coord := by
          obtain ⟨x1, x2, a1, a2, a3⟩ := hat
          obtain ⟨y1, y2, b1, b2, b3⟩ := g2
          rw [a1] at b1
          obtain rfl := Option.some.inj b1
          rw [a2] at b2
          obtain rfl := Option.some.inj b2
          rw [← a3, ← b3]
        have : e = e' := eq_of_nodup_map hnd he g1 hcc
        exact hch (this ▸ hch')
  · intro hnone
    refine htook.kept t ?_
    intro k e c hk hc hch hidx
    obtain ⟨g1, g2⟩ := hplace k e c hk hc hch
    rw [hidx] at g2
    exact hnone e g1 g2

/-- A place of a process and of its reverse are the same site. -/
theorem place_same (hP : P.map.WF) (hb : P.BasisOk) (hnd : P.basis.Nodup) {r r' site site' : Nat} {c δ : Coord K}
    (hat : P.At site δ site') (h1 : Sees P r site c) (h2 : Sees P r' site' (c - δ)) (t : Nat) :
    P.At site c t ↔ P.At site' (c - δ) t := by
  obtain ⟨l1, l2⟩ := hat.lt
  rw [PyLattice.at_iff hP l1 l2] at hat
  obtain ⟨u, hu, e1⟩ := (sees_iff hP l1).1 h1
  obtain ⟨v, hv, e2⟩ := (sees_iff hP l2).1 h2
  have hu := ((P.map.mem_neighbourIndices hP _ _ _ l1).1 hu).1
  have hv := ((P.map.mem_neighbourIndices hP _ _ _ l2).1 hv).1
  have huv : u = v := PyLattice.rel_chain hP hb hnd hu hv hat e1.symm e2.symm
  subst huv
  constructor
  · intro h
    rw [h.unique hP hb hnd ((PyLattice.at_iff hP l1 hu).2 e1.symm), PyLattice.at_iff hP l2 hu]
    exact e2.symm
  · intro h
    rw [h.unique hP hb hnd ((PyLattice.at_iff hP l2 hu).2 e2.symm), PyLattice.at_iff hP l1 hu]
    exact e1.symm

/-- **C59** A reverse process undoes an event, also when it is given around another place. Let an event of process `j` at a
site lead from a state to another, and let process `j'` be the reverse of process `j`, given around the place `δ` of
process `j`. Then in every state with the types of that other state process `j'` is available at the site at the
displacement `δ`, and performing it there gives back the types before the event. -/
theorem C59_elsewhere (h : GoodRun env n nT negLog cfg procs s) (ho : OnSites P env cfg) {d : Draws K} {j site : Nat}
    {ps : List (Proc K)} (hsel : select s.ms.procs s.table d.process d.site = .ok (j, site, ps))
    (hs : step env negLog s d = .ok s1) {j' b b' : Nat} {p q : Proc K} (hj : procs[j]? = some p) (hj' : procs[j']? = some q)
    (hp : p.Sited env.dist P (maxRange procs) b) (hq : q.Sited env.dist P (maxRange procs) b') {δ : Coord K}
    (hu : p.UndoneFrom δ q) (hjoin : P.Joins b b' δ) {site' : Nat} (hat : P.At site δ site')
    (ha : P.Alike (maxRange procs) site (central P b)) (ha' : P.Alike (maxRange procs) site' (central P b'))
    (h2 : GoodRun env n nT negLog cfg procs s2) (ht : s2.ms.cfg.types = s1.ms.cfg.types) :
    (∃ q', s2.ms.procs[j']? = some q' ∧ site' ∈ q'.sites) ∧
    ∀ (d' : Draws K) (ps' : List (Proc K)) (s3 : Sim K),
      select s2.ms.procs s2.table d'.process d'.site = .ok (j', site', ps') → step env negLog s2 d' = .ok s3 →
      s3.ms.cfg.types = s.ms.cfg.types := by
  obtain ⟨hP, hn⟩ := ho.wf h
  obtain ⟨hsn, hsn'⟩ := hat.lt
  obtain ⟨cfg1, procs1, hprep, hok, ⟨hI, -⟩, -⟩ := h.inv
  obtain ⟨p1, sk, hp1, -, hsite, -, -⟩ := h.took hsel hs hprep
  have hw := h.input.processes p (List.mem_of_getElem? hj)
  have hsb : P.map.basisSite site = b := by
    obtain ⟨p0, hp0, hfrom⟩ := World.source hprep hI hp1
    rw [hj] at hp0
    obtain rfl := Option.some.inj hp0
    have := ((C24_available h hp1 site).1 hsite).2.1
    rw [hfrom.basis, hp.basis, ho.lattice] at this
    simpa using this
  have hsb' := hjoin.basis hP ho.basis ho.distinct hsb hat
  have hbl : b < P.map.nBasis := by rw [← hsb]; exact (P.map.addr_valid hP site hsn).2.2.2
  have hbl' : b' < P.map.nBasis := by rw [← hsb']; exact (P.map.addr_valid hP site' hsn').2.2.2
  have hseenp : ∀ e ∈ p.matchList, Sees P (maxRange procs) site e.coord := fun e he =>
    (sees_alike hP ho.basis hsn (central_lt hP hbl) ha).2 (hp.placed.there _ (List.mem_map_of_mem he))
  have hseenq : ∀ f ∈ q.matchList, Sees P (maxRange procs) site' f.coord := fun e he =>
    (sees_alike hP ho.basis hsn' (central_lt hP hbl') ha').2 (hq.placed.there _ (List.mem_map_of_mem he))
  have hsame : ∀ e ∈ p.matchList, ∀ f ∈ q.matchList, e.UndoneAt δ f → ∀ t, P.At site e.coord t ↔ P.At site' f.coord t := by
    intro e he f hf hef t
    have hf' := hseenq f hf
    rw [hef.coord] at hf' ⊢
    exact place_same hP ho.basis ho.distinct hat (hseenp e he) hf' t
  have hact := C17_places_partial h ho hsel hs hj hp ha
  constructor
  · obtain ⟨q1, hq1, hiff⟩ := C10_available_iff_partial h2 ho hj' hq (by rw [← hn]; exact hsn') hsb' ha'
    refine ⟨q1, hq1, hiff.2 ?_⟩
    intro f hf
    obtain ⟨e, he, hef⟩ := hu.back f hf
    obtain ⟨p2, hp2, hiffp⟩ := C10_available_iff_partial h ho hj hp (by rw [← hn]; exact hsn) hsb ha
    rw [hp1] at hp2
    obtain rfl := Option.some.inj hp2
    obtain ⟨t, present, hatt, hpres, hacc⟩ := hiffp.1 hsite e he
    obtain ⟨x, hx1, hx2⟩ := (hact t).1 e he hatt
    rw [hpres] at hx1
    obtain rfl := Option.some.inj hx1
    refine ⟨t, _, (hsame e he f hf hef t).1 hatt, by rw [ht]; exact hx2, ?_⟩
    rcases hacc with hwild | hcount
    · left
      rw [hef.asks, List.getElem?_zipWith_eq_some]
      exact ⟨1, 0, hwild, hw.slot e he, rfl⟩
    · right
      intro i a c hi hc
      rw [hef.asks, List.getElem?_zipWith_eq_some] at hi
      rw [List.getElem?_zipWith_eq_some] at hc
      obtain ⟨y1, u1, hy1, hu1, rfl⟩ := hi
      obtain ⟨x1, u2, hx1, hu2, rfl⟩ := hc
      rw [hu1] at hu2
      obtain rfl := Option.some.inj hu2
      have := hcount i y1 x1 hy1 hx1
      omega
  · intro d' ps' s3 hsel' hs'
    have hact' := C17_places_partial h2 ho hsel' hs' hj' hq ha'
    rw [ht] at hact'
    apply List.ext_getElem?
    intro t
    by_cases hex : ∃ f ∈ q.matchList, P.At site' f.coord t
    · obtain ⟨f, hf, hatt⟩ := hex
      obtain ⟨e, he, hef⟩ := hu.back f hf
      obtain ⟨x, hx1, hx2⟩ := (hact t).1 e he ((hsame e he f hf hef t).2 hatt)
      obtain ⟨y, hy1, hy2⟩ := (hact' t).1 f hf hatt
      rw [hx2] at hy1
      rw [hy2, hx1, ← Option.some.inj hy1, hef.changes, zipWith_add_neg]
      rw [h.good.bucket x (List.mem_of_getElem? hx1), hw.updates e he]
    · rw [(hact' t).2 (fun f hf hatt => hex ⟨f, hf, hatt⟩), (hact t).2]
      intro e he hatt
      obtain ⟨f, hf, hef⟩ := hu.there e he
      exact hex ⟨f, hf, (hsame e he f hf hef t).1 hatt⟩

/-- **C59** The constructor called with the configurations before and after exchanged, and with all coordinates displaced by
`δ`, in any order of the places, gives the reverse process around the place `δ`. -/
theorem C59_elsewhere_constructor {dist : Coord K → K} {first second first' second' : Config K} {rate rate' : K}
    {basis basis' : List Nat} {moves moves' : List (Nat × Coord K)} {number number' m : Nat} {p q : Proc K}
    (h1 : first.Good m nT) (h2 : second.Good m nT) (h1' : first'.Good m nT)
    (hp : mkProcess dist first second [] rate basis moves number = .ok p)
    (hq : mkProcess dist first' second' [] rate' basis' moves' number' = .ok q) {δ : Coord K}
    (hplaces : ∀ c t t', (∃ i : Nat, first.coords[i]? = some c ∧ first.types[i]? = some t ∧ second.types[i]? = some t') ↔
      ∃ k : Nat, first'.coords[k]? = some (c - δ) ∧ first'.types[k]? = some t' ∧ second'.types[k]? = some t) :
    p.UndoneFrom δ q := by
  obtain ⟨wp, p1, -, p3, p4⟩ := mkProcess_places hp
  obtain ⟨wq, q1, -, q3, q4⟩ := mkProcess_places hq
  have key : ∀ (i k : Nat) (e f : PEntry K) (t t' : Bucket), wp[i]? = some e → wq[k]? = some f →
      first.types[i]? = some t → second.types[i]? = some t' → first'.coords[k]? = some (e.coord - δ) →
      first'.types[k]? = some t' → second'.types[k]? = some t → e.UndoneAt δ f := by
    intro i k e f t t' he hf a4 a5 b2' b4' b5'
    obtain ⟨-, r, r', -, a2, -, r4, r5, a6, a7⟩ := p4 i e he
    obtain ⟨-, x, x', -, b2, -, x4, x5, b6, b7⟩ := q4 k f hf
    rw [a4] at r4
    obtain rfl := Option.some.inj r4
    rw [a5] at r5
    obtain rfl := Option.some.inj r5
    rw [b4'] at x4
    obtain rfl := Option.some.inj x4
    rw [b5'] at x5
    obtain rfl := Option.some.inj x5
    rw [b2'] at b2
    obtain ⟨d1, d2⟩ := bucketDiff_back t' t _ (by
      rw [h1.bucket t (List.mem_of_getElem? a4), h2.bucket t' (List.mem_of_getElem? a5)]) a7
    refine ⟨(Option.some.inj b2).symm, ?_, ?_⟩
    · rw [b6, a6, d1]
    · rw [d2] at b7
      exact (Except.ok.inj b7).symm
  constructor
  · intro e he
    rw [p1] at he
    obtain ⟨i, hi⟩ := List.mem_iff_getElem?.1 ((perm_sortP wp).mem_iff.1 he)
    obtain ⟨-, t, t', -, a2, -, a4, a5, -⟩ := p4 i e hi
    obtain ⟨k, g1, g2, g3⟩ := (hplaces e.coord t t').1 ⟨i, a2, a4, a5⟩
    have hk : k < wq.length := by
      rw [q3, h1'.shape.elements, ← h1'.shape.coords]
      exact (List.getElem?_eq_some_iff.1 g1).1
    have hk := List.getElem?_eq_getElem hk
    refine ⟨_, ?_, key i k e _ t t' hi hk a4 a5 g1 g2 g3⟩
    rw [q1]
    exact (perm_sortP wq).mem_iff.2 (List.mem_of_getElem? hk)
  · intro f hf
    rw [q1] at hf
    obtain ⟨k, hk⟩ := List.mem_iff_getElem?.1 ((perm_sortP wq).mem_iff.1 hf)
    obtain ⟨-, t', t, -, b2, -, b4, b5, -⟩ := q4 k f hk
    have hz : f.coord + δ - δ = f.coord := by ext <;> simp
    obtain ⟨i, g1, g2, g3⟩ := (hplaces (f.coord + δ) t t').2 ⟨k, by rw [hz]; exact b2, b4, b5⟩
    have hi : i < wp.length := by
      rw [p3, h1.shape.elements, ← h1.shape.coords]
      exact (List.getElem?_eq_some_iff.1 g1).1
    have hi := List.getElem?_eq_getElem hi
    have hco : (wp[i]).coord = f.coord + δ := by
      obtain ⟨-, -, -, -, a2, -⟩ := p4 i _ hi
      rw [a2] at g1
      exact Option.some.inj g1
    refine ⟨_, ?_, key i k _ f t t' hi hk g2 g3 (by rw [hco, hz]; exact b2) b4 b5⟩
    rw [p1]
    exact (perm_sortP wp).mem_iff.2 (List.mem_of_getElem? hi)

/-- A process of the constructor whose first place is the origin. -/
theorem sited_of_constructor {dist : Coord K → K} {first second : Config K} {info : List (List (String × Int))} {rate : K}
    {b r m : Nat} {moves : List (Nat × Coord K)} {number : Nat} {p : Proc K} (h1 : first.Good m nT)
    (hp : mkProcess dist first second info rate [b] moves number = .ok p) (h0 : first.coords[0]? = some 0)
    (hnd : first.coords.Nodup) (hpl : Placed dist P r b first.coords) : p.Sited dist P r b := by
  obtain ⟨es, o, e1, e2, e3, e4, -⟩ := mkProcess_entries hp (by rw [h1.shape.elements, h1.shape.coords])
  rw [h0] at e1
  obtain rfl := Option.some.inj e1
  have hz : ∀ c : Coord K, c - 0 = c := fun c => by ext <;> simp
  have hb : p.basisSites = [b] := by
    unfold mkProcess at hp
    obtain ⟨us, -, hp⟩ := bind_ok.1 hp
    obtain ⟨origin, -, hp⟩ := bind_ok.1 hp
    obtain ⟨entries, -, hp⟩ := bind_ok.1 hp
    obtain ⟨wm, -, hp⟩ := bind_ok.1 hp
    rw [← Except.ok.inj hp]
  refine ⟨hb, ⟨es, e2, by rw [e3]; exact hnd, fun e he => by rw [e4 e he, hz]⟩, ⟨?_, hpl.clear, hpl.distances⟩⟩
  intro c hc
  refine hpl.there c ?_
  rw [e2] at hc
  rw [← e3]
  exact ((perm_sortP es).map _).mem_iff.1 hc

/-- A pairing of the processes with their reverses, each given around a place of the process. -/
structure ReversibleOn (P : PyLattice K) (dist : Coord K → K)
    (procs : List (Proc K)) (rev : Nat → Nat) (δ : Nat → Coord K) (b : Nat → Nat) : Prop where
  inside : ∀ j < procs.length, rev j < procs.length
  back : ∀ j < procs.length, rev (rev j) = j
  opposite : ∀ j < procs.length, δ (rev j) = 0 - δ j
  undo : ∀ (j : Nat) (p q : Proc K), procs[j]? = some p → procs[rev j]? = some q → p.UndoneFrom (δ j) q
  sited : ∀ (j : Nat) (p : Proc K), procs[j]? = some p → p.Sited dist P (maxRange procs) (b j)
  place : ∀ (j : Nat) (p : Proc K), procs[j]? = some p → δ j ∈ p.matchList.map (·.coord)
  joins : ∀ j < procs.length, P.Joins (b j) (b (rev j)) (δ j)
  uniform : P.Uniform (maxRange procs)

/-- A check of `UndoneFrom` on samples. -/
def elsewhereCheck (δ : Coord ℚ) (p q : Proc ℚ) : Bool :=
  let one (e f : PEntry ℚ) : Bool := decide (f.coord = e.coord - δ) &&
    decide (f.matchTypes = List.zipWith (· + ·) e.matchTypes e.updateTypes) &&
    decide (f.updateTypes = e.updateTypes.map (fun u => -u))
  (p.matchList.all fun e => q.matchList.any fun f => one e f) && (q.matchList.all fun f => p.matchList.any fun e => one e f)

theorem elsewhereCheck_ok {δ : Coord ℚ} {p q : Proc ℚ} (h : elsewhereCheck δ p q = true) : p.UndoneFrom δ q := by
  unfold elsewhereCheck at h
  simp only [Bool.and_eq_true, decide_eq_true_eq, List.all_eq_true, List.any_eq_true] at h
  constructor
  · intro e he
    obtain ⟨f, hf, ⟨a, b⟩, c⟩ := h.1 e he
    exact ⟨f, hf, a, b, c⟩
  · intro f hf
    obtain ⟨e, he, ⟨a, b⟩, c⟩ := h.2 f hf
    exact ⟨e, he, a, b, c⟩

/-- Non-vacuity: on a ring of four sites the hop to the right is undone by the hop to the left, which is given around the
place that the first hop leads to. After a hop from site 1 to site 2 the hop to the left is available at site 2. -/
example : ∃ cfg procs s d j site ps s1, GoodRun (Sample.env Sample.ring) 4 4 Sample.lg cfg procs s ∧
    OnSites Sample.ring (Sample.env Sample.ring) cfg ∧
    ReversibleOn Sample.ring Sample.dist1 procs (fun j => 1 - j) (fun j => if j = 0 then ⟨1, 0, 0⟩ else ⟨-1, 0, 0⟩) (fun _ => 0) ∧
    select s.ms.procs s.table d.process d.site = .ok (j, site, ps) ∧ step (Sample.env Sample.ring) Sample.lg s d = .ok s1 ∧
    s.ms.cfg.elements = [["B"], ["A"], ["B"], ["B"]] ∧ s1.ms.cfg.elements = [["B"], ["B"], ["A"], ["B"]] ∧ j = 0 ∧ site = 1 ∧
    ∃ q', s1.ms.procs[1]? = some q' ∧ 2 ∈ q'.sites := by
  obtain ⟨cfg, procs, s, hc, h2, h, h'⟩ := Sample.good_run (env := Sample.env Sample.ring) (P := Sample.ring)
    (els := Sample.ringElements) (procs := Sample.hops) (ds := [Sample.half])
    (f := fun s => (s.ms.cfg.elements, ((select s.ms.procs s.table Sample.half.process Sample.half.site).map (fun r => (r.1, r.2.1))).toOption,
      ((step (Sample.env Sample.ring) Sample.lg s Sample.half).map (fun s => s.ms.cfg.elements)).toOption))
    (b := ([["B"], ["A"], ["B"], ["B"]], some (0, 1), some [["B"], ["B"], ["A"], ["B"]]))
    4 (by decide +kernel) rfl (by decide +kernel) (by decide +kernel)
  obtain ⟨cfg', hc', hcoords⟩ := Sample.exists_of_map (x := Sample.config Sample.ring Sample.ringElements)
    (f := fun c => c.coords) (b := Sample.ring.sites) (by decide +kernel)
  rw [hc] at hc'
  obtain rfl := Except.ok.inj hc'
  obtain ⟨ps, hps, hf⟩ := Sample.exists_of_map (x := Sample.hops) (f := fun ps => (maxRange ps, match ps with
    | [p, q] => elsewhereCheck ⟨1, 0, 0⟩ p q && elsewhereCheck ⟨-1, 0, 0⟩ q p &&
      [p, q].all fun p => decide (p.basisSites = [0]) && decide (sortP p.matchList = p.matchList) &&
        decide ((p.matchList.map (·.coord)).Nodup) && p.matchList.all fun e => decide (e.distance = Sample.dist1 e.coord)
    | _ => false, ps.map fun p => p.matchList.map (·.coord)))
    (b := (1, true, [[⟨0, 0, 0⟩, ⟨1, 0, 0⟩], [⟨0, 0, 0⟩, ⟨-1, 0, 0⟩]])) (by decide +kernel)
  rw [h2] at hps
  obtain rfl := Except.ok.inj hps
  match procs, h, hf with
  | [p, q], h, hf =>
    simp only [Prod.mk.injEq, Bool.and_eq_true, decide_eq_true_eq, List.all_eq_true, List.map_cons, List.map_nil,
      List.cons.injEq, and_true] at hf
    obtain ⟨hm, ⟨⟨u1, u2⟩, hall⟩, c1, c2⟩ := hf
    have ho : OnSites Sample.ring (Sample.env Sample.ring) cfg :=
      ⟨rfl, hcoords, by decide +kernel, by decide +kernel, rfl⟩
    have hsited : ∀ x ∈ [p, q], x.Sited Sample.dist1 Sample.ring (maxRange [p, q]) 0 := by
      intro x hx
      obtain ⟨⟨⟨b1, b2⟩, b3⟩, b4⟩ := hall x hx
      refine ⟨b1, ⟨x.matchList, b2.symm, b3, b4⟩, ?_⟩
      rw [hm]
      rcases List.mem_pair.1 hx with rfl | rfl
      · rw [c1]
        exact placed_of (by decide +kernel) (by decide) (by decide +kernel) (by decide +kernel) (by decide +kernel)
      · rw [c2]
        exact placed_of (by decide +kernel) (by decide) (by decide +kernel) (by decide +kernel) (by decide +kernel)
    have hu1 := elsewhereCheck_ok u1
    have hu2 := elsewhereCheck_ok u2
    have hj1 : Sample.ring.Joins 0 0 ⟨1, 0, 0⟩ := ⟨⟨0, 0, 0⟩, ⟨0, 0, 0⟩, by decide +kernel, by decide +kernel, 1, 0, 0, by decide +kernel⟩
    have hj2 : Sample.ring.Joins 0 0 ⟨-1, 0, 0⟩ := ⟨⟨0, 0, 0⟩, ⟨0, 0, 0⟩, by decide +kernel, by decide +kernel, -1, 0, 0, by decide +kernel⟩
    have hun : Sample.ring.Uniform (maxRange [p, q]) := by
      rw [hm]
      exact ⟨.inl ⟨rfl, by decide⟩, .inr rfl, .inr rfl⟩
    have hrev : ReversibleOn Sample.ring Sample.dist1 [p, q] (fun j => 1 - j)
        (fun j => if j = 0 then ⟨1, 0, 0⟩ else ⟨-1, 0, 0⟩) (fun _ => 0) := by
      refine ⟨?_, ?_, ?_, ?_, fun j x hx => hsited x (List.mem_of_getElem? hx), ?_, ?_, hun⟩
      · intro j hj
        simp only [List.length_cons, List.length_nil] at hj ⊢
        omega
      · intro j hj
        simp only [List.length_cons, List.length_nil] at hj ⊢
        omega
      · intro j hj
        match j, hj with
        | 0, _ => decide +kernel
        | 1, _ => decide +kernel
      · intro j x y hx hy
        match j, hx, hy with
        | 0, hx, hy =>
          obtain rfl := Option.some.inj hx
          obtain rfl := Option.some.inj hy
          exact hu1
        | 1, hx, hy =>
          obtain rfl := Option.some.inj hx
          obtain rfl := Option.some.inj hy
          exact hu2
      · intro j x hx
        match j, hx with
        | 0, hx =>
          obtain rfl := Option.some.inj hx
          rw [c1]; simp
        | 1, hx =>
          obtain rfl := Option.some.inj hx
          rw [c2]; simp
      · intro j hj
        match j, hj with
        | 0, _ => exact hj1
        | 1, _ => exact hj2
    simp only [Prod.mk.injEq] at h'
    obtain ⟨a1, a2, a3⟩ := h'
    cases hr : select s.ms.procs s.table Sample.half.process Sample.half.site with
    | error e => rw [hr] at a2; cases a2
    | ok r =>
      cases hs : step (Sample.env Sample.ring) Sample.lg s Sample.half with
      | error e => rw [hs] at a3; cases a3
      | ok s1 =>
        rw [hr] at a2
        rw [hs] at a3
        have a2 : (r.1, r.2.1) = (0, 1) := Option.some.inj a2
        have a3 : s1.ms.cfg.elements = _ := Option.some.inj a3
        rw [Prod.mk.injEq] at a2
        obtain ⟨j, site, ps⟩ := r
        obtain ⟨rfl, rfl⟩ := a2
        have hP : Sample.ring.map.WF := (ho.wf h).1
        have hat : Sample.ring.At 1 ⟨1, 0, 0⟩ 2 :=
          ⟨⟨1, 0, 0⟩, ⟨2, 0, 0⟩, by decide +kernel, by decide +kernel, by decide +kernel⟩
        have hcl : central Sample.ring 0 < Sample.ring.map.nSites := central_lt hP (by decide)
        have hb : ∀ x : Nat, Sample.ring.map.basisSite x = 0 := fun x => Nat.mod_one x
        exact ⟨cfg, [p, q], s, Sample.half, 0, 1, ps, s1, h, ho, hrev, hr, hs, a1, a3, rfl, rfl,
          (C59_elsewhere h ho hr hs (p := p) (q := q) rfl rfl (hsited p (by simp)) (hsited q (by simp)) hu1 hj1 hat
            (hun.alike hP hat.lt.1 hcl (by rw [hb, hb])) (hun.alike hP hat.lt.2 hcl (by rw [hb, hb])) (h.step hs) rfl).1⟩

end

/-! ### Balance -/

section
open MeasureTheory Classical

variable {env : Env ℝ} {n nT : Nat} {cfg : Config ℝ} {procs : List (Proc ℝ)} {s s' : Sim ℝ} {P : PyLattice ℝ}

/-- The site at a displacement. -/
noncomputable def PyLattice.shifted (P : PyLattice ℝ) (s : Nat) (d : Coord ℝ) : Nat :=
  if h : ∃ t, P.At s d t then h.choose else s

theorem PyLattice.At.shifted (hP : P.map.WF) (hb : P.BasisOk) (hnd : P.basis.Nodup) {s t : Nat} {d : Coord ℝ}
    (h : P.At s d t) : P.shifted s d = t := by
  unfold PyLattice.shifted
  have hex : ∃ t, P.At s d t := ⟨t, h⟩
  rw [dif_pos hex]
  exact hex.choose_spec.unique hP hb hnd h

/-- **C59** For every event from one state to another there is the reverse event back, at the site of the place around which
the reverse is given. -/
theorem C59_elsewhere_back (h : GoodRun env n nT negLog cfg procs s) (h' : GoodRun env n nT negLog cfg procs s')
    (ho : OnSites P env cfg) (hr : PositiveRates env procs) {M : Nat} (hb : Bounded M cfg procs) (hf : FewEnough M procs)
    {rev : Nat → Nat} {δ : Nat → Coord ℝ} {b : Nat → Nat} (hrev : ReversibleOn P env.dist procs rev δ b) {j site : Nat}
    (hl : LeadsTo env s j site s'.ms.cfg.types) :
    ∃ site', P.At site (δ j) site' ∧ P.At site' (δ (rev j)) site ∧ LeadsTo env s' (rev j) site' s.ms.cfg.types := by
  obtain ⟨hP, hn⟩ := ho.wf h
  obtain ⟨p1, hp1, hsite⟩ := hl.listed h
  have hj : j < procs.length := by rw [← procs_length h]; exact (List.getElem?_eq_some_iff.1 hp1).1
  have hj' := hrev.inside j hj
  have e1 := List.getElem?_eq_getElem hj
  have e2 := List.getElem?_eq_getElem hj'
  have hs1 := hrev.sited j _ e1
  have hs2 := hrev.sited _ _ e2
  have hav := (C24_available h hp1 site).1 hsite
  have hsn : site < P.map.nSites := by rw [hn]; exact hav.1
  have hsb : P.map.basisSite site = b j := by
    obtain ⟨cfg1, procs1, hprep, hok, ⟨hI, -⟩, -⟩ := h.inv
    obtain ⟨p0, hp0, hfrom⟩ := World.source hprep hI hp1
    rw [e1] at hp0
    obtain rfl := Option.some.inj hp0
    have := hav.2.1
    rw [hfrom.basis, hs1.basis, ho.lattice] at this
    simpa using this
  have hbl : b j < P.map.nBasis := by rw [← hsb]; exact (P.map.addr_valid hP site hsn).2.2.2
  have ha : P.Alike (maxRange procs) site (central P (b j)) :=
    hrev.uniform.alike hP hsn (central_lt hP hbl) (by rw [hsb, central_basis hP hbl])
  obtain ⟨e, he, hed⟩ := List.mem_map.1 (hrev.place j _ e1)
  obtain ⟨p2, hp2, hiff⟩ := C10_available_iff_partial h ho e1 hs1 hav.1 hsb ha
  rw [hp1] at hp2
  obtain rfl := Option.some.inj hp2
  obtain ⟨site', -, hat, -⟩ := hiff.1 hsite e he
  rw [hed] at hat
  have hsb' := (hrev.joins j hj).basis hP ho.basis ho.distinct hsb hat
  have hsn' := hat.lt.2
  have hbl' : b (rev j) < P.map.nBasis := by rw [← hsb']; exact (P.map.addr_valid hP site' hsn').2.2.2
  have ha' : P.Alike (maxRange procs) site' (central P (b (rev j))) :=
    hrev.uniform.alike hP hsn' (central_lt hP hbl') (by rw [hsb', central_basis hP hbl'])
  obtain ⟨d, ps, a, h1, h2, h3⟩ := hl
  obtain ⟨⟨q', hq', hsite'⟩, hback⟩ := C59_elsewhere h ho h1 h2 e1 e2 hs1 hs2 (hrev.undo j _ _ e1 e2) (hrev.joins j hj) hat
    ha ha' h' h3.symm
  obtain ⟨k, hk⟩ := List.mem_iff_getElem?.1 hsite'
  obtain ⟨d', ps', x, r, g1, g2, -⟩ := C58_possible h' hr hb hf hq' hk
  have hl' : LeadsTo env s' (rev j) site' s.ms.cfg.types := ⟨d', ps', x, g1, g2, hback d' ps' x g1 g2⟩
  refine ⟨site', hat, ?_, hl'⟩
  obtain ⟨f, hfm, hfd⟩ := List.mem_map.1 (hrev.place _ _ e2)
  obtain ⟨q2, hq2, hiff'⟩ := C10_available_iff_partial h' ho e2 hs2 (by rw [← hn]; exact hsn') hsb' ha'
  rw [hq'] at hq2
  obtain rfl := Option.some.inj hq2
  obtain ⟨u, -, hu, -⟩ := hiff'.1 hsite' f hfm
  rw [hfd, hrev.opposite j hj] at hu
  rw [hrev.opposite j hj]
  have hun := hu.lt.2
  have hz : P.rel site site = 0 := by
    unfold PyLattice.rel
    rw [PyLattice.wrap_eq]
    have hw : ∀ (per : Bool) (rep : Nat), 0 < rep → wrapAxis per rep ((0 : ℝ)) = 0 := by
      intro per rep hr
      have hr : (0 : ℝ) < rep := by exact_mod_cast hr
      unfold wrapAxis LatticeMap.wrapComp
      cases per
      · simp
      · simp only [if_true]
        rw [if_neg (by linarith), if_neg (by linarith)]
    obtain ⟨-, w1, w2, w3⟩ := hP
    have hs0 : P.pos site - P.pos site = 0 := by ext <;> simp
    rw [hs0]
    ext
    · exact hw _ _ w1
    · exact hw _ _ w2
    · exact hw _ _ w3
  have : site = u := by
    refine PyLattice.rel_chain hP ho.basis ho.distinct hsn hun ((PyLattice.at_iff hP hsn hsn').1 hat) hz ?_
    rw [(PyLattice.at_iff hP hsn' hun).1 hu]
  rw [this]
  exact hu

/-- **C59** Detailed balance, with reverses around other places. -/
theorem C59_elsewhere_balance (h : GoodRun env n nT negLog cfg procs s) (h' : GoodRun env n nT negLog cfg procs s')
    (ho : OnSites P env cfg) (hr : PositiveRates env procs) {M : Nat} (hb : Bounded M cfg procs) (hf : FewEnough M procs)
    {rev : Nat → Nat} {δ : Nat → Coord ℝ} {b : Nat → Nat} (hrev : ReversibleOn P env.dist procs rev δ b)
    (w : List Bucket → ℝ)
    (hw : ∀ j site site', LeadsTo env s j site s'.ms.cfg.types → P.At site (δ j) site' →
      w s.ms.cfg.types * rateAt s j site = w s'.ms.cfg.types * rateAt s' (rev j) site') :
    w s.ms.cfg.types * flow env n s s'.ms.cfg.types = w s'.ms.cfg.types * flow env n s' s.ms.cfg.types := by
  obtain ⟨hP, hn⟩ := ho.wf h
  unfold flow
  rw [procs_length h, procs_length h', ← Finset.sum_filter, ← Finset.sum_filter, Finset.mul_sum, Finset.mul_sum]
  have there : ∀ {a c : Sim ℝ}, GoodRun env n nT negLog cfg procs a → GoodRun env n nT negLog cfg procs c →
      ∀ e ∈ (Finset.range procs.length ×ˢ Finset.range n).filter (fun e => LeadsTo env a e.1 e.2 c.ms.cfg.types),
      ((rev e.1, P.shifted e.2 (δ e.1)) : Nat × Nat) ∈
        (Finset.range procs.length ×ˢ Finset.range n).filter (fun e => LeadsTo env c e.1 e.2 a.ms.cfg.types) ∧
      (rev (rev e.1), P.shifted (P.shifted e.2 (δ e.1)) (δ (rev e.1))) = e ∧ P.At e.2 (δ e.1) (P.shifted e.2 (δ e.1)) := by
    rintro a c ga gc ⟨j, site⟩ he
    rw [Finset.mem_filter, Finset.mem_product, Finset.mem_range, Finset.mem_range] at he
    obtain ⟨⟨hj, hs⟩, hl⟩ := he
    dsimp only at hj hs hl ⊢
    obtain ⟨site', h1, h2, h3⟩ := C59_elsewhere_back ga gc ho hr hb hf hrev hl
    have e1 := h1.shifted hP ho.basis ho.distinct
    have e2 := h2.shifted hP ho.basis ho.distinct
    rw [e1, e2, hrev.back j hj]
    refine ⟨?_, rfl, h1⟩
    rw [Finset.mem_filter, Finset.mem_product, Finset.mem_range, Finset.mem_range]
    exact ⟨⟨hrev.inside j hj, by rw [← hn]; exact h1.lt.2⟩, h3⟩
  refine Finset.sum_nbij' (fun e => (rev e.1, P.shifted e.2 (δ e.1))) (fun e => (rev e.1, P.shifted e.2 (δ e.1))) ?_ ?_ ?_ ?_ ?_
  · exact fun e he => (there h h' e he).1
  · exact fun e he => (there h' h e he).1
  · exact fun e he => (there h h' e he).2.1
  · exact fun e he => (there h' h e he).2.1
  · intro e he
    exact hw _ _ _ (Finset.mem_filter.1 he).2 (there h h' e he).2.2

/-- **C59** Stationarity, with reverses around other places. -/
theorem C59_elsewhere_stationary {ι : Type _} (I : Finset ι) (st : ι → Sim ℝ)
    (h : ∀ i ∈ I, GoodRun env n nT negLog cfg procs (st i)) (ho : OnSites P env cfg) (hr : PositiveRates env procs) {M : Nat}
    (hb : Bounded M cfg procs) (hf : FewEnough M procs) {rev : Nat → Nat} {δ : Nat → Coord ℝ} {b : Nat → Nat}
    (hrev : ReversibleOn P env.dist procs rev δ b)
    (hinj : ∀ i ∈ I, ∀ k ∈ I, (st i).ms.cfg.types = (st k).ms.cfg.types → i = k)
    (hclosed : ∀ i ∈ I, ∀ j site t, LeadsTo env (st i) j site t → ∃ k ∈ I, (st k).ms.cfg.types = t)
    (w : List Bucket → ℝ)
    (hw : ∀ i ∈ I, ∀ k ∈ I, ∀ j site site', LeadsTo env (st i) j site (st k).ms.cfg.types → P.At site (δ j) site' →
      w (st i).ms.cfg.types * rateAt (st i) j site = w (st k).ms.cfg.types * rateAt (st k) (rev j) site')
    {k : ι} (hk : k ∈ I) :
    ∑ i ∈ I, w (st i).ms.cfg.types * flow env n (st i) (st k).ms.cfg.types =
      w (st k).ms.cfg.types * ((st k).ms.procs.map (·.totalRate)).sum := by
  rw [← C59_total (h k hk) hr hb hf (T := I.image fun i => (st i).ms.cfg.types), Finset.sum_image, Finset.mul_sum]
  · exact Finset.sum_congr rfl fun i hi => C59_elsewhere_balance (h i hi) (h k hk) ho hr hb hf hrev w (hw i hi k hk)
  · intro i hi l hl
    exact hinj i hi l hl
  · intro j site t hl
    obtain ⟨i, hi, rfl⟩ := hclosed k hk j site t hl
    exact Finset.mem_image_of_mem _ hi

/-- How an event changes the product over the particles. -/
theorem productWeight_event (h : GoodRun env n nT negLog cfg procs s) {j site : Nat} {p : Proc ℝ} (hj : procs[j]? = some p)
    {t : List Bucket} (hl : LeadsTo env s j site t) (z : Nat → ℝ) (hz : ∀ k, 0 < z k) :
    productWeight nT z t = productWeight nT z s.ms.cfg.types * ∏ k ∈ Finset.range nT, z k ^ p.net k := by
  obtain ⟨d, ps, a, h1, h2, h3⟩ := hl
  obtain ⟨s0, hs0, hms⟩ := step_single h2
  obtain ⟨p', hp, htot⟩ := C17_total h h1 hs0
  rw [hj] at hp
  obtain rfl := Option.some.inj hp
  unfold productWeight
  rw [← Finset.prod_mul_distrib]
  apply Finset.prod_congr rfl
  intro k _
  have := htot k
  unfold Config.total at this
  rw [hms, h3] at this
  rw [this, zpow_add₀ (hz k).ne']

/-- **C59** With constant rates, where the rate of a process and that of its reverse are in the ratio of the factors of the
particles it makes and removes, the product over the particles satisfies detailed balance, also with reverses around other
places. In particular all states have the same weight when every hop has the rate of the hop back. -/
theorem C59_elsewhere_product (h : GoodRun env n nT negLog cfg procs s) (h' : GoodRun env n nT negLog cfg procs s')
    (ho : OnSites P env cfg) (hr : PositiveRates env procs) {M : Nat} (hb : Bounded M cfg procs) (hf : FewEnough M procs)
    {rev : Nat → Nat} {δ : Nat → Coord ℝ} {b : Nat → Nat} (hrev : ReversibleOn P env.dist procs rev δ b)
    (hc : ∀ p ∈ procs, p.custom = false) (z : Nat → ℝ) (hz : ∀ k, 0 < z k)
    (hq : ∀ (j : Nat) (p q : Proc ℝ), procs[j]? = some p → procs[rev j]? = some q →
      p.rate = q.rate * ∏ k ∈ Finset.range nT, z k ^ p.net k) :
    productWeight nT z s.ms.cfg.types * flow env n s s'.ms.cfg.types =
      productWeight nT z s'.ms.cfg.types * flow env n s' s.ms.cfg.types := by
  obtain ⟨hP, hn⟩ := ho.wf h
  refine C59_elsewhere_balance h h' ho hr hb hf hrev _ ?_
  intro j site site' hl hat
  obtain ⟨site2, g1, -, g3⟩ := C59_elsewhere_back h h' ho hr hb hf hrev hl
  obtain rfl := g1.unique hP ho.basis ho.distinct hat
  obtain ⟨p1, hp1, -⟩ := hl.listed h
  have hj : j < procs.length := by rw [← procs_length h]; exact (List.getElem?_eq_some_iff.1 hp1).1
  have e1 := List.getElem?_eq_getElem hj
  have e2 := List.getElem?_eq_getElem (hrev.inside j hj)
  rw [rateAt_constant h e1 (hc _ (List.mem_of_getElem? e1)) hl, rateAt_constant h' e2 (hc _ (List.mem_of_getElem? e2)) g3,
    hq j _ _ e1 e2, productWeight_event h e1 hl z hz]
  ring

end
end KMC
