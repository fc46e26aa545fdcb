import Verif.Props.Shift

/-!
# C69: processes act locally

Whether a process is available at a site depends on the types at the sites of its pattern only, and an event changes nothing
elsewhere. So events that have no site in common do not disturb each other, and their order does not matter.
-/

set_option linter.unusedSectionVars false

namespace KMC

open LatticeModel Interactions

section
variable {K : Type _} [Field K] [LinearOrder K] [IsStrictOrderedRing K]
variable {env : Env K} {n nT : Nat} {negLog : K → Option K} {cfg cfg' : Config K} {procs : List (Proc K)}
variable {s s' s1 s1' s2 s12 s21 : Sim K}

/-- The process asks for something at the site `t`, when it is tried at `site`: `t` is in the surroundings of `site`, at the
position of an entry of the process that is not a wildcard. -/
def LooksAt (env : Env K) (procs : List (Proc K)) (c : Config K) (p : Proc K) (site t : Nat) : Prop :=
  ∃ (ml : List (CEntry K)) (k : Nat) (e : PEntry K) (x : CEntry K), Surroundings env procs c site = .ok ml ∧ p.matchList[k]? = some e ∧ ml[k]? = some x ∧ ¬ e.Wild ∧ x.index = t

theorem matches?_look {e : PEntry K} {c : CEntry K} {types types' : List Bucket}
    (h : ¬ e.Wild → types'.getD c.index [] = types.getD c.index []) : e.matches? (c.look types') = e.matches? (c.look types) := by
  by_cases hw : e.Wild
  · unfold PEntry.matches?
    have hr : rd e.matchTypes 0 = .ok 1 := rd_ok.2 hw
    rw [hr]
    rfl
  · have : c.look types' = c.look types := by
      unfold CEntry.look
      rw [h hw]
    rw [this]

theorem whateverMatch_seen {ps : List (PEntry K)} {sk : List (CEntry K)} {types types' : List Bucket}
    (h : ∀ (k : Nat) (e : PEntry K) (c : CEntry K), ps[k]? = some e → sk[k]? = some c → ¬ e.Wild →
      types'.getD c.index [] = types.getD c.index []) :
    whateverMatch ps (seen types' sk) = whateverMatch ps (seen types sk) := by
  unfold whateverMatch seen
  rw [List.length_map, List.length_map]
  split
  · rfl
  clear * - h
  induction ps generalizing sk with
  | nil => rfl
  | cons p ps ih =>
    cases sk with
    | nil => rfl
    | cons c sk =>
      rw [List.map_cons, List.map_cons]
      unfold matchPrefix
      rw [matches?_look (h 0 p c rfl rfl), ih fun k e x he hx => h (k + 1) e x he hx]

/-- **C69** Whether a process is available at a site depends only on the types at the sites where it asks for something. The
two states may belong to different runs and start from different types. -/
theorem C69_local (h : GoodRun env n nT negLog cfg procs s) (h' : GoodRun env n nT negLog cfg' procs s')
    (hc : cfg'.coords = cfg.coords) {m : Nat} {p : Proc K} (hp : s.ms.procs[m]? = some p) : ∃ p', s'.ms.procs[m]? = some p' ∧
      p'.matchList = p.matchList ∧ ∀ site,
        (∀ t, LooksAt env procs s.ms.cfg p site t → s'.ms.cfg.types[t]? = s.ms.cfg.types[t]?) → (site ∈ p'.sites ↔ site ∈ p.sites) := by
  obtain ⟨cfg1, cfg1', procs1, hprep, hprep', hlists, q1, q2⟩ := h.pair h' hc
  obtain ⟨p', hp', f1, f2, -⟩ := procs_pair q1 q2 hp
  have hl := lists_of h.input hprep.1
  refine ⟨p', hp', f1, fun site hsame => ?_⟩
  by_cases hs : site < n
  · obtain ⟨sk, hsk⟩ : ∃ sk, cfg1.matchLists[site]? = some sk :=
      ⟨_, List.getElem?_eq_getElem (by rw [hl.shape.matchLists]; exact hs)⟩
    have e1 := hl.matchList h.input.lattice h.input.sites h.good.shape h.coords hsk
    have e2 := hl.matchList h.input.lattice h.input.sites h'.good.shape (h'.coords.trans hc) hsk
    have hw : whateverMatch p.matchList (seen s'.ms.cfg.types sk) = whateverMatch p.matchList (seen s.ms.cfg.types sk) := by
      refine whateverMatch_seen ?_
      intro k e c he hk hn
      have := hsame c.index ⟨_, k, e, c.look s.ms.cfg.types, e1, he, by unfold seen; rw [List.getElem?_map, hk]; rfl, hn, rfl⟩
      rw [List.getD_eq_getElem?_getD, List.getD_eq_getElem?_getD, this]
    rw [C24_available h hp site, C24_available h' hp' site, f1, f2]
    unfold Surroundings
    rw [e1, e2]
    simp only [Except.ok.injEq, exists_eq_left', hw]
  · constructor
    · intro hx; exact absurd ((C24_available h' hp' site).1 hx).1 hs
    · intro hx; exact absurd ((C24_available h hp site).1 hx).1 hs

/-- **C69** Which sites a process looks at does not depend on the state. -/
theorem C69_looks (h : GoodRun env n nT negLog cfg procs s) (h' : GoodRun env n nT negLog cfg' procs s')
    (hc : cfg'.coords = cfg.coords) {m : Nat} {p p' : Proc K} (hp : s.ms.procs[m]? = some p) (hp' : s'.ms.procs[m]? = some p')
    {site t : Nat} (hs : site < n) : LooksAt env procs s'.ms.cfg p' site t ↔ LooksAt env procs s.ms.cfg p site t := by
  obtain ⟨cfg1, cfg1', procs1, hprep, hprep', hlists, q1, q2⟩ := h.pair h' hc
  obtain ⟨p2, hp2, f1, -, -⟩ := procs_pair q1 q2 hp
  rw [hp'] at hp2
  obtain rfl := Option.some.inj hp2
  have hl := lists_of h.input hprep.1
  obtain ⟨sk, hsk⟩ : ∃ sk, cfg1.matchLists[site]? = some sk :=
    ⟨_, List.getElem?_eq_getElem (by rw [hl.shape.matchLists]; exact hs)⟩
  have e1 := hl.matchList h.input.lattice h.input.sites h.good.shape h.coords hsk
  have e2 := hl.matchList h.input.lattice h.input.sites h'.good.shape (h'.coords.trans hc) hsk
  have key : ∀ (types types' : List Bucket), (∃ (k : Nat) (e : PEntry K) (x : CEntry K), p.matchList[k]? = some e ∧ (seen types sk)[k]? = some x ∧ ¬ e.Wild ∧ x.index = t) →
      ∃ (k : Nat) (e : PEntry K) (x : CEntry K), p.matchList[k]? = some e ∧ (seen types' sk)[k]? = some x ∧ ¬ e.Wild ∧ x.index = t := by
    rintro types types' ⟨k, e, x, g1, g2, g3, g4⟩
    unfold seen at g2
    rw [List.getElem?_map, Option.map_eq_some_iff] at g2
    obtain ⟨c, g2, rfl⟩ := g2
    exact ⟨k, e, c.look types', g1, by unfold seen; rw [List.getElem?_map, g2]; rfl, g3, g4⟩
  constructor
  · rintro ⟨ml, k, e, x, g0, g1, g2, g3, g4⟩
    rw [f1] at g1
    have g0 : seen s'.ms.cfg.types sk = ml := Except.ok.inj (e2.symm.trans g0)
    subst g0
    obtain ⟨k, e, x, r⟩ := key _ s.ms.cfg.types ⟨k, e, x, g1, g2, g3, g4⟩
    exact ⟨_, k, e, x, e1, r⟩
  · rintro ⟨ml, k, e, x, g0, g1, g2, g3, g4⟩
    have g0 : seen s.ms.cfg.types sk = ml := Except.ok.inj (e1.symm.trans g0)
    subst g0
    obtain ⟨k, e, x, r⟩ := key _ s'.ms.cfg.types ⟨k, e, x, g1, g2, g3, g4⟩
    rw [← f1] at r
    exact ⟨_, k, e, x, e2, r⟩

theorem not_wild_of_changes {p q : Proc K} (h : p.From q) (hw : p.WellFormed nT) {e : PEntry K} (he : e ∈ q.matchList)
    (hc : e.Changes) : ¬ e.Wild := by
  rcases h.entry e he with he | ⟨c, rfl⟩
  · exact hw.notWild e he (.inl hc)
  · obtain ⟨u, hu, hne⟩ := hc
    exact absurd (List.eq_of_mem_replicate hu) hne

/-- **C69** An event changes nothing at sites where its process asks for nothing. -/
theorem C69_elsewhere (h : GoodRun env n nT negLog cfg procs s) {d : Draws K} {m site : Nat} {ps : List (Proc K)}
    (hsel : select s.ms.procs s.table d.process d.site = .ok (m, site, ps)) (hs : step env negLog s d = .ok s1) {p : Proc K}
    (hp : s.ms.procs[m]? = some p) {t : Nat} (ht : ¬ LooksAt env procs s.ms.cfg p site t) :
    s1.ms.cfg.types[t]? = s.ms.cfg.types[t]? := by
  obtain ⟨cfg1, procs1, hprep, hok, ⟨hI, -⟩, -⟩ := h.inv
  obtain ⟨p1, sk, hp1, hsk, hsite, hfit, htook⟩ := h.took hsel hs hprep
  rw [hp] at hp1
  obtain rfl := Option.some.inj hp1
  obtain ⟨p0, hp0, hfrom⟩ := World.source hprep hI hp
  have hw := h.input.processes p0 (List.mem_of_getElem? hp0)
  have hl := lists_of h.input hprep.1
  have e1 := hl.matchList h.input.lattice h.input.sites h.good.shape h.coords hsk
  apply htook.kept
  intro k e c hk hkc he hct
  refine ht ⟨_, k, e, c.look s.ms.cfg.types, e1, hk, by unfold seen; rw [List.getElem?_map, hkc]; rfl, ?_, hct⟩
  exact not_wild_of_changes hfrom hw (List.mem_of_getElem? hk) he

/-- **C69** What an event does at a site depends on the types at this site only. -/
theorem C69_event_local (h : GoodRun env n nT negLog cfg procs s) (h' : GoodRun env n nT negLog cfg' procs s')
    (hc : cfg'.coords = cfg.coords) {d d' : Draws K} {m site : Nat} {ps ps' : List (Proc K)}
    (hsel : select s.ms.procs s.table d.process d.site = .ok (m, site, ps)) (hs : step env negLog s d = .ok s1)
    (hsel' : select s'.ms.procs s'.table d'.process d'.site = .ok (m, site, ps')) (hs' : step env negLog s' d' = .ok s1') {t : Nat}
    (ht : s'.ms.cfg.types[t]? = s.ms.cfg.types[t]?) : s1'.ms.cfg.types[t]? = s1.ms.cfg.types[t]? := by
  obtain ⟨cfg1, cfg1', procs1, hprep, hprep', hlists, q1, q2⟩ := h.pair h' hc
  obtain ⟨p, sk, hp, hsk, hsite, hfit, htook⟩ := h.took hsel hs hprep
  obtain ⟨p', sk', hp', hsk', hsite', hfit', htook'⟩ := h'.took hsel' hs' hprep'
  obtain ⟨p2, hp2, f1, -, -⟩ := procs_pair q1 q2 hp
  rw [hp'] at hp2
  obtain rfl := Option.some.inj hp2
  have hsk2 : sk' = seen cfg'.types sk := by
    rw [hlists, List.getElem?_map, hsk] at hsk'
    exact (Option.some.inj hsk').symm
  have hidx : ∀ k : Nat, (sk'[k]?).map (·.index) = (sk[k]?).map (·.index) := by
    intro k
    rw [hsk2]
    unfold seen
    rw [List.getElem?_map, Option.map_map]
    rfl
  by_cases hex : ∃ (k : Nat) (e : PEntry K) (c : CEntry K), p.matchList[k]? = some e ∧ sk[k]? = some c ∧ e.Changes ∧ c.index = t
  · obtain ⟨k, e, c, g1, g2, g3, rfl⟩ := hex
    have := hidx k
    rw [g2, Option.map_some, Option.map_eq_some_iff] at this
    obtain ⟨c', g2', g4⟩ := this
    obtain ⟨x, x1, x2⟩ := htook.changed k e c g1 g2 g3
    obtain ⟨y, y1, y2⟩ := htook'.changed k e c' (by rw [f1]; exact g1) g2' g3
    rw [g4] at y1 y2
    rw [ht, x1] at y1
    obtain rfl := Option.some.inj y1
    rw [x2, y2]
  · rw [htook.kept t, htook'.kept t, ht]
    · intro k e c' g1 g2 g3 g4
      have := hidx k
      rw [g2, Option.map_some, eq_comm, Option.map_eq_some_iff] at this
      obtain ⟨c, g5, g6⟩ := this
      exact hex ⟨k, e, c, by rw [← f1]; exact g1, g5, g3, g6.trans g4⟩
    · intro k e c g1 g2 g3 g4
      exact hex ⟨k, e, c, g1, g2, g3, g4⟩

theorem event_site_lt (h : GoodRun env n nT negLog cfg procs s) {d : Draws K} {m site : Nat} {ps : List (Proc K)}
    (hsel : select s.ms.procs s.table d.process d.site = .ok (m, site, ps)) (hs : step env negLog s d = .ok s1) {p : Proc K}
    (hp : s.ms.procs[m]? = some p) : site < n := by
  obtain ⟨cfg1, procs1, hprep, -, -, -⟩ := h.inv
  obtain ⟨p1, -, hp1, -, hsite, -, -⟩ := h.took hsel hs hprep
  exact ((C24_available h hp1 site).1 hsite).1

/-- No site matters for both events: the one of the process `p` at `a` and the one of the process `q` at `b`. -/
def Unrelated (env : Env K) (procs : List (Proc K)) (c : Config K) (p : Proc K) (a : Nat) (q : Proc K) (b : Nat) : Prop :=
  ∀ t, LooksAt env procs c p a t → ¬ LooksAt env procs c q b t

/-- **C69** An event makes no difference for what is available apart from it. -/
theorem C69_stays (h : GoodRun env n nT negLog cfg procs s) {d : Draws K} {m a : Nat} {ps : List (Proc K)}
    (hsel : select s.ms.procs s.table d.process d.site = .ok (m, a, ps)) (hs : step env negLog s d = .ok s1) {p q : Proc K}
    (hp : s.ms.procs[m]? = some p) {j b : Nat} (hq : s.ms.procs[j]? = some q) (hap : Unrelated env procs s.ms.cfg p a q b) :
    ∃ q', s1.ms.procs[j]? = some q' ∧ (b ∈ q'.sites ↔ b ∈ q.sites) := by
  obtain ⟨q', h1, -, h2⟩ := C69_local h (h.step hs) rfl hq
  exact ⟨q', h1, h2 b fun t ht => C69_elsewhere h hsel hs hp fun hx => hap t hx ht⟩

/-- **C69** Two events apart from each other can be done in either order: the types on all sites are the same in the end. -/
theorem C69_commute (h : GoodRun env n nT negLog cfg procs s) {m a j b : Nat} {d1 d2 d3 d4 : Draws K} {ps1 ps2 ps3 ps4 : List (Proc K)}
    {p q : Proc K} (hp : s.ms.procs[m]? = some p) (hq : s.ms.procs[j]? = some q) (hap : Unrelated env procs s.ms.cfg p a q b)
    (hsel1 : select s.ms.procs s.table d1.process d1.site = .ok (m, a, ps1)) (hs1 : step env negLog s d1 = .ok s1)
    (hsel2 : select s1.ms.procs s1.table d2.process d2.site = .ok (j, b, ps2)) (hs2 : step env negLog s1 d2 = .ok s12)
    (hsel3 : select s.ms.procs s.table d3.process d3.site = .ok (j, b, ps3)) (hs3 : step env negLog s d3 = .ok s2)
    (hsel4 : select s2.ms.procs s2.table d4.process d4.site = .ok (m, a, ps4)) (hs4 : step env negLog s2 d4 = .ok s21) :
    s21.ms.cfg.types = s12.ms.cfg.types := by
  have g1 := h.step hs1
  have g2 := h.step hs3
  obtain ⟨q1, hq1, -, -⟩ := C69_local h g1 rfl hq
  obtain ⟨p2, hp2, -, -⟩ := C69_local h g2 rfl hp
  have ha : a < n := (event_site_lt h hsel1 hs1 hp)
  have hb : b < n := (event_site_lt h hsel3 hs3 hq)
  apply List.ext_getElem?
  intro t
  by_cases ht : LooksAt env procs s.ms.cfg p a t
  · have hn := hap t ht
    rw [C69_elsewhere g1 hsel2 hs2 hq1 (fun hx => hn ((C69_looks h g1 rfl hq hq1 hb).1 hx))]
    exact C69_event_local h g2 rfl hsel1 hs1 hsel4 hs4 (C69_elsewhere h hsel3 hs3 hq hn)
  · rw [C69_elsewhere g2 hsel4 hs4 hp2 (fun hx => ht ((C69_looks h g2 rfl hp hp2 ha).1 hx))]
    exact (C69_event_local h g1 rfl hsel3 hs3 hsel2 hs2 (C69_elsewhere h hsel1 hs1 hp ht)).symm

/-- **C69** A process looks at sites in the cells within the range only. So two events are unrelated if no site is within the
range of both. -/
theorem C69_range (h : GoodRun env n nT negLog cfg procs s) {p : Proc K} {site t : Nat} (hs : site < n)
    (ht : LooksAt env procs s.ms.cfg p site t) : t ∈ env.L.neighbourIndices site (maxRange procs) := by
  obtain ⟨cfg1, procs1, hprep, hok, ⟨hI, -⟩, -⟩ := h.inv
  have hl := lists_of h.input hprep.1
  obtain ⟨sk, hsk⟩ : ∃ sk, cfg1.matchLists[site]? = some sk :=
    ⟨_, List.getElem?_eq_getElem (by rw [hl.shape.matchLists]; exact hs)⟩
  have e1 := hl.matchList h.input.lattice h.input.sites h.good.shape h.coords hsk
  obtain ⟨ml, k, e, x, g0, g1, g2, g3, g4⟩ := ht
  have g0 : seen s.ms.cfg.types sk = ml := Except.ok.inj (e1.symm.trans g0)
  subst g0
  unfold seen at g2
  rw [List.getElem?_map, Option.map_eq_some_iff] at g2
  obtain ⟨c, g2, rfl⟩ := g2
  obtain ⟨_, -, hent⟩ := hl.entry hsk
  rw [← g4]
  exact (hent c (List.mem_of_getElem? g2)).1

theorem C69_far (h : GoodRun env n nT negLog cfg procs s) {p q : Proc K} {a b : Nat} (ha : a < n) (hb : b < n)
    (hd : ∀ t ∈ env.L.neighbourIndices a (maxRange procs), t ∉ env.L.neighbourIndices b (maxRange procs)) :
    Unrelated env procs s.ms.cfg p a q b :=
  fun t h1 h2 => hd t (C69_range h ha h1) (C69_range h hb h2)

/-- **C69** So are the sites that are available for each process. -/
theorem C69_same_available (h : GoodRun env n nT negLog cfg procs s) (h' : GoodRun env n nT negLog cfg' procs s')
    (hc : cfg'.coords = cfg.coords) (ht : s'.ms.cfg.types = s.ms.cfg.types) {m : Nat} {p : Proc K} (hp : s.ms.procs[m]? = some p) :
    ∃ p', s'.ms.procs[m]? = some p' ∧ ∀ site, site ∈ p'.sites ↔ site ∈ p.sites := by
  obtain ⟨p', h1, -, h2⟩ := C69_local h h' hc hp
  exact ⟨p', h1, fun site => h2 site fun t _ => by rw [ht]⟩

end

section
variable {env : Env ℝ} {n nT : Nat} {cfg : Config ℝ} {procs : List (Proc ℝ)} {s : Sim ℝ}

/-- **C69** Two events apart from each other that are both available can be done in both orders, and then lead to the same
types. The numbers of particles must be small enough. -/
theorem C69_both_orders (h : GoodRun env n nT negLog cfg procs s) (hr : PositiveRates env procs) {M : Nat} (hb : Bounded M cfg procs)
    (hf : FewEnough M procs) {m a j b : Nat} {p q : Proc ℝ} (hp : s.ms.procs[m]? = some p) (hq : s.ms.procs[j]? = some q)
    (ha : a ∈ p.sites) (hbq : b ∈ q.sites) (hap : Unrelated env procs s.ms.cfg p a q b) :
    ∃ d1 d2 d3 d4 ps1 ps2 ps3 ps4 s1 s12 s2 s21,
      (select s.ms.procs s.table d1.process d1.site = .ok (m, a, ps1) ∧ step env negLog s d1 = .ok s1) ∧
      (select s1.ms.procs s1.table d2.process d2.site = .ok (j, b, ps2) ∧ step env negLog s1 d2 = .ok s12) ∧
      (select s.ms.procs s.table d3.process d3.site = .ok (j, b, ps3) ∧ step env negLog s d3 = .ok s2) ∧
      (select s2.ms.procs s2.table d4.process d4.site = .ok (m, a, ps4) ∧ step env negLog s2 d4 = .ok s21) ∧
      s21.ms.cfg.types = s12.ms.cfg.types := by
  obtain ⟨k, hk⟩ := List.mem_iff_getElem?.1 ha
  obtain ⟨l, hl⟩ := List.mem_iff_getElem?.1 hbq
  obtain ⟨d1, ps1, s1, -, c1, e1, -⟩ := C58_possible h hr hb hf hp hk
  obtain ⟨d3, ps3, s2, -, c3, e3, -⟩ := C58_possible h hr hb hf hq hl
  obtain ⟨q1, hq1, i1⟩ := C69_stays h c1 e1 hp hq hap
  obtain ⟨p2, hp2, i2⟩ := C69_stays h c3 e3 hq hp (fun t h1 h2 => hap t h2 h1)
  obtain ⟨l1, hl1⟩ := List.mem_iff_getElem?.1 (i1.2 hbq)
  obtain ⟨k2, hk2⟩ := List.mem_iff_getElem?.1 (i2.2 ha)
  obtain ⟨d2, ps2, s12, -, c2, e2, -⟩ := C58_possible (h.step e1) hr hb hf hq1 hl1
  obtain ⟨d4, ps4, s21, -, c4, e4, -⟩ := C58_possible (h.step e3) hr hb hf hp2 hk2
  exact ⟨d1, d2, d3, d4, ps1, ps2, ps3, ps4, s1, s12, s2, s21, ⟨c1, e1⟩, ⟨c2, e2⟩, ⟨c3, e3⟩, ⟨c4, e4⟩,
    C69_commute h hp hq hap c1 e1 c2 e2 c3 e3 c4 e4⟩

end

/-! ### The hypotheses hold for a model -/

/-- A ring of eight sites. -/
def Sample.ring8 : PyLattice ℚ := chain 8 true

def Sample.twoAtoms : List (List String) := [["A"], ["B"], ["B"], ["B"], ["A"], ["B"], ["B"], ["B"]]

/-- The first and the second of two sites, for the first of two processes. -/
def Sample.firstSite : Draws ℚ := ⟨[1/2], 1/4, 1/4⟩
def Sample.secondSite : Draws ℚ := ⟨[1/2], 1/4, 3/4⟩

/-- Non-vacuity: two atoms on a ring of eight sites, at a distance of four. Both hop to the right, in either order. -/
example : ∃ (cfg : Config ℚ) (procs : List (Proc ℚ)) (s s1 s12 s2 s21 : Sim ℚ) (p : Proc ℚ) (ps1 ps2 ps3 ps4 : List (Proc ℚ))
    (d1 d2 d3 d4 : Draws ℚ),
    GoodRun (Sample.env Sample.ring8) 8 4 Sample.lg cfg procs s ∧ s.ms.procs[0]? = some p ∧
    Unrelated (Sample.env Sample.ring8) procs s.ms.cfg p 0 p 4 ∧
    (select s.ms.procs s.table d1.process d1.site = .ok (0, 0, ps1) ∧ step (Sample.env Sample.ring8) Sample.lg s d1 = .ok s1) ∧
    (select s1.ms.procs s1.table d2.process d2.site = .ok (0, 4, ps2) ∧ step (Sample.env Sample.ring8) Sample.lg s1 d2 = .ok s12) ∧
    (select s.ms.procs s.table d3.process d3.site = .ok (0, 4, ps3) ∧ step (Sample.env Sample.ring8) Sample.lg s d3 = .ok s2) ∧
    (select s2.ms.procs s2.table d4.process d4.site = .ok (0, 0, ps4) ∧ step (Sample.env Sample.ring8) Sample.lg s2 d4 = .ok s21) := by
  have key : ∀ (d d' : Draws ℚ) (a b : Nat), (Sample.go (Sample.env Sample.ring8) Sample.ring8 Sample.twoAtoms Sample.hops []).bind (fun s =>
      (select s.ms.procs s.table d.process d.site).bind fun r => (step (Sample.env Sample.ring8) Sample.lg s d).bind fun s1 =>
      (select s1.ms.procs s1.table d'.process d'.site).bind fun r' => (step (Sample.env Sample.ring8) Sample.lg s1 d').map fun _ =>
        ((r.1, r.2.1), (r'.1, r'.2.1))) = .ok ((0, a), (0, b)) → ∀ s, Sample.go (Sample.env Sample.ring8) Sample.ring8 Sample.twoAtoms Sample.hops [] = .ok s →
      ∃ ps ps' s1 s12, (select s.ms.procs s.table d.process d.site = .ok (0, a, ps) ∧ step (Sample.env Sample.ring8) Sample.lg s d = .ok s1) ∧
        (select s1.ms.procs s1.table d'.process d'.site = .ok (0, b, ps') ∧ step (Sample.env Sample.ring8) Sample.lg s1 d' = .ok s12) := by
    intro d d' a b h s hs
    rw [hs] at h
    replace h : ((select s.ms.procs s.table d.process d.site).bind fun r => (step (Sample.env Sample.ring8) Sample.lg s d).bind fun s1 =>
      (select s1.ms.procs s1.table d'.process d'.site).bind fun r' => (step (Sample.env Sample.ring8) Sample.lg s1 d').map fun _ =>
        ((r.1, r.2.1), (r'.1, r'.2.1))) = .ok ((0, a), (0, b)) := h
    obtain ⟨⟨m, site, ps⟩, r1, h⟩ := bind_ok.1 h
    obtain ⟨s1, r2, h⟩ := bind_ok.1 h
    obtain ⟨⟨m', site', ps'⟩, r3, h⟩ := bind_ok.1 h
    obtain ⟨s12, r4, h⟩ := Sample.exists_of_map h
    simp only [Prod.mk.injEq] at h
    obtain ⟨⟨rfl, rfl⟩, rfl, rfl⟩ := h
    exact ⟨ps, ps', s1, s12, ⟨r1, r2⟩, r3, r4⟩
  obtain ⟨cfg, procs, h1, h2, h3⟩ := Sample.goodCheck_ok (env := Sample.env Sample.ring8) (P := Sample.ring8) (els := Sample.twoAtoms)
    (procs := Sample.hops) (by decide +kernel)
  obtain ⟨s, hs, hf⟩ := Sample.exists_of_map (x := Sample.go (Sample.env Sample.ring8) Sample.ring8 Sample.twoAtoms Sample.hops [])
    (f := fun s => s.ms.procs.map (·.sites)) (b := [[0, 4], [0, 4]]) (by decide +kernel)
  have hn : Sample.ring8.sites.length = 8 := by decide +kernel
  rw [hn] at h3
  have hg : GoodRun (Sample.env Sample.ring8) 8 4 Sample.lg cfg procs s := ⟨h3, fun h => (by cases h), Sample.reached_of_go hs h1 h2⟩
  obtain ⟨ps1, ps2, s1, s12, a1, a2⟩ := key Sample.firstSite Sample.half 0 4 (by decide +kernel) s hs
  obtain ⟨ps3, ps4, s2, s21, a3, a4⟩ := key Sample.secondSite Sample.half 4 0 (by decide +kernel) s hs
  obtain ⟨p, hp⟩ : ∃ p, s.ms.procs[0]? = some p := by
    cases hx : s.ms.procs with
    | nil => rw [hx] at hf; cases hf
    | cons p l => exact ⟨p, rfl⟩
  obtain ⟨ps, hps, hr⟩ := Sample.exists_of_map (x := Sample.hops) (f := maxRange) (b := 1) (by decide +kernel)
  rw [h2] at hps
  obtain rfl := Except.ok.inj hps
  refine ⟨cfg, procs, s, s1, s12, s2, s21, p, ps1, ps2, ps3, ps4, _, _, _, _, hg, hp, C69_far hg (by decide) (by decide) ?_, a1, a2, a3, a4⟩
  rw [hr]
  decide +kernel

end KMC
