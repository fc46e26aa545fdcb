import Verif.Lemmas.Symmetric
import Verif.Props.Elsewhere
import Verif.Props.Shift
import Verif.Samples.RealRing

/-!
# C68: images of models under symmetries

The image of a periodic model under a symmetry (a mirror image, or the exchange of axes) does the same at the images of the
sites. The lattice, the configuration and the processes are those of the image; the processes are sorted by the code, which
puts their entries in another order.
-/

set_option linter.unusedSectionVars false

namespace KMC

open LatticeModel Interactions

section
variable {K : Type _} [Field K] [LinearOrder K] [IsStrictOrderedRing K] [FloorRing K]

/-- Two models on the sites of two lattices, the second one being the image of the first one under the map of sites `τ` and
the map of displacements `g`. -/
structure ImageModels (P P' : PyLattice K) (env env' : Env K) (cfg cfg' : Config K) (procs procs' : List (Proc K)) (τ : Nat → Nat)
    (g : Coord K → Coord K) : Prop where
  on : OnSites P env cfg
  on' : OnSites P' env' cfg'
  uniform : P.Uniform (maxRange procs)
  uniform' : P'.Uniform (maxRange procs')
  siteMap : P.SiteMap P' τ
  length : procs'.length = procs.length
  constant : ∀ p ∈ procs, p.custom = false
  constant' : ∀ p ∈ procs', p.custom = false
  image : ∀ (j : Nat) (p p' : Proc K), procs[j]? = some p → procs'[j]? = some p' → p.Image g p' ∧ ∃ b b',
    p.Sited env.dist P (maxRange procs) b ∧ p'.Sited env'.dist P' (maxRange procs') b' ∧
    (∀ s < P.map.nSites, P'.map.basisSite (τ s) = b' ↔ P.map.basisSite s = b) ∧
    ∀ e ∈ p.matchList, P.Carries P' τ g b e.coord

variable {env env' : Env K} {n nT : Nat} {negLog : K → Option K} {cfg cfg' : Config K} {procs procs' : List (Proc K)}
variable {s s' s1 s1' : Sim K} {P P' : PyLattice K} {τ : Nat → Nat} {g : Coord K → Coord K}

theorem PyLattice.SiteMap.reached (h : P.SiteMap P' τ) {u : Nat} (hu : u < P.map.nSites) : ∃ t < P.map.nSites, τ t = u :=
  reached_of_injective h.lt h.inj hu

theorem GoodRun.source (h : GoodRun env n nT negLog cfg procs s) {j : Nat} {p1 : Proc K} (hp : s.ms.procs[j]? = some p1) :
    ∃ p, procs[j]? = some p ∧ p1.basisSites = p.basisSites ∧ p1.rate = p.rate ∧ p1.custom = p.custom := by
  obtain ⟨cfg1, procs1, hprep, -, ⟨⟨A, hI⟩, -⟩, -⟩ := h.inv
  have e1 : (procs1.map Proc.still)[j]? = some p1.still := hI.proc hp
  rw [List.getElem?_map, Option.map_eq_some_iff] at e1
  obtain ⟨p2, e1, f1⟩ := e1
  obtain ⟨p, e2, -, f2⟩ := prepared_proc h.input hprep e1
  refine ⟨p, e2, ?_, ?_, ?_⟩
  · have g1 : p2.basisSites = p1.basisSites := by have h := congrArg Proc.basisSites f1; exact h
    rw [← g1, f2]; rfl
  · have g1 : p2.rate = p1.rate := by have h := congrArg Proc.rate f1; exact h
    rw [← g1, f2]; rfl
  · have g1 : p2.custom = p1.custom := by have h := congrArg Proc.custom f1; exact h
    rw [← g1, f2]; rfl

theorem GoodRun.processes_length (h : GoodRun env n nT negLog cfg procs s) : s.ms.procs.length = procs.length := by
  obtain ⟨cfg1, procs1, hprep, -, ⟨⟨A, hI⟩, -⟩, -⟩ := h.inv
  have e1 : s.ms.procs.map Proc.still = procs1.map Proc.still := hI.procs
  have e2 := congrArg List.length e1
  rw [List.length_map, List.length_map] at e2
  rw [e2, prepared_length hprep]

/-- **C68** A process is available at a site exactly if its image is available at the image of the site. -/
theorem C68_available (h : GoodRun env n nT negLog cfg procs s) (h' : GoodRun env' n nT negLog cfg' procs' s')
    (hi : ImageModels P P' env env' cfg cfg' procs procs' τ g) (hm : P.Mapped τ s.ms.cfg.types s'.ms.cfg.types) {m : Nat}
    {p : Proc K} (hp : s.ms.procs[m]? = some p) : ∃ p', s'.ms.procs[m]? = some p' ∧
      (∀ site < n, τ site ∈ p'.sites ↔ site ∈ p.sites) ∧ p'.sites.Perm (p.sites.map τ) := by
  obtain ⟨hP, hn⟩ := hi.on.wf h
  obtain ⟨hP', hn'⟩ := hi.on'.wf h'
  obtain ⟨q, hq, hqb, -, -⟩ := h.source hp
  obtain ⟨q', hq'⟩ : ∃ q', procs'[m]? = some q' := by
    refine ⟨_, List.getElem?_eq_getElem ?_⟩
    rw [hi.length]
    exact (List.getElem?_eq_some_iff.1 hq).1
  obtain ⟨p', hp'⟩ : ∃ p', s'.ms.procs[m]? = some p' := by
    refine ⟨_, List.getElem?_eq_getElem ?_⟩
    rw [h'.processes_length]
    exact (List.getElem?_eq_some_iff.1 hq').1
  obtain ⟨q2, hq2, hqb', -, -⟩ := h'.source hp'
  rw [hq'] at hq2
  obtain rfl := Option.some.inj hq2
  obtain ⟨him, b, b', hs, hs', hbas, hcar⟩ := hi.image m q q' hq hq'
  have key : ∀ site < n, τ site ∈ p'.sites ↔ site ∈ p.sites := by
    intro site hsn
    have hsP : site < P.map.nSites := by rw [hn]; exact hsn
    have htP : τ site < P.map.nSites := hi.siteMap.lt site hsP
    have htn : τ site < n := by rw [← hn]; exact htP
    have htP' : τ site < P'.map.nSites := by rw [hn']; exact htn
    by_cases hb : P.map.basisSite site = b
    · have hb' := (hbas site hsP).2 hb
      have hbl : b < P.map.nBasis := by rw [← hb]; exact (P.map.addr_valid hP site hsP).2.2.2
      have hbl' : b' < P'.map.nBasis := by rw [← hb']; exact (P'.map.addr_valid hP' _ htP').2.2.2
      obtain ⟨p2, e2, hiff⟩ := C10_available_iff_partial h hi.on hq hs hsn hb
        (hi.uniform.alike hP hsP (central_lt hP hbl) (by rw [central_basis hP hbl, hb]))
      obtain ⟨p2', e2', hiff'⟩ := C10_available_iff_partial h' hi.on' hq' hs' htn hb'
        (hi.uniform'.alike hP' htP' (central_lt hP' hbl') (by rw [central_basis hP' hbl', hb']))
      rw [hp] at e2
      obtain rfl := Option.some.inj e2
      rw [hp'] at e2'
      obtain rfl := Option.some.inj e2'
      rw [hiff, hiff']
      constructor
      · intro hall e he
        obtain ⟨f, hf, hef⟩ := him.there e he
        obtain ⟨u, present, a1, a2, a3⟩ := hall f hf
        have hu : u < P.map.nSites := by rw [← hi.siteMap.size]; exact a1.lt.2
        obtain ⟨t, ht, rfl⟩ := hi.siteMap.reached hu
        rw [hef.coord] at a1
        refine ⟨t, present, (hcar e he site hsP t ht hb).1 a1, ?_, ?_⟩
        · rw [← hm t ht]; exact a2
        · unfold Accepts at a3 ⊢
          rw [hef.asks] at a3
          exact a3
      · intro hall f hf
        obtain ⟨e, he, hef⟩ := him.back f hf
        obtain ⟨t, present, a1, a2, a3⟩ := hall e he
        have ht : t < P.map.nSites := a1.lt.2
        refine ⟨τ t, present, ?_, ?_, ?_⟩
        · rw [hef.coord]
          exact (hcar e he site hsP t ht hb).2 a1
        · rw [hm t ht]; exact a2
        · unfold Accepts at a3 ⊢
          rw [hef.asks]
          exact a3
    · have hb' : P'.map.basisSite (τ site) ≠ b' := fun hx => hb ((hbas site hsP).1 hx)
      constructor
      · intro hx
        have := ((C24_available h' hp' _).1 hx).2.1
        rw [hqb', hs'.basis, hi.on'.lattice, List.mem_singleton] at this
        exact absurd this hb'
      · intro hx
        have := ((C24_available h hp _).1 hx).2.1
        rw [hqb, hs.basis, hi.on.lattice, List.mem_singleton] at this
        exact absurd this hb
  refine ⟨p', hp', key, ?_⟩
  have nd := ((C25_totals h).1 p (List.mem_of_getElem? hp)).1
  have nd' := ((C25_totals h').1 p' (List.mem_of_getElem? hp')).1
  have lt : ∀ x ∈ p.sites, x < n := fun x hx => ((C24_available h hp x).1 hx).1
  rw [List.perm_ext_iff_of_nodup nd']
  · intro u
    rw [List.mem_map]
    constructor
    · intro hu
      have hun : u < P.map.nSites := by rw [hn]; exact ((C24_available h' hp' u).1 hu).1
      obtain ⟨t, ht, rfl⟩ := hi.siteMap.reached hun
      exact ⟨t, (key t (by rw [← hn]; exact ht)).1 hu, rfl⟩
    · rintro ⟨t, ht, rfl⟩
      exact (key t (lt t ht)).2 ht
  · refine List.Nodup.map_on ?_ nd
    intro x hx y hy e
    exact hi.siteMap.inj x (by rw [hn]; exact lt x hx) y (by rw [hn]; exact lt y hy) e

/-- **C68** An event and its image lead to a configuration and its image. -/
theorem C68_event (h : GoodRun env n nT negLog cfg procs s) (h' : GoodRun env' n nT negLog cfg' procs' s')
    (hi : ImageModels P P' env env' cfg cfg' procs procs' τ g) (hm : P.Mapped τ s.ms.cfg.types s'.ms.cfg.types) {m site : Nat}
    {d d' : Draws K} {ps ps' : List (Proc K)} (hsel : select s.ms.procs s.table d.process d.site = .ok (m, site, ps))
    (hs : step env negLog s d = .ok s1)
    (hsel' : select s'.ms.procs s'.table d'.process d'.site = .ok (m, τ site, ps'))
    (hs' : step env' negLog s' d' = .ok s1') : P.Mapped τ s1.ms.cfg.types s1'.ms.cfg.types := by
  obtain ⟨hP, hn⟩ := hi.on.wf h
  obtain ⟨hP', hn'⟩ := hi.on'.wf h'
  obtain ⟨cfg1, procs1, hprep, -, -, -⟩ := h.inv
  obtain ⟨cfg1', procs1', hprep', -, -, -⟩ := h'.inv
  obtain ⟨p, -, hp, -, hsite, -, -⟩ := h.took hsel hs hprep
  obtain ⟨p', -, hp', -, hsite', -, -⟩ := h'.took hsel' hs' hprep'
  obtain ⟨q, hq, hqb, -, -⟩ := h.source hp
  obtain ⟨q', hq', hqb', -, -⟩ := h'.source hp'
  obtain ⟨him, b, b', h1, h1', hbas, hcar⟩ := hi.image m q q' hq hq'
  have hav := (C24_available h hp site).1 hsite
  have hav' := (C24_available h' hp' (τ site)).1 hsite'
  have hsP : site < P.map.nSites := by rw [hn]; exact hav.1
  have htP' : τ site < P'.map.nSites := by rw [hn']; exact hav'.1
  have hb : P.map.basisSite site = b := by
    have := hav.2.1
    rw [hqb, h1.basis, hi.on.lattice, List.mem_singleton] at this
    exact this
  have hb' := (hbas site hsP).2 hb
  have hbl : b < P.map.nBasis := by rw [← hb]; exact (P.map.addr_valid hP site hsP).2.2.2
  have hbl' : b' < P'.map.nBasis := by rw [← hb']; exact (P'.map.addr_valid hP' _ htP').2.2.2
  have ha := hi.uniform.alike hP hsP (central_lt hP hbl) (by rw [central_basis hP hbl, hb])
  have ha' := hi.uniform'.alike hP' htP' (central_lt hP' hbl') (by rw [central_basis hP' hbl', hb'])
  intro t ht
  obtain ⟨a1, a2⟩ := C17_places_partial h hi.on hsel hs hq h1 ha t
  obtain ⟨c1, c2⟩ := C17_places_partial h' hi.on' hsel' hs' hq' h1' ha' (τ t)
  by_cases hex : ∃ e ∈ q.matchList, P.At site e.coord t
  · obtain ⟨e, he, hat⟩ := hex
    obtain ⟨f, hf, hef⟩ := him.there e he
    obtain ⟨x, x1, x2⟩ := a1 e he hat
    obtain ⟨y, y1, y2⟩ := c1 f hf (by rw [hef.coord]; exact (hcar e he site hsP t ht hb).2 hat)
    rw [hm t ht, x1] at y1
    obtain rfl := Option.some.inj y1
    rw [x2, y2, hef.changes]
  · have hno : ∀ e ∈ q.matchList, ¬ P.At site e.coord t := fun e he hat => hex ⟨e, he, hat⟩
    rw [a2 hno, c2, hm t ht]
    intro f hf hat
    obtain ⟨e, he, hef⟩ := him.back f hf
    rw [hef.coord] at hat
    exact hno e he ((hcar e he site hsP t ht hb).1 hat)

theorem weights_constant (h : GoodRun env n nT negLog cfg procs s) {m : Nat} {p : Proc K} (hp : s.ms.procs[m]? = some p)
    (hc : p.custom = false) : p.weights = p.sites.map fun _ => p.rate := by
  obtain ⟨cfg1, procs1, hprep, -, ⟨⟨A, hI⟩, -⟩, -⟩ := h.inv
  rw [(hI.book.rep m p hp).weights]
  apply List.map_congr_left
  intro x _
  rw [hc]
  rfl

/-- **C68** The rates are the same, in total and at the images of the sites. -/
theorem C68_rates (h : GoodRun env n nT negLog cfg procs s) (h' : GoodRun env' n nT negLog cfg' procs' s')
    (hi : ImageModels P P' env env' cfg cfg' procs procs' τ g) (hm : P.Mapped τ s.ms.cfg.types s'.ms.cfg.types) :
    s'.ms.procs.map (·.totalRate) = s.ms.procs.map (·.totalRate) ∧
    ∀ (m : Nat) (p p' : Proc K), s.ms.procs[m]? = some p → s'.ms.procs[m]? = some p' →
      ∀ (site : Nat) (r : K), (site, r) ∈ p.sites.zip p.weights → (τ site, r) ∈ p'.sites.zip p'.weights := by
  have hrate : ∀ (m : Nat) (p p' : Proc K), s.ms.procs[m]? = some p → s'.ms.procs[m]? = some p' →
      p.custom = false ∧ p'.custom = false ∧ p'.rate = p.rate := by
    intro m p p' hp hp'
    obtain ⟨q, hq, -, r1, r2⟩ := h.source hp
    obtain ⟨q', hq', -, r1', r2'⟩ := h'.source hp'
    refine ⟨?_, ?_, ?_⟩
    · rw [r2]; exact hi.constant q (List.mem_of_getElem? hq)
    · rw [r2']; exact hi.constant' q' (List.mem_of_getElem? hq')
    · rw [r1, r1', (hi.image m q q' hq hq').1.rate]
  constructor
  · apply List.ext_getElem?
    intro m
    rw [List.getElem?_map, List.getElem?_map]
    cases hp : s.ms.procs[m]? with
    | none =>
      have e1 := h.processes_length
      have e2 := h'.processes_length
      have e3 := hi.length
      rw [List.getElem?_eq_none_iff] at hp
      rw [List.getElem?_eq_none (by omega)]
    | some p =>
      obtain ⟨p', hp', -, hperm⟩ := C68_available h h' hi hm hp
      obtain ⟨r1, r2, r3⟩ := hrate m p p' hp hp'
      rw [hp', Option.map_some, Option.map_some, Option.some.injEq,
        ((C25_totals h').1 p' (List.mem_of_getElem? hp')).2.2.2, ((C25_totals h).1 p (List.mem_of_getElem? hp)).2.2.2,
        weights_constant h hp r1, weights_constant h' hp' r2, (hperm.map _).sum_eq, List.map_map, r3]
      rfl
  · intro m p p' hp hp' site r hmem
    obtain ⟨p2, hp2, -, hperm⟩ := C68_available h h' hi hm hp
    rw [hp'] at hp2
    obtain rfl := Option.some.inj hp2
    obtain ⟨r1, r2, r3⟩ := hrate m p p' hp hp'
    obtain ⟨l, hl1⟩ := List.mem_iff_getElem?.1 hmem
    rw [List.getElem?_zip_eq_some] at hl1
    obtain ⟨b1, b2⟩ := hl1
    dsimp only at b1 b2
    rw [weights_constant h hp r1, List.getElem?_map, b1] at b2
    have b2 : p.rate = r := Option.some.inj b2
    have hmem' : τ site ∈ p'.sites := hperm.mem_iff.2 (List.mem_map_of_mem (List.mem_of_getElem? b1))
    obtain ⟨l', hl'⟩ := List.mem_iff_getElem?.1 hmem'
    refine List.mem_of_getElem? (i := l') ?_
    rw [List.getElem?_zip_eq_some]
    refine ⟨hl', ?_⟩
    rw [weights_constant h' hp' r2, List.getElem?_map, hl', Option.map_some, r3, b2]

end

/-! ### Runs -/

section
open MeasureTheory

variable {env env' : Env ℝ} {n nT : Nat} {cfg cfg' : Config ℝ} {procs procs' : List (Proc ℝ)} {s s' : Sim ℝ} {P P' : PyLattice ℝ}
variable {τ : Nat → Nat} {g : Coord ℝ → Coord ℝ}

/-- The events at the images of the sites. -/
def imageEvents (τ : Nat → Nat) (es : List (Nat × Nat × ℝ)) : List (Nat × Nat × ℝ) := es.map fun e => (e.1, τ e.2.1, e.2.2)

/-- **C68** A course of events of the one model is, at the images of the sites, a course of the other, with the same rates. -/
theorem C68_course (h : GoodRun env n nT negLog cfg procs s) (h' : GoodRun env' n nT negLog cfg' procs' s')
    (hi : ImageModels P P' env env' cfg cfg' procs procs' τ g) (hm : P.Mapped τ s.ms.cfg.types s'.ms.cfg.types)
    (hr : PositiveRates env' procs') {M : Nat} (hb : Bounded M cfg' procs') (hf : FewEnough M procs')
    {es : List (Nat × Nat × ℝ)} {q : ℝ} (hco : Course env s es q) : Course env' s' (imageEvents τ es) q := by
  induction hco generalizing s' with
  | nil s => exact .nil s'
  | @cons s s1 d ps m site l p r t es q hsel hstep hp hk hw rest ih =>
    obtain ⟨p', hp', -, -⟩ := C68_available h h' hi hm hp
    obtain ⟨e1, e2⟩ := C68_rates h h' hi hm
    have hmem := e2 m p p' hp hp' site r (List.mem_of_getElem? (i := l) (by
      rw [List.getElem?_zip_eq_some]
      exact ⟨hk, hw⟩))
    obtain ⟨l', hl'⟩ := List.mem_iff_getElem?.1 hmem
    rw [List.getElem?_zip_eq_some] at hl'
    obtain ⟨hk', hw'⟩ := hl'
    dsimp only at hk' hw'
    obtain ⟨d', ps', s1', r', g1, g2, g3, -⟩ := C58_possible h' hr hb hf hp' hk'
    rw [hw'] at g3
    obtain rfl := Option.some.inj g3
    have := Course.cons (t := t) g1 g2 hp' hk' hw' (ih (h.step hstep) (h'.step g2) (C68_event h h' hi hm hsel hstep g1 g2))
    rw [e1] at this
    exact this

/-- **C68** The image goes through the images of the events at the same times with the same probability. -/
theorem C68_law (h : GoodRun env n nT negLog cfg procs s) (h' : GoodRun env' n nT negLog cfg' procs' s')
    (hi : ImageModels P P' env env' cfg cfg' procs procs' τ g) (hm : P.Mapped τ s.ms.cfg.types s'.ms.cfg.types)
    (hr : PositiveRates env procs) (hr' : PositiveRates env' procs') {M : Nat} (hb : Bounded M cfg' procs') (hf : FewEnough M procs')
    {es : List (Nat × Nat × ℝ)} {q : ℝ} (hco : Course env s es q) (htime : ∀ e ∈ es, 0 ≤ e.2.2) :
    volume {w : Fin es.length → ℝ × ℝ × ℝ | InCube w ∧ Follows env es s w} =
      volume {w : Fin (imageEvents τ es).length → ℝ × ℝ × ℝ | InCube w ∧ Follows env' (imageEvents τ es) s' w} := by
  rw [C58_path_law h hr hco htime, C58_path_law h' hr' (C68_course h h' hi hm hr' hb hf hco)]
  intro e he
  obtain ⟨x, hx, rfl⟩ := List.mem_map.1 he
  exact htime x hx

end
end KMC

/-! ### Mirror images and exchanged axes -/

namespace KMC

open LatticeModel Interactions

section
variable {K : Type _} [Field K] [LinearOrder K] [IsStrictOrderedRing K] [FloorRing K]
variable {env env' : Env K} {cfg cfg' : Config K} {procs procs' : List (Proc K)} {P : PyLattice K}

/-- The processes of the second list are the images of those of the first one, and both have places at sites. -/
structure ImageProcs (P P' : PyLattice K) (dist dist' : Coord K → K) (procs procs' : List (Proc K)) (g : Coord K → Coord K) : Prop where
  length : procs'.length = procs.length
  constant : ∀ p ∈ procs, p.custom = false
  constant' : ∀ p ∈ procs', p.custom = false
  image : ∀ (j : Nat) (p p' : Proc K), procs[j]? = some p → procs'[j]? = some p' → p.Image g p'
  sited : ∀ (j : Nat) (p p' : Proc K), procs[j]? = some p → procs'[j]? = some p' → ∃ b,
    p.Sited dist P (maxRange procs) b ∧ p'.Sited dist' P' (maxRange procs') b

/-- **C68** The mirror image along a periodic axis is an image in this sense, if no place is at exactly half of the box. -/
theorem C68_mirror_partial (hP : P.map.WF) (ho : OnSites P env cfg) (ho' : OnSites P.mirror env' cfg')
    (hu : P.Uniform (maxRange procs)) (hu' : P.Uniform (maxRange procs')) (hper : P.perA = true)
    (hi : ImageProcs P P.mirror env.dist env'.dist procs procs' Coord.mirror)
    (hhalf : ∀ p ∈ procs, ∀ e ∈ p.matchList, 2 * |e.coord.x| ≠ P.repA) :
    ImageModels P P.mirror env env' cfg cfg' procs procs' P.mirrorSite Coord.mirror where
  on := ho
  on' := ho'
  uniform := hu
  uniform' := hu'
  siteMap := PyLattice.mirror_siteMap hP
  length := hi.length
  constant := hi.constant
  constant' := hi.constant'
  image := by
    intro j p p' hp hp'
    obtain ⟨b, h1, h2⟩ := hi.sited j p p' hp hp'
    refine ⟨hi.image j p p' hp hp', b, b, h1, h2, ?_, ?_⟩
    · intro s hs
      rw [PyLattice.mirror_map, (PyLattice.mirror_cells hP hs).2.2.2]
    · intro e he
      exact PyLattice.mirror_carries hP ho.basis hper b (hhalf p (List.mem_of_getElem? hp) e he)

/-- **C68** So is the model with the first two axes exchanged. -/
theorem C68_swapXY (hP : P.map.WF) (ho : OnSites P env cfg) (ho' : OnSites P.swapXY env' cfg')
    (hu : P.Uniform (maxRange procs)) (hu' : P.Uniform (maxRange procs'))
    (hi : ImageProcs P P.swapXY env.dist env'.dist procs procs' Coord.swapXY) :
    ImageModels P P.swapXY env env' cfg cfg' procs procs' P.swapXYSite Coord.swapXY where
  on := ho
  on' := ho'
  uniform := hu
  uniform' := ⟨hu'.2.1, hu'.1, hu'.2.2⟩
  siteMap := PyLattice.swapXY_siteMap hP
  length := hi.length
  constant := hi.constant
  constant' := hi.constant'
  image := by
    intro j p p' hp hp'
    obtain ⟨b, h1, h2⟩ := hi.sited j p p' hp hp'
    refine ⟨hi.image j p p' hp hp', b, b, h1, h2, ?_, ?_⟩
    · intro s hs
      rw [(PyLattice.swapXY_cells hP hs).2.2.2]
    · intro e he
      exact PyLattice.swapXY_carries hP b e.coord

/-- **C68** So is the model with the last two axes exchanged. -/
theorem C68_swapYZ (hP : P.map.WF) (ho : OnSites P env cfg) (ho' : OnSites P.swapYZ env' cfg')
    (hu : P.Uniform (maxRange procs)) (hu' : P.Uniform (maxRange procs'))
    (hi : ImageProcs P P.swapYZ env.dist env'.dist procs procs' Coord.swapYZ) :
    ImageModels P P.swapYZ env env' cfg cfg' procs procs' P.swapYZSite Coord.swapYZ where
  on := ho
  on' := ho'
  uniform := hu
  uniform' := ⟨hu'.1, hu'.2.2, hu'.2.1⟩
  siteMap := PyLattice.swapYZ_siteMap hP
  length := hi.length
  constant := hi.constant
  constant' := hi.constant'
  image := by
    intro j p p' hp hp'
    obtain ⟨b, h1, h2⟩ := hi.sited j p p' hp hp'
    refine ⟨hi.image j p p' hp hp', b, b, h1, h2, ?_, ?_⟩
    · intro s hs
      rw [(PyLattice.swapYZ_cells hP hs).2.2.2]
    · intro e he
      exact PyLattice.swapYZ_carries hP b e.coord

end

/-- **C68** At exactly half of the box the mirror image is different: on a periodic chain of four sites an atom never hops two
sites to the right, but its mirror image does hop two sites to the left. The two places are the same site. -/
theorem C68_half_box :
    ((Sample.start Sample.ring Sample.ringElements (do return [← Sample.process [0, 2] ["A", "B"] ["B", "A"] 1 [0] [] 0])).map
      (fun s => s.ms.procs.map (·.sites))) = .ok [[]] ∧
    ((Sample.start Sample.ring Sample.ringElements (do return [← Sample.process [0, -2] ["A", "B"] ["B", "A"] 1 [0] [] 0])).map
      (fun s => s.ms.procs.map (·.sites))) = .ok [[0]] := by
  constructor <;> decide +kernel

/-! ### The hypotheses hold for a model -/

/-- The mirror images of the hops of the sample. -/
def mirroredHops : M (List (Proc ℚ)) := do
  let p ← Sample.process [0, -1] ["A", "B"] ["B", "A"] 2 [0] [(0, -1), (1, 1)] 0
  let q ← Sample.process [0, 1] ["A", "B"] ["B", "A"] 1 [0] [(0, 1), (1, -1)] 1
  return [p, q]

/-- An executable check that the first entries are the images of the second. -/
def mirrorCheck (p q : Proc ℚ) : Bool :=
  decide (q.rate = p.rate) &&
  p.matchList.all (fun e => q.matchList.any fun f => decide (f.coord = e.coord.mirror) && decide (f.matchTypes = e.matchTypes) &&
    decide (f.updateTypes = e.updateTypes)) &&
  q.matchList.all (fun f => p.matchList.any fun e => decide (f.coord = e.coord.mirror) && decide (f.matchTypes = e.matchTypes) &&
    decide (f.updateTypes = e.updateTypes))

theorem mirrorCheck_ok {p q : Proc ℚ} (h : mirrorCheck p q = true) : p.Image Coord.mirror q := by
  unfold mirrorCheck at h
  simp only [Bool.and_eq_true, decide_eq_true_eq, List.all_eq_true, List.any_eq_true] at h
  obtain ⟨⟨h1, h2⟩, h3⟩ := h
  refine ⟨?_, ?_, h1⟩
  · intro e he
    obtain ⟨f, hf, ⟨a, b⟩, c⟩ := h2 e he
    exact ⟨f, hf, a, b, c⟩
  · intro f hf
    obtain ⟨e, he, ⟨a, b⟩, c⟩ := h3 f hf
    exact ⟨e, he, a, b, c⟩

def soundCheck (p : Proc ℚ) : Bool :=
  decide (p.custom = false) && decide (p.basisSites = [0]) && decide (sortP p.matchList = p.matchList) &&
  decide ((p.matchList.map (·.coord)).Nodup) && p.matchList.all fun e => decide (e.distance = Sample.dist1 e.coord) &&
    decide (2 * |e.coord.x| ≠ 4)

theorem soundCheck_ok {p : Proc ℚ} (h : soundCheck p = true) : p.custom = false ∧ p.basisSites = [0] ∧ sortP p.matchList = p.matchList ∧
    (p.matchList.map (·.coord)).Nodup ∧ ∀ e ∈ p.matchList, e.distance = Sample.dist1 e.coord ∧ 2 * |e.coord.x| ≠ 4 := by
  unfold soundCheck at h
  simp only [Bool.and_eq_true, decide_eq_true_eq, List.all_eq_true] at h
  obtain ⟨⟨⟨⟨h1, h2⟩, h3⟩, h4⟩, h5⟩ := h
  exact ⟨h1, h2, h3, h4, h5⟩

/-- Both lists have two processes, which are images. -/
def mirrorChecks : List (Proc ℚ) → List (Proc ℚ) → Bool
  | [p, q], [p', q'] => mirrorCheck p p' && mirrorCheck q q'
  | _, _ => false

theorem mirrorChecks_ok {ps ps' : List (Proc ℚ)} (h : mirrorChecks ps ps' = true) : ∃ p q p' q', ps = [p, q] ∧ ps' = [p', q'] ∧
    mirrorCheck p p' = true ∧ mirrorCheck q q' = true := by
  unfold mirrorChecks at h
  split at h
  · next p q p' q' => exact ⟨p, q, p', q', rfl, rfl, Bool.and_eq_true_iff.1 h⟩
  · cases h

theorem mirroredHops_check {ps ps' : List (Proc ℚ)} (h : Sample.hops = .ok ps) (h' : mirroredHops = .ok ps') :
    mirrorChecks ps ps' = true := by
  have : (Sample.hops.bind fun a => mirroredHops.map fun b => mirrorChecks a b) = .ok true := by decide +kernel
  rw [h, h'] at this
  exact Except.ok.inj this

/-- Non-vacuity: a particle that hops on a ring of four sites, faster to the right, and its mirror image, faster to the left,
both after one step. -/
example : ∃ (cfg cfg' : Config ℚ) (procs procs' : List (Proc ℚ)) (s s' : Sim ℚ),
    GoodRun (Sample.env Sample.ring) 4 4 Sample.lg cfg procs s ∧ GoodRun (Sample.env Sample.ring.mirror) 4 4 Sample.lg cfg' procs' s' ∧
    ImageModels Sample.ring Sample.ring.mirror (Sample.env Sample.ring) (Sample.env Sample.ring.mirror) cfg cfg' procs procs'
      Sample.ring.mirrorSite Coord.mirror ∧
    Sample.ring.Mapped Sample.ring.mirrorSite s.ms.cfg.types s'.ms.cfg.types ∧ s.ms.procs.map (·.sites) = [[1], [1]] ∧
    s'.ms.procs.map (·.sites) = [[3], [3]] := by
  obtain ⟨cfg, procs, s, h1, h2, h, hs⟩ := Sample.good_run (env := Sample.env Sample.ring) (P := Sample.ring)
    (els := Sample.ringElements) (procs := Sample.hops) (ds := [Sample.half])
    (f := fun s => (s.ms.cfg.types, s.ms.procs.map (·.sites))) (b := ([[0, 0, 1, 0], [0, 1, 0, 0], [0, 0, 1, 0], [0, 0, 1, 0]], [[1], [1]]))
    4 (by decide +kernel) rfl (by decide +kernel) (by decide +kernel)
  obtain ⟨cfg', procs', s', h1', h2', h', hs'⟩ := Sample.good_run (env := Sample.env Sample.ring.mirror) (P := Sample.ring.mirror)
    (els := Sample.ringElements) (procs := mirroredHops) (ds := [Sample.half])
    (f := fun s => (s.ms.cfg.types, s.ms.procs.map (·.sites))) (b := ([[0, 0, 1, 0], [0, 0, 1, 0], [0, 0, 1, 0], [0, 1, 0, 0]], [[3], [3]]))
    4 (by decide +kernel) rfl (by decide +kernel) (by decide +kernel)
  obtain ⟨ps, hps, hf⟩ := Sample.exists_of_map (x := Sample.hops) (f := fun ps => (maxRange ps, ps.all soundCheck,
    ps.map fun p => p.matchList.map (·.coord)))
    (b := (1, true, [[⟨0, 0, 0⟩, ⟨1, 0, 0⟩], [⟨0, 0, 0⟩, ⟨-1, 0, 0⟩]])) (by decide +kernel)
  rw [h2] at hps
  obtain rfl := Except.ok.inj hps
  obtain ⟨ps, hps, hf'⟩ := Sample.exists_of_map (x := mirroredHops) (f := fun ps => (maxRange ps, ps.all soundCheck,
    ps.map fun p => p.matchList.map (·.coord)))
    (b := (1, true, [[⟨0, 0, 0⟩, ⟨-1, 0, 0⟩], [⟨0, 0, 0⟩, ⟨1, 0, 0⟩]])) (by decide +kernel)
  rw [h2'] at hps
  obtain rfl := Except.ok.inj hps
  have hall := mirroredHops_check h2 h2'
  obtain ⟨a1, a2⟩ := Prod.mk.injEq .. ▸ hs
  obtain ⟨b1, b2⟩ := Prod.mk.injEq .. ▸ hs'
  have co : ∀ {Q : PyLattice ℚ} {els : List (List String)}, (Sample.config Q els).map (·.coords) = .ok Q.sites →
      ∀ {c : Config ℚ}, Sample.config Q els = .ok c → c.coords = Q.sites := by
    intro Q els he c hc
    rw [hc] at he
    exact Except.ok.inj he
  have e1 := co (by decide +kernel) h1
  have e1' := co (by decide +kernel) h1'
  clear hs hs' h1 h1' h2 h2'
  obtain ⟨p, q, p', q', rfl, rfl, hboth⟩ := mirrorChecks_ok hall
  simp only [Prod.mk.injEq, List.all_eq_true, List.map_cons, List.map_nil, List.cons.injEq, and_true] at hf hf'
  obtain ⟨hm, ok, c1, c2⟩ := hf
  obtain ⟨hm', ok', c1', c2'⟩ := hf'
  have sited : ∀ x ∈ [p, q], x.Sited Sample.dist1 Sample.ring (maxRange [p, q]) 0 := by
    intro x hx
    obtain ⟨-, b1, b2, b3, b4⟩ := soundCheck_ok (ok x hx)
    refine ⟨b1, ⟨x.matchList, b2.symm, b3, fun e he => (b4 e he).1⟩, ?_⟩
    rw [hm]
    rcases List.mem_pair.1 hx with rfl | rfl
    · rw [c1]
      exact placed_of (by decide +kernel) (by decide) (by decide +kernel) (by decide +kernel) (by decide +kernel)
    · rw [c2]
      exact placed_of (by decide +kernel) (by decide) (by decide +kernel) (by decide +kernel) (by decide +kernel)
  have sited' : ∀ x ∈ [p', q'], x.Sited Sample.dist1 Sample.ring.mirror (maxRange [p', q']) 0 := by
    intro x hx
    obtain ⟨-, b1, b2, b3, b4⟩ := soundCheck_ok (ok' x hx)
    refine ⟨b1, ⟨x.matchList, b2.symm, b3, fun e he => (b4 e he).1⟩, ?_⟩
    rw [hm']
    rcases List.mem_pair.1 hx with rfl | rfl
    · rw [c1']
      exact placed_of (by decide +kernel) (by decide) (by decide +kernel) (by decide +kernel) (by decide +kernel)
    · rw [c2']
      exact placed_of (by decide +kernel) (by decide) (by decide +kernel) (by decide +kernel) (by decide +kernel)
  refine ⟨cfg, cfg', _, _, s, s', h, h', C68_mirror_partial (by decide +kernel)
    ⟨rfl, e1, by decide +kernel, by decide +kernel, rfl⟩
    ⟨rfl, e1', by decide +kernel, by decide +kernel, rfl⟩
    ⟨.inl ⟨rfl, by rw [hm]; decide⟩, .inr rfl, .inr rfl⟩ ⟨.inl ⟨rfl, by rw [hm']; decide⟩, .inr rfl, .inr rfl⟩ rfl
    ⟨rfl, ?_, ?_, ?_, ?_⟩ ?_, ?_, a2, b2⟩
  · exact fun x hx => (soundCheck_ok (ok x hx)).1
  · exact fun x hx => (soundCheck_ok (ok' x hx)).1
  · intro j x x' hx hx'
    match j with
    | 0 => obtain rfl := Option.some.inj hx; obtain rfl := Option.some.inj hx'; exact mirrorCheck_ok hboth.1
    | 1 => obtain rfl := Option.some.inj hx; obtain rfl := Option.some.inj hx'; exact mirrorCheck_ok hboth.2
    | j + 2 => cases hx
  · intro j x x' hx hx'
    exact ⟨0, sited x (List.mem_of_getElem? hx), sited' x' (List.mem_of_getElem? hx')⟩
  · intro x hx e he
    exact ((soundCheck_ok (ok x hx)).2.2.2.2 e he).2
  · rw [a1, b1]
    have : Sample.ring.map.nSites = 4 := by decide +kernel
    unfold PyLattice.Mapped
    rw [this]
    decide +kernel

end KMC
