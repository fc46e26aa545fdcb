import Verif.Props.Coordinates
import Verif.Props.OpenRuns
import Verif.Props.Rounded
import Verif.Props.SameEvents
import Verif.Props.Symmetric

/-!
# Property C70: the model as computed

C61 compares coordinates in rounded arithmetic with exact ones, C55 does so for rates, and C10 and C17 say for exact arithmetic where
events are available and what they do. Here they are put together: in a run with every operation rounded, as the program does it,
events are available exactly where their patterns fit the lattice as it is meant, and they do what their patterns say.
-/

set_option linter.unusedSectionVars false

namespace KMC

open LatticeModel Interactions

/-- The conditions of `C61_same_partial`: the errors are small and the geometry leaves room for them. -/
structure RoomForErrors (fl : ℚ → ℚ) (len : Coord ℚ → ℚ) (R : Coord (ℚ → ℚ)) (P Q : Ingredients ℚ → Coord (ℚ → ℚ)) (env : Env ℚ)
    (coords : List (Coord ℚ)) (els : List (List String)) (gs : List (Ingredients ℚ)) (u B ε μ : ℚ) : Prop where
  within : Within fl u
  stored : Converts (5 * u * B) B R
  points : ∀ g ∈ gs, Converts (5 * u * B) B (P g)
  moves : ∀ g ∈ gs, Converts (13 * u * B) B (Q g)
  lattice : env.L.WF
  sites : coords.length = env.L.nSites
  elements : els.length = coords.length
  constant : env.useCustomRates = false
  robustPoints : ∀ g ∈ gs, RobustPoints fl (P g) (40 * u * B) μ B env.dist g
  robust : ∀ procs, mapMM (fun g : Ingredients ℚ => mkProcess env.dist g.first g.second g.info g.rate g.basisSites g.moves g.number) gs
        = .ok procs → Robust (40 * u * B) μ B env.L env.dist coords (Interactions.maxRange procs) procs
  length : LengthClose (40 * u * B) ε (3 * B) env.dist len
  small : 40 * u * B ≤ ε
  margin : 2 * ε + 4 * u * (1 / 100000) ≤ μ

/-- The input in exact arithmetic: a well formed configuration and well formed processes with positive rates. -/
structure ExactInput (env : Env ℚ) (coords : List (Coord ℚ)) (els : List (List String)) (pt : List (String × Nat))
    (gs : List (Ingredients ℚ)) (n nT : Nat) (cfg : Config ℚ) (procs : List (Proc ℚ)) : Prop where
  config : Config.mk' coords els pt = .ok cfg
  processes : mapMM (fun g : Ingredients ℚ => mkProcess env.dist g.first g.second g.info g.rate g.basisSites g.moves g.number) gs = .ok procs
  wellFormed : WellFormed env n nT cfg procs
  positive : PositiveRates env procs

/-- The two states are the same in what is on the sites and in what is available where. -/
structure SameSituation (s t : Sim ℚ) : Prop where
  types : s.ms.cfg.types = t.ms.cfg.types
  elements : s.ms.cfg.elements = t.ms.cfg.elements
  atoms : s.ms.cfg.atomId = t.ms.cfg.atomId
  moved : s.ms.cfg.movedIds = t.ms.cfg.movedIds
  process : s.ms.cfg.latestProcess = t.ms.cfg.latestProcess
  site : s.ms.cfg.latestSite = t.ms.cfg.latestSite
  available : s.ms.procs.map (·.sites) = t.ms.procs.map (·.sites)
  numbers : s.ms.procs.map (·.number) = t.ms.procs.map (·.number)

theorem SameSituation.trans {s t r : Sim ℚ} (h : SameSituation s t) (h' : SameSituation t r) : SameSituation s r :=
  ⟨h.types.trans h'.types, h.elements.trans h'.elements, h.atoms.trans h'.atoms, h.moved.trans h'.moved, h.process.trans h'.process,
    h.site.trans h'.site, h.available.trans h'.available, h.numbers.trans h'.numbers⟩

theorem SameSituation.process_at {s t : Sim ℚ} (h : SameSituation s t) {j : Nat} {p : Proc ℚ} (hp : t.ms.procs[j]? = some p) :
    ∃ p1, s.ms.procs[j]? = some p1 ∧ p1.sites = p.sites ∧ p1.number = p.number := by
  have h5 := congrArg (fun l : List (List Nat) => l[j]?) h.available
  simp only [List.getElem?_map, hp, Option.map_some, Option.map_eq_some_iff] at h5
  obtain ⟨p1, h6, h7⟩ := h5
  have h8 := congrArg (fun l : List Nat => l[j]?) h.numbers
  simp only [List.getElem?_map, hp, h6, Option.map_some, Option.some.injEq] at h8
  exact ⟨p1, h6, h7, h8⟩

theorem sameSituation_of_bare {s t : Sim ℚ} (h : s.bare = t.bare) : SameSituation s t where
  types := (congrArg (fun x : Sim ℚ => x.ms.cfg.types) h :)
  elements := (congrArg (fun x : Sim ℚ => x.ms.cfg.elements) h :)
  atoms := (congrArg (fun x : Sim ℚ => x.ms.cfg.atomId) h :)
  moved := (congrArg (fun x : Sim ℚ => x.ms.cfg.movedIds) h :)
  process := (congrArg (fun x : Sim ℚ => x.ms.cfg.latestProcess) h :)
  site := (congrArg (fun x : Sim ℚ => x.ms.cfg.latestSite) h :)
  available := by
    have := congrArg (fun x : Sim ℚ => x.ms.procs.map (·.sites)) h
    simp only [Sim.bare, MState.bare, List.map_map] at this
    exact this
  numbers := by
    have := congrArg (fun x : Sim ℚ => x.ms.procs.map (·.number)) h
    simp only [Sim.bare, MState.bare, List.map_map] at this
    exact this

theorem sameSituation_of_faded {s t : Sim ℚ} (h : s.ms.faded = t.ms.faded) : SameSituation s t := by
  have hc := MState.faded_cfg h
  refine ⟨by rw [hc], by rw [hc], by rw [hc], by rw [hc], by rw [hc], by rw [hc], ?_, ?_⟩
  · have := congrArg (fun l : List (Proc ℚ) => l.map (·.sites)) (MState.faded_procs h)
    simp only [List.map_map] at this
    exact this
  · have := congrArg (fun l : List (Proc ℚ) => l.map (·.number)) (MState.faded_procs h)
    simp only [List.map_map] at this
    exact this

variable {fl : ℚ → ℚ} {len : Coord ℚ → ℚ} {R : Coord (ℚ → ℚ)} {P Q : Ingredients ℚ → Coord (ℚ → ℚ)} {env : Env ℚ} {u B ε μ : ℚ}
variable {coords : List (Coord ℚ)} {els : List (List String)} {pt : List (String × Nat)} {gs : List (Ingredients ℚ)} {n nT : Nat}
variable {cfg : Config ℚ} {procs : List (Proc ℚ)} {negLog : ℚ → Option ℚ} {s s1 : Sim ℚ} {ds : List (Draws ℚ)} {d : Draws ℚ}

section
variable (hroom : RoomForErrors fl len R P Q env coords els gs u B ε μ) (hin : ExactInput env coords els pt gs n nT cfg procs)
  (hl : ∃ u, 0 < u ∧ u < 1 ∧ negLog u ≠ none)
include hroom hin hl

/-- The run with exact places, from the computed one. -/
theorem exactPlaces (h : runAsComputed fl len R P Q env negLog coords els pt gs ds = .ok s) :
    ∃ r0 r, Rounded.init fl env cfg procs = .ok r0 ∧ Rounded.run fl env negLog ds r0 = .ok r ∧ s.bare = r.bare := by
  have key := C61_same_partial (els := els) (pt := pt) (negLog := negLog) hroom.within hroom.stored hroom.points hroom.moves hroom.lattice hroom.sites
    hroom.elements hroom.constant hroom.robustPoints hroom.robust hroom.length hroom.small hroom.margin ds
  rw [h] at key
  unfold runWithExactPlaces at key
  rw [hin.config, ok_bind, hin.processes, ok_bind] at key
  cases h0 : Rounded.init fl env cfg procs with
  | error e => rw [h0] at key; cases key
  | ok r0 =>
    rw [h0, ok_bind] at key
    cases h1 : Rounded.run fl env negLog ds r0 with
    | error e => rw [h1] at key; cases key
    | ok r =>
      rw [h1] at key
      exact ⟨r0, r, rfl, h1, Except.ok.inj key⟩

/-- **C70** (partial: no custom rates, and the geometry must leave room for the errors, see `C61_half_box`) Whatever state the program
comes to in rounded arithmetic, the model in exact arithmetic can come to a state with the same particles at the same sites and the
same events available at the same sites. -/
theorem C70_followed_partial (h : runAsComputed fl len R P Q env negLog coords els pt gs ds = .ok s) :
    ∃ t, GoodRun env n nT negLog cfg procs t ∧ SameSituation s t := by
  obtain ⟨r0, r, h0, h1, h2⟩ := exactPlaces hroom hin hl h
  obtain ⟨t, h3, h4⟩ := RoundedRun.follow ⟨hin.wellFormed, fun hc => absurd (hroom.constant.symm.trans hc) (by decide), r0, ds, h0, h1⟩
    hin.positive hl
  exact ⟨t, h3, (sameSituation_of_bare h2).trans (sameSituation_of_faded h4)⟩

/-- **C70** (partial: as above) What the program does in a step in rounded arithmetic is a step of the model in exact arithmetic. -/
theorem C70_step_partial (h : runAsComputed fl len R P Q env negLog coords els pt gs ds = .ok s)
    (h' : runAsComputed fl len R P Q env negLog coords els pt gs (ds ++ [d]) = .ok s1) :
    ∃ t t1 d', GoodRun env n nT negLog cfg procs t ∧ SameSituation s t ∧ step env negLog t d' = .ok t1 ∧ SameSituation s1 t1 := by
  obtain ⟨r0, r, h0, h1, h2⟩ := exactPlaces hroom hin hl h
  obtain ⟨r0', r1, h0', h1', h2'⟩ := exactPlaces hroom hin hl h'
  rw [h0] at h0'
  obtain rfl := Except.ok.inj h0'
  obtain ⟨t, h3, h4⟩ := RoundedRun.follow ⟨hin.wellFormed, fun hc => absurd (hroom.constant.symm.trans hc) (by decide), r0, ds, h0, h1⟩
    hin.positive hl
  unfold Rounded.run at h1 h1'
  rw [loopM_append, h1, ok_bind, loopM_cons] at h1'
  obtain ⟨r2, h5, h6⟩ := bind_ok.1 h1'
  obtain rfl := Except.ok.inj h6
  obtain ⟨d', t1, -, h7, h8⟩ := Rounded.step_follow hin.positive hl h3 h4 h5
  exact ⟨t, t1, d', h3, (sameSituation_of_bare h2).trans (sameSituation_of_faded h4), h7,
    (sameSituation_of_bare h2').trans (sameSituation_of_faded h8)⟩

variable {L : PyLattice ℚ} (ho : OnSites L env cfg)
include ho

/-- **C70** (partial: as above; sites that see their surroundings like those in the middle) In every state that the program comes to in
rounded arithmetic, a process is available at a site exactly when for each of its places there is a site at that displacement, in the
lattice as it is meant, with the required types. -/
theorem C70_available_partial (h : runAsComputed fl len R P Q env negLog coords els pt gs ds = .ok s) {j b : Nat} {p : Proc ℚ}
    (hj : procs[j]? = some p) (hp : p.Sited env.dist L (maxRange procs) b) {site : Nat} (hs : site < n)
    (hsb : L.map.basisSite site = b) (ha : L.Alike (maxRange procs) site (central L b)) :
    ∃ p1, s.ms.procs[j]? = some p1 ∧ (site ∈ p1.sites ↔ ∀ e ∈ p.matchList, ∃ t present, L.At site e.coord t ∧
      s.ms.cfg.types[t]? = some present ∧ Accepts e present) := by
  obtain ⟨t, h1, h2⟩ := C70_followed_partial hroom hin hl h
  obtain ⟨p2, h3, h4⟩ := C10_available_iff_partial h1 ho hj hp hs hsb ha
  obtain ⟨p1, h6, h7, -⟩ := h2.process_at h3
  exact ⟨p1, h6, by rw [h7, h2.types]; exact h4⟩

/-- **C70** (partial: as above) The same at all sites, also near open ends: there, in rounded arithmetic as in exact arithmetic,
everything that comes before the last place of the process that is not a wildcard around the site in the middle has to be there as well,
and for explicit wildcards at the end there have to be enough sites (C11). -/
theorem C70_open_ends_partial (h : runAsComputed fl len R P Q env negLog coords els pt gs ds = .ok s) {j b : Nat} {p : Proc ℚ}
    (hj : procs[j]? = some p) (hp : p.Sited env.dist L (maxRange procs) b)
    {body tail : List (PEntry ℚ)} (hsplit : p.matchList = body ++ tail)
    {last : PEntry ℚ} (hlast : body.getLast? = some last) (hlw : last.matchTypes[0]? ≠ some 1)
    (htw : ∀ e ∈ tail, e.matchTypes[0]? = some 1)
    {site : Nat} (hs : site < n) (hsb : L.map.basisSite site = b)
    (hA : AxisWithin L.perA L.repA (maxRange procs) (L.map.cellA site))
    (hB : AxisWithin L.perB L.repB (maxRange procs) (L.map.cellB site))
    (hC : AxisWithin L.perC L.repC (maxRange procs) (L.map.cellC site)) :
    ∃ p1, s.ms.procs[j]? = some p1 ∧ (site ∈ p1.sites ↔
      (∀ e ∈ body, ∃ t present, t ∈ L.map.neighbourIndices site (maxRange procs) ∧ L.At site e.coord t ∧
        s.ms.cfg.types[t]? = some present ∧ Accepts e present) ∧
      (∀ d, Sees L (maxRange procs) (central L b) d → Nearer env.dist d last.coord → Sees L (maxRange procs) site d) ∧
      ∀ e ∈ tail, ∃ upTo : List Nat, upTo.Nodup ∧ upTo.length ≤ (L.map.neighbourIndices site (maxRange procs)).length ∧
        ∀ t, t ∈ upTo ↔ t ∈ L.map.neighbourIndices (central L b) (maxRange procs) ∧
          ∀ d, L.At (central L b) d t → ¬ Nearer env.dist e.coord d) := by
  obtain ⟨t, h1, h2⟩ := C70_followed_partial hroom hin hl h
  obtain ⟨p2, h3, h4⟩ := C11_available_tail_iff_partial h1 ho hj hp hsplit hlast hlw htw hs hsb hA hB hC
  obtain ⟨p1, h6, h7, -⟩ := h2.process_at h3
  exact ⟨p1, h6, by rw [h7, h2.types]; exact h4⟩

/-- **C70** (partial: as above) What an event does in rounded arithmetic: it is an event of some process at a site where it was
available, the types at the places of the process change as the process says and all others stay. -/
theorem C70_event_partial (h : runAsComputed fl len R P Q env negLog coords els pt gs ds = .ok s)
    (h' : runAsComputed fl len R P Q env negLog coords els pt gs (ds ++ [d]) = .ok s1)
    (hp : ∀ p ∈ procs, ∃ b, p.Sited env.dist L (maxRange procs) b) (hu : L.Uniform (maxRange procs)) :
    ∃ (j site : Nat) (p p1 : Proc ℚ), procs[j]? = some p ∧ s.ms.procs[j]? = some p1 ∧ site ∈ p1.sites ∧ s1.ms.cfg.latestSite = site ∧
      s1.ms.cfg.latestProcess = p1.number ∧
      ∀ v, (∀ e ∈ p.matchList, L.At site e.coord v → ∃ x, s.ms.cfg.types[v]? = some x ∧
          s1.ms.cfg.types[v]? = some (List.zipWith (· + ·) x e.updateTypes)) ∧
        ((∀ e ∈ p.matchList, ¬ L.At site e.coord v) → s1.ms.cfg.types[v]? = s.ms.cfg.types[v]?) := by
  obtain ⟨t, t1, d', h1, h2, h3, h4⟩ := C70_step_partial hroom hin hl h h'
  obtain ⟨hP, hn⟩ := ho.wf h1
  obtain ⟨t0, ht0, hms⟩ := step_single h3
  have hsel := ht0
  unfold singleStep at hsel
  obtain ⟨⟨j, site, ps⟩, hsel, -⟩ := bind_ok.1 hsel
  obtain ⟨p2, -, hp2, -, r1, r2, -, -⟩ := C23_report h1 hsel ht0
  obtain ⟨cfg1, procs1, hprep, -, -, -⟩ := h1.inv
  obtain ⟨p3, -, hp3, -, hsite, -, -⟩ := h1.took hsel h3 hprep
  rw [show t.ms.procs[j]? = some p2 from hp2] at hp3
  obtain rfl := Option.some.inj hp3
  obtain ⟨q, hq, hqb, -, -⟩ := h1.source hp2
  obtain ⟨b, hqs⟩ := hp q (List.mem_of_getElem? hq)
  have hav := (C24_available h1 hp2 site).1 hsite
  have hsP : site < L.map.nSites := by rw [hn]; exact hav.1
  have hb : L.map.basisSite site = b := by
    have := hav.2.1
    rw [hqb, hqs.basis, ho.lattice, List.mem_singleton] at this
    exact this
  have hbl : b < L.map.nBasis := by rw [← hb]; exact (L.map.addr_valid hP site hsP).2.2.2
  have ha := hu.alike hP hsP (central_lt hP hbl) (by rw [central_basis hP hbl, hb])
  obtain ⟨p1, hp1, e1, e2⟩ := h2.process_at hp2
  refine ⟨j, site, q, p1, hq, hp1, by rw [e1]; exact hsite, ?_, ?_, fun v => ?_⟩
  · rw [h4.site, ← hms, r2]
  · rw [h4.process, ← hms, r1, e2]
  · rw [h2.types, h4.types]
    exact C17_places_partial h1 ho hsel h3 hq hqs ha v

end

/-- **C70** (partial: as in `C70_followed_partial`; all rates must be multiples of one power of two, `2 ^ e`, at most `b` each, with the
bound of `C55_same_events_partial`) Then with every operation rounded the same events take place as in exact arithmetic with the same
random numbers, or there is the same error. The times differ by a relative error of about `2 ^ -53` for each step. -/
theorem C70_same_events_partial (hroom : RoomForErrors fl len R P Q env coords els gs u B ε μ)
    (hin : ExactInput env coords els pt gs n nT cfg procs) (hfl : Rounding fl) {e : ℤ} {b m : Nat}
    (hg : Matcher.RatesOnGrid e b env procs) (hne : procs ≠ []) (hb : procs.length * (n * b) * 2 ^ m ≤ 2 ^ 53) (ds : List (Draws ℚ))
    (hl : ∀ d ∈ ds, ∀ u ∈ d.time, ∀ l, negLog u = some l → 0 ≤ l) (hd : ∀ d ∈ ds, OnBits m d.process ∧ OnBits m d.site) :
    Both (fun s t => SameSituation s t ∧ |s.time - t.time| ≤ timeError ds.length * t.time)
      (runAsComputed fl len R P Q env negLog coords els pt gs ds) (LatticeModel.init env cfg procs >>= LatticeModel.run env negLog ds) := by
  have key := C61_same_partial (els := els) (pt := pt) (negLog := negLog) hroom.within hroom.stored hroom.points hroom.moves hroom.lattice hroom.sites
    hroom.elements hroom.constant hroom.robustPoints hroom.robust hroom.length hroom.small hroom.margin ds
  unfold runWithExactPlaces at key
  rw [hin.config, ok_bind, hin.processes, ok_bind] at key
  rcases C55_same_events_partial hfl hin.wellFormed (fun hc => absurd (hroom.constant.symm.trans hc) (by decide)) hg hne hb ds hl hd
    with ⟨f, h1, h2⟩ | ⟨r, t, h1, h2, h3⟩
  · rw [h1] at key
    cases hs : runAsComputed fl len R P Q env negLog coords els pt gs ds with
    | error f' =>
      rw [hs] at key
      have key : Except.error f' = Except.error f := key
      exact .inl ⟨f', rfl, by rw [h2, key]⟩
    | ok s => rw [hs] at key; cases key
  · rw [h1] at key
    cases hs : runAsComputed fl len R P Q env negLog coords els pt gs ds with
    | error f' => rw [hs] at key; cases key
    | ok s =>
      rw [hs] at key
      have hbare : s.bare = r.bare := Except.ok.inj key
      have ht : s.bare.time = r.bare.time := by rw [hbare]
      have ht : s.time = r.time := ht
      refine .inr ⟨s, t, rfl, h2, (sameSituation_of_bare hbare).trans (sameSituation_of_faded (by rw [h3.ms])), ?_⟩
      rw [ht]
      exact h3.time

/-! ### Non-vacuity -/

namespace Sample

def fiveElements : List (List String) := [["A"], ["B"], ["B"], ["B"], ["B"]]

/-- The hop as a process in exact arithmetic. -/
def hopExact : M (List (Proc ℚ)) := do
  let g ← hopRight
  return [← mkProcess dist1 g.first g.second g.info g.rate g.basisSites g.moves g.number]

theorem five_room {g : Ingredients ℚ} (h1 : hopRight = .ok g) :
    RoomForErrors toDouble dist1 rnd (fun _ => rnd) (fun _ => rnd) fiveRing fiveSites fiveElements [g] (1 / 2 ^ 53) 6 (3 * d5) m5 := by
  have hc : hopCheck = .ok true := by decide +kernel
  unfold hopCheck at hc
  rw [h1, ok_bind] at hc
  obtain ⟨p, h2, hc⟩ := bind_ok.1 hc
  have hc := Except.ok.inj hc
  rw [Bool.and_eq_true, decide_eq_true_eq] at hc
  have hd := C61_double toDouble_rounding
  refine ⟨hd, C61_rounded hd (by norm_num) (by norm_num), fun _ _ => C61_rounded hd (by norm_num) (by norm_num),
    fun _ _ => C61_rounded hd (by norm_num) (by norm_num), by decide +kernel, by decide +kernel, by decide +kernel, rfl, ?_, ?_, ?_,
    by decide +kernel, by decide +kernel⟩
  · intro g' hg'
    rw [List.mem_singleton.1 hg']
    exact hc.1
  · intro procs hp
    refine five_robust _ procs ?_
    rw [mapMM_cons] at hp
    have h2' : mkProcess fiveRing.dist g.first g.second g.info g.rate g.basisSites g.moves g.number = .ok p := h2
    rw [h2', ok_bind] at hp
    have hp : Except.ok [p] = Except.ok procs := hp
    rw [← Except.ok.inj hp]
    intro q hq e he
    rw [List.mem_singleton.1 hq] at he
    exact of_decide_eq_true (List.all_eq_true.1 hc.2 e he)
  · unfold d5
    exact dist1_close

/-- The check on the exact process. -/
def hopSound (ps : List (Proc ℚ)) : Bool :=
  decide (maxRange ps = 1) && ps.all fun p => soundCheck p && decide (0 < p.rate) &&
    decide (p.matchList.map (·.coord) = [⟨0, 0, 0⟩, ⟨1, 0, 0⟩])

theorem hopSound_ok {ps : List (Proc ℚ)} (h : hopExact = .ok ps) : hopSound ps = true := by
  have : hopExact.map hopSound = .ok true := by decide +kernel
  rw [h] at this
  exact Except.ok.inj this

theorem fiveSites_eq : fiveSites = (chain 5 true [b03]).sites := by decide +kernel

end Sample

/-- Non-vacuity: in `double`s, on the ring of five cells with sites at 0.3, all conditions hold, and a run with an event goes through. So
`C70_event_partial` applies to it. -/
example : ∃ (g : Ingredients ℚ) (cfg : Config ℚ) (procs : List (Proc ℚ)) (s s1 : Sim ℚ), Sample.hopRight = .ok g ∧
    ExactInput Sample.fiveRing Sample.fiveSites Sample.fiveElements Sample.types [g] 5 4 cfg procs ∧
    (∀ p ∈ procs, p.Sited Sample.fiveRing.dist (Sample.chain 5 true [Sample.b03]) (maxRange procs) 0) ∧
    runAsComputed toDouble Sample.dist1 Sample.rnd (fun _ => Sample.rnd) (fun _ => Sample.rnd) Sample.fiveRing Sample.lg
      Sample.fiveSites Sample.fiveElements Sample.types [g] [] = .ok s ∧
    runAsComputed toDouble Sample.dist1 Sample.rnd (fun _ => Sample.rnd) (fun _ => Sample.rnd) Sample.fiveRing Sample.lg
      Sample.fiveSites Sample.fiveElements Sample.types [g] ([] ++ [Sample.half]) = .ok s1 ∧
    s.ms.procs.map (·.sites) = [[0]] ∧ s1.ms.procs.map (·.sites) = [[1]] ∧
    ∃ (j site : Nat) (p p1 : Proc ℚ), procs[j]? = some p ∧ s.ms.procs[j]? = some p1 ∧ site ∈ p1.sites ∧ s1.ms.cfg.latestSite = site ∧
      s1.ms.cfg.latestProcess = p1.number ∧
      ∀ v, (∀ e ∈ p.matchList, (Sample.chain 5 true [Sample.b03]).At site e.coord v → ∃ x, s.ms.cfg.types[v]? = some x ∧
          s1.ms.cfg.types[v]? = some (List.zipWith (· + ·) x e.updateTypes)) ∧
        ((∀ e ∈ p.matchList, ¬ (Sample.chain 5 true [Sample.b03]).At site e.coord v) → s1.ms.cfg.types[v]? = s.ms.cfg.types[v]?) := by
  obtain ⟨cfg, procs, h1, h2, h3⟩ := Sample.goodCheck_ok (env := Sample.fiveRing) (P := Sample.chain 5 true [Sample.b03])
    (els := Sample.fiveElements) (procs := Sample.hopExact) (by decide +kernel)
  have hr0 : (do
      let g ← Sample.hopRight
      let s ← runAsComputed toDouble Sample.dist1 Sample.rnd (fun _ => Sample.rnd) (fun _ => Sample.rnd) Sample.fiveRing Sample.lg
        Sample.fiveSites Sample.fiveElements Sample.types [g] []
      return s.ms.procs.map (·.sites) : M (List (List Nat))) = .ok [[0]] := by decide +kernel
  have hr1 : (do
      let g ← Sample.hopRight
      let s ← runAsComputed toDouble Sample.dist1 Sample.rnd (fun _ => Sample.rnd) (fun _ => Sample.rnd) Sample.fiveRing Sample.lg
        Sample.fiveSites Sample.fiveElements Sample.types [g] ([] ++ [Sample.half])
      return s.ms.procs.map (·.sites) : M (List (List Nat))) = .ok [[1]] := by decide +kernel
  have hsound := Sample.hopSound_ok h2
  unfold Sample.hopExact at h2
  obtain ⟨g, hg, h2⟩ := bind_ok.1 h2
  obtain ⟨p, hp, h2⟩ := bind_ok.1 h2
  have h2 : [p] = procs := Except.ok.inj h2
  subst h2
  rw [hg, ok_bind] at hr0 hr1
  obtain ⟨s, hs, e0⟩ := bind_ok.1 hr0
  obtain ⟨s1, hs1, e1⟩ := bind_ok.1 hr1
  unfold Sample.hopSound at hsound
  simp only [Bool.and_eq_true, decide_eq_true_eq, List.all_cons, List.all_nil, and_true] at hsound
  obtain ⟨hm, ⟨hok, hpos⟩, hcoords⟩ := hsound
  obtain ⟨b0, b1, b2, b3, b4⟩ := soundCheck_ok hok
  have hlen : (Sample.chain 5 true [Sample.b03]).sites.length = 5 := by decide +kernel
  rw [hlen] at h3
  have hin : ExactInput Sample.fiveRing Sample.fiveSites Sample.fiveElements Sample.types [g] 5 4 cfg [p] := by
    refine ⟨by rw [Sample.fiveSites_eq]; exact h1, ?_, h3, ?_⟩
    · rw [mapMM_cons, show mkProcess Sample.fiveRing.dist g.first g.second g.info g.rate g.basisSites g.moves g.number = .ok p from hp]
      rfl
    · exact ⟨fun q hq => by rw [List.mem_singleton.1 hq]; exact hpos, fun h => by cases h⟩
  have hsited : ∀ q ∈ [p], q.Sited Sample.fiveRing.dist (Sample.chain 5 true [Sample.b03]) (maxRange [p]) 0 := by
    intro q hq
    rw [List.mem_singleton.1 hq]
    refine ⟨b1, ⟨p.matchList, b2.symm, b3, fun e he => (b4 e he).1⟩, ?_⟩
    rw [hm, hcoords]
    exact placed_of (by decide +kernel) (by decide) (by decide +kernel) (by decide +kernel) (by decide +kernel)
  have hco : cfg.coords = (Sample.chain 5 true [Sample.b03]).sites := by
    have : (Sample.config (Sample.chain 5 true [Sample.b03]) Sample.fiveElements).map (·.coords) =
      .ok (Sample.chain 5 true [Sample.b03]).sites := by decide +kernel
    rw [h1] at this
    exact Except.ok.inj this
  refine ⟨g, cfg, [p], s, s1, hg, hin, hsited, hs, hs1, Except.ok.inj e0, Except.ok.inj e1, ?_⟩
  exact C70_event_partial (Sample.five_room hg) hin ⟨1 / 2, by norm_num, by norm_num, by decide +kernel⟩
    ⟨rfl, hco, by decide +kernel, by decide +kernel, rfl⟩ hs hs1 (fun q hq => ⟨0, hsited q hq⟩)
    ⟨.inl ⟨rfl, by rw [hm]; decide⟩, .inr rfl, .inr rfl⟩

/-- Non-vacuity of `C70_same_events_partial`: the same ring, two events, numbers with 32 bits. -/
example : ∃ (g : Ingredients ℚ) (cfg : Config ℚ) (procs : List (Proc ℚ)) (s t : Sim ℚ), Sample.hopRight = .ok g ∧
    runAsComputed toDouble Sample.dist1 Sample.rnd (fun _ => Sample.rnd) (fun _ => Sample.rnd) Sample.fiveRing Sample.lg
      Sample.fiveSites Sample.fiveElements Sample.types [g] [Sample.half, Sample.half] = .ok s ∧
    (LatticeModel.init Sample.fiveRing cfg procs >>= LatticeModel.run Sample.fiveRing Sample.lg [Sample.half, Sample.half]) = .ok t ∧
    s.ms.procs.map (·.sites) = [[2]] ∧ SameSituation s t ∧ |s.time - t.time| ≤ timeError 2 * t.time := by
  obtain ⟨cfg, procs, h1, h2, h3⟩ := Sample.goodCheck_ok (env := Sample.fiveRing) (P := Sample.chain 5 true [Sample.b03])
    (els := Sample.fiveElements) (procs := Sample.hopExact) (by decide +kernel)
  have hr : (do
      let g ← Sample.hopRight
      let s ← runAsComputed toDouble Sample.dist1 Sample.rnd (fun _ => Sample.rnd) (fun _ => Sample.rnd) Sample.fiveRing Sample.lg
        Sample.fiveSites Sample.fiveElements Sample.types [g] [Sample.half, Sample.half]
      return s.ms.procs.map (·.sites) : M (List (List Nat))) = .ok [[2]] := by decide +kernel
  have hrate : Sample.hopExact.map (fun ps => ps.map (·.rate)) = .ok [2] := by decide +kernel
  rw [h2] at hrate
  have hrate : procs.map (·.rate) = [2] := Except.ok.inj hrate
  unfold Sample.hopExact at h2
  obtain ⟨g, hg, h2⟩ := bind_ok.1 h2
  obtain ⟨p, hp, h2⟩ := bind_ok.1 h2
  have h2 : [p] = procs := Except.ok.inj h2
  subst h2
  have hrate : p.rate = 2 := by simpa using hrate
  rw [hg, ok_bind] at hr
  obtain ⟨s, hs, e0⟩ := bind_ok.1 hr
  have hlen : (Sample.chain 5 true [Sample.b03]).sites.length = 5 := by decide +kernel
  rw [hlen] at h3
  have hin : ExactInput Sample.fiveRing Sample.fiveSites Sample.fiveElements Sample.types [g] 5 4 cfg [p] := by
    refine ⟨by rw [Sample.fiveSites_eq]; exact h1, ?_, h3, ?_⟩
    · rw [mapMM_cons, show mkProcess Sample.fiveRing.dist g.first g.second g.info g.rate g.basisSites g.moves g.number = .ok p from hp]
      rfl
    · exact ⟨fun q hq => by rw [List.mem_singleton.1 hq, hrate]; norm_num, fun h => by cases h⟩
  have hhalf : ∀ d ∈ [Sample.half, Sample.half], d = Sample.half := fun d hd => by simpa using hd
  have key := C70_same_events_partial (negLog := Sample.lg) (e := 0) (b := 2) (m := 32) (Sample.five_room hg) hin toDouble_rounding
    ⟨fun q hq => ⟨2, le_rfl, by rw [List.mem_singleton.1 hq, hrate]; norm_num⟩, fun h => by cases h⟩ (by simp) (by simp)
    [Sample.half, Sample.half]
    (fun d hd u hu l hl => by
      rw [hhalf d hd] at hu
      have hu : u = 1 / 2 := by simpa [Sample.half] using hu
      subst hu
      have hl : some (1 / 2 : ℚ) = some l := by rw [← hl]; decide +kernel
      obtain rfl := Option.some.inj hl
      norm_num)
    (fun d hd => by
      rw [hhalf d hd]
      exact ⟨⟨2 ^ 31, by norm_num, by norm_num [Sample.half]⟩, ⟨2 ^ 31, by norm_num, by norm_num [Sample.half]⟩⟩)
  rcases key with ⟨f, k1, -⟩ | ⟨s', t, k1, k2, k3, k4⟩
  · rw [hs] at k1
    cases k1
  · rw [hs] at k1
    obtain rfl := Except.ok.inj k1
    exact ⟨g, cfg, [p], s, t, hg, hs, k2, Except.ok.inj e0, k3, k4⟩

end KMC
