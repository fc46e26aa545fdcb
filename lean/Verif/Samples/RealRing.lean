import Verif.Props.Elsewhere
import Verif.Samples.OneSite

/-!
# A particle on a ring, with real numbers

Four sites on a ring. One of them holds `A`, the others hold `B`. The particle `A` hops to the right and to the left.
-/

set_option linter.unusedSectionVars false

namespace KMC.Sample
open LatticeModel Interactions
noncomputable section

def realRing : PyLattice ℝ := { basis := [⟨0, 0, 0⟩], repA := 4, repB := 1, repC := 1, perA := true, perB := false, perC := false }

def realDist (c : Coord ℝ) : ℝ := |c.x| + |c.y| + |c.z|

/-- The types with `A` on site `i`. -/
def ringTypes (i : Nat) : List Bucket := (List.range 4).map fun k => if k = i then [0, 1, 0] else [0, 0, 1]

/-- The configuration, as the constructor makes it. -/
def realRingStart : Config ℝ :=
  { coords := [⟨0, 0, 0⟩, ⟨1, 0, 0⟩, ⟨2, 0, 0⟩, ⟨3, 0, 0⟩], elements := [["A"], ["B"], ["B"], ["B"]], types := ringTypes 0,
    typeNames := ["*", "A", "B"], possibleTypes := [("*", 0), ("A", 1), ("B", 2)], atomId := [0, 1, 2, 3],
    atomIdElements := ["A", "B", "B", "B"], atomIdCoords := [⟨0, 0, 0⟩, ⟨1, 0, 0⟩, ⟨2, 0, 0⟩, ⟨3, 0, 0⟩],
    matchLists := [[], [], [], []], movedIds := [], moveVectors := [], nMoved := 0, latestProcess := 0, latestSite := 0 }

/-- A hop to the place `x`. -/
def realHop (number : Nat) (x : ℝ) : Proc ℝ :=
  { number := number, custom := false, cacheRate := false, bucketProcess := false, range := 1, rate := 1, cutoff := 1,
    basisSites := [0],
    matchList := [{ matchTypes := [0, 1, 0], updateTypes := [0, -1, 1], distance := 0, coord := ⟨0, 0, 0⟩, hasMove := false,
                    moveCoord := ⟨0, 0, 0⟩ },
                  { matchTypes := [0, 0, 1], updateTypes := [0, 1, -1], distance := 1, coord := ⟨x, 0, 0⟩, hasMove := false,
                    moveCoord := ⟨0, 0, 0⟩ }],
    idMoves := [], affected := [0, 0], sites := [], siteMult := [], siteRates := [], totalRate := 0, rateTable := [] }

def realHops : List (Proc ℝ) := [realHop 0 1, realHop 1 (-1)]

def realRingEnv : Env ℝ :=
  { L := realRing.map, dist := realDist, nRanks := 1, hash := fun _ => 0, callback := fun _ => 0,
    implicitWildcards := true, useCustomRates := false }

theorem realRing_map : realRing.map = ⟨1, 4, 1, 1, true, false, false⟩ := rfl

theorem realRing_sites : realRing.sites = [⟨0, 0, 0⟩, ⟨1, 0, 0⟩, ⟨2, 0, 0⟩, ⟨3, 0, 0⟩] := by
  have e : ∀ i : Nat, (⟨0, 0, 0⟩ : Coord ℝ) + ⟨(i : ℝ), ((0 : Nat) : ℝ), ((0 : Nat) : ℝ)⟩ = ⟨(i : ℝ), 0, 0⟩ := by
    intro i
    ext
    · show (0 : ℝ) + i = i
      simp
    · show (0 : ℝ) + ((0 : Nat) : ℝ) = 0
      simp
    · show (0 : ℝ) + ((0 : Nat) : ℝ) = 0
      simp
  have : realRing.sites = [⟨((0 : Nat) : ℝ), 0, 0⟩, ⟨((1 : Nat) : ℝ), 0, 0⟩, ⟨((2 : Nat) : ℝ), 0, 0⟩, ⟨((3 : Nat) : ℝ), 0, 0⟩] := by
    rw [← e 0, ← e 1, ← e 2, ← e 3]
    rfl
  rw [this]
  norm_num

theorem realRing_wf : realRing.map.WF := by rw [realRing_map]; decide

theorem realRing_at {s t : Nat} {d : Coord ℝ} :
    realRing.At s d t ↔ s < 4 ∧ t < 4 ∧ d = ⟨LatticeMap.wrapComp 4 ((t : ℝ) - s), 0, 0⟩ := by
  have hget : ∀ {s : Nat} {c : Coord ℝ}, realRing.sites[s]? = some c ↔ s < 4 ∧ c = ⟨(s : ℝ), 0, 0⟩ := by
    intro s c
    rw [realRing_sites]
    match s with
    | 0 => simp [eq_comm]
    | 1 => simp [eq_comm]
    | 2 => simp [eq_comm]
    | 3 => simp [eq_comm]
    | s + 4 => simp
  have hw : ∀ s t : Nat, realRing.map.wrap ((⟨(t : ℝ), 0, 0⟩ : Coord ℝ) - ⟨(s : ℝ), 0, 0⟩) =
      ⟨LatticeMap.wrapComp 4 ((t : ℝ) - s), 0, 0⟩ := by
    intro s t
    ext
    · rfl
    · show (0 : ℝ) - 0 = 0
      simp
    · show (0 : ℝ) - 0 = 0
      simp
  constructor
  · rintro ⟨cs, ct, h1, h2, rfl⟩
    obtain ⟨g1, rfl⟩ := hget.1 h1
    obtain ⟨g2, rfl⟩ := hget.1 h2
    exact ⟨g1, g2, hw s t⟩
  · rintro ⟨h1, h2, rfl⟩
    exact ⟨_, _, hget.2 ⟨h1, rfl⟩, hget.2 ⟨h2, rfl⟩, hw s t⟩

/-- The displacement from site `s` to site `t`. -/
def ringStep (s t : Nat) : Int := if 2 ≤ (t : Int) - s then t - s - 4 else if (t : Int) - s < -2 then t - s + 4 else t - s

theorem ringStep_eq (s t : Nat) : LatticeMap.wrapComp 4 ((t : ℝ) - s) = (ringStep s t : ℝ) := by
  unfold LatticeMap.wrapComp ringStep
  have e1 : ((t : ℝ) - s ≥ 1 * ((4 : Nat) : ℝ) / 2) ↔ 2 ≤ (t : Int) - s := by
    rw [← @Int.cast_le ℝ]
    push_cast
    constructor <;> intro h <;> linarith
  have e2 : ((t : ℝ) - s < -(1 * ((4 : Nat) : ℝ) / 2)) ↔ (t : Int) - s < -2 := by
    rw [← @Int.cast_lt ℝ]
    push_cast
    constructor <;> intro h <;> linarith
  simp only [e1, e2]
  split_ifs <;> push_cast <;> ring

theorem realRing_near {s t : Nat} {x : Int} : realRing.At s ⟨(x : ℝ), 0, 0⟩ t ↔ s < 4 ∧ t < 4 ∧ ringStep s t = x := by
  rw [realRing_at, ringStep_eq]
  simp only [Coord.mk.injEq, and_true, Int.cast_inj]
  constructor
  · rintro ⟨a, b, c⟩; exact ⟨a, b, c.symm⟩
  · rintro ⟨a, b, c⟩; exact ⟨a, b, c.symm⟩

theorem realRing_central : central realRing 0 = 2 := by decide

theorem realRing_neighbours : realRing.map.neighbourIndices 2 1 = [1, 2, 3] := by rw [realRing_map]; decide +kernel

theorem realHops_range : maxRange realHops = 1 := rfl

/-- What a site sees. -/
theorem realRing_sees {d : Coord ℝ} : Sees realRing 1 (central realRing 0) d ↔ d = ⟨-1, 0, 0⟩ ∨ d = ⟨0, 0, 0⟩ ∨ d = ⟨1, 0, 0⟩ := by
  rw [sees_iff realRing_wf (by rw [realRing_central]; decide), realRing_central, realRing_neighbours]
  have h : ∀ t < 4, realRing.rel 2 t = ⟨(ringStep 2 t : ℝ), 0, 0⟩ := by
    intro t ht
    have : realRing.At 2 ⟨(ringStep 2 t : ℝ), 0, 0⟩ t := realRing_near.2 ⟨by decide, ht, rfl⟩
    exact (PyLattice.at_iff realRing_wf (by decide) ht).1 this
  simp only [List.mem_cons, List.not_mem_nil, or_false, exists_eq_or_imp, exists_eq_left]
  rw [h 1 (by decide), h 2 (by decide), h 3 (by decide)]
  have e1 : ringStep 2 1 = -1 := by decide
  have e2 : ringStep 2 2 = 0 := by decide
  have e3 : ringStep 2 3 = 1 := by decide
  rw [e1, e2, e3]
  norm_num

theorem realRing_placed {cs : List (Coord ℝ)} (h : ∀ c ∈ cs, c = ⟨-1, 0, 0⟩ ∨ c = ⟨0, 0, 0⟩ ∨ c = ⟨1, 0, 0⟩) :
    Placed realDist realRing 1 0 cs where
  there c hc := realRing_sees.2 (h c hc)
  clear := by
    intro c d hc hd hs
    rcases realRing_sees.1 hc with rfl | rfl | rfl <;> rcases realRing_sees.1 hd with rfl | rfl | rfl <;>
      first | rfl | (exfalso; revert hs; norm_num [ptSame, realDist, epsi])
  distances := by
    rintro x y ⟨c, hc, rfl⟩ ⟨d, hd, rfl⟩
    rcases realRing_sees.1 hc with rfl | rfl | rfl <;> rcases realRing_sees.1 hd with rfl | rfl | rfl <;>
      norm_num [realDist, epsi]

theorem realHop_sited {number : Nat} {x : ℝ} (hx : x = 1 ∨ x = -1) : (realHop number x).Sited realDist realRing 1 0 where
  basis := rfl
  sorted := by
    refine ⟨(realHop number x).matchList, ?_, ?_, ?_⟩
    · rcases hx with rfl | rfl <;> norm_num [realHop, sortP, PEntry.lt, ptLt, epsi]
    · rcases hx with rfl | rfl <;> simp [realHop]
    · intro e he
      rcases hx with rfl | rfl <;> simp [realHop] at he <;> rcases he with rfl | rfl <;> simp [realDist]
  placed := by
    refine realRing_placed ?_
    intro c hc
    rcases hx with rfl | rfl <;> simp [realHop] at hc <;> rcases hc with rfl | rfl <;> simp

theorem realHop_wellFormed {number : Nat} {x : ℝ} (hx : x = 1 ∨ x = -1) : (realHop number x).WellFormed 3 where
  sized := by simp [realHop]
  updates := by simp [realHop]
  slot := by simp [realHop]
  enough := by
    intro e he _ i a u ha hu
    simp only [realHop, List.mem_cons, List.not_mem_nil, or_false] at he
    rcases he with rfl | rfl <;>
    · match i, ha, hu with
      | 0, ha, hu => cases ha; cases hu; decide
      | 1, ha, hu => cases ha; cases hu; decide
      | 2, ha, hu => cases ha; cases hu; decide
      | i + 3, ha, hu => simp at ha
  leaves := by
    intro e he _
    simp only [realHop, List.mem_cons, List.not_mem_nil, or_false] at he
    rcases he with rfl | rfl
    · exact ⟨2, 0, 1, rfl, rfl, by decide⟩
    · exact ⟨1, 0, 1, rfl, rfl, by decide⟩
  apart := by
    refine List.pairwise_pair.2 fun _ _ => .inl ?_
    rcases hx with rfl | rfl <;> norm_num
  notWild := by
    intro e he _
    simp only [realHop, List.mem_cons, List.not_mem_nil, or_false] at he
    rcases he with rfl | rfl <;> simp
  affected := by
    refine (List.length_filter_le _ _).trans ?_
    simp [realHop]
  fresh := by simp [realHop]
  moves := by simp [realHop]

theorem realRingStart_good : realRingStart.Good 4 3 where
  shape := ⟨rfl, rfl, rfl, rfl, rfl, rfl, rfl⟩
  names := rfl
  possible := rfl
  bucket := by decide
  idsLt := by decide
  elements := by decide
  distinct := by decide
  tallied := by
    intro i els t he ht
    have key : ∀ (els : List String) (t : Bucket), (els = ["A"] ∧ t = [0, 1, 0] ∨ els = ["B"] ∧ t = [0, 0, 1]) →
        (∀ e ∈ els, e ∈ realRingStart.typeNames) ∧
        ∀ (k : Nat) (name : String), realRingStart.typeNames[k]? = some name → t[k]? = some (els.count name : Int) := by
      rintro els t (⟨rfl, rfl⟩ | ⟨rfl, rfl⟩) <;>
      · refine ⟨by decide, ?_⟩
        intro k name hk
        match k, hk with
        | 0, hk => cases hk; rfl
        | 1, hk => cases hk; rfl
        | 2, hk => cases hk; rfl
        | k + 3, hk => simp [realRingStart] at hk
    refine key els t ?_
    match i, he, ht with
    | 0, he, ht => cases he; cases ht; decide
    | 1, he, ht => cases he; cases ht; decide
    | 2, he, ht => cases he; cases ht; decide
    | 3, he, ht => cases he; cases ht; decide
    | i + 4, he, ht => simp [realRingStart] at he

theorem mem_realHops {p : Proc ℝ} : p ∈ realHops ↔ p = realHop 0 1 ∨ p = realHop 1 (-1) := by
  simp [realHops]

theorem realRing_wellFormed : WellFormed realRingEnv 4 3 realRingStart realHops where
  ranks := by decide
  typed := by decide
  lattice := realRing_wf
  sites := by decide
  config := realRingStart_good
  processes := by
    intro p hp
    rcases mem_realHops.1 hp with rfl | rfl
    · exact realHop_wellFormed (.inl rfl)
    · exact realHop_wellFormed (.inr rfl)

theorem realHops_sited {p : Proc ℝ} (hp : p ∈ realHops) : p.Sited realDist realRing (maxRange realHops) 0 := by
  rw [realHops_range]
  rcases mem_realHops.1 hp with rfl | rfl
  · exact realHop_sited (.inl rfl)
  · exact realHop_sited (.inr rfl)

theorem realHops_positive : PositiveRates realRingEnv realHops where
  constant := by
    intro p hp
    rcases mem_realHops.1 hp with rfl | rfl <;> exact one_pos
  custom := by intro h; cases h

theorem realHops_balanced : ∀ p ∈ realHops, p.Balanced := by
  intro p hp
  rcases mem_realHops.1 hp with rfl | rfl <;> simp [realHop, Proc.Balanced]

theorem realRing_onSites : OnSites realRing realRingEnv realRingStart where
  lattice := rfl
  coords := realRing_sites.symm
  basis := by simp [realRing]
  distinct := by simp [realRing]
  wildcards := rfl

/-- The hops to the right and to the left are the reverses of each other. -/
theorem realHops_reversible : ReversibleOn realRing realDist realHops (fun j => 1 - j)
    (fun j => if j = 0 then ⟨1, 0, 0⟩ else ⟨-1, 0, 0⟩) (fun _ => 0) where
  inside := by
    intro j hj
    have : j < 2 := hj
    show 1 - j < 2
    omega
  back := by
    intro j hj
    have : j < 2 := hj
    show 1 - (1 - j) = j
    omega
  opposite := by
    intro j hj
    have hj : j < 2 := hj
    match j, hj with
    | 0, _ => simp; ext <;> simp
    | 1, _ => simp; ext <;> simp
  undo := by
    have key : ∀ (x : ℝ) (a b : Nat), (realHop a x).UndoneFrom ⟨x, 0, 0⟩ (realHop b (-x)) := by
      intro x a b
      constructor
      · intro e he
        simp only [realHop, List.mem_cons, List.not_mem_nil, or_false] at he
        rcases he with rfl | rfl
        · refine ⟨_, List.mem_cons_of_mem _ (List.mem_cons_self ..), ⟨?_, rfl, rfl⟩⟩
          ext <;> simp
        · refine ⟨_, List.mem_cons_self .., ⟨?_, rfl, rfl⟩⟩
          ext <;> simp
      · intro f hf
        simp only [realHop, List.mem_cons, List.not_mem_nil, or_false] at hf
        rcases hf with rfl | rfl
        · refine ⟨_, List.mem_cons_of_mem _ (List.mem_cons_self ..), ⟨?_, rfl, rfl⟩⟩
          ext <;> simp
        · refine ⟨_, List.mem_cons_self .., ⟨?_, rfl, rfl⟩⟩
          ext <;> simp
    intro j p q hp hq
    match j, hp, hq with
    | 0, hp, hq =>
      obtain rfl := Option.some.inj hp
      obtain rfl := Option.some.inj hq
      exact key 1 0 1
    | 1, hp, hq =>
      obtain rfl := Option.some.inj hp
      obtain rfl := Option.some.inj hq
      have := key (-1) 1 0
      rw [neg_neg] at this
      exact this
    | j + 2, hp, hq => simp [realHops] at hp
  sited j p hp := realHops_sited (List.mem_of_getElem? hp)
  place := by
    intro j p hp
    match j, hp with
    | 0, hp =>
      obtain rfl := Option.some.inj hp
      simp [realHop]
    | 1, hp =>
      obtain rfl := Option.some.inj hp
      simp [realHop]
    | j + 2, hp => simp [realHops] at hp
  joins := by
    intro j hj
    have hj : j < 2 := hj
    match j, hj with
    | 0, _ =>
      refine ⟨⟨0, 0, 0⟩, ⟨0, 0, 0⟩, rfl, rfl, 1, 0, 0, ?_⟩
      simp; ext <;> simp
    | 1, _ =>
      refine ⟨⟨0, 0, 0⟩, ⟨0, 0, 0⟩, rfl, rfl, -1, 0, 0, ?_⟩
      simp; ext <;> simp
  uniform := by
    rw [realHops_range]
    exact ⟨.inl ⟨rfl, by decide⟩, .inr rfl, .inr rfl⟩

theorem realRing_custom : realRingEnv.useCustomRates = true → CustomRatesOk realRingEnv 4 3 realRingStart realHops :=
  fun h => absurd h (by decide)

/-- The model starts with `A` on site 0. -/
theorem realRing_starts : ∃ s, GoodRun realRingEnv 4 3 negLog realRingStart realHops s ∧ s.ms.cfg.types = ringTypes 0 := by
  obtain ⟨s, hs⟩ := C26_init_ordinary realRing_wellFormed realRing_custom (by decide) realRing rfl realRing_sites.symm
    (fun _ p hp => by
      have hsit := realHops_sited hp
      refine ⟨?_, hsit.sorted, ?_⟩
      · intro b hb
        rw [hsit.basis] at hb
        obtain rfl : 0 = b := by simpa using hb
        decide
      · intro b hb _
        rw [hsit.basis] at hb
        obtain rfl : 0 = b := by simpa using hb
        exact hsit.placed)
  refine ⟨s, ⟨realRing_wellFormed, realRing_custom, s, [], hs, rfl⟩, ?_⟩
  unfold LatticeModel.init at hs
  rw [bind_ok] at hs
  obtain ⟨ms, hms, hs⟩ := hs
  cases hs
  obtain ⟨cfg1, procs1, hprep, -, -, hsame⟩ := initialMatching_inv realRing_wellFormed realRing_custom hms
  rw [hsame.types, (lists_of realRing_wellFormed hprep.1).rest]
  rfl

/-- Where the particle goes. -/
def ringNext (j i : Nat) : Nat := if j = 0 then (i + 1) % 4 else (i + 3) % 4

theorem ringTypes_get {i t : Nat} (ht : t < 4) : (ringTypes i)[t]? = some (if t = i then [0, 1, 0] else [0, 0, 1]) := by
  unfold ringTypes
  rw [List.getElem?_map, List.getElem?_range ht]
  rfl

variable {s : Sim ℝ}

theorem realHops_get {j : Nat} {p : Proc ℝ} (hp : realHops[j]? = some p) :
    ∃ x : Int, p = realHop j (x : ℝ) ∧ (j = 0 ∧ x = 1 ∨ j = 1 ∧ x = -1) := by
  match j, hp with
  | 0, hp =>
    obtain rfl := Option.some.inj hp
    exact ⟨1, by norm_num, .inl ⟨rfl, rfl⟩⟩
  | 1, hp =>
    obtain rfl := Option.some.inj hp
    exact ⟨-1, by norm_num, .inr ⟨rfl, rfl⟩⟩
  | j + 2, hp => simp [realHops] at hp

theorem realRing_alike {site : Nat} (hs : site < 4) : realRing.Alike (maxRange realHops) site (central realRing 0) :=
  realHops_reversible.uniform.alike realRing_wf hs (by rw [realRing_central]; decide)
    ((Nat.mod_one site).trans (by rw [realRing_central]; rfl))

/-- The hops are available at the site with `A`. -/
theorem realRing_available (h : GoodRun realRingEnv 4 3 negLog realRingStart realHops s) {i : Nat} (hi : i < 4)
    (ht : s.ms.cfg.types = ringTypes i) {j : Nat} (hj : j < 2) :
    ∃ p1, s.ms.procs[j]? = some p1 ∧ ∀ site, site ∈ p1.sites ↔ site = i := by
  have hjl : j < realHops.length := hj
  have hjp := List.getElem?_eq_getElem hjl
  obtain ⟨x, hpx, hx⟩ := realHops_get hjp
  have hsit := realHops_sited (List.getElem_mem hjl)
  obtain ⟨p1, hp1, -⟩ := C10_available_iff_partial h realRing_onSites hjp hsit hi (Nat.mod_one i) (realRing_alike hi)
  refine ⟨p1, hp1, fun site => ?_⟩
  by_cases hs : site < 4
  · obtain ⟨p2, hp2, hiff⟩ := C10_available_iff_partial h realRing_onSites hjp hsit hs (Nat.mod_one site) (realRing_alike hs)
    rw [hp1] at hp2
    obtain rfl := Option.some.inj hp2
    rw [hiff, hpx]
    constructor
    · intro hall
      obtain ⟨t, present, hat, hpr, hacc⟩ := hall _ (List.mem_cons_self ..)
      have hat : realRing.At site ⟨((0 : Int) : ℝ), 0, 0⟩ t := by rw [Int.cast_zero]; exact hat
      obtain ⟨-, ht4, hst⟩ := realRing_near.1 hat
      have hts : t = site := by
        clear * - hs ht4 hst
        unfold ringStep at hst
        split_ifs at hst <;> omega
      subst hts
      rw [ht, ringTypes_get ht4] at hpr
      obtain rfl := Option.some.inj hpr
      by_contra hne
      rw [if_neg hne] at hacc
      rcases hacc with hacc | hacc
      · simp at hacc
      · have := hacc 1 1 0 rfl rfl
        omega
    · rintro rfl e he
      simp only [realHop, List.mem_cons, List.not_mem_nil, or_false] at he
      rcases he with rfl | rfl
      · refine ⟨site, [0, 1, 0], ?_, ?_, .inr ?_⟩
        · have : realRing.At site ⟨((0 : Int) : ℝ), 0, 0⟩ site := realRing_near.2 ⟨hs, hs, by
            unfold ringStep
            split_ifs <;> omega⟩
          rw [Int.cast_zero] at this
          exact this
        · rw [ht, ringTypes_get hs, if_pos rfl]
        · intro k a b ha hb
          rw [ha] at hb
          exact (Option.some.inj hb).le
      · obtain ⟨h4, hne, hst⟩ : ringNext j site < 4 ∧ ringNext j site ≠ site ∧ ringStep site (ringNext j site) = x := by
          rcases hx with ⟨rfl, rfl⟩ | ⟨rfl, rfl⟩
          · clear * - hs
            interval_cases site <;> decide
          · clear * - hs
            interval_cases site <;> decide
        refine ⟨ringNext j site, [0, 0, 1], realRing_near.2 ⟨hs, h4, hst⟩, ?_, .inr ?_⟩
        · rw [ht, ringTypes_get h4, if_neg hne]
        · intro k a b ha hb
          rw [ha] at hb
          exact (Option.some.inj hb).le
  · constructor
    · intro hm
      exact absurd ((C24_available h hp1 site).1 hm).1 hs
    · rintro rfl
      exact absurd hi hs

/-- A hop takes the particle to the next site. -/
theorem realRing_hop (h : GoodRun realRingEnv 4 3 negLog realRingStart realHops s) {i : Nat} (hi : i < 4)
    (ht : s.ms.cfg.types = ringTypes i) {j site : Nat} {t : List Bucket} (hl : LeadsTo realRingEnv s j site t) :
    j < 2 ∧ site = i ∧ t = ringTypes (ringNext j i) := by
  obtain ⟨p2, hp2, hsite⟩ := hl.listed h
  have hj : j < 2 := by
    have := (List.getElem?_eq_some_iff.1 hp2).1
    rw [procs_length h] at this
    exact this
  obtain ⟨p1, hp1, hav⟩ := realRing_available h hi ht hj
  rw [hp2] at hp1
  obtain rfl := Option.some.inj hp1
  obtain rfl := (hav site).1 hsite
  refine ⟨hj, rfl, ?_⟩
  have hjl : j < realHops.length := hj
  have hjp := List.getElem?_eq_getElem hjl
  obtain ⟨x, hpx, hx⟩ := realHops_get hjp
  obtain ⟨d, ps, s1, g1, g2, rfl⟩ := hl
  have h1 := h.step g2
  have hplace := C17_places_partial h realRing_onSites g1 g2 hjp (realHops_sited (List.getElem_mem hjl)) (realRing_alike hi)
  rw [hpx] at hplace
  obtain ⟨h4, hne, hst⟩ : ringNext j site < 4 ∧ ringNext j site ≠ site ∧ ringStep site (ringNext j site) = x := by
    rcases hx with ⟨rfl, rfl⟩ | ⟨rfl, rfl⟩
    · clear * - hi
      interval_cases site <;> decide
    · clear * - hi
      interval_cases site <;> decide
  have hself : realRing.At site ⟨0, 0, 0⟩ site := by
    have : realRing.At site ⟨((0 : Int) : ℝ), 0, 0⟩ site := realRing_near.2 ⟨hi, hi, by
      unfold ringStep
      split_ifs <;> omega⟩
    rw [Int.cast_zero] at this
    exact this
  apply List.ext_getElem?
  intro u
  by_cases hu : u < 4
  · rw [ringTypes_get hu]
    by_cases hus : u = site
    · subst hus
      obtain ⟨y, hy, hy'⟩ := (hplace u).1 _ (List.mem_cons_self ..) hself
      rw [ht, ringTypes_get hu, if_pos rfl] at hy
      obtain rfl := Option.some.inj hy
      rw [hy', if_neg hne.symm]
      rfl
    · by_cases hun : u = ringNext j site
      · obtain ⟨y, hy, hy'⟩ := (hplace u).1 _ (List.mem_cons_of_mem _ (List.mem_cons_self ..)) (by
          rw [hun]; exact realRing_near.2 ⟨hi, h4, hst⟩)
        rw [ht, ringTypes_get hu, if_neg hus] at hy
        obtain rfl := Option.some.inj hy
        rw [hy', if_pos hun]
        rfl
      · rw [(hplace u).2, ht, ringTypes_get hu, if_neg hus, if_neg hun]
        intro e he hat
        simp only [realHop, List.mem_cons, List.not_mem_nil, or_false] at he
        rcases he with rfl | rfl
        · exact hus (hat.unique realRing_wf realRing_onSites.basis realRing_onSites.distinct hself)
        · exact hun (hat.unique realRing_wf realRing_onSites.basis realRing_onSites.distinct (realRing_near.2 ⟨hi, h4, hst⟩))
  · rw [List.getElem?_eq_none, List.getElem?_eq_none]
    · simpa [ringTypes] using hu
    · rw [h1.good.shape.types]; omega

/-- Every hop from the particle's site is possible. -/
theorem realRing_next (h : GoodRun realRingEnv 4 3 negLog realRingStart realHops s) {i : Nat} (hi : i < 4)
    (ht : s.ms.cfg.types = ringTypes i) {j : Nat} (hj : j < 2) : LeadsTo realRingEnv s j i (ringTypes (ringNext j i)) := by
  obtain ⟨p1, hp1, hav⟩ := realRing_available h hi ht hj
  obtain ⟨k, hk⟩ := List.mem_iff_getElem?.1 ((hav i).2 rfl)
  obtain ⟨hb, hf⟩ := bounded_one (cfg := realRingStart) (by decide) realHops_balanced
  obtain ⟨d, ps, s', r, g1, g2, -⟩ := C58_possible h realHops_positive hb hf hp1 hk
  have hl : LeadsTo realRingEnv s j i s'.ms.cfg.types := ⟨d, ps, s', g1, g2, rfl⟩
  rw [(realRing_hop h hi ht hl).2.2] at hl
  exact hl

/-- The types of the states of runs. -/
theorem realRing_types (x : List Bucket) :
    (∃ s, GoodRun realRingEnv 4 3 negLog realRingStart realHops s ∧ s.ms.cfg.types = x) ↔ ∃ i < 4, x = ringTypes i := by
  constructor
  · rintro ⟨s, h, rfl⟩
    obtain ⟨h1, h2, s0, ds, h3, h4⟩ := h
    have key : ∀ (ds : List (Draws ℝ)) (a b : Sim ℝ), GoodRun realRingEnv 4 3 negLog realRingStart realHops a →
        (∃ i < 4, a.ms.cfg.types = ringTypes i) → run realRingEnv negLog ds a = .ok b → ∃ i < 4, b.ms.cfg.types = ringTypes i := by
      intro ds
      induction ds with
      | nil =>
        intro a b _ ht hab
        unfold run loopM at hab
        obtain rfl := Except.ok.inj hab
        exact ht
      | cons d ds ih =>
        rintro a b ha ⟨i, hi, ht⟩ hab
        unfold run at hab
        rw [loopM_cons] at hab
        obtain ⟨c, hc, hcb⟩ := bind_ok.1 hab
        refine ih c b (ha.step hc) ?_ hcb
        obtain ⟨s0, hs0, -⟩ := step_single hc
        unfold singleStep at hs0
        obtain ⟨⟨j, site, ps⟩, he, -⟩ := bind_ok.1 hs0
        obtain ⟨hj, -, h6⟩ := realRing_hop ha hi ht (⟨d, ps, c, he, hc, rfl⟩ : LeadsTo realRingEnv a j site c.ms.cfg.types)
        refine ⟨ringNext j i, ?_, h6⟩
        unfold ringNext
        split <;> omega
    refine key ds s0 s ⟨h1, h2, s0, [], h3, rfl⟩ ⟨0, by decide, ?_⟩ h4
    unfold init at h3
    obtain ⟨ms, hms, h3⟩ := bind_ok.1 h3
    cases h3
    obtain ⟨cfg1, procs1, hprep, -, -, hsame⟩ := initialMatching_inv realRing_wellFormed realRing_custom hms
    rw [hsame.types, (lists_of realRing_wellFormed hprep.1).rest]
    rfl
  · rintro ⟨i, hi, rfl⟩
    induction i with
    | zero => exact realRing_starts
    | succ i ih =>
      obtain ⟨s, h, ht⟩ := ih (by omega)
      obtain ⟨d, ps, s', -, g2, g3⟩ := realRing_next h (i := i) (by omega) ht (j := 0) (by decide)
      refine ⟨s', h.step g2, g3.trans ?_⟩
      unfold ringNext
      rw [if_pos rfl, Nat.mod_eq_of_lt (by omega)]

theorem ringTypes_injective {i k : Nat} (hi : i < 4) (h : ringTypes i = ringTypes k) : i = k := by
  have : (ringTypes i)[i]? = (ringTypes k)[i]? := congrArg (fun l => l[i]?) h
  rw [ringTypes_get hi, ringTypes_get hi, if_pos rfl] at this
  by_contra hne
  rw [if_neg hne] at this
  exact absurd this (by decide)

end
end KMC.Sample
