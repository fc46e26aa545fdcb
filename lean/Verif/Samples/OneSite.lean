import Verif.Props.EndToEnd
import Verif.Props.Weights

/-!
# A model on one site, with real numbers

The other samples use rational numbers. Here the numbers are real, for the theorems on probabilities. The site holds `A`
or `B`; two processes turn `A` into `B` and one turns `B` into `A`.
-/

namespace KMC.Sample
open LatticeModel Interactions
noncomputable section

/-- One cell with one site. -/
def oneCell : PyLattice ℝ := { basis := [⟨0, 0, 0⟩], repA := 1, repB := 1, repC := 1, perA := false, perB := false, perC := false }

/-- The configuration, as the constructor makes it. -/
def oneSite : Config ℝ :=
  { coords := [⟨0, 0, 0⟩], elements := [["A"]], types := [[0, 1, 0]], typeNames := ["*", "A", "B"],
    possibleTypes := [("*", 0), ("A", 1), ("B", 2)], atomId := [0], atomIdElements := ["A"],
    atomIdCoords := [⟨0, 0, 0⟩], matchLists := [[]], movedIds := [], moveVectors := [], nMoved := 0,
    latestProcess := 0, latestSite := 0 }

/-- A process that changes the site. -/
def turn (number : Nat) (rate : ℝ) (before update : Bucket) : Proc ℝ :=
  { number := number, custom := false, cacheRate := false, bucketProcess := false, range := 0, rate := rate, cutoff := 1,
    basisSites := [0],
    matchList := [{ matchTypes := before, updateTypes := update, distance := 0, coord := ⟨0, 0, 0⟩, hasMove := false,
                    moveCoord := ⟨0, 0, 0⟩ }],
    idMoves := [], affected := [0], sites := [], siteMult := [], siteRates := [], totalRate := 0, rateTable := [] }

def turns : List (Proc ℝ) :=
  [turn 0 2 [0, 1, 0] [0, -1, 1], turn 1 1 [0, 1, 0] [0, -1, 1], turn 2 5 [0, 0, 1] [0, 1, -1]]

def oneEnv : Env ℝ :=
  { L := ⟨1, 1, 1, 1, false, false, false⟩, dist := fun _ => 0, nRanks := 1, hash := fun _ => 0, callback := fun _ => 0,
    implicitWildcards := false, useCustomRates := false }

theorem oneSite_good : oneSite.Good 1 3 where
  shape := ⟨rfl, rfl, rfl, rfl, rfl, rfl, rfl⟩
  names := rfl
  possible := rfl
  bucket := by decide
  idsLt := by decide
  elements := by decide
  distinct := by decide
  tallied := by
    intro i els t he ht
    cases i with
    | succ i => simp [oneSite] at he
    | zero =>
      cases he
      cases ht
      refine ⟨by decide, ?_⟩
      intro k name hk
      match k, hk with
      | 0, hk => cases hk; rfl
      | 1, hk => cases hk; rfl
      | 2, hk => cases hk; rfl
      | k + 3, hk => simp [oneSite] at hk

theorem turn_wellFormed (number : Nat) (rate : ℝ) {before update : Bucket} (h1 : before.length = 3) (h2 : update.length = 3)
    (h3 : update[0]? = some 0) (h4 : before[0]? = some 0)
    (h5 : ∀ i < 3, 0 ≤ before.getD i 0 + update.getD i 0) (h6 : ∃ i < 3, 0 < before.getD i 0 + update.getD i 0) :
    (turn number rate before update).WellFormed 3 where
  sized := by simpa [turn] using h1
  updates := by simpa [turn] using h2
  slot := by simpa [turn] using h3
  enough := by
    intro e he _ i x u hx hu
    simp only [turn, List.mem_singleton] at he
    subst he
    have hi := (List.getElem?_eq_some_iff.1 hx).1
    have := h5 i (by simpa [h1] using hi)
    rw [List.getD_eq_getElem?_getD, List.getD_eq_getElem?_getD, hx, hu] at this
    exact this
  leaves := by
    intro e he _
    simp only [turn, List.mem_singleton] at he
    subst he
    obtain ⟨i, hi, h⟩ := h6
    have e1 := List.getElem?_eq_getElem (l := before) (i := i) (by omega)
    have e2 := List.getElem?_eq_getElem (l := update) (i := i) (by omega)
    rw [List.getD_eq_getElem?_getD, List.getD_eq_getElem?_getD, e1, e2] at h
    exact ⟨i, _, _, e1, e2, h⟩
  apart := by simp [turn]
  notWild := by
    intro e he _
    simp only [turn, List.mem_singleton] at he
    subst he
    rw [h4]
    simp
  affected := by
    refine (List.length_filter_le _ _).trans ?_
    simp [turn]
  fresh := by simp [turn]
  moves := by simp [turn]

theorem oneSite_wellFormed : WellFormed oneEnv 1 3 oneSite turns where
  ranks := by decide
  typed := by decide
  lattice := by decide
  sites := by decide
  config := oneSite_good
  processes := by
    intro p hp
    simp only [turns, List.mem_cons, List.not_mem_nil, or_false] at hp
    rcases hp with rfl | rfl | rfl <;> exact turn_wellFormed _ _ rfl rfl rfl rfl (by decide) (by decide)

theorem turns_positive : PositiveRates oneEnv turns where
  constant := by
    intro p hp
    simp only [turns, List.mem_cons, List.not_mem_nil, or_false] at hp
    rcases hp with rfl | rfl | rfl <;> norm_num [turn]
  custom := by intro h; cases h

theorem turns_balanced : ∀ p ∈ turns, p.Balanced := by
  intro p hp
  simp only [turns, List.mem_cons, List.not_mem_nil, or_false] at hp
  rcases hp with rfl | rfl | rfl <;> simp [turn, Proc.Balanced]

theorem oneSite_one : ∀ els ∈ oneSite.elements, els.length = 1 := by decide

theorem no_custom {ts : List (Proc ℝ)} : oneEnv.useCustomRates = true → CustomRatesOk oneEnv 1 3 oneSite ts :=
  fun h => absurd h (by decide)

theorem turns_range : maxRange turns = 1 := by simp [maxRange, turns, turn]

/-- The model starts. -/
theorem oneSite_starts {ts : List (Proc ℝ)} (hw : WellFormed oneEnv 1 3 oneSite ts) : ∃ s, GoodRun oneEnv 1 3 negLog oneSite ts s ∧ s.ms.cfg.types = [[0, 1, 0]] := by
  obtain ⟨s, hs⟩ := C26_init_ordinary hw no_custom oneSite_one oneCell rfl
    (by
      show [(⟨0, 0, 0⟩ : Coord ℝ)] = [(⟨0, 0, 0⟩ : Coord ℝ) + ⟨((0 : Nat) : ℝ), ((0 : Nat) : ℝ), ((0 : Nat) : ℝ)⟩]
      congr 1
      ext
      · show (0 : ℝ) = 0 + ((0 : Nat) : ℝ)
        simp
      · show (0 : ℝ) = 0 + ((0 : Nat) : ℝ)
        simp
      · show (0 : ℝ) = 0 + ((0 : Nat) : ℝ)
        simp) (by intro h; cases h)
  refine ⟨s, ⟨hw, no_custom, s, [], hs, rfl⟩, ?_⟩
  unfold LatticeModel.init at hs
  rw [bind_ok] at hs
  obtain ⟨ms, hms, hs⟩ := hs
  cases hs
  obtain ⟨cfg1, procs1, hprep, -, -, hsame⟩ := initialMatching_inv hw no_custom hms
  rw [hsame.types, (lists_of hw hprep.1).rest]
  rfl

theorem oneSite_start : ∃ s, GoodRun oneEnv 1 3 negLog oneSite turns s ∧ s.ms.cfg.types = [[0, 1, 0]] :=
  oneSite_starts oneSite_wellFormed

theorem near0 {ts : List (Proc ℝ)} (hR : maxRange ts = 1) : oneEnv.L.neighbourIndices 0 (maxRange ts) = [0] := by
  rw [hR]
  decide +kernel

/-- The surroundings of the site. -/
theorem oneSite_seen {ts : List (Proc ℝ)} (hR : maxRange ts = 1) {s : Sim ℝ} (h : GoodRun oneEnv 1 3 negLog oneSite ts s) {t : Bucket} (ht : s.ms.cfg.types = [t]) :
    Surroundings oneEnv ts s.ms.cfg 0 = .ok [{ index := 0, distance := 0, coord := ⟨0, 0, 0⟩, matchTypes := t }] := by
  have hc : s.ms.cfg.coords = [⟨0, 0, 0⟩] := h.coords
  have hrel : Config.relCoord oneEnv.L (⟨0, 0, 0⟩ : Coord ℝ) ⟨0, 0, 0⟩ = ⟨0, 0, 0⟩ := by
    show (⟨0 - 0, 0 - 0, 0 - 0⟩ : Coord ℝ) = _
    simp
  unfold Surroundings Config.configMatchList
  rw [near0 hR, hc]
  show (mapMM (Config.cEntry oneEnv.dist oneEnv.L s.ms.cfg ⟨0, 0, 0⟩) [0] >>= fun l => pure (sortC l)) = _
  have : Config.cEntry oneEnv.dist oneEnv.L s.ms.cfg ⟨0, 0, 0⟩ 0 =
      .ok { index := 0, distance := 0, coord := ⟨0, 0, 0⟩, matchTypes := t } := by
    unfold Config.cEntry
    rw [hc, ht]
    show Except.ok _ = Except.ok _
    rw [hrel]
    rfl
  simp only [mapMM, this, ok_bind]
  rfl

/-- The processes in a state. -/
theorem oneSite_proc {ts : List (Proc ℝ)} {s : Sim ℝ} (h : GoodRun oneEnv 1 3 negLog oneSite ts s) {j : Nat} {q : Proc ℝ}
    (hq : ts[j]? = some q) : ∃ p, s.ms.procs[j]? = some p ∧ p.matchList = q.matchList ∧ p.rate = q.rate ∧
      p.custom = q.custom ∧ p.basisSites = q.basisSites := by
  obtain ⟨cfg1, procs1, hprep, hok, ⟨⟨A, hI⟩, -⟩, -⟩ := h.inv
  have hpr : s.ms.procs.map Proc.still = procs1.map Proc.still := hI.procs
  have hp1 : clearMatching ts = procs1 := Except.ok.inj hprep.2
  rw [← hp1] at hpr
  have h1 : (s.ms.procs.map Proc.still)[j]? = some q.clearSites.still := by
    rw [hpr, clearMatching, List.getElem?_map, List.getElem?_map, hq]
    rfl
  rw [List.getElem?_map, Option.map_eq_some_iff] at h1
  obtain ⟨p, hp, he⟩ := h1
  have e : ∀ {β : Type _} (f : Proc ℝ → β), f p.still = f q.clearSites.still := fun f => by rw [he]
  exact ⟨p, hp, e (·.matchList), e (·.rate), e (·.custom), e (·.basisSites)⟩

/-- What is listed for a process: the site when the process wants what is there. -/
theorem turn_listed {ts : List (Proc ℝ)} (hR : maxRange ts = 1) {s : Sim ℝ} (h : GoodRun oneEnv 1 3 negLog oneSite ts s) {t : Bucket} (ht : s.ms.cfg.types = [t])
    {j number : Nat} {rate : ℝ} {before update : Bucket} (hq : ts[j]? = some (turn number rate before update))
    (hb : before[0]? = some 0) {b : Bool} (hm : Bucket.matches? before t = .ok b) :
    ∃ p, s.ms.procs[j]? = some p ∧ p.sites = (if b then [0] else []) ∧ p.weights = (if b then [rate] else []) ∧
      p.totalRate = if b then rate else 0 := by
  obtain ⟨p, hp, e1, e2, e3, e4⟩ := oneSite_proc h hq
  have hpm : p ∈ s.ms.procs := List.mem_of_getElem? hp
  obtain ⟨c1, c2, -, c4⟩ := (C25_totals h).1 p hpm
  have hwm : whateverMatch p.matchList [{ index := 0, distance := 0, coord := ⟨0, 0, 0⟩, matchTypes := t }] = .ok b := by
    rw [e1]
    unfold whateverMatch
    rw [if_neg (by simp [turn])]
    simp only [turn, matchPrefix, PEntry.matches?]
    rw [rd_of_getElem? hb, ok_bind, if_neg (by decide), hm, ok_bind]
    cases b
    · rfl
    · have he : (0 : ℝ) ≤ epsi := by unfold epsi; positivity
      simp only [samePoint, ptSame, sub_self, abs_zero, gt_iff_lt, not_lt.2 he, if_false]
      rfl
  have hmem : ∀ site, site ∈ p.sites ↔ site = 0 ∧ b = true := by
    intro site
    rw [C24_available h hp site]
    constructor
    · rintro ⟨h0, -, ml, h1, h2⟩
      obtain rfl : site = 0 := by omega
      rw [oneSite_seen hR h ht] at h1
      cases h1
      rw [hwm] at h2
      exact ⟨rfl, Except.ok.inj h2⟩
    · rintro ⟨rfl, hb⟩
      refine ⟨by decide, ?_, _, oneSite_seen hR h ht, by rw [hwm, hb]⟩
      rw [e4]
      show oneEnv.L.basisSite 0 ∈ [0]
      decide
  have hs : p.sites = if b then [0] else [] := by
    cases b with
    | false =>
      rw [if_neg (by decide)]
      apply List.eq_nil_iff_forall_not_mem.2
      intro x hx
      exact absurd ((hmem x).1 hx).2 (by decide)
    | true =>
      rw [if_pos rfl]
      have h0 : 0 ∈ p.sites := (hmem 0).2 ⟨rfl, rfl⟩
      match hl : p.sites, c1, h0 with
      | [x], _, h0 =>
        have : 0 = x := by simpa using h0
        rw [← this]
      | x :: y :: l, c1, h0 =>
        have hx := ((hmem x).1 (by rw [hl]; simp)).1
        have hy := ((hmem y).1 (by rw [hl]; simp)).1
        rw [hx, hy] at c1
        simp at c1
  have hw : p.weights = if b then [rate] else [] := by
    have hcu : p.custom = false := e3
    have hlen : p.weights.length = p.sites.length := by
      unfold Proc.weights
      rw [if_neg (by rw [hcu]; decide), List.length_map, c2]
    cases b with
    | false =>
      rw [hs] at hlen
      exact List.length_eq_zero_iff.1 hlen
    | true =>
      rw [hs] at hlen
      obtain ⟨w, hw⟩ := List.length_eq_one_iff.1 hlen
      have := (C15_rate_partial h hp hcu (site := 0) (w := w) (by rw [hs, hw]; simp)).1
      rw [hw, this, e2]
      rfl
  refine ⟨p, hp, hs, hw, ?_⟩
  rw [c4, hw]
  cases b <;> simp

/-- Rates and sites in a state with `A` on the site. -/
theorem oneSite_A {s : Sim ℝ} (h : GoodRun oneEnv 1 3 negLog oneSite turns s) (ht : s.ms.cfg.types = [[0, 1, 0]]) :
    s.ms.procs.map (·.sites) = [[0], [0], []] ∧ s.ms.procs.map (·.weights) = [[2], [1], []] ∧
      s.ms.procs.map (·.totalRate) = [2, 1, 0] := by
  obtain ⟨p0, a0, a1, a2, a3⟩ := turn_listed turns_range h ht (j := 0) rfl rfl (b := true) rfl
  obtain ⟨p1, b0, b1, b2, b3⟩ := turn_listed turns_range h ht (j := 1) rfl rfl (b := true) rfl
  obtain ⟨p2, c0, c1, c2, c3⟩ := turn_listed turns_range h ht (j := 2) rfl rfl (b := false) rfl
  have hlen : s.ms.procs.length = 3 := (C24_same_processes h).1
  have hl : s.ms.procs = [p0, p1, p2] := by
    apply List.ext_getElem?
    intro i
    match i with
    | 0 => exact a0
    | 1 => exact b0
    | 2 => exact c0
    | i + 3 => rw [List.getElem?_eq_none (by omega)]; rfl
  rw [hl]
  simp [a1, a2, a3, b1, b2, b3, c1, c2, c3]

/-! ### There and back -/

/-- The site turns from `A` to `B` with rate 2 and back with rate 3. -/
def toAndFro : List (Proc ℝ) := [turn 0 2 [0, 1, 0] [0, -1, 1], turn 1 3 [0, 0, 1] [0, 1, -1]]

theorem toAndFro_wellFormed : WellFormed oneEnv 1 3 oneSite toAndFro where
  ranks := by decide
  typed := by decide
  lattice := by decide
  sites := by decide
  config := oneSite_good
  processes := by
    intro p hp
    simp only [toAndFro, List.mem_cons, List.not_mem_nil, or_false] at hp
    rcases hp with rfl | rfl <;> exact turn_wellFormed _ _ rfl rfl rfl rfl (by decide) (by decide)

theorem toAndFro_positive : PositiveRates oneEnv toAndFro where
  constant := by
    intro p hp
    simp only [toAndFro, List.mem_cons, List.not_mem_nil, or_false] at hp
    rcases hp with rfl | rfl <;> norm_num [turn]
  custom := by intro h; cases h

theorem toAndFro_balanced : ∀ p ∈ toAndFro, p.Balanced := by
  intro p hp
  simp only [toAndFro, List.mem_cons, List.not_mem_nil, or_false] at hp
  rcases hp with rfl | rfl <;> simp [turn, Proc.Balanced]

theorem toAndFro_range : maxRange toAndFro = 1 := by simp [maxRange, toAndFro, turn]

/-- The same with all rates doubled, the way back first, and the way there given as two processes. -/
def froAndTo : List (Proc ℝ) :=
  [turn 0 6 [0, 0, 1] [0, 1, -1], turn 1 1 [0, 1, 0] [0, -1, 1], turn 2 3 [0, 1, 0] [0, -1, 1]]

theorem froAndTo_wellFormed : WellFormed oneEnv 1 3 oneSite froAndTo where
  ranks := by decide
  typed := by decide
  lattice := by decide
  sites := by decide
  config := oneSite_good
  processes := by
    intro p hp
    simp only [froAndTo, List.mem_cons, List.not_mem_nil, or_false] at hp
    rcases hp with rfl | rfl | rfl <;> exact turn_wellFormed _ _ rfl rfl rfl rfl (by decide) (by decide)

theorem froAndTo_positive : PositiveRates oneEnv froAndTo where
  constant := by
    intro p hp
    simp only [froAndTo, List.mem_cons, List.not_mem_nil, or_false] at hp
    rcases hp with rfl | rfl | rfl <;> norm_num [turn]
  custom := by intro h; cases h

theorem froAndTo_balanced : ∀ p ∈ froAndTo, p.Balanced := by
  intro p hp
  simp only [froAndTo, List.mem_cons, List.not_mem_nil, or_false] at hp
  rcases hp with rfl | rfl | rfl <;> simp [turn, Proc.Balanced]

theorem froAndTo_range : maxRange froAndTo = 1 := by simp [maxRange, froAndTo, turn]

end
end KMC.Sample
