import Verif.Props.Computed
import Verif.Props.NearTies

/-!
# C70: the model as computed, except near ties

`C70_same_events_partial` needs rates that are multiples of a power of two. For other constant rates the computed run and the exact one
still do the same, as long as no random number is close to a border between two processes or two sites.
-/

set_option linter.unusedSectionVars false

namespace KMC

open LatticeModel Interactions

variable {fl : ℚ → ℚ} {len : Coord ℚ → ℚ} {R : Coord (ℚ → ℚ)} {P Q : Ingredients ℚ → Coord (ℚ → ℚ)} {env : Env ℚ} {u B ε μ : ℚ}
variable {coords : List (Coord ℚ)} {els : List (List String)} {pt : List (String × Nat)} {gs : List (Ingredients ℚ)} {n nT : Nat}
variable {cfg : Config ℚ} {procs : List (Proc ℚ)} {negLog : ℚ → Option ℚ} {s t0 : Sim ℚ} {ds : List (Draws ℚ)}

/-- **C70** (partial: as in `C70_followed_partial`, and no random number of the run is close to a border in the exact run, as in
`C55_near_ties_partial`) With every operation rounded, coordinates included, the same events take place as in exact arithmetic with the
same random numbers, and the time has a relative error of little more than `η` and one rounding error per event. -/
theorem C70_near_ties_partial (hroom : RoomForErrors fl len R P Q env coords els gs u B ε μ)
    (hin : ExactInput env coords els pt gs n nT cfg procs) (hfl : Rounding fl) (hc : ConstantRates env procs)
    (hl : ∃ u, 0 < u ∧ u < 1 ∧ negLog u ≠ none) {η : ℚ} (hη0 : 0 ≤ η) (hη : η ≤ 1)
    (hlog : ∀ d ∈ ds, ∀ u ∈ d.time, ∀ l, negLog u = some l → 0 ≤ l)
    (h : runAsComputed fl len R P Q env negLog coords els pt gs ds = .ok s) (ht0 : LatticeModel.init env cfg procs = .ok t0)
    (ha : ∀ ds1 d ds2 t, ds = ds1 ++ d :: ds2 → LatticeModel.run env negLog ds1 t0 = .ok t →
      Away n (2 * n * (ds1.length + 1)) t d ∧ Steady η n (2 * n * (ds1.length + 1)) t) :
    ∃ t, LatticeModel.run env negLog ds t0 = .ok t ∧ SameSituation s t ∧
      |s.time - t.time| ≤ t.time * ((1 + η) * (1 + 1 / 2 ^ 53) ^ (ds.length + 1) - 1) := by
  obtain ⟨r0, r, h0, h1, hbare⟩ := exactPlaces hroom hin hl h
  have hoff : env.useCustomRates = true → CustomRatesOk env n nT cfg procs := fun h => (by rw [hc.off] at h; cases h)
  have hs : RoundedRun fl env n nT negLog cfg procs r0 := ⟨hin.wellFormed, hoff, r0, [], h0, rfl⟩
  have ht : GoodRun env n nT negLog cfg procs t0 := ⟨hin.wellFormed, hoff, t0, [], ht0, rfl⟩
  obtain ⟨hst, z1, z2⟩ := init_faded h0 ht0
  obtain ⟨t, h2, h3, h4⟩ := run_same_time hfl hc hin.positive hl hη0 hη ds (c := 0) hlog hs ht hst
    (init_drift hfl hin.wellFormed hc hin.positive hl h0)
    (fun ds1 d ds2 t' e hrun => by
      have := ha ds1 d ds2 t' e hrun
      rw [show 2 * n * (ds1.length + 1) = 2 * n + ds1.length * (2 * n) by ring] at this
      exact this) z2.ge (by rw [z1, z2]; simp) h1
  rw [Nat.zero_add] at h4
  have e : s.bare.time = r.bare.time := by rw [hbare]
  have e : s.time = r.time := e
  refine ⟨t, h2, (sameSituation_of_bare hbare).trans (sameSituation_of_faded h3), ?_⟩
  rw [e]
  exact h4

/-- Non-vacuity: the ring of five cells with sites at 0.3, two events. -/
example : ∃ (g : Ingredients ℚ) (cfg : Config ℚ) (procs : List (Proc ℚ)) (s t : Sim ℚ), Sample.hopRight = .ok g ∧
    runAsComputed toDouble Sample.dist1 Sample.rnd (fun _ => Sample.rnd) (fun _ => Sample.rnd) Sample.fiveRing Sample.lg
      Sample.fiveSites Sample.fiveElements Sample.types [g] [Sample.quarter, Sample.quarter] = .ok s ∧
    (LatticeModel.init Sample.fiveRing cfg procs >>= LatticeModel.run Sample.fiveRing Sample.lg [Sample.quarter, Sample.quarter]) = .ok t ∧
    s.ms.procs.map (·.sites) = [[2]] ∧ SameSituation s t ∧
    |s.time - t.time| ≤ t.time * ((1 + 1 / 2 ^ 40) * (1 + 1 / 2 ^ 53) ^ 3 - 1) := by
  obtain ⟨cfg, procs, h1, h2, h3⟩ := Sample.goodCheck_ok (env := Sample.fiveRing) (P := Sample.chain 5 true [Sample.b03])
    (els := Sample.fiveElements) (procs := Sample.hopExact) (by decide +kernel)
  have hr : (do
      let g ← Sample.hopRight
      let s ← runAsComputed toDouble Sample.dist1 Sample.rnd (fun _ => Sample.rnd) (fun _ => Sample.rnd) Sample.fiveRing Sample.lg
        Sample.fiveSites Sample.fiveElements Sample.types [g] [Sample.quarter, Sample.quarter]
      return s.ms.procs.map (·.sites) : M (List (List Nat))) = .ok [[2]] := by decide +kernel
  have hgo : ∀ {ds : List (Draws ℚ)} {s : Sim ℚ}, Sample.go Sample.fiveRing (Sample.chain 5 true [Sample.b03]) Sample.fiveElements
      Sample.hopExact ds = .ok s →
      ∃ t0, LatticeModel.init Sample.fiveRing cfg procs = .ok t0 ∧ LatticeModel.run Sample.fiveRing Sample.lg ds t0 = .ok s := by
    intro ds s h
    unfold Sample.go at h
    rw [h1, ok_bind, h2, ok_bind] at h
    exact bind_ok.1 h
  obtain ⟨t, ht, ft⟩ := Sample.exists_of_map (x := Sample.go Sample.fiveRing (Sample.chain 5 true [Sample.b03]) Sample.fiveElements
    Sample.hopExact []) (f := fun t => (Sample.awayCheck 5 10 t Sample.quarter, Sample.steadyCheck (1 / 2 ^ 40) 5 10 t))
    (b := (true, true)) (by decide +kernel)
  obtain ⟨t1, ht1, ft1⟩ := Sample.exists_of_map (x := Sample.go Sample.fiveRing (Sample.chain 5 true [Sample.b03]) Sample.fiveElements
    Sample.hopExact [Sample.quarter]) (f := fun t => (Sample.awayCheck 5 20 t Sample.quarter, Sample.steadyCheck (1 / 2 ^ 40) 5 20 t))
    (b := (true, true)) (by decide +kernel)
  have hrate : Sample.hopExact.map (fun ps => ps.map fun p => (p.rate, p.custom)) = .ok [(2, false)] := by decide +kernel
  rw [h2] at hrate
  have hrate : procs.map (fun p => (p.rate, p.custom)) = [(2, false)] := Except.ok.inj hrate
  unfold Sample.hopExact at h2
  obtain ⟨g, hg, h2⟩ := bind_ok.1 h2
  obtain ⟨p, hp, h2⟩ := bind_ok.1 h2
  have h2 : [p] = procs := Except.ok.inj h2
  subst h2
  have hrate : p.rate = 2 ∧ p.custom = false := by simpa using hrate
  rw [hg, ok_bind] at hr
  obtain ⟨s, hs, e0⟩ := bind_ok.1 hr
  have hlen : (Sample.chain 5 true [Sample.b03]).sites.length = 5 := by decide +kernel
  rw [hlen] at h3
  have hin : ExactInput Sample.fiveRing Sample.fiveSites Sample.fiveElements Sample.types [g] 5 4 cfg [p] := by
    refine ⟨by rw [Sample.fiveSites_eq]; exact h1, ?_, h3, ?_⟩
    · rw [mapMM_cons, show mkProcess Sample.fiveRing.dist g.first g.second g.info g.rate g.basisSites g.moves g.number = .ok p from hp]
      rfl
    · exact ⟨fun q hq => by rw [List.mem_singleton.1 hq, hrate.1]; norm_num, fun h => by cases h⟩
  obtain ⟨t0, a1, a2⟩ := hgo ht
  obtain rfl := Except.ok.inj a2
  obtain ⟨t0', b1, b2⟩ := hgo ht1
  rw [a1] at b1
  obtain rfl := Except.ok.inj b1
  simp only [Prod.mk.injEq] at ft ft1
  have hdouble : IsDouble (2 : ℚ) := by
    rw [show (2 : ℚ) = toDouble 2 by decide +kernel]
    exact toDouble_rounding.isDouble _
  obtain ⟨t, k1, k2, k3⟩ := C70_near_ties_partial (negLog := Sample.lg) (η := 1 / 2 ^ 40) (Sample.five_room hg) hin toDouble_rounding
    ⟨rfl, fun q hq => by rw [List.mem_singleton.1 hq]; exact hrate.2,
      fun q hq => by rw [List.mem_singleton.1 hq, hrate.1]; exact hdouble⟩
    ⟨1 / 2, by norm_num, by norm_num, by decide +kernel⟩ (by norm_num) (by norm_num)
    (fun d hd u hu l hlg => by
      have hd : d = Sample.quarter := by simpa using hd
      subst hd
      have hu : u = 1 / 2 := by simpa [Sample.quarter] using hu
      subst hu
      have hlg : some (1 / 2 : ℚ) = some l := by rw [← hlg]; decide +kernel
      obtain rfl := Option.some.inj hlg
      norm_num)
    hs a1
    (fun ds1 d ds2 t e hrun => by
      rcases ds1 with _ | ⟨x, _ | ⟨y, ds1⟩⟩
      · obtain ⟨rfl, -⟩ := List.cons.inj e
        obtain rfl := Except.ok.inj hrun
        exact ⟨Sample.awayCheck_ok ft.1, Sample.steadyCheck_ok ft.2⟩
      · obtain ⟨rfl, e2⟩ := List.cons.inj e
        have e3 : [Sample.quarter] = d :: ds2 := e2
        obtain ⟨rfl, -⟩ := List.cons.inj e3
        rw [b2] at hrun
        obtain rfl := Except.ok.inj hrun
        exact ⟨Sample.awayCheck_ok ft1.1, Sample.steadyCheck_ok ft1.2⟩
      · have := congrArg List.length e
        simp at this)
  exact ⟨g, cfg, [p], s, t, hg, hs, by rw [a1, ok_bind, k1], Except.ok.inj e0, k2, k3⟩

end KMC
