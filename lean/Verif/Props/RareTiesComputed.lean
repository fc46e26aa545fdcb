import Verif.Props.NearTiesComputed
import Verif.Props.RareTies

/-!
# C70: how often the computed run differs from the exact one
-/

set_option linter.unusedSectionVars false

namespace KMC

open LatticeModel Interactions

variable {fl : ℚ → ℚ} {len : Coord ℚ → ℚ} {R : Coord (ℚ → ℚ)} {P Q : Ingredients ℚ → Coord (ℚ → ℚ)} {env : Env ℚ} {u B ε μ : ℚ}
variable {coords : List (Coord ℚ)} {els : List (List String)} {pt : List (String × Nat)} {gs : List (Ingredients ℚ)} {n nT : Nat}
variable {cfg : Config ℚ} {procs : List (Proc ℚ)} {negLog : ℚ → Option ℚ}

/-- Both runs end properly in the same situation, or neither does. -/
structure SameEnd (x y : M (Sim ℚ)) : Prop where
  there : ∀ s, x = .ok s → ∃ t, y = .ok t ∧ SameSituation s t
  back : ∀ t, y = .ok t → ∃ s, x = .ok s ∧ SameSituation s t

theorem sameSituation_of_outcome {s t : Sim ℚ} (hc : s.ms.cfg = t.ms.cfg) (hp : s.ms.procs.map (fun p => { p with totalRate := 0, rateTable := [] }) =
    t.ms.procs.map (fun p => { p with totalRate := 0, rateTable := [] })) : SameSituation s t := by
  refine ⟨by rw [hc], by rw [hc], by rw [hc], by rw [hc], by rw [hc], by rw [hc], ?_, ?_⟩
  · have := congrArg (fun l : List (Proc ℚ) => l.map (·.sites)) hp
    simp only [List.map_map] at this
    exact this
  · have := congrArg (fun l : List (Proc ℚ) => l.map (·.number)) hp
    simp only [List.map_map] at this
    exact this

open Classical in
/-- **C70** (partial: as in `C70_followed_partial`) The random numbers for the selection are `N` equally likely fractions (C57). Of all
choices of them for a run of `T` events, the share for which the program, with every operation rounded, coordinates included, does not do
the same as the model in exact arithmetic is at most the sum of `tieChance` over the events. -/
theorem C70_rare_partial (hroom : RoomForErrors fl len R P Q env coords els gs u B ε μ)
    (hin : ExactInput env coords els pt gs n nT cfg procs) (hfl : Rounding fl) (hc : ConstantRates env procs)
    (hl : ∃ u, 0 < u ∧ u < 1 ∧ negLog u ≠ none) {N : Nat} (hN : 0 < N) {r : ℚ} (hr0 : 0 < r) (hlow : ∀ p ∈ procs, r ≤ p.rate) {T : Nat}
    (times : Fin T → List ℚ) :
    (((Finset.univ : Finset (Fin T → Fin N × Fin N)).filter fun f =>
        ¬ SameEnd (runAsComputed fl len R P Q env negLog coords els pt gs (gridDraws N times f))
          (LatticeModel.init env cfg procs >>= LatticeModel.run env negLog (gridDraws N times f))).card : ℚ) ≤
      (N ^ 2) ^ T * ∑ i ∈ Finset.range T, tieChance n N (2 * n * (i + 1)) (procs.map (·.rate)) r := by
  refine le_trans ?_ (C55_rare_partial hfl hin.wellFormed hc hin.positive hl hN hr0 hlow times)
  refine Nat.cast_le.2 (Finset.card_le_card fun f hf => ?_)
  rw [Finset.mem_filter] at hf ⊢
  refine ⟨Finset.mem_univ _, fun h => hf.2 ?_⟩
  have key := C61_same_partial (els := els) (pt := pt) (negLog := negLog) hroom.within hroom.stored hroom.points hroom.moves hroom.lattice
    hroom.sites hroom.elements hroom.constant hroom.robustPoints hroom.robust hroom.length hroom.small hroom.margin (gridDraws N times f)
  unfold runWithExactPlaces at key
  rw [hin.config, ok_bind, hin.processes, ok_bind] at key
  constructor
  · intro s hs
    rw [hs] at key
    cases hx : Rounded.init fl env cfg procs >>= Rounded.run fl env negLog (gridDraws N times f) with
    | error e => rw [hx] at key; cases key
    | ok x =>
      rw [hx] at key
      obtain ⟨t, h1, h2, h3⟩ := h.there x hx
      exact ⟨t, h1, (sameSituation_of_bare (Except.ok.inj key)).trans (sameSituation_of_outcome h2 h3)⟩
  · intro t ht
    obtain ⟨x, h1, h2, h3⟩ := h.back t ht
    rw [h1] at key
    cases hs : runAsComputed fl len R P Q env negLog coords els pt gs (gridDraws N times f) with
    | error e => rw [hs] at key; cases key
    | ok s =>
      rw [hs] at key
      exact ⟨s, rfl, (sameSituation_of_bare (Except.ok.inj key)).trans (sameSituation_of_outcome h2 h3)⟩

open Classical in
/-- Non-vacuity: the ring of five cells with sites at 0.3, ten events, the default generator. -/
example : ∃ (g : Ingredients ℚ) (cfg : Config ℚ) (procs : List (Proc ℚ)), Sample.hopRight = .ok g ∧
    ExactInput Sample.fiveRing Sample.fiveSites Sample.fiveElements Sample.types [g] 5 4 cfg procs ∧
    (((Finset.univ : Finset (Fin 10 → Fin (2 ^ 32) × Fin (2 ^ 32))).filter fun f =>
        ¬ SameEnd (runAsComputed toDouble Sample.dist1 Sample.rnd (fun _ => Sample.rnd) (fun _ => Sample.rnd) Sample.fiveRing Sample.lg
            Sample.fiveSites Sample.fiveElements Sample.types [g] (gridDraws (2 ^ 32) (fun _ => [1 / 2]) f))
          (LatticeModel.init Sample.fiveRing cfg procs >>=
            LatticeModel.run Sample.fiveRing Sample.lg (gridDraws (2 ^ 32) (fun _ => [1 / 2]) f))).card : ℚ) ≤
      ((2 ^ 32) ^ 2) ^ 10 * (1 / 10000000) := by
  obtain ⟨cfg, procs, h1, h2, h3⟩ := Sample.goodCheck_ok (env := Sample.fiveRing) (P := Sample.chain 5 true [Sample.b03])
    (els := Sample.fiveElements) (procs := Sample.hopExact) (by decide +kernel)
  have hrate : Sample.hopExact.map (fun ps => ps.map fun p => (p.rate, p.custom)) = .ok [(2, false)] := by decide +kernel
  rw [h2] at hrate
  have hrate : procs.map (fun p => (p.rate, p.custom)) = [(2, false)] := Except.ok.inj hrate
  unfold Sample.hopExact at h2
  obtain ⟨g, hg, h2⟩ := bind_ok.1 h2
  obtain ⟨p, hp, h2⟩ := bind_ok.1 h2
  have h2 : [p] = procs := Except.ok.inj h2
  subst h2
  have hrate : p.rate = 2 ∧ p.custom = false := by simpa using hrate
  have hlen : (Sample.chain 5 true [Sample.b03]).sites.length = 5 := by decide +kernel
  rw [hlen] at h3
  have hin : ExactInput Sample.fiveRing Sample.fiveSites Sample.fiveElements Sample.types [g] 5 4 cfg [p] := by
    refine ⟨by rw [Sample.fiveSites_eq]; exact h1, ?_, h3, ?_⟩
    · rw [mapMM_cons, show mkProcess Sample.fiveRing.dist g.first g.second g.info g.rate g.basisSites g.moves g.number = .ok p from hp]
      rfl
    · exact ⟨fun q hq => by rw [List.mem_singleton.1 hq, hrate.1]; norm_num, fun h => by cases h⟩
  have hdouble : IsDouble (2 : ℚ) := by
    rw [show (2 : ℚ) = toDouble 2 by decide +kernel]
    exact toDouble_rounding.isDouble _
  refine ⟨g, cfg, [p], hg, hin, ?_⟩
  have key := C70_rare_partial (T := 10) (negLog := Sample.lg) (Sample.five_room hg) hin toDouble_rounding
    ⟨rfl, fun q hq => by rw [List.mem_singleton.1 hq]; exact hrate.2,
      fun q hq => by rw [List.mem_singleton.1 hq, hrate.1]; exact hdouble⟩
    ⟨1 / 2, by norm_num, by norm_num, by decide +kernel⟩ (N := 2 ^ 32) (by norm_num) (r := 2) (by norm_num)
    (fun q hq => by rw [List.mem_singleton.1 hq, hrate.1]) (fun _ => [1 / 2])
  refine key.trans ?_
  rw [List.map_singleton, hrate.1]
  have h4 : ∑ i ∈ Finset.range 10, tieChance 5 (2 ^ 32) (2 * 5 * (i + 1)) [2] 2 ≤ 1 / 10000000 := by decide +kernel
  have h5 := mul_le_mul_of_nonneg_left h4 (by positivity : (0 : ℚ) ≤ (((2 ^ 32 : Nat) : ℚ) ^ 2) ^ 10)
  refine h5.trans (le_of_eq ?_)
  push_cast
  ring

end KMC
