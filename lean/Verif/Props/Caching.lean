import Verif.Lemmas.Uncached
import Verif.Samples.Runs

/-!
# Storing rates changes nothing but the work (C33)
-/

namespace KMC

open LatticeModel

variable {K : Type} [Field K] [LinearOrder K] [IsStrictOrderedRing K]
variable {env : Env K} {n nT : Nat} {negLog : K → Option K} {cfg : Config K} {procs : List (Proc K)}

/-- What a user can see of a state: the configuration, the available sites with their rates and weights, the total
rates, the table for the selection and the time. -/
def Sim.visible (s : Sim K) :
    Config K × List (List Nat × List K × List K × K × List K) × List (K × Nat) × K :=
  (s.ms.cfg, s.ms.procs.map (fun p => (p.sites, p.siteRates, p.siteMult, p.totalRate, p.rateTable)), s.table, s.time)

theorem Sim.visible_of_uncached {s t : Sim K} (h : s.uncached = t.uncached) : s.visible = t.visible := by
  have hms : s.ms.uncached = t.ms.uncached := (congrArg Sim.ms h :)
  have htab : s.table = t.table := (congrArg Sim.table h :)
  have htime : s.time = t.time := (congrArg Sim.time h :)
  have key : ∀ ps : List (Proc K),
      (ps.map Proc.uncached).map (fun p => (p.sites, p.siteRates, p.siteMult, p.totalRate, p.rateTable)) =
        ps.map (fun p => (p.sites, p.siteRates, p.siteMult, p.totalRate, p.rateTable)) := by
    intro ps
    rw [List.map_map]
    rfl
  unfold Sim.visible
  rw [MState.uncached_cfg hms, htab, htime, ← key s.ms.procs, MState.uncached_procs hms, key]

/-- **C33** Whether the rates are stored makes no difference: with the same random numbers the model that stores rates
and the model that stores none go through the same states, and if one stops with an error so does the other with the
same error. As for `C33_cached_current_partial` the key must decide the answer (`CustomRatesOk.keys`), which
`C33_not_transparent` shows to be needed; hence `_partial`. -/
theorem C33_transparent_partial (h : WellFormed env n nT cfg procs)
    (hc : env.useCustomRates = true → CustomRatesOk env n nT cfg procs) (ds : List (Draws K)) :
    (init env cfg procs >>= run env negLog ds).map Sim.visible =
      (init env cfg (procs.map fun p => { p with cacheRate := false }) >>= run env negLog ds).map Sim.visible := by
  have hpq : procs.map Proc.uncached = (procs.map Proc.uncached).map Proc.uncached := by
    rw [List.map_map]
    rfl
  have h' := wellFormed_uncached h
  have hc' : env.useCustomRates = true → CustomRatesOk env n nT cfg (procs.map Proc.uncached) :=
    fun hcu => customRatesOk_uncached (hc hcu).toCustomGeometry
  show _ = (init env cfg (procs.map Proc.uncached) >>= run env negLog ds).map Sim.visible
  have hi := init_uncached h h' hc hc' hpq
  have hu : (init env cfg procs >>= run env negLog ds).map Sim.uncached =
      (init env cfg (procs.map Proc.uncached) >>= run env negLog ds).map Sim.uncached := by
    cases h1 : init env cfg procs with
    | error e =>
      rw [h1] at hi
      cases h2 : init env cfg (procs.map Proc.uncached) with
      | error e' => rw [h2] at hi; cases hi; rfl
      | ok t => rw [h2] at hi; cases hi
    | ok s =>
      obtain ⟨t, h2, hst⟩ := map_ok_of hi h1
      rw [h2, ok_bind, ok_bind]
      obtain ⟨cfg1, procs1, hp, hok, hat, -⟩ := GoodRun.inv (negLog := negLog) ⟨h, hc, s, [], h1, rfl⟩
      obtain ⟨cfg2, procs2, hp', hok', hat', -⟩ := GoodRun.inv (negLog := negLog) ⟨h', hc', t, [], h2, rfl⟩
      have hm := maxRange_uncached procs
      obtain ⟨q, hq, -⟩ := prepared_uncached hpq hp
      have hcfg : cfg2 = cfg1 := by
        have := hp'.1
        rw [hq.1] at this
        exact (Except.ok.inj this).symm
      subst hcfg
      exact run_uncached hok hok' rfl rfl hm ds hat hat' hst
  have hv : ∀ x y : M (Sim K), x.map Sim.uncached = y.map Sim.uncached → x.map Sim.visible = y.map Sim.visible := by
    intro x y hxy
    cases x with
    | error e =>
      cases y with
      | error e' => cases hxy; rfl
      | ok t => cases hxy
    | ok s =>
      cases y with
      | error e' => cases hxy
      | ok t => exact congrArg Except.ok (Sim.visible_of_uncached (Except.ok.inj hxy))
  exact hv _ _ hu

/-- Non-vacuity: the run with stored rates of `Sample.customRing_run`, and the one with none, which has the same rates. -/
example : ∃ (cfg : Config ℚ) (procs : List (Proc ℚ)) (ds : List (Draws ℚ)) (s t : Sim ℚ),
    (∀ p ∈ procs, p.cacheRate = true ∧ p.custom = true) ∧
    (init (Sample.byNumber Sample.ring) cfg procs >>= run (Sample.byNumber Sample.ring) Sample.lg ds) = .ok s ∧
    (init (Sample.byNumber Sample.ring) cfg (procs.map fun p => { p with cacheRate := false }) >>=
      run (Sample.byNumber Sample.ring) Sample.lg ds) = .ok t ∧ t.visible = s.visible ∧
    s.ms.procs.map (·.siteRates) = [[3], [2]] := by
  obtain ⟨cfg, procs, s, -, -, h, -, h1, -, -, -, h4⟩ := Sample.customRing_run true
  obtain ⟨s0, ds, h2, h3⟩ := h.reached
  have hs : (init (Sample.byNumber Sample.ring) cfg procs >>= run (Sample.byNumber Sample.ring) Sample.lg ds) = .ok s := by
    rw [h2, ok_bind, h3]
  obtain ⟨t, ht, he⟩ := map_ok_of (C33_transparent_partial (negLog := Sample.lg) h.input h.custom ds) hs
  exact ⟨cfg, procs, ds, s, t, h1, hs, ht, he.symm, h4⟩

/-- **C33** Negation: without the condition on the keys storing rates can change the run. On the chain of
`C33_key_blind` the two models go through the same first event, after which the one that stores rates has a total rate
of 5 and the other of 7. -/
theorem C33_not_transparent :
    ∃ cfg procs, WellFormed (Sample.byGeometry Sample.pairs) 6 4 cfg procs ∧
      CustomGeometry (Sample.byGeometry Sample.pairs) cfg procs ∧
      ∃ (d : Draws ℚ) (s t : Sim ℚ),
        (init (Sample.byGeometry Sample.pairs) cfg procs >>= run (Sample.byGeometry Sample.pairs) Sample.lg [d]) =
          .ok s ∧
        (init (Sample.byGeometry Sample.pairs) cfg (procs.map fun p => { p with cacheRate := false }) >>=
          run (Sample.byGeometry Sample.pairs) Sample.lg [d]) = .ok t ∧
        s.ms.cfg = t.ms.cfg ∧ s.ms.procs.map (·.totalRate) = [5] ∧ t.ms.procs.map (·.totalRate) = [7] := by
  obtain ⟨cfg, procs, h1, h2, h3⟩ := Sample.goodCheck_ok (env := Sample.byGeometry Sample.pairs) (P := Sample.pairs)
    (els := Sample.allA) (procs := Sample.flips true) (by decide +kernel)
  have hn : Sample.pairs.sites.length = 6 := by decide +kernel
  rw [hn] at h3
  refine ⟨cfg, procs, h3, Sample.geometryCheck_ok (P := Sample.pairs) (els := Sample.allA) (procs := Sample.flips true)
    (by decide +kernel) h1 h2, Sample.half, ?_⟩
  have hrun : (Sample.config Sample.pairs Sample.allA >>= fun c => Sample.flips true >>= fun ps =>
      (init (Sample.byGeometry Sample.pairs) c ps >>= run (Sample.byGeometry Sample.pairs) Sample.lg [Sample.half])
        >>= fun s =>
      (init (Sample.byGeometry Sample.pairs) c (ps.map fun p => { p with cacheRate := false }) >>=
        run (Sample.byGeometry Sample.pairs) Sample.lg [Sample.half]) >>= fun t =>
      (.ok (decide (s.ms.cfg = t.ms.cfg), s.ms.procs.map (·.totalRate), t.ms.procs.map (·.totalRate)) :
        M (Bool × List ℚ × List ℚ))) = .ok (true, [5], [7]) := by
    decide +kernel
  rw [h1, ok_bind, h2, ok_bind, bind_ok] at hrun
  obtain ⟨s, hs, hrun⟩ := hrun
  rw [bind_ok] at hrun
  obtain ⟨t, ht, hrun⟩ := hrun
  have hrun := Except.ok.inj hrun
  simp only [Prod.mk.injEq, decide_eq_true_eq] at hrun
  exact ⟨s, t, hs, ht, hrun⟩

end KMC
