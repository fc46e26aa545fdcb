import Verif.Props.EndToEnd

/-!
# Property C52 for models with bucket processes
-/

set_option linter.unusedSectionVars false

namespace KMC

variable {K : Type _} [Field K] [LinearOrder K] [IsStrictOrderedRing K] [FloorRing K]
variable {env : Env K} {negLog : K → Option K} {cfg : Config K}

open LatticeModel PyRun

theorem Apart.ne {c d : Coord K} (h : Apart c d) (z : Coord K) : c - z ≠ d - z := by
  rintro heq
  have hcd : c = d := by
    have hx := congrArg Coord.x heq
    have hy := congrArg Coord.y heq
    have hz := congrArg Coord.z heq
    ext
    · exact sub_left_injective hx
    · exact sub_left_injective hy
    · exact sub_left_injective hz
  subst hcd
  unfold Apart at h
  simp only [sub_self, abs_zero] at h
  have : ¬ (1 : K) / 50000 < 0 := not_lt.2 (by positivity)
  tauto

/-- The parts of the back end process of an accepted bucket process. -/
theorem PyProcess.bucket_parts {pt : List (String × Nat)} {p : PyBucket K} (h : FrontAny pt (.bucket p))
    {rc : Option (Calculator K)} {dist : Coord K → K} {nBasis number : Nat} {q : Proc K}
    (hq : (PyProcess.bucket p).backend rc dist pt nBasis number = .ok q) :
    (∃ es, q.matchList = sortP es ∧ (es.map (·.coord)).Nodup ∧ ∀ e ∈ es, e.distance = dist e.coord) ∧
    q.idMoves = [] ∧ ∀ b ∈ q.basisSites, b < nBasis := by
  obtain ⟨coords, minimum, update, basis, rate, mins, ups, h, hs⟩ := h
  obtain ⟨m, again, els, n1, n2, n3, n4, -⟩ := PyBucket.minimum_ok hs.lists
  cases coords with
  | nil => exact absurd h (by unfold PyBucket.make; intro h; cases h)
  | cons c0 rest =>
  set coords := c0 :: rest with hcoords
  unfold PyBucket.make at h
  have hcen : PyProc.centre coords = .ok (coords.map (fun x => x - c0)) := rfl
  rw [hcen, ok_bind] at h
  split at h
  · cases h
  split at h
  · cases h
  rw [n1, ok_bind] at h
  split at h
  · cases h
  rename_i hl
  rw [n2, ok_bind] at h
  obtain rfl := (Except.ok.inj h).symm
  have hlm : m.length = coords.length := by simpa using hl
  have hle : els.length = coords.length := by
    rw [← hlm, mapMM_length n1, hs.lists.length_eq, n4.length_eq]
  have hq : (PyProc.centre (coords.map (fun x => x - c0)) >>= _) = _ := hq
  have hsub : ∀ x : Coord K, x - (c0 - c0) = x := by
    intro x
    ext
    · show x.x - (c0.x - c0.x) = x.x
      ring
    · show x.y - (c0.y - c0.y) = x.y
      ring
    · show x.z - (c0.z - c0.z) = x.z
      ring
  have hcen2 : PyProc.centre (coords.map (fun x => x - c0)) = .ok (coords.map (fun x => x - c0)) := by
    show Except.ok ((coords.map (fun x => x - c0)).map (fun x => x - (c0 - c0))) = _
    congr 1
    conv_rhs => rw [← List.map_id (coords.map (fun x => x - c0))]
    exact List.map_congr_left fun x _ => hsub x
  rw [hcen2, ok_bind] at hq
  obtain ⟨els', e1, hq⟩ := bind_ok.1 hq
  have e1 : BucketInput.expand again = .ok els' := e1
  rw [n3] at e1
  obtain rfl := Except.ok.inj e1
  obtain ⟨first, e2, hq⟩ := bind_ok.1 hq
  obtain ⟨info, e3, hq⟩ := bind_ok.1 hq
  have hfirst : first.coords = coords.map (fun x => x - c0) ∧ first.elements = els := by
    unfold Config.mk' at e2
    obtain ⟨_, _, e2⟩ := bind_ok.1 e2
    obtain ⟨_, _, e2⟩ := bind_ok.1 e2
    obtain ⟨_, _, e2⟩ := bind_ok.1 e2
    obtain ⟨_, _, e2⟩ := bind_ok.1 e2
    rw [← Except.ok.inj e2]
    exact ⟨rfl, rfl⟩
  obtain ⟨q0, q1, q2, q3, q4⟩ := Calculator.process_parts hq
  obtain ⟨es, origin, m1, m2, m3, m4, m5⟩ := mkProcess_entries q1 (by rw [hfirst.1, hfirst.2, hle, List.length_map])
  rw [hfirst.1] at m1 m3
  have m1 : c0 - c0 = origin := Option.some.inj m1
  subst m1
  refine ⟨⟨es, q2.trans m2, ?_, fun e he => by rw [m4 e he, hsub]⟩, q3.trans (m5 rfl), ?_⟩
  · rw [m3]
    exact List.pairwise_map.2 (hs.apart.imp fun {a b} hab => hab.ne c0)
  · intro b hb
    rw [q4, List.mem_filter] at hb
    simpa using hb.2

/-- **C52** From the input of the user to the end of the run, for processes of both kinds and any configuration: all
rates are positive and there are few enough particles for the processes. With implicit wildcards, the coordinates of
ordinary processes that move ids and have a single basis site are those of sites around the middle of the lattice. Then
the model is constructed, and every run of it does all steps asked for or ends in a state without available sites,
whatever the random numbers, when the plug-ins do not interfere and intervals are not zero.

Missing: rate calculators need what is asked in `CustomRatesOk`, and bucket processes what is asked in `BucketSound`,
which the front end does not check. Hence `_partial`. -/
theorem C52_mixed_partial (P : PyLattice K) (els : List (List String)) (pt : List (String × Nat)) (hP : P.map.WF)
    (hnum : Numbering pt) (h0 : ("*", 0) ∈ pt) (hocc : Occupation pt P.sites.length els)
    (ps : List (PyProcess K)) (hps : ∀ p ∈ ps, FrontAny pt p) (hrate : ∀ p ∈ ps, 0 < p.rate)
    (rc : Option (Calculator K)) (hranks : 0 < env.nRanks) (hL : env.L = P.map) (qs : List (Proc K))
    (hcfg : Config.mk' P.sites els pt = .ok cfg)
    (hqs : PyProcess.interactions rc env.dist pt P.basis.length ps = .ok qs)
    {M : Nat} (hb : Bounded M cfg qs) (hf : FewEnough M qs)
    (hcu : env.useCustomRates = true → CustomRatesOk env P.sites.length pt.length cfg qs ∧ ∀ a, 0 < env.callback a)
    (hplace : env.implicitWildcards = true → ∀ (i b : Nat) (p : PyProc K) (q : Proc K), ps[i]? = some (.plain p) →
      qs[i]? = some q → p.moves ≠ [] → q.basisSites = [b] → Placed env.dist P (Interactions.maxRange qs) b p.coords) :
    ∃ s0, LatticeModel.init env cfg qs = .ok s0 ∧
      ∀ (o : Outside (Sim K × List (Draws K)) K) (c : PyControl K) (ds : List (Draws K)), Calm o → c.analyse ≠ 0 →
        (c.dumpTime = none → ∃ d, c.dump = some d ∧ d ≠ 0) → c.steps ≤ ds.length →
        (∀ d ∈ ds, Draws.Inside d ∧ d.Finite negLog) →
        (∃ s', run env negLog (ds.take c.steps) s0 = .ok s' ∧
          (main (ofModel env negLog) o c (s0, ds) []).1 = .ok (s', ds.drop c.steps)) ∨
        (∃ m s', m ≤ c.steps ∧ run env negLog (ds.take m) s0 = .ok s' ∧
          Interactions.totalAvailableSites s'.ms.procs = 0 ∧
          (main (ofModel env negLog) o c (s0, ds) []).1 = .error .exception) := by
  have hne : ps ≠ [] := by
    intro hnil
    rw [hnil] at hqs
    cases hqs
  obtain ⟨cfg', qs', e1, e2, hwf, hlen, hall⟩ := C51_processes P els pt hP hnum h0 hocc ps hne hps rc env hranks hL
  rw [hcfg] at e1
  obtain rfl := Except.ok.inj e1
  rw [hqs] at e2
  obtain rfl := Except.ok.inj e2
  have hsrc : ∀ q ∈ qs, ∃ (i : Nat) (p : PyProcess K), ps[i]? = some p ∧ qs[i]? = some q ∧ q.rate = p.rate ∧
      p.backend rc env.dist pt P.basis.length i = .ok q := by
    intro q hq
    obtain ⟨i, hi⟩ := List.mem_iff_getElem?.1 hq
    have hil : i < ps.length := by
      have := (List.getElem?_eq_some_iff.1 hi).1
      omega
    have hpi := List.getElem?_eq_getElem hil
    refine ⟨i, ps[i], hpi, hi, (hall i _ q hpi hi).2.1, ?_⟩
    unfold PyProcess.interactions at hqs
    rw [if_neg (by simpa using hne)] at hqs
    obtain ⟨ok, -, hqs⟩ := bind_ok.1 hqs
    split at hqs
    · cases hqs
    obtain ⟨x, hx, hxq⟩ := mapMM_getElem?' hqs hi
    rw [List.getElem?_zipIdx, hpi] at hx
    simp only [Option.map_some, Nat.zero_add, Option.some.injEq] at hx
    subst hx
    exact hxq
  have hcoords : cfg.coords = P.sites := by
    obtain ⟨cfg', m1, -, m3, -⟩ := Config.mk'_ok hnum (coords := P.sites) rfl hocc
    rw [hcfg] at m1
    obtain rfl := Except.ok.inj m1
    exact m3
  obtain ⟨cfg1, procs1, hprep⟩ := prepared_of_sites hwf P hL hcoords (by
    intro himp q hq
    obtain ⟨i, p, h1, h2, -, h4⟩ := hsrc q hq
    have hp := hps p (List.mem_of_getElem? h1)
    cases p with
    | plain p =>
      obtain ⟨coords, before, after, moves, basis, rate, a1, a2, a3, a4⟩ := hp
      obtain ⟨⟨es, b1, b2, b3⟩, b4, -, b6, b7⟩ := PyProcess.plain_parts a1 hnum a2 a3 h4
      refine ⟨fun b hb => b7 b (by rw [hb]; simp), ⟨es, b1, by rw [b2]; exact b4, b3⟩, ?_⟩
      intro b hb hid
      have hpl := hplace himp i b p q h1 h2 (fun hm => hid (b6 hm)) hb
      refine ⟨?_, hpl.clear, hpl.distances⟩
      intro c hc
      apply hpl.there
      rw [← b2]
      rw [b1] at hc
      exact ((perm_sortP es).map (fun e => e.coord)).mem_iff.1 hc
    | bucket p =>
      obtain ⟨b1, b2, b3⟩ := PyProcess.bucket_parts hp h4
      exact ⟨fun b hb => b3 b (by rw [hb]; simp), b1, fun b hb hid => absurd b2 hid⟩)
  obtain ⟨s0, hs0⟩ := C26_init_bounded hwf (fun hu => (hcu hu).1) hb hf hprep
  refine ⟨s0, hs0, ?_⟩
  intro o c ds ho hca hcd hn hd
  refine C52_run_bounded (n := P.sites.length) (nT := pt.length) (cfg := cfg) (procs := qs)
    ⟨hwf, fun hu => (hcu hu).1, s0, [], hs0, rfl⟩ ⟨?_, fun hu => (hcu hu).2⟩ hb hf o ho c hca hcd ds hn hd
  intro q hq
  obtain ⟨i, p, h1, -, h3, -⟩ := hsrc q hq
  rw [h3]
  exact hrate p (List.mem_of_getElem? h1)

/-- On a ring of four sites with seven A, with the process that takes an A from a site with at least two to the next one,
three steps end properly or in a state without available sites. -/
example : ∃ p : PyBucket ℚ,
    PyBucket.make (K := ℚ) [⟨0, 0, 0⟩, ⟨1, 0, 0⟩] Sample.shift.1 Sample.shift.2 [0] 3 = .ok p ∧
    ∃ cfg qs s0, Config.mk' (Sample.chain 4 true).sites [["A", "A", "A"], ["A"], ["A", "A"], ["A"]] [("*", 0), ("A", 1)] = .ok cfg ∧
      PyProcess.interactions none Sample.dist1 [("*", 0), ("A", 1)] 1 [.bucket p] = .ok qs ∧
      LatticeModel.init (Sample.env (Sample.chain 4 true)) cfg qs = .ok s0 ∧
      ((∃ s', run (Sample.env (Sample.chain 4 true)) Sample.lg [Sample.half, Sample.half, Sample.half] s0 = .ok s' ∧
        (main (ofModel (Sample.env (Sample.chain 4 true)) Sample.lg) ⟨true, 1, [1], fun _ => .ok false⟩
          (Sample.control 3 (some 1) none) (s0, [Sample.half, Sample.half, Sample.half]) []).1 = .ok (s', [])) ∨
      (∃ m s', m ≤ 3 ∧ run (Sample.env (Sample.chain 4 true)) Sample.lg ([Sample.half, Sample.half, Sample.half].take m) s0 = .ok s' ∧
        Interactions.totalAvailableSites s'.ms.procs = 0 ∧
        (main (ofModel (Sample.env (Sample.chain 4 true)) Sample.lg) ⟨true, 1, [1], fun _ => .ok false⟩
          (Sample.control 3 (some 1) none) (s0, [Sample.half, Sample.half, Sample.half]) []).1 = .error .exception)) := by
  obtain ⟨p, hp, hi, hr⟩ : ∃ p : PyBucket ℚ,
      PyBucket.make (K := ℚ) [⟨0, 0, 0⟩, ⟨1, 0, 0⟩] Sample.shift.1 Sample.shift.2 [0] 3 = .ok p ∧
      (PyProcess.interactions none Sample.dist1 [("*", 0), ("A", 1)] 1 [.bucket p]).map
        (fun qs => qs.map (fun q => ((q.matchList.map (·.updateTypes.sum)).sum, q.need))) = .ok [(0, 3)] ∧ p.rate = 3 :=
    ⟨_, rfl, by decide +kernel, rfl⟩
  refine ⟨p, hp, ?_⟩
  have hfront : ∀ x ∈ [PyProcess.bucket p], FrontAny [("*", 0), ("A", 1)] x := by
    intro x hx
    rw [List.mem_singleton] at hx
    subst hx
    exact ⟨_, _, _, _, _, _, _, hp, Sample.shift_sound⟩
  have hocc : Occupation [("*", 0), ("A", 1)] (Sample.chain 4 true).sites.length
      [["A", "A", "A"], ["A"], ["A", "A"], ["A"]] := ⟨by decide +kernel, by decide +kernel, by decide +kernel⟩
  obtain ⟨cfg, qs, h1, h2, -⟩ := C51_processes (Sample.chain 4 true) [["A", "A", "A"], ["A"], ["A", "A"], ["A"]]
    [("*", 0), ("A", 1)] (by decide +kernel) (by decide +kernel) (by decide) hocc _ (by simp) hfront none
    (Sample.env (Sample.chain 4 true)) (by decide) rfl
  have hel : cfg.elements = [["A", "A", "A"], ["A"], ["A", "A"], ["A"]] := by
    obtain ⟨cfg', m1, -, -, m4, -⟩ := Config.mk'_ok (by decide +kernel) (coords := (Sample.chain 4 true).sites) rfl hocc
    rw [h1] at m1
    obtain rfl := Except.ok.inj m1
    exact m4
  have hfew : (∀ p ∈ qs, (p.matchList.map (·.updateTypes.sum)).sum ≤ 0) ∧ ∀ p ∈ qs, 7 ^ p.need ≤ 2147483647 := by
    have h2 : PyProcess.interactions none Sample.dist1 [("*", 0), ("A", 1)] 1 [.bucket p] = .ok qs := h2
    rw [h2] at hi
    have hi : qs.map (fun q => ((q.matchList.map (·.updateTypes.sum)).sum, q.need)) = [(0, 3)] := Except.ok.inj hi
    have hq : ∀ q ∈ qs, ((q.matchList.map (·.updateTypes.sum)).sum, q.need) = (0, 3) := by
      intro q hq
      have := List.mem_map_of_mem (f := fun q : Proc ℚ => ((q.matchList.map (·.updateTypes.sum)).sum, q.need)) hq
      rw [hi, List.mem_singleton] at this
      exact this
    refine ⟨fun q hqm => ?_, fun q hqm => ?_⟩
    · rw [(Prod.mk.inj (hq q hqm)).1]
    · rw [(Prod.mk.inj (hq q hqm)).2]
      norm_num
  obtain ⟨s0, g1, g2⟩ := C52_mixed_partial (negLog := Sample.lg) (Sample.chain 4 true) _ _
    (by decide +kernel) (by decide +kernel) (by decide) hocc _ hfront (by simp [PyProcess.rate, hr]) none
    (env := Sample.env (Sample.chain 4 true)) (by decide) rfl qs h1 h2 (M := 7)
    (.inr ⟨by rw [hel]; decide, hfew.1⟩) ⟨by decide, hfew.2⟩ (fun hu => by cases hu) (by
      intro _ i b p' q hp' hq
      have hi0 : i = 0 := by
        have := (List.getElem?_eq_some_iff.1 hp').1
        simpa using this
      subst hi0
      cases hp')
  refine ⟨cfg, qs, s0, h1, h2, g1, ?_⟩
  exact g2 ⟨true, 1, [1], fun _ => .ok false⟩ (Sample.control 3 (some 1) none) [Sample.half, Sample.half, Sample.half]
    ⟨fun _ => ⟨_, rfl⟩, fun _ _ _ _ _ => rfl, by decide⟩ (by decide) (fun _ => ⟨1, rfl, by decide⟩) (by decide) (by
      intro d hd
      have : d = Sample.half := by simpa using hd
      subst this
      exact ⟨⟨by decide +kernel, by decide +kernel, by decide +kernel, by decide +kernel⟩,
        1 / 2, by decide +kernel, 1 / 2, by decide +kernel⟩)

end KMC
