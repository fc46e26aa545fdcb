import Verif.Props.Analysis
import Verif.Props.Equidistant
import Verif.Props.Reverse
import Verif.Samples.Events

/-!
# C46 and C49 in runs: what the analyses see of a run of the front end

`C46_run_partial`, `C49_run_partial`: the histogram of time steps and the process statistics of a run. Only every `w`-th event is seen with
the analysis interval `w` (`C49_interval`).
-/

set_option linter.unusedSectionVars false

namespace KMC
open PyRun LatticeModel Analysis

section
variable {K : Type} [Field K] [LinearOrder K] [IsStrictOrderedRing K] [FloorRing K]
variable {env : Env K} {n nT : Nat} {negLog : K → Option K} {cfg : Config K} {procs : List (Proc K)} {s : Sim K}

/-- With the interval one every step is seen. -/
theorem multiples_one (m : Nat) : multiples 1 m = (List.range m).map (· + 1) := by
  unfold multiples
  rw [List.filter_eq_self]
  simp

/-- The multiples come in order. -/
theorem multiples_pairwise (d m : Nat) : (multiples d m).Pairwise (· < ·) := by
  unfold multiples
  refine List.Pairwise.filter _ ?_
  rw [List.pairwise_map]
  exact List.pairwise_lt_range.imp fun h => by omega

/-- There are `m / d` multiples. -/
theorem length_multiples (d m : Nat) : (multiples d m).length = m / d := by
  induction m with
  | zero => simp [multiples]
  | succ m ih =>
    have e : multiples d (m + 1) = multiples d m ++ if d ∣ m + 1 then [m + 1] else [] := by
      unfold multiples
      rw [List.range_succ, List.map_append, List.filter_append]
      congr 1
      by_cases h : d ∣ m + 1 <;> simp [h]
    rw [e, List.length_append, ih, Nat.succ_div]
    split <;> simp

omit [Field K] [LinearOrder K] [IsStrictOrderedRing K] [FloorRing K] in
theorem loopM_mapped {σ α β : Type _} (f : σ → β → M σ) (g : α → β) (xs : List α) (s : σ) :
    loopM f (xs.map g) s = loopM (fun s x => f s (g x)) xs s := by
  induction xs generalizing s with
  | nil => rfl
  | cons x xs ih =>
    rw [List.map_cons, loopM_cons, loopM_cons]
    cases f s (g x) with
    | error e => rfl
    | ok s1 => exact ih s1

/-- The states of a run from a state of a well formed model are states of runs of it. -/
theorem GoodRun.further (h : GoodRun env n nT negLog cfg procs s) {ds : List (Draws K)} {s' : Sim K}
    (hs : run env negLog ds s = .ok s') : GoodRun env n nT negLog cfg procs s' := by
  obtain ⟨h1, h2, s0, ds0, h3, h4⟩ := h
  refine ⟨h1, h2, s0, ds0 ++ ds, h3, ?_⟩
  unfold run at h4 hs ⊢
  rw [loopM_append, h4, ok_bind, hs]

/-- After a step the latest event is at a site of the lattice. -/
theorem latestSite_lt (h : GoodRun env n nT negLog cfg procs s) {d : Draws K} {s' : Sim K} (hs : step env negLog s d = .ok s') :
    s'.ms.cfg.latestSite < n := by
  obtain ⟨t0, ht0, hms⟩ := step_single hs
  have hsel := ht0
  unfold singleStep at hsel
  obtain ⟨⟨j, site, ps⟩, hsel, -⟩ := bind_ok.1 hsel
  obtain ⟨p, -, hp, -, -, r2, -, -⟩ := C23_report h hsel ht0
  obtain ⟨cfg1, procs1, hprep, -, -, -⟩ := h.inv
  obtain ⟨p3, -, hp3, -, hsite, -, -⟩ := h.took hsel hs hprep
  rw [← hms, r2]
  exact ((C24_available h hp3 site).1 hsite).1

variable {ds : List (Draws K)} {o : Outside (Sim K × List (Draws K)) K} {c : PyControl K} {s' : Sim K × List (Draws K)}
  {log : List (Call (Sim K × List (Draws K)) K)}

/-- **C49** Process statistics of a run of the front end, set up at its start: the registered steps never make it fail. There are `m`
events, `st k` is the state after `k` of them. The entries of the results together with the count of the block that is still open are the
number of events of the chosen processes among those whose number is a multiple of the analysis interval, and the spatial data are these
numbers per site.

Partial: the other events are not seen (`C49_interval`), the open block is not in the results (`C49_last_block`). -/
theorem C49_run_partial (h : GoodRun env n nT negLog cfg procs s) (hm : main (ofModel env negLog) o c (s, ds) [] = (.ok s', log))
    {a : Nat} (ha : a < o.analyses) (ps : List Int) (w : Option K) (resolved : Bool) (A0 : Stats K)
    (hA : Stats.make ps w resolved = .ok A0) :
    ∃ (m : Nat) (st : Nat → Sim K) (A : Stats K), m ≤ c.steps ∧ s'.1 = st m ∧
      (∀ k, k ≤ m → run env negLog (ds.take k) s = .ok (st k)) ∧
      loopM (fun A (x : Nat × K × Sim K × List (Draws K)) =>
        A.registerStep x.2.1 x.2.2.1.ms.cfg.latestProcess x.2.2.1.ms.cfg.latestSite)
        (log.filterMap (Call.register? a)) (A0.setup s.time n) = .ok A ∧
      A.data.sum + A.count =
        (multiples c.analyse m).countP (fun k => decide (((st k).ms.cfg.latestProcess : Int) ∈ ps)) ∧
      (resolved = true → A.spatial = some ((List.range n).map fun i => (((multiples c.analyse m).countP fun k =>
        decide (((st k).ms.cfg.latestProcess : Int) ∈ ps ∧ (st k).ms.cfg.latestSite = i) : Nat) : K))) := by
  obtain ⟨m, st, mid, h1, h2, h3, -, -, h6, -⟩ := C42_schedule (ofModel env negLog) o c (s, ds) s' log hm
  obtain ⟨-, g2, -⟩ := C42_model env negLog s ds m st mid h2
  have hw : 0 ≤ w.getD 1 := by
    unfold Stats.make at hA
    obtain ⟨ps', -, h00⟩ := bind_ok.1 hA
    obtain ⟨w', h1, -⟩ := bind_ok.1 h00
    unfold checkPositiveFloat at h1
    split at h1
    · cases h1
    · rename_i hneg
      exact not_lt.1 hneg
  have hlt : ∀ k, 0 < k → k ≤ m → (st k).1.ms.cfg.latestSite < n := by
    intro k hk hkm
    obtain ⟨k, rfl⟩ : ∃ j, k = j + 1 := ⟨k - 1, by omega⟩
    obtain ⟨d, dl, e1, e2, e3⟩ := ofModel_propagate (h2.clock k (by omega))
    obtain ⟨d', e4, e5⟩ := ofModel_single (h2.event k (by omega))
    rw [e2, e1] at e4
    obtain ⟨rfl, -⟩ := List.cons.inj e4
    exact latestSite_lt (h.further (g2 k (by omega)).1) (bind_ok.2 ⟨_, e3, e5⟩)
  obtain ⟨A, bs, b, k1, -, k3, k4, k5, -, k7⟩ := C49_statistics_partial ps w resolved A0 hA n s.time
    ((multiples c.analyse m).map fun k => ((st k).1.time, (st k).1.ms.cfg.latestProcess, (st k).1.ms.cfg.latestSite))
    (by
      intro x hx
      obtain ⟨k, hk, rfl⟩ := List.mem_map.1 hx
      obtain ⟨q1, q2, -⟩ := mem_multiples.1 hk
      exact hlt k q1 q2) hw
  refine ⟨m, fun k => (st k).1, A, h1, by rw [h3], fun k hk => (g2 k hk).1, ?_, ?_, ?_⟩
  · rw [h6 a ha]
    rw [loopM_mapped] at k1 ⊢
    exact k1
  · rw [k4, k5]
    have hc : ∀ (q : K × Ev → Bool) (bs : List (K × List (K × Ev))), (bs.map fun b => b.2.countP q).sum = (samples bs).countP q := by
      intro q bs
      unfold samples
      rw [List.countP_flatMap]
      rfl
    have e : (samples (bs ++ [b])).countP (fun x => decide ((x.2.1 : Int) ∈ ps)) =
        (samples bs).countP (fun x => decide ((x.2.1 : Int) ∈ ps)) + b.2.countP (fun x => decide ((x.2.1 : Int) ∈ ps)) := by
      unfold samples
      rw [List.flatMap_append, List.countP_append]
      simp
    rw [hc, ← e, k3, List.countP_map]
    rfl
  · intro hr
    rw [k7 hr]
    simp only [List.countP_map]
    rfl

/-- **C49** With an analysis interval `w` process statistics of a run with `m` events count at most `m / w` of them, so that with an interval
of more than one not every event is counted. -/
theorem C49_interval (h : GoodRun env n nT negLog cfg procs s) (hm : main (ofModel env negLog) o c (s, ds) [] = (.ok s', log))
    {a : Nat} (ha : a < o.analyses) (ps : List Int) (w : Option K) (resolved : Bool) (A0 : Stats K)
    (hA : Stats.make ps w resolved = .ok A0) :
    ∃ (m : Nat) (A : Stats K), m ≤ c.steps ∧ run env negLog (ds.take m) s = .ok s'.1 ∧
      loopM (fun A (x : Nat × K × Sim K × List (Draws K)) =>
        A.registerStep x.2.1 x.2.2.1.ms.cfg.latestProcess x.2.2.1.ms.cfg.latestSite)
        (log.filterMap (Call.register? a)) (A0.setup s.time n) = .ok A ∧
      A.data.sum + A.count ≤ m / c.analyse := by
  obtain ⟨m, st, A, h1, h2, h3, h4, h5, -⟩ := C49_run_partial h hm ha ps w resolved A0 hA
  refine ⟨m, A, h1, by rw [h2]; exact h3 m le_rfl, h4, ?_⟩
  rw [h5, ← length_multiples]
  exact List.countP_le_length

/-- **C46** The histogram of time steps of a run of the front end in which time does not decrease, set up at its start: the registered
steps never make it fail. There are `m` events, `st k` is the state after `k` of them. Entry `b` is the number of pairs of consecutive
multiples of the analysis interval, from 0 on, whose times differ by a value in bin `b`, and every registered step is counted once.

Partial: a bin size of zero is excluded (`C46_zero`). With an interval of more than one the values are not the lengths of single steps. -/
theorem C46_run_partial (hm : main (ofModel env negLog) o c (s, ds) [] = (.ok s', log))
    {a : Nat} (ha : a < o.analyses) (w : Option K) (A0 : Steps K) (hA : Steps.make w = .ok A0) (hw : A0.binsize ≠ 0)
    (hmono : ∀ k x y, run env negLog (ds.take k) s = .ok x → run env negLog (ds.take (k + 1)) s = .ok y → x.time ≤ y.time) :
    ∃ (m : Nat) (st : Nat → Sim K) (A : Steps K), m ≤ c.steps ∧ s'.1 = st m ∧
      (∀ k, k ≤ m → run env negLog (ds.take k) s = .ok (st k)) ∧
      loopM (fun A (x : Nat × K × Sim K × List (Draws K)) => A.registerStep x.2.1) (log.filterMap (Call.register? a))
        (A0.setup s.time) = .ok A ∧
      (∀ b, A.histogram.getD b 0 = inBin (w.getD 1) b (gaps s.time ((multiples c.analyse m).map fun k => (st k).time))) ∧
      A.histogram.sum = (multiples c.analyse m).length := by
  obtain ⟨m, st, mid, h1, h2, h3, -, -, h6, -⟩ := C42_schedule (ofModel env negLog) o c (s, ds) s' log hm
  obtain ⟨-, g2, -⟩ := C42_model env negLog s ds m st mid h2
  have hle : ∀ j k, j ≤ k → k ≤ m → (st j).1.time ≤ (st k).1.time := by
    intro j k hjk hk
    induction k, hjk using Nat.le_induction with
    | base => exact le_rfl
    | succ k _ ih =>
      exact (ih (by omega)).trans (hmono k _ _ (g2 k (by omega)).1 (g2 (k + 1) hk).1)
  have h0 : (st 0).1 = s := by rw [h2.start]
  obtain ⟨A, k1, k2, k3, -⟩ := C46_exact_partial w A0 hA hw s.time ((multiples c.analyse m).map fun k => (st k).1.time) (by
    rw [List.isChain_iff_pairwise, List.pairwise_cons]
    constructor
    · intro x hx
      obtain ⟨k, hk, rfl⟩ := List.mem_map.1 hx
      rw [← h0]
      exact hle 0 k (Nat.zero_le _) (mem_multiples.1 hk).2.1
    · rw [List.pairwise_map]
      refine (multiples_pairwise c.analyse m).imp_of_mem ?_
      intro i j _ hj hij
      exact hle i j hij.le (mem_multiples.1 hj).2.1)
  refine ⟨m, fun k => (st k).1, A, h1, by rw [h3], fun k hk => (g2 k hk).1, ?_, k2, ?_⟩
  · rw [h6 a ha]
    rw [loopM_mapped] at k1 ⊢
    exact k1
  · rw [k3, List.length_map]

end

/-- An atom hops four times on a ring, with an analysis interval of two: the second and the fourth event are registered. -/
example : ∃ cfg procs s s' log, GoodRun (Sample.env Sample.ring) 4 4 Sample.lg cfg procs s ∧
    main (ofModel (Sample.env Sample.ring) Sample.lg) ⟨false, 1, [], fun _ => .ok false⟩
      { Sample.control 4 (some 1) none with analyse := 2 } (s, List.replicate 4 Sample.half) [] = (.ok s', log) ∧
    (log.filterMap (Call.register? 0)).map (·.1) = [2, 4] ∧
    ((loopM (fun A (x : Nat × ℚ × Sim ℚ × List (Draws ℚ)) =>
        A.registerStep x.2.1 x.2.2.1.ms.cfg.latestProcess x.2.2.1.ms.cfg.latestSite)
        (log.filterMap (Call.register? 0)) ((⟨[0, 1], 1, false, 0, [], none, 0⟩ : Stats ℚ).setup s.time 4)).map
      fun A => A.data.sum + A.count) = .ok 2 := by
  obtain ⟨cfg, procs, s, -, -, h, hf⟩ := Sample.good_run (env := Sample.env Sample.ring) (P := Sample.ring)
    (els := Sample.ringElements) (procs := Sample.hops) (ds := [])
    (f := fun s => match main (ofModel (Sample.env Sample.ring) Sample.lg) ⟨false, 1, [], fun _ => .ok false⟩
      { Sample.control 4 (some 1) none with analyse := 2 } (s, List.replicate 4 Sample.half) [] with
      | (.ok _, log) => (true, (log.filterMap (Call.register? 0)).map (·.1),
          (loopM (fun A (x : Nat × ℚ × Sim ℚ × List (Draws ℚ)) =>
            A.registerStep x.2.1 x.2.2.1.ms.cfg.latestProcess x.2.2.1.ms.cfg.latestSite)
            (log.filterMap (Call.register? 0)) ((⟨[0, 1], 1, false, 0, [], none, 0⟩ : Stats ℚ).setup s.time 4)).map
            fun A => A.data.sum + A.count)
      | _ => (false, [], .ok 0))
    (b := (true, [2, 4], .ok 2)) 4 (by decide +kernel) rfl (by decide +kernel) (by decide +kernel)
  refine ⟨cfg, procs, s, ?_⟩
  dsimp only at hf
  split at hf
  · rename_i s' log hlog
    simp only [Prod.mk.injEq, true_and] at hf
    exact ⟨s', log, h, hlog, hf.1, hf.2⟩
  · cases hf

end KMC
