import Verif.Props.AnalysisRun

/-!
# C49 in runs: what the composition analysis sees of a run of the front end

The results are means of the numbers of particles that the configurations report, over blocks of the registered steps. A number
that no event changes is reported as it is.
-/

set_option linter.unusedSectionVars false

namespace KMC
open PyRun LatticeModel Analysis

variable {K : Type} [Field K] [LinearOrder K] [IsStrictOrderedRing K] [FloorRing K]
variable {env : Env K} {n nT : Nat} {negLog : K → Option K} {cfg : Config K} {procs : List (Proc K)} {s : Sim K}

/-- How often each name is reported on the sites. -/
def reported (names : List String) (c : Config K) : List Nat :=
  names.map fun name => (c.elements.map fun els => els.count name).sum

/-- The numbers of particles per type are how often the names are reported. -/
theorem counts_reported (h : GoodRun env n nT negLog cfg procs s) :
    s.ms.cfg.particlesPerType = .ok ((reported cfg.typeNames s.ms.cfg).map Int.ofNat) ∧
      (reported cfg.typeNames s.ms.cfg).length = nT := by
  have hlen : (reported cfg.typeNames s.ms.cfg).length = nT := by
    unfold reported
    rw [List.length_map, ← h.names, h.good.names]
  refine ⟨?_, hlen⟩
  obtain ⟨counts, h1, h2, h3⟩ := C16_counts h
  rw [h1]
  congr 1
  apply List.ext_getElem?
  intro k
  by_cases hk : k < nT
  · have hk' : k < cfg.typeNames.length := by rw [← h.names, h.good.names]; exact hk
    rw [h3 k _ (List.getElem?_eq_getElem hk'), List.getElem?_map]
    unfold reported
    rw [List.getElem?_map, List.getElem?_eq_getElem hk']
    rfl
  · rw [List.getElem?_eq_none_iff.2 (by omega), List.getElem?_eq_none_iff.2 (by rw [List.length_map, hlen]; omega)]

omit [Field K] [LinearOrder K] [IsStrictOrderedRing K] [FloorRing K] in
theorem loopM_congr_mem {σ α : Type _} {f g : σ → α → M σ} {xs : List α} (h : ∀ s, ∀ x ∈ xs, f s x = g s x) (s : σ) :
    loopM f xs s = loopM g xs s := by
  induction xs generalizing s with
  | nil => rfl
  | cons x xs ih =>
    rw [loopM_cons, loopM_cons, h s x List.mem_cons_self]
    cases g s x with
    | error e => rfl
    | ok s1 => exact ih (fun s x hx => h s x (List.mem_cons_of_mem _ hx)) s1

/-- No block is empty. -/
theorem blocks_nonempty {α : Type _} {w t0 : K} (hw : 0 ≤ w) {bs : List (K × List (K × α))} (hb : Blocked w t0 bs) {x : α}
    {xs : List (K × α)} (hs : samples bs = (t0, x) :: xs) : ∀ b ∈ bs, b.2 ≠ [] := by
  have hrest : ∀ (l : List (K × List (K × α))) (b : K × List (K × α)),
      (b :: l).IsChain (fun b b' => w < b'.1 - b.1 ∧ ∃ a, b'.2.head? = some (b'.1, a)) → ∀ b' ∈ l, b'.2 ≠ [] := by
    intro l
    induction l with
    | nil => exact fun _ _ b' hb' => absurd hb' List.not_mem_nil
    | cons d l ih =>
      intro b hc b' hb'
      rw [List.isChain_cons_cons] at hc
      rcases List.mem_cons.1 hb' with rfl | hb'
      · obtain ⟨a, ha⟩ := hc.1.2
        rintro e
        rw [e] at ha
        cases ha
      · exact ih d hc.2 b' hb'
  cases bs with
  | nil => exact fun b hb => absurd hb List.not_mem_nil
  | cons b bs =>
    intro b' hb'
    rcases List.mem_cons.1 hb' with rfl | hb'
    · intro e
      have hst : b'.1 = t0 := by simpa using hb.start
      cases bs with
      | nil => simp [samples, e] at hs
      | cons d bs =>
        obtain ⟨h1, a, h2⟩ := (List.isChain_cons_cons.1 hb.next).1
        have hd : (samples (b' :: d :: bs)).head? = some (d.1, a) := by
          unfold samples
          rw [List.flatMap_cons, List.flatMap_cons, e, List.nil_append, List.head?_append, h2]
          rfl
        rw [hs, List.head?_cons, Option.some.injEq, Prod.mk.injEq] at hd
        rw [← hd.1, hst, sub_self] at h1
        exact absurd h1 (not_lt.2 hw)
    · exact hrest bs b hb.next b' hb'

variable {ds : List (Draws K)} {o : Outside (Sim K × List (Draws K)) K} {c : PyControl K} {s' : Sim K × List (Draws K)}
  {log : List (Call (Sim K × List (Draws K)) K)}

/-- **C49** Composition of a run of the front end, set up at its start: the registered steps never make it fail. There are `m` events,
`st k` is the state after `k` of them. The start and the states after the multiples of the analysis interval are divided into blocks
in order, and the results are, for each block but the last, the means of the numbers of particles that the states of the block
report.

Partial: the other states are not seen, the last block is not in the results (`C49_last_block`), and the times are not those of the
blocks (`C49_times`). -/
theorem C49_composition_run_partial (h : GoodRun env n nT negLog cfg procs s)
    (hm : main (ofModel env negLog) o c (s, ds) [] = (.ok s', log)) {a : Nat} (ha : a < o.analyses) (w : Option K) (A0 : Comp K)
    (hA : Comp.make w = .ok A0) :
    ∃ (m : Nat) (st : Nat → Sim K) (A : Comp K) (bs : List (K × List (K × List Nat))) (b : K × List (K × List Nat)),
      m ≤ c.steps ∧ s'.1 = st m ∧ (∀ k, k ≤ m → run env negLog (ds.take k) s = .ok (st k)) ∧
      (do
        let c0 ← s.ms.cfg.particlesPerType
        loopM (fun (A : Comp K) (x : Nat × K × Sim K × List (Draws K)) => do
          let counts ← x.2.2.1.ms.cfg.particlesPerType
          A.registerStep x.2.1 (counts.map Int.toNat)) (log.filterMap (Call.register? a))
          (A0.setup s.time s.ms.cfg.typeNames.length (c0.map Int.toNat))) = .ok A ∧
      Blocked (w.getD 1) s.time (bs ++ [b]) ∧
      samples (bs ++ [b]) = (0 :: multiples c.analyse m).map (fun k => ((st k).time, reported cfg.typeNames (st k).ms.cfg)) ∧
      A.data = bs.map (fun b => (List.range nT).map fun i =>
        (((b.2.map fun x => x.2.getD i 0).sum : Nat) : K) / (b.2.length : K)) := by
  obtain ⟨m, st, mid, h1, h2, h3, -, -, h6, -⟩ := C42_schedule (ofModel env negLog) o c (s, ds) s' log hm
  obtain ⟨-, g2, -⟩ := C42_model env negLog s ds m st mid h2
  have hw : 0 ≤ w.getD 1 := by
    unfold Comp.make at hA
    obtain ⟨w', h1, -⟩ := bind_ok.1 hA
    unfold checkPositiveFloat at h1
    split at h1
    · cases h1
    · rename_i hneg
      exact not_lt.1 hneg
  have hgood : ∀ k, k ≤ m → GoodRun env n nT negLog cfg procs (st k).1 := fun k hk => h.further (g2 k hk).1
  have h0 : (st 0).1 = s := by rw [h2.start]
  have hnat : ∀ l : List Nat, (l.map Int.ofNat).map Int.toNat = l := by
    intro l
    rw [List.map_map]
    exact List.map_id l
  obtain ⟨A, bs, b, k1, k2, k3, k4⟩ := C49_composition_partial w A0 hA nT s.time (reported cfg.typeNames s.ms.cfg)
    (counts_reported h).2 ((multiples c.analyse m).map fun k => ((st k).1.time, reported cfg.typeNames (st k).1.ms.cfg))
    (by
      intro x hx
      obtain ⟨k, hk, rfl⟩ := List.mem_map.1 hx
      exact (counts_reported (hgood k (mem_multiples.1 hk).2.1)).2) hw
  refine ⟨m, fun k => (st k).1, A, bs, b, h1, by rw [h3], fun k hk => (g2 k hk).1, ?_, k2, ?_, ?_⟩
  · rw [(counts_reported h).1, ok_bind, hnat, h.good.names, h6 a ha, loopM_mapped]
    rw [loopM_mapped] at k1
    rw [← k1]
    refine loopM_congr_mem (fun A k hk => ?_) _
    show (do
      let counts ← (st k).1.ms.cfg.particlesPerType
      A.registerStep (st k).1.time (counts.map Int.toNat)) = _
    rw [(counts_reported (hgood k (mem_multiples.1 hk).2.1)).1, ok_bind, hnat]
  · rw [k3, List.map_cons]
    dsimp only
    rw [h0]
  · rw [k4]
    unfold total
    simp only [List.map_map]
    rfl

/-- **C49** If the states of the run all report a type the same number of times then every row of the composition has this number for
the type. -/
theorem C49_composition_constant (h : GoodRun env n nT negLog cfg procs s)
    (hm : main (ofModel env negLog) o c (s, ds) [] = (.ok s', log)) {a : Nat} (ha : a < o.analyses) (w : Option K) (A0 : Comp K)
    (hA : Comp.make w = .ok A0) {i v : Nat}
    (hv : ∀ k x, run env negLog (ds.take k) s = .ok x → (reported cfg.typeNames x.ms.cfg)[i]? = some v) :
    ∃ A : Comp K, (do
        let c0 ← s.ms.cfg.particlesPerType
        loopM (fun (A : Comp K) (x : Nat × K × Sim K × List (Draws K)) => do
          let counts ← x.2.2.1.ms.cfg.particlesPerType
          A.registerStep x.2.1 (counts.map Int.toNat)) (log.filterMap (Call.register? a))
          (A0.setup s.time s.ms.cfg.typeNames.length (c0.map Int.toNat))) = .ok A ∧
      ∀ row ∈ A.data, row[i]? = some (v : K) := by
  obtain ⟨m, st, A, bs, b, -, -, k1, k2, k3, k4, k5⟩ := C49_composition_run_partial h hm ha w A0 hA
  refine ⟨A, k2, fun row hrow => ?_⟩
  have hw : 0 ≤ w.getD 1 := by
    unfold Comp.make at hA
    obtain ⟨w', h1, -⟩ := bind_ok.1 hA
    unfold checkPositiveFloat at h1
    split at h1
    · cases h1
    · rename_i hneg
      exact not_lt.1 hneg
  have hs0 : (st 0) = s := by
    have := k1 0 (Nat.zero_le _)
    rw [List.take_zero] at this
    exact (Except.ok.inj this).symm
  have hne := blocks_nonempty hw k3 (k4.trans (by rw [List.map_cons, hs0]))
  have hi : i < nT := by
    have h1 := hv 0 _ (k1 0 (Nat.zero_le _))
    have h2 := (List.getElem?_eq_some_iff.1 h1).1
    rwa [hs0, (counts_reported h).2] at h2
  rw [k5] at hrow
  obtain ⟨d, hd, rfl⟩ := List.mem_map.1 hrow
  have hall : ∀ x ∈ d.2, x.2.getD i 0 = v := by
    intro x hx
    have hx' : x ∈ samples (bs ++ [b]) := List.mem_flatMap.2 ⟨d, List.mem_append_left _ hd, hx⟩
    rw [k4] at hx'
    obtain ⟨k, hk, rfl⟩ := List.mem_map.1 hx'
    have hkm : k ≤ m := by
      rcases List.mem_cons.1 hk with rfl | hk
      · exact Nat.zero_le _
      · exact (mem_multiples.1 hk).2.1
    rw [List.getD_eq_getElem?_getD, hv k _ (k1 k hkm)]
    rfl
  rw [List.getElem?_map, List.getElem?_range hi, Option.map_some, Option.some.injEq, List.map_congr_left hall, List.map_const',
    List.sum_replicate, smul_eq_mul]
  have hpos : ((d.2.length : Nat) : K) ≠ 0 := by
    rw [Nat.cast_ne_zero]
    exact fun e => hne d (List.mem_append_left _ hd) (List.length_eq_zero_iff.1 e)
  push_cast
  rw [mul_div_cancel_left₀ _ hpos]

/-- An atom hops four times on a ring, and all events are registered. With blocks of no length every state but the last gets a row, with
the numbers of particles it reports. -/
example : ∃ cfg procs s s' log, GoodRun (Sample.env Sample.ring) 4 4 Sample.lg cfg procs s ∧
    main (ofModel (Sample.env Sample.ring) Sample.lg) ⟨false, 1, [], fun _ => .ok false⟩
      { Sample.control 4 (some 1) none with analyse := 1 } (s, List.replicate 4 Sample.half) [] = (.ok s', log) ∧
    reported ["*", "A", "B", "V"] s.ms.cfg = [0, 1, 3, 0] ∧
    ((loopM (fun (A : Comp ℚ) (x : Nat × ℚ × Sim ℚ × List (Draws ℚ)) => do
        let counts ← x.2.2.1.ms.cfg.particlesPerType
        A.registerStep x.2.1 (counts.map Int.toNat)) (log.filterMap (Call.register? 0))
        ((⟨0, 0, 0, [], none, none⟩ : Comp ℚ).setup s.time 4 [0, 1, 3, 0])).map fun A => A.data) =
      .ok (List.replicate 4 [0, 1, 3, 0]) := by
  obtain ⟨cfg, procs, s, -, -, h, hf⟩ := Sample.good_run (env := Sample.env Sample.ring) (P := Sample.ring)
    (els := Sample.ringElements) (procs := Sample.hops) (ds := [])
    (f := fun s => match main (ofModel (Sample.env Sample.ring) Sample.lg) ⟨false, 1, [], fun _ => .ok false⟩
      { Sample.control 4 (some 1) none with analyse := 1 } (s, List.replicate 4 Sample.half) [] with
      | (.ok _, log) => (true, reported ["*", "A", "B", "V"] s.ms.cfg,
          (loopM (fun (A : Comp ℚ) (x : Nat × ℚ × Sim ℚ × List (Draws ℚ)) => do
            let counts ← x.2.2.1.ms.cfg.particlesPerType
            A.registerStep x.2.1 (counts.map Int.toNat)) (log.filterMap (Call.register? 0))
            ((⟨0, 0, 0, [], none, none⟩ : Comp ℚ).setup s.time 4 [0, 1, 3, 0])).map fun A => A.data)
      | _ => (false, [], .ok []))
    (b := (true, [0, 1, 3, 0], .ok (List.replicate 4 [0, 1, 3, 0]))) 4 (by decide +kernel) rfl (by decide +kernel) (by decide +kernel)
  refine ⟨cfg, procs, s, ?_⟩
  dsimp only at hf
  split at hf
  · rename_i s' log hlog
    simp only [Prod.mk.injEq, true_and] at hf
    exact ⟨s', log, h, hlog, hf.1, hf.2⟩
  · cases hf

end KMC
