import Verif.Props.MsdFront
import Verif.Props.CompositionRun
import Verif.Props.Select
import Verif.Props.EndToEnd
import Verif.Samples.RealRing

/-!
# C46 and C47 in runs with the logarithm

With the real logarithm, positive rates and random numbers from 0 (included) to 1 (not included) time increases with every event, so the
results for the histogram of time steps and for the mean square displacements hold without an assumption on time.
-/

set_option linter.unusedSectionVars false

namespace KMC
open PyRun LatticeModel Analysis

variable {env : Env ℝ} {n nT : Nat} {cfg : Config ℝ} {procs : List (Proc ℝ)} {s s' : Sim ℝ}

/-- **C29** Every event of a run with positive rates takes some time. -/
theorem C29_increases (h : GoodRun env n nT negLog cfg procs s) (hr : PositiveRates env procs) {d : Draws ℝ}
    (hd : ∀ u ∈ d.time, 0 ≤ u ∧ u < 1) (hs : step env negLog s d = .ok s') : s.time < s'.time := by
  unfold step at hs
  obtain ⟨s1, h1, h2⟩ := bind_ok.1 hs
  have ht : s'.time = s1.time := by
    unfold singleStep at h2
    obtain ⟨e, -, h2⟩ := bind_ok.1 h2
    obtain ⟨ms1, -, h2⟩ := bind_ok.1 h2
    obtain ⟨ms2, -, h2⟩ := bind_ok.1 h2
    obtain rfl := Except.ok.inj h2
    rfl
  rw [ht]
  refine C29_propagate s s1 d.time hd (fun R hR => ?_) h1
  obtain ⟨-, -, htab, htot⟩ := C25_totals h
  by_cases hne : s.ms.procs = []
  · rw [htab, hne] at hR
    cases hR
  · rw [htot hne] at hR
    obtain rfl := Except.ok.inj hR
    refine List.sum_nonneg fun x hx => ?_
    obtain ⟨p, hp, rfl⟩ := List.mem_map.1 hx
    exact List.sum_nonneg fun w hw => (weights_pos h hr p hp w hw).le

/-- Time increases from each event of a run to the next. -/
theorem run_increases (h : GoodRun env n nT negLog cfg procs s) (hr : PositiveRates env procs) {ds : List (Draws ℝ)}
    (hd : ∀ d ∈ ds, ∀ u ∈ d.time, 0 ≤ u ∧ u < 1) (k : Nat) (x y : Sim ℝ) (hx : run env negLog (ds.take k) s = .ok x)
    (hy : run env negLog (ds.take (k + 1)) s = .ok y) : x.time ≤ y.time := by
  by_cases hk : k < ds.length
  · rw [List.take_add_one, List.getElem?_eq_getElem hk, Option.toList_some] at hy
    have hx' := hx
    unfold run at hx hy
    rw [loopM_append, hx, ok_bind, loopM_cons] at hy
    obtain ⟨z, hz, hy⟩ := bind_ok.1 hy
    obtain rfl := Except.ok.inj hy
    exact (C29_increases (h.further hx') hr (hd _ (List.getElem_mem hk)) hz).le
  · rw [List.take_of_length_le (by omega)] at hx hy
    rw [hx] at hy
    obtain rfl := Except.ok.inj hy
    exact le_rfl

/-- **C29** The states of a run with positive rates are at different times: time is strictly larger after more events. With rounding this
is false (`C55_stalls`). -/
theorem C29_strict (h : GoodRun env n nT negLog cfg procs s) (hr : PositiveRates env procs) {ds : List (Draws ℝ)}
    (hd : ∀ d ∈ ds, ∀ u ∈ d.time, 0 ≤ u ∧ u < 1) {i k : Nat} (hik : i < k) (hk : k ≤ ds.length) {x y : Sim ℝ}
    (hx : run env negLog (ds.take i) s = .ok x) (hy : run env negLog (ds.take k) s = .ok y) : x.time < y.time := by
  induction k generalizing y with
  | zero => omega
  | succ k ih =>
    have hy' := hy
    rw [List.take_add_one, List.getElem?_eq_getElem (by omega), Option.toList_some] at hy'
    unfold run at hy'
    rw [loopM_append] at hy'
    obtain ⟨z, hz, hy'⟩ := bind_ok.1 hy'
    rw [loopM_cons] at hy'
    obtain ⟨w, hw, hy'⟩ := bind_ok.1 hy'
    obtain rfl := Except.ok.inj hy'
    have hlast := C29_increases (h.further hz) hr (hd _ (List.getElem_mem (by omega))) hw
    rcases Nat.lt_succ_iff_lt_or_eq.1 hik with hlt | rfl
    · exact (ih hlt (by omega) hz).trans hlast
    · rw [show run env negLog (ds.take i) s = .ok z from hz] at hx
      obtain rfl := Except.ok.inj hx
      exact hlast

variable {ds : List (Draws ℝ)} {o : Outside (Sim ℝ × List (Draws ℝ)) ℝ} {c : PyControl ℝ} {e : Sim ℝ × List (Draws ℝ)}
  {log : List (Call (Sim ℝ × List (Draws ℝ)) ℝ)}

/-- **C46** The histogram of time steps of a run with positive rates. Partial: as in `C46_run_partial`. -/
theorem C46_real_partial (h : GoodRun env n nT negLog cfg procs s) (hr : PositiveRates env procs)
    (hd : ∀ d ∈ ds, ∀ u ∈ d.time, 0 ≤ u ∧ u < 1) (hm : main (ofModel env negLog) o c (s, ds) [] = (.ok e, log))
    {a : Nat} (ha : a < o.analyses) (w : Option ℝ) (A0 : Steps ℝ) (hA : Steps.make w = .ok A0) (hw : A0.binsize ≠ 0) :
    ∃ (m : Nat) (st : Nat → Sim ℝ) (A : Steps ℝ), m ≤ c.steps ∧ e.1 = st m ∧
      (∀ k, k ≤ m → run env negLog (ds.take k) s = .ok (st k)) ∧
      loopM (fun A (x : Nat × ℝ × Sim ℝ × List (Draws ℝ)) => A.registerStep x.2.1) (log.filterMap (Call.register? a))
        (A0.setup s.time) = .ok A ∧
      (∀ b, A.histogram.getD b 0 = inBin (w.getD 1) b (gaps s.time ((multiples c.analyse m).map fun k => (st k).time))) ∧
      A.histogram.sum = (multiples c.analyse m).length :=
  C46_run_partial hm ha w A0 hA hw (run_increases h hr hd)

open Msd in
open Blocker (total) in
/-- **C47** The mean square displacements of a run with positive rates. Partial: as in `C47_front_partial`. -/
theorem C47_real_partial (h : GoodRun env n nT negLog cfg procs s) (hr : PositiveRates env procs)
    (hd : ∀ d ∈ ds, ∀ u ∈ d.time, 0 ≤ u ∧ u < 1) (hm : main (ofModel env negLog) o c (s, ds) [] = (.ok e, log))
    {a : Nat} (ha : a < o.analyses) (nb H B : Nat) (tMax : ℝ) (track : String) (r0 r1 r2 : Coord ℝ) (hH : 0 < H) (hnb : 0 < nb)
    (htm : 0 < tMax) (hbig : (e.1.time - s.time) / (tMax / nb) < 2147483648) :
    ∃ (m : Nat) (st : Nat → Sim ℝ) (m0 m1 : Msd ℝ), m ≤ c.steps ∧ e.1 = st m ∧
      (∀ k, k ≤ m → run env negLog (ds.take k) s = .ok (st k)) ∧
      Msd.make s.ms.cfg H nb tMax s.time track [r0, r1, r2] B = .ok m0 ∧
      loopM (fun A (x : Nat × ℝ × Sim ℝ × List (Draws ℝ)) => A.registerStep x.2.1 x.2.2.1.ms.cfg) (log.filterMap (Call.register? a)) m0
        = .ok m1 ∧
      let ps := pairs H (initial s.ms.cfg track s.time) []
        ((multiples c.analyse m).flatMap fun k => observed track ((st k).time, (st k).ms.cfg))
      ∀ b, b < nb →
        m1.hist[b]? = some (total ((Msd.inBin (tMax / nb) b ps).map fun y => squares r0 r1 r2 y.2.2.1 y.2.1.1)) ∧
        m1.binCounts[b]? = some (Msd.inBin (tMax / nb) b ps).length :=
  C47_front_partial h hm ha (run_increases h hr hd) nb H B tMax track r0 r1 r2 hH hnb htm hbig

/-- An atom on a ring of four sites hops as often as asked for, with random numbers 1/2, and an analysis is there. -/
example (N : Nat) : ∃ s e log, GoodRun Sample.realRingEnv 4 3 negLog Sample.realRingStart Sample.realHops s ∧
    PositiveRates Sample.realRingEnv Sample.realHops ∧
    (∀ d ∈ List.replicate N (⟨[1 / 2], 1 / 2, 1 / 2⟩ : Draws ℝ), ∀ u ∈ d.time, 0 ≤ u ∧ u < 1) ∧
    main (ofModel Sample.realRingEnv negLog) ⟨false, 1, [], fun _ => .ok false⟩ ⟨N, some 1, 1, none, false, 0, "MT"⟩
      (s, List.replicate N ⟨[1 / 2], 1 / 2, 1 / 2⟩) [] = (.ok e, log) := by
  obtain ⟨s, h, -⟩ := Sample.realRing_starts
  have hin : ∀ d ∈ List.replicate N (⟨[1 / 2], 1 / 2, 1 / 2⟩ : Draws ℝ), Draws.Inside d ∧ d.Finite negLog := by
    intro d hd
    obtain rfl := List.eq_of_mem_replicate hd
    refine ⟨by unfold Draws.Inside; norm_num, 1 / 2, by simp, -Real.log (1 / 2), ?_⟩
    unfold negLog
    rw [if_neg (by norm_num)]
  have hone : ∀ els ∈ Sample.realRingStart.elements, els.length = 1 := by decide
  rcases C52_run h Sample.realHops_positive hone Sample.realHops_balanced
    (⟨false, 1, [], fun _ => .ok false⟩ : Outside (Sim ℝ × List (Draws ℝ)) ℝ) ⟨fun _ => ⟨false, rfl⟩, fun _ _ _ _ _ => rfl, by simp⟩
    ⟨N, some 1, 1, none, false, 0, "MT"⟩ one_ne_zero (fun _ => ⟨1, rfl, one_ne_zero⟩) _ (by simp) hin with ⟨s', -, hm⟩ | ⟨m, s', -, hs, h0, -⟩
  · refine ⟨s, _, _, h, Sample.realHops_positive, ?_, Prod.ext hm rfl⟩
    intro d hd u hu
    obtain rfl := List.eq_of_mem_replicate hd
    obtain rfl := List.mem_singleton.1 hu
    norm_num
  · exfalso
    have g := h.further hs
    obtain ⟨i, hi, ht⟩ := (Sample.realRing_types s'.ms.cfg.types).1 ⟨s', g, rfl⟩
    obtain ⟨p1, hp1, hav⟩ := Sample.realRing_available g hi ht (j := 0) (by decide)
    obtain ⟨-, hsum, -⟩ := C25_totals g
    rw [hsum, List.sum_eq_zero_iff] at h0
    have hnil := List.length_eq_zero_iff.1 (h0 _ (List.mem_map_of_mem (f := fun p : Proc ℝ => p.sites.length) (List.mem_of_getElem? hp1)))
    have hmem := (hav i).2 rfl
    rw [hnil] at hmem
    cases hmem

end KMC
