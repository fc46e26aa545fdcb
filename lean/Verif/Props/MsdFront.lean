import Verif.Props.AnalysisRun
import Verif.Props.MsdRun

/-!
# C47 in runs of the front end

The mean square displacements of a run of the front end are made of the positions after the events whose number is a multiple of the
analysis interval, of those atoms that just these events move.
-/

set_option linter.unusedSectionVars false

namespace KMC
open PyRun LatticeModel Msd
open Blocker (total)

variable {K : Type} [Field K] [LinearOrder K] [IsStrictOrderedRing K] [FloorRing K]
variable {env : Env K} {n nT : Nat} {negLog : K → Option K} {cfg : Config K} {procs : List (Proc K)} {s : Sim K}
variable {ds : List (Draws K)} {o : Outside (Sim K × List (Draws K)) K} {c : PyControl K} {s' : Sim K × List (Draws K)}
  {log : List (Call (Sim K × List (Draws K)) K)}

/-- **C47** The mean square displacements of a run of the front end in which time does not decrease, set up at its start: the registered
steps never make the analysis fail. There are `m` events, `st k` is the state after `k` of them. The sums and numbers of the bins are those
of the pairs of positions of the atoms with the tracked type, where the positions of an atom are that at the start and those after the
events that move it and have a number that is a multiple of the analysis interval.

Partial: as in `C47_sums_partial`; with an interval of more than one other moves are seen only at the next such event of the atom. -/
theorem C47_front_partial (h : GoodRun env n nT negLog cfg procs s) (hm : main (ofModel env negLog) o c (s, ds) [] = (.ok s', log))
    {a : Nat} (ha : a < o.analyses)
    (hmono : ∀ k x y, run env negLog (ds.take k) s = .ok x → run env negLog (ds.take (k + 1)) s = .ok y → x.time ≤ y.time)
    (nb H B : Nat) (tMax : K) (track : String) (r0 r1 r2 : Coord K) (hH : 0 < H) (hnb : 0 < nb) (htm : 0 < tMax)
    (hbig : (s'.1.time - s.time) / (tMax / nb) < 2147483648) :
    ∃ (m : Nat) (st : Nat → Sim K) (m0 m1 : Msd K), m ≤ c.steps ∧ s'.1 = st m ∧
      (∀ k, k ≤ m → run env negLog (ds.take k) s = .ok (st k)) ∧
      make s.ms.cfg H nb tMax s.time track [r0, r1, r2] B = .ok m0 ∧
      loopM (fun A (x : Nat × K × Sim K × List (Draws K)) => A.registerStep x.2.1 x.2.2.1.ms.cfg) (log.filterMap (Call.register? a)) m0
        = .ok m1 ∧
      let ps := pairs H (initial s.ms.cfg track s.time) []
        ((multiples c.analyse m).flatMap fun k => observed track ((st k).time, (st k).ms.cfg))
      ∀ b, b < nb →
        m1.hist[b]? = some (total ((inBin (tMax / nb) b ps).map fun y => squares r0 r1 r2 y.2.2.1 y.2.1.1)) ∧
        m1.binCounts[b]? = some (inBin (tMax / nb) b ps).length := by
  obtain ⟨m, st, mid, h1, h2, h3, -, -, h6, -⟩ := C42_schedule (ofModel env negLog) o c (s, ds) s' log hm
  obtain ⟨-, g2, -⟩ := C42_model env negLog s ds m st mid h2
  have hle : ∀ j k, j ≤ k → k ≤ m → (st j).1.time ≤ (st k).1.time := by
    intro j k hjk hk
    induction k, hjk using Nat.le_induction with
    | base => exact le_rfl
    | succ k _ ih =>
      exact (ih (by omega)).trans (hmono k _ _ (g2 k (by omega)).1 (g2 (k + 1) hk).1)
  have h0 : (st 0).1 = s := by rw [h2.start]
  have hsized : ∀ k, 0 < k → k ≤ m → Sized n (st k).1.ms.cfg := by
    intro k hk hkm
    obtain ⟨k, rfl⟩ : ∃ j, k = j + 1 := ⟨k - 1, by omega⟩
    obtain ⟨d, dl, e1, e2, e3⟩ := ofModel_propagate (h2.clock k (by omega))
    obtain ⟨d', e4, e5⟩ := ofModel_single (h2.event k (by omega))
    rw [e2, e1] at e4
    obtain ⟨rfl, -⟩ := List.cons.inj e4
    exact sized_of_step (h.further (g2 k (by omega)).1) (bind_ok.2 ⟨_, e3, e5⟩)
  have hg := h.good
  obtain ⟨m0, m1, e0, e1, e2, -⟩ := C47_sums_partial s.ms.cfg n nb H B tMax s.time s'.1.time track r0 r1 r2 hg.shape.elements
    hg.shape.atomIdElements hg.shape.atomIdCoords hH hnb htm ((multiples c.analyse m).map fun k => ((st k).1.time, (st k).1.ms.cfg))
    (by
      intro x hx
      obtain ⟨k, hk, rfl⟩ := List.mem_map.1 hx
      obtain ⟨q1, q2, -⟩ := mem_multiples.1 hk
      exact hsized k q1 q2)
    (by
      rw [List.pairwise_map]
      refine (multiples_pairwise c.analyse m).imp_of_mem ?_
      intro i j _ hj hij
      exact hle i j hij.le (mem_multiples.1 hj).2.1)
    (by
      intro x hx
      obtain ⟨k, hk, rfl⟩ := List.mem_map.1 hx
      have hkm := (mem_multiples.1 hk).2.1
      refine ⟨?_, ?_⟩
      · rw [← h0]
        exact hle 0 k (Nat.zero_le _) hkm
      · rw [h3]
        exact hle k m hkm le_rfl) hbig
  refine ⟨m, fun k => (st k).1, m0, m1, h1, by rw [h3], fun k hk => (g2 k hk).1, e0, ?_, ?_⟩
  · rw [h6 a ha]
    rw [loopM_mapped] at e1 ⊢
    exact e1
  · intro ps b hb
    rw [List.flatMap_map] at e2
    exact ⟨(e2 b hb).1, (e2 b hb).2.2⟩

/-- The sums and numbers of the bins for the atoms of a type, in a run of four events of the front end from a state of the ring, with
the analysis interval `w`. -/
def ringMsd (w : Nat) (track : String) (s : Sim ℚ) : Option (List (Coord ℚ) × List Nat) :=
  match main (ofModel (Sample.env Sample.ring) Sample.lg) ⟨false, 1, [], fun _ => .ok false⟩
      { Sample.control 4 (some 1) none with analyse := w } (s, List.replicate 4 Sample.half) [] with
  | (.ok _, log) => (do
      let m ← make s.ms.cfg 4 2 4 s.time track [⟨1, 0, 0⟩, ⟨0, 1, 0⟩, ⟨0, 0, 1⟩] 0
      let m ← loopM (fun (A : Msd ℚ) (x : Nat × ℚ × Sim ℚ × List (Draws ℚ)) => A.registerStep x.2.1 x.2.2.1.ms.cfg)
        (log.filterMap (Call.register? 0)) m
      return (m.hist, m.binCounts)).toOption
  | _ => none

set_option synthInstance.maxSize 1000 in
/-- **C47** The analysis interval changes the mean square displacements: four hops on a ring exchange an `A` with one `B` after the other.
With the interval one the first bin of type `B` has the mean 8/5, and with the interval two it has 5/2, for the same run. -/
theorem C47_interval : ∃ cfg procs s, GoodRun (Sample.env Sample.ring) 4 4 Sample.lg cfg procs s ∧
    ringMsd 1 "B" s = some ([⟨8, 0, 0⟩, 0], [5, 0]) ∧ ringMsd 2 "B" s = some ([⟨5, 0, 0⟩, 0], [2, 0]) := by
  obtain ⟨cfg, procs, s, -, -, h, hf⟩ := Sample.good_run (env := Sample.env Sample.ring) (P := Sample.ring)
    (els := Sample.ringElements) (procs := Sample.hops) (ds := []) (f := fun s => (ringMsd 1 "B" s, ringMsd 2 "B" s))
    (b := (some ([⟨8, 0, 0⟩, 0], [5, 0]), some ([⟨5, 0, 0⟩, 0], [2, 0]))) 4 (by decide +kernel) rfl (by decide +kernel)
    (by decide +kernel)
  simp only [Prod.mk.injEq] at hf
  exact ⟨cfg, procs, s, h, hf.1, hf.2⟩

/-- Non-vacuity of `C47_front_partial`: the run of `C47_interval` ends properly, and there are pairs. -/
example : ∃ cfg procs s, GoodRun (Sample.env Sample.ring) 4 4 Sample.lg cfg procs s ∧ ringMsd 1 "A" s = some ([⟨34, 0, 0⟩, 0], [9, 0]) := by
  obtain ⟨cfg, procs, s, -, -, h, hf⟩ := Sample.good_run (env := Sample.env Sample.ring) (P := Sample.ring)
    (els := Sample.ringElements) (procs := Sample.hops) (ds := []) (f := fun s => ringMsd 1 "A" s)
    (b := some ([⟨34, 0, 0⟩, 0], [9, 0])) 4 (by decide +kernel) rfl (by decide +kernel) (by decide +kernel)
  exact ⟨cfg, procs, s, h, hf⟩

end KMC
