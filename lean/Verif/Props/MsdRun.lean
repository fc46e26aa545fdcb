import Verif.Props.Msd
import Verif.Props.Event
import Verif.Samples.Runs

/-!
# C47: mean square displacements in runs and in the front end

`C47_run_partial`: the analysis of any run of a well formed model. `C47_setup`, `C47_results`: what the Python class sets
up and makes of the sums. `C47_zero_steps`, `C47_zero_time`, `C47_cast`, `C47_cutoff_fails`: what it accepts and then
fails on.
-/

set_option linter.unusedSectionVars false

namespace KMC
namespace Msd

open Blocker (total)
open LatticeModel

section
variable {K : Type _} [Field K] [LinearOrder K] [IsStrictOrderedRing K] [FloorRing K]
variable {env : Env K} {n nT : Nat} {negLog : K → Option K} {cfg : Config K} {procs : List (Proc K)} {s : Sim K}

/-- After a step the analysis finds the sizes it needs. -/
theorem sized_of_step (h : GoodRun env n nT negLog cfg procs s) {d : Draws K} {s' : Sim K} (hs : step env negLog s d = .ok s') :
    Sized n s'.ms.cfg := by
  have hg := (h.step hs).good
  refine ⟨hg.shape.atomIdElements, hg.shape.atomIdCoords, ?_⟩
  unfold step at hs
  obtain ⟨s1, h1, h2⟩ := bind_ok.1 hs
  have hms : s1.ms = s.ms ∧ s1.table = s.table := by
    unfold propagateTime at h1
    obtain ⟨r, -, h1⟩ := bind_ok.1 h1
    obtain ⟨dt, -, h1⟩ := bind_ok.1 h1
    obtain rfl := Except.ok.inj h1
    exact ⟨rfl, rfl⟩
  have h3 : ∃ s'', singleStep env s d.process d.site = .ok s'' ∧ s''.ms = s'.ms := by
    unfold singleStep at h2 ⊢
    rw [hms.1, hms.2] at h2
    obtain ⟨e, e1, h2⟩ := bind_ok.1 h2
    obtain ⟨ms1, e2, h2⟩ := bind_ok.1 h2
    obtain ⟨ms2, e3, h2⟩ := bind_ok.1 h2
    obtain rfl := Except.ok.inj h2
    exact ⟨_, bind_ok.2 ⟨e, e1, bind_ok.2 ⟨ms1, e2, bind_ok.2 ⟨ms2, e3, rfl⟩⟩⟩, rfl⟩
  obtain ⟨s'', h4, h5⟩ := h3
  obtain ⟨r, hr⟩ : ∃ r, select s.ms.procs s.table d.process d.site = .ok r := by
    unfold singleStep at h4
    obtain ⟨r, hr, -⟩ := bind_ok.1 h4
    exact ⟨r, hr⟩
  obtain ⟨p, ml, -, -, -, -, hids, -⟩ := C23_report h hr h4
  rw [h5] at hids
  intro id hid
  have : some id ∈ s'.ms.cfg.movedAtomIDs.map some := List.mem_map.2 ⟨id, hid, rfl⟩
  rw [hids] at this
  obtain ⟨x, -, hx⟩ := List.mem_map.1 this
  exact h.good.idsLt id (List.mem_of_getElem? hx)

/-- C47. The analysis is set up at a state of a run of a well formed model and registers the following states; time
does not decrease. It does not fail, and the sums and numbers of the bins are those of the pairs of positions of the
atoms with the tracked type. Partial: as in `C47_sums_partial`. -/
theorem C47_run_partial (h : GoodRun env n nT negLog cfg procs s) (st : List (Sim K))
    (hst : (s :: st).IsChain fun a b => ∃ d, step env negLog a d = .ok b)
    (hmono : (s :: st).IsChain fun a b => a.time ≤ b.time) (nb H B : Nat) (tMax t1 : K) (track : String) (r0 r1 r2 : Coord K)
    (hH : 0 < H) (hnb : 0 < nb) (htm : 0 < tMax) (ht1 : ∀ x ∈ st, x.time ≤ t1) (hbig : (t1 - s.time) / (tMax / nb) < 2147483648) :
    ∃ m0 m, make s.ms.cfg H nb tMax s.time track [r0, r1, r2] B = .ok m0 ∧
      loopM (fun m (x : Sim K) => m.registerStep x.time x.ms.cfg) st m0 = .ok m ∧
      let ps := pairs H (initial s.ms.cfg track s.time) [] (st.flatMap fun x => observed track (x.time, x.ms.cfg))
      ∀ b, b < nb →
        m.hist[b]? = some (total ((inBin (tMax / nb) b ps).map fun y => squares r0 r1 r2 y.2.2.1 y.2.1.1)) ∧
        m.binCounts[b]? = some (inBin (tMax / nb) b ps).length := by
  have hsized : ∀ (st : List (Sim K)) (s : Sim K), GoodRun env n nT negLog cfg procs s →
      ((s :: st).IsChain fun a b => ∃ d, step env negLog a d = .ok b) → ∀ x ∈ st, Sized n x.ms.cfg := by
    intro st
    induction st with
    | nil => intro s _ _ x hx; cases hx
    | cons a st ih =>
      intro s h hc x hx
      rw [List.isChain_cons_cons] at hc
      obtain ⟨⟨d, hd⟩, hc⟩ := hc
      rcases List.mem_cons.1 hx with rfl | hx
      · exact sized_of_step h hd
      · exact ih a (h.step hd) hc x hx
  have htrans : (s :: st).Pairwise fun a b => a.time ≤ b.time := by
    have : Trans (fun a b : Sim K => a.time ≤ b.time) (fun a b : Sim K => a.time ≤ b.time) (fun a b : Sim K => a.time ≤ b.time) :=
      ⟨fun h1 h2 => le_trans h1 h2⟩
    exact List.isChain_iff_pairwise.1 hmono
  rw [List.pairwise_cons] at htrans
  have hg := h.good
  obtain ⟨m0, m, e0, e1, e2, -⟩ := C47_sums_partial s.ms.cfg n nb H B tMax s.time t1 track r0 r1 r2 hg.shape.elements
    hg.shape.atomIdElements hg.shape.atomIdCoords hH hnb htm (st.map fun x => (x.time, x.ms.cfg))
    (by
      intro x hx
      obtain ⟨y, hy, rfl⟩ := List.mem_map.1 hx
      exact hsized st s h hst y hy)
    (by rw [List.pairwise_map]; exact htrans.2)
    (by
      intro x hx
      obtain ⟨y, hy, rfl⟩ := List.mem_map.1 hx
      exact ⟨htrans.1 y hy, ht1 y hy⟩) hbig
  refine ⟨m0, m, e0, ?_, ?_⟩
  · rw [← e1]
    clear e1 hst hmono htrans ht1 e2
    generalize m0 = m0
    induction st generalizing m0 with
    | nil => rfl
    | cons a st ih =>
      rw [List.map_cons, loopM_cons, loopM_cons]
      cases m0.registerStep a.time a.ms.cfg with
      | error e => rfl
      | ok m1 => exact ih m1
  · intro ps b hb
    have hps : (st.map fun x => (x.time, x.ms.cfg)).flatMap (observed track) =
        st.flatMap fun x => observed track (x.time, x.ms.cfg) := by rw [List.flatMap_map]
    rw [hps] at e2
    exact ⟨(e2 b hb).1, (e2 b hb).2.2⟩

end

/-! ### The Python class -/

section
variable {K : Type _} [Field K] [LinearOrder K] [IsStrictOrderedRing K] [FloorRing K]

/-- The Cartesian vector with fractional coordinates `d` for the three cell vectors. -/
def cartesian (cell : Coord K × Coord K × Coord K) (d : Coord K) : Coord K :=
  ⟨d.x * cell.1.x + d.y * cell.2.1.x + d.z * cell.2.2.x, d.x * cell.1.y + d.y * cell.2.1.y + d.z * cell.2.2.y,
   d.x * cell.1.z + d.y * cell.2.1.z + d.z * cell.2.2.z⟩

/-- C47. For accepted parameters with a history of at least one step and a type of the configuration, setup makes an
analysis whose squares are those of the components of the Cartesian displacement; its bins are `n` intervals that
divide the largest time, and it has no blocks. -/
theorem C47_setup (steps bins : Option Int) (tMax : Option K) (track : String) (m : MsdInput K)
    (hm : MsdInput.make steps bins tMax track = .ok m) (hsteps : steps ≠ some 0) (cfg : Config K) (N : Nat) (hN : cfg.Shape N)
    (htr : track ∈ cfg.possibleTypes.map (·.1)) (time : K) (cell : Coord K × Coord K × Coord K) :
    0 < m.nBins ∧ 0 < m.steps ∧ (tMax ≠ some 0 → 0 < m.tMax) ∧
    ∃ s r0 r1 r2, m.setup time cfg cell = .ok s ∧ make cfg m.steps m.nBins m.tMax time track [r0, r1, r2] 0 = .ok s ∧
      ∀ a b, squares r0 r1 r2 a b = square (cartesian cell (a - b)) := by
  unfold MsdInput.make at hm
  obtain ⟨k, e1, hm⟩ := bind_ok.1 hm
  obtain ⟨nb, e2, hm⟩ := bind_ok.1 hm
  obtain ⟨t, e3, hm⟩ := bind_ok.1 hm
  split at hm
  · cases hm
  rename_i hnb
  obtain rfl := Except.ok.inj hm
  have hk : 0 < k := by
    unfold MsdInput.checkPositiveInteger at e1
    split at e1
    · cases e1
    · rename_i hneg
      obtain rfl := Except.ok.inj e1
      cases steps with
      | none => simp
      | some z =>
        have : z ≠ 0 := fun h => hsteps (by rw [h])
        simp only [Option.getD_some] at hneg ⊢
        omega
  have ht : tMax ≠ some 0 → 0 < t := by
    intro h0
    unfold Analysis.checkPositiveFloat at e3
    split at e3
    · cases e3
    · rename_i hneg
      obtain rfl := Except.ok.inj e3
      cases tMax with
      | none => simp
      | some z =>
        have : z ≠ 0 := fun h => h0 (by rw [h])
        simp only [Option.getD_some] at hneg ⊢
        exact lt_of_le_of_ne (not_lt.1 hneg) (Ne.symm this)
  obtain ⟨s, e4, -⟩ := make_holds cfg N nb k 0 t time track ⟨cell.1.x, cell.2.1.x, cell.2.2.x⟩ ⟨cell.1.y, cell.2.1.y, cell.2.2.y⟩
    ⟨cell.1.z, cell.2.1.z, cell.2.2.z⟩ hN.elements hN.atomIdElements hN.atomIdCoords hk (by omega)
  refine ⟨by show 0 < nb; omega, hk, ht, s, _, _, _, ?_, e4, ?_⟩
  · unfold MsdInput.setup
    rw [if_pos htr]
    exact e4
  · intro a b
    rfl

/-- C47. The results of a bin with the values `l`, if there are any, are their means: in the three directions, in
the three planes and in space. -/
theorem C47_results (s : Msd K) (b : Nat) (l : List (Coord K)) (hl : l ≠ []) (h1 : s.hist[b]? = some (total l))
    (h2 : s.binCounts[b]? = some l.length) :
    (MsdInput.results s)[b]? = some [(l.map fun c => c.x).sum / l.length, (l.map fun c => c.y).sum / l.length,
      (l.map fun c => c.z).sum / l.length, (l.map fun c => c.x + c.y).sum / l.length, (l.map fun c => c.x + c.z).sum / l.length,
      (l.map fun c => c.y + c.z).sum / l.length, (l.map fun c => c.x + c.y + c.z).sum / l.length] := by
  have hb : b < s.hist.length := (List.getElem?_eq_some_iff.1 h1).1
  have hlen : l.length ≠ 0 := by
    intro h0
    exact hl (List.length_eq_zero_iff.1 h0)
  unfold MsdInput.results
  rw [List.getElem?_map, List.getElem?_range hb]
  simp only [Option.map_some, List.getD_eq_getElem?_getD, h1, h2, Option.getD_some, if_neg hlen, total, List.sum_map_add]

/-- C47. A bin without values has zeros. -/
theorem C47_results_empty (s : Msd K) (b : Nat) (h1 : s.hist[b]? = some 0) (h2 : s.binCounts[b]? = some 0) :
    (MsdInput.results s)[b]? = some [0, 0, 0, 0, 0, 0, 0] := by
  have hb : b < s.hist.length := (List.getElem?_eq_some_iff.1 h1).1
  unfold MsdInput.results
  rw [List.getElem?_map, List.getElem?_range hb]
  have h0 : (0 : Coord K) = ⟨0, 0, 0⟩ := rfl
  simp only [Option.map_some, List.getD_eq_getElem?_getD, h1, h2, Option.getD_some, h0]
  simp

/-- C47. A history of zero steps is accepted by the constructor, and then every setup fails. -/
theorem C47_zero_steps (bins : Nat) (hb : bins ≠ 0) (track : String) :
    ∃ m : MsdInput K, MsdInput.make (some 0) (some bins) none track = .ok m ∧
      ∀ time cfg cell, ∃ e, m.setup time cfg cell = .error e := by
  refine ⟨⟨0, bins, 100, track⟩, ?_, ?_⟩
  · unfold MsdInput.make MsdInput.checkPositiveInteger Analysis.checkPositiveFloat
    have h : ¬ ((100 : K) < 0) := not_lt.2 (by norm_num)
    have h' : ¬ ((bins : Int) < 0) := by omega
    simp [hb, h, h']
  · intro time cfg cell
    unfold MsdInput.setup make
    split
    · exact ⟨.exception, rfl⟩
    · exact ⟨.exception, rfl⟩

/-- C47. With a history of one step there are no rows of counters, and the printing of the results fails. -/
theorem C47_cutoff_fails (cfg : Config K) (nb B : Nat) (tMax t0 : K) (track : String) (abc : List (Coord K)) (s : Msd K)
    (hs : make cfg 1 nb tMax t0 track abc B = .ok s) : MsdInput.safeCutoff s = .error .indexError := by
  unfold make at hs
  split at hs
  · cases hs
  split at hs
  · cases hs
  obtain ⟨hh, -, hs⟩ := bind_ok.1 hs
  obtain rfl := Except.ok.inj hs
  rfl

end

namespace Witness

/-- One atom at `x`, which has moved. -/
def cfg (x : ℚ) : Config ℚ :=
  { coords := [0], elements := [["A"]], types := [[0, 1]], typeNames := ["*", "A"], possibleTypes := [("*", 0), ("A", 1)],
    atomId := [0], atomIdElements := ["A"], atomIdCoords := [⟨x, 0, 0⟩], matchLists := [[]], movedIds := [0],
    moveVectors := [⟨1, 0, 0⟩], nMoved := 1, latestProcess := 0, latestSite := 0 }

def cell : Coord ℚ × Coord ℚ × Coord ℚ := (⟨2, 0, 0⟩, ⟨0, 1, 0⟩, ⟨0, 0, 1⟩)

/-- The analysis of one atom with the given parameters. -/
def analyse (steps bins : Int) (tMax : ℚ) (xs : List (ℚ × ℚ)) : M (Msd ℚ) := do
  let m ← MsdInput.make (some steps) (some bins) (some tMax) "A"
  let s ← m.setup 0 (cfg 0) cell
  loopM (fun (s : Msd ℚ) (x : ℚ × ℚ) => s.registerStep x.1 (cfg x.2)) xs s

end Witness

/-- C47. A largest time of zero is accepted, and the first step fails. -/
theorem C47_zero_time : Witness.analyse 5 10 0 [] ≠ .error .overflow ∧ Witness.analyse 5 10 0 [(1, 1)] = .error .overflow := by
  decide +kernel

/-- C47. A time difference of 2^31 bins or more is converted to an `int` that cannot hold it. -/
theorem C47_cast : Witness.analyse 5 1 1 [(2147483648, 1)] = .error .overflow ∧
    (Witness.analyse 5 1 1 [(2147483647, 1)]).toOption.isSome = true := by
  decide +kernel

set_option synthInstance.maxSize 1000 in
/-- A history of three steps: the positions 0, 1, 2, 4 at the times 0, 1, 2, 3. The cell is two wide. -/
example : (Witness.analyse 3 3 3 [(1, 1), (2, 2), (3, 4)]).map (fun s =>
      (s.hist, s.binCounts, s.stepCounts, s.stepBinCounts, MsdInput.results s)) =
    .ok ([0, ⟨24, 0, 0⟩, ⟨52, 0, 0⟩], [0, 3, 2], [3, 2, 0], [[0, 3, 0], [0, 0, 2]],
      [[0, 0, 0, 0, 0, 0, 0], [8, 0, 0, 8, 8, 0, 8], [26, 0, 0, 26, 26, 0, 26]]) := by
  decide +kernel

set_option synthInstance.maxSize 1000 in
/-- Non-vacuity of `C47_run_partial`: the atom on the ring hops twice, and the analysis of the two steps after its first
hop is the one of the theorem. -/
example : ∃ (cfg : Config ℚ) (procs : List (Proc ℚ)) (s a b : Sim ℚ),
    GoodRun (Sample.env Sample.ring) 4 4 Sample.lg cfg procs s ∧
    ([s, a, b].IsChain fun x y => ∃ d, step (Sample.env Sample.ring) Sample.lg x d = .ok y) ∧
    ([s, a, b].IsChain fun x y => x.time ≤ y.time) ∧
    (do
      let m ← make s.ms.cfg 3 2 (1 / 2) s.time "A" [⟨1, 0, 0⟩, ⟨0, 1, 0⟩, ⟨0, 0, 1⟩] 0
      let m ← loopM (fun (m : Msd ℚ) (x : Sim ℚ) => m.registerStep x.time x.ms.cfg) [a, b] m
      return (m.hist, m.binCounts, m.stepCounts)) = .ok ([⟨2, 0, 0⟩, ⟨4, 0, 0⟩], [2, 1], [2, 1, 0]) := by
  obtain ⟨cfg, procs, s, -, -, h, h'⟩ := Sample.good_run (env := Sample.env Sample.ring) (P := Sample.ring)
    (els := Sample.ringElements) (procs := Sample.hops) (ds := [Sample.half])
    (f := fun s => (step (Sample.env Sample.ring) Sample.lg s Sample.half >>= fun a =>
      step (Sample.env Sample.ring) Sample.lg a Sample.half >>= fun b => do
        let m ← make s.ms.cfg 3 2 (1 / 2) s.time "A" [⟨1, 0, 0⟩, ⟨0, 1, 0⟩, ⟨0, 0, 1⟩] 0
        let m ← loopM (fun (m : Msd ℚ) (x : Sim ℚ) => m.registerStep x.time x.ms.cfg) [a, b] m
        return (decide (s.time ≤ a.time ∧ a.time ≤ b.time), m.hist, m.binCounts, m.stepCounts)))
    (b := .ok (true, [⟨2, 0, 0⟩, ⟨4, 0, 0⟩], [2, 1], [2, 1, 0]))
    4 (by decide +kernel) rfl (by decide +kernel) (by decide +kernel)
  obtain ⟨a, ha, h'⟩ := bind_ok.1 h'
  obtain ⟨b, hb, h'⟩ := bind_ok.1 h'
  obtain ⟨m0, e0, h'⟩ := bind_ok.1 h'
  obtain ⟨m, e1, h'⟩ := bind_ok.1 h'
  have h' := Except.ok.inj h'
  simp only [Prod.mk.injEq, decide_eq_true_eq] at h'
  refine ⟨cfg, procs, s, a, b, h, ?_, ?_, ?_⟩
  · simp only [List.isChain_cons_cons]
    exact ⟨⟨_, ha⟩, ⟨_, hb⟩, List.isChain_singleton _⟩
  · simp only [List.isChain_cons_cons]
    exact ⟨h'.1.1, h'.1.2, List.isChain_singleton _⟩
  · refine bind_ok.2 ⟨m0, e0, bind_ok.2 ⟨m, e1, ?_⟩⟩
    rw [h'.2.1, h'.2.2.1, h'.2.2.2]
    rfl

end Msd
end KMC
