import Verif.Props.Event
import Verif.Props.Reverse
import Mathlib.Algebra.BigOperators.Group.List.Basic

/-!
# C17 along runs: the numbers of particles follow from the numbers of events
-/

set_option linter.unusedSectionVars false

namespace KMC

variable {K : Type _} [Field K] [LinearOrder K] [IsStrictOrderedRing K]
variable {env : Env K} {n nT : Nat} {negLog : K → Option K} {cfg : Config K} {procs : List (Proc K)} {s s' : Sim K}

open LatticeModel

/-- A run from one state to another in which the processes with the given numbers are performed, in this order. -/
inductive Performed (env : Env K) (negLog : K → Option K) : Sim K → List Nat → Sim K → Prop
  | nil (s : Sim K) : Performed env negLog s [] s
  | cons {s s1 s' : Sim K} {d : Draws K} {j site : Nat} {ps : List (Proc K)} {js : List Nat}
      (sel : select s.ms.procs s.table d.process d.site = .ok (j, site, ps)) (stepped : step env negLog s d = .ok s1)
      (rest : Performed env negLog s1 js s') : Performed env negLog s (j :: js) s'

theorem step_select {s1 : Sim K} {d : Draws K} (h : step env negLog s d = .ok s1) :
    ∃ j site ps, select s.ms.procs s.table d.process d.site = .ok (j, site, ps) := by
  obtain ⟨s0, h0, -⟩ := step_single h
  unfold singleStep at h0
  obtain ⟨r, hr, -⟩ := bind_ok.1 h0
  exact ⟨r.1, r.2.1, r.2.2, hr⟩

/-- Every run performs some processes. -/
theorem run_performed : ∀ {ds : List (Draws K)} {s s' : Sim K}, run env negLog ds s = .ok s' →
    ∃ js, Performed env negLog s js s' ∧ js.length = ds.length := by
  intro ds
  induction ds with
  | nil => intro s s' h; cases h; exact ⟨[], .nil _, rfl⟩
  | cons d ds ih =>
    intro s s' h
    unfold run at h
    rw [loopM_cons] at h
    obtain ⟨s1, h1, h2⟩ := bind_ok.1 h
    obtain ⟨js, h3, h4⟩ := ih h2
    obtain ⟨j, site, ps, h5⟩ := step_select h1
    exact ⟨j :: js, .cons h5 h1 h3, by rw [List.length_cons, List.length_cons, h4]⟩

/-- The change of type `k` by process number `j`. -/
def netOf (procs : List (Proc K)) (j k : Nat) : Int := ((procs[j]?).map (fun p => p.net k)).getD 0

/-- **C17** Along a run the number of particles of a type changes by the sum of what the performed processes change. -/
theorem C17_along (h : GoodRun env n nT negLog cfg procs s) {js : List Nat} (hp : Performed env negLog s js s') :
    (∀ j ∈ js, j < procs.length) ∧ ∀ k, s'.ms.cfg.total k = s.ms.cfg.total k + (js.map (fun j => netOf procs j k)).sum := by
  induction hp with
  | nil s => exact ⟨by simp, by simp⟩
  | @cons s s1 s' d j site ps js sel stepped rest ih =>
    obtain ⟨i1, i2⟩ := ih (h.step stepped)
    obtain ⟨s0, hs0, hms⟩ := step_single stepped
    obtain ⟨p, hp, ht⟩ := C17_total h sel hs0
    refine ⟨?_, fun k => ?_⟩
    · intro i hi
      rcases List.mem_cons.1 hi with rfl | hi
      · exact (List.getElem?_eq_some_iff.1 hp).1
      · exact i1 i hi
    · have e : netOf procs j k = p.net k := by unfold netOf; rw [show procs[j]? = some p from hp]; rfl
      rw [i2 k, ← hms, ht k, List.map_cons, List.sum_cons, e]
      ring

theorem sum_by_count (f : Nat → Int) {m : Nat} : ∀ {js : List Nat}, (∀ j ∈ js, j < m) →
    (js.map f).sum = ((List.range m).map (fun j => (js.count j : Int) * f j)).sum := by
  intro js
  induction js with
  | nil => intro _; simp
  | cons i js ih =>
    intro h
    rw [List.map_cons, List.sum_cons, ih fun j hj => h j (List.mem_cons_of_mem _ hj)]
    have hi : i < m := h i List.mem_cons_self
    have e1 : ∀ j, ((i :: js).count j : Int) * f j = (js.count j : Int) * f j + if j = i then f j else 0 := by
      intro j
      rw [List.count_cons]
      by_cases hj : j = i
      · subst hj; simp; ring
      · rw [if_neg hj, if_neg (by simpa using fun h => hj h.symm)]; simp
    simp only [e1]
    rw [List.sum_map_add]
    have e2 : ((List.range m).map (fun j => if j = i then f j else 0)).sum = f i := by
      rw [List.sum_map_ite_eq, List.count_eq_one_of_mem List.nodup_range (List.mem_range.2 hi)]
      simp
    rw [e2]
    ring

/-- **C17** The number of particles after a run follows from how often each process was performed, whatever the order and the
sites. -/
theorem C17_stoichiometry (h : GoodRun env n nT negLog cfg procs s) {js : List Nat} (hp : Performed env negLog s js s') (k : Nat) :
    s'.ms.cfg.total k =
      s.ms.cfg.total k + ((List.range procs.length).map (fun j => (js.count j : Int) * netOf procs j k)).sum := by
  obtain ⟨h1, h2⟩ := C17_along h hp
  rw [h2 k, sum_by_count _ h1]

/-- **C17** What every process conserves is conserved for ever, also for weighted sums of types (charge, mass, sites of a
kind). -/
theorem C17_weighted (h : GoodRun env n nT negLog cfg procs s) (types : List Nat) (a : Nat → Int)
    (ha : ∀ p ∈ procs, (types.map (fun k => a k * p.net k)).sum = 0) :
    (types.map (fun k => a k * s.ms.cfg.total k)).sum = (types.map (fun k => a k * cfg.total k)).sum := by
  obtain ⟨cfg1, procs1, hprep, hok, ⟨⟨A, hI⟩, -⟩, hkept⟩ := h.inv
  refine hkept (fun c => (types.map (fun k => a k * c.total k)).sum = (types.map (fun k => a k * cfg.total k)).sum) ⟨?_, ?_⟩ ?_
  · intro c c' hcc hc
    rw [← hc]
    unfold Config.total
    rw [hcc]
  · intro ms j site q sk c1 c2 aff hinv hev hc
    obtain ⟨p0, hp0, hf⟩ := World.source hprep hinv hev.proc
    have hw := h.input.processes p0 (List.mem_of_getElem? hp0)
    obtain ⟨A, hI⟩ := hinv
    rw [← hc]
    simp only [hev.total hI.good, net_of_from hf hw, mul_add]
    rw [List.sum_map_add, ha p0 (List.mem_of_getElem? hp0), add_zero]
  · unfold Config.total
    rw [(lists_of h.input hprep.1).rest]

/-- Non-vacuity: two events turn two `A` on one site into two `B`. -/
example : ∃ (cfg : Config ℚ) (procs : List (Proc ℚ)) (s s' : Sim ℚ) (js : List Nat),
    GoodRun (Sample.env (Sample.chain 3 true)) 3 4 Sample.lg cfg procs s ∧
    Performed (Sample.env (Sample.chain 3 true)) Sample.lg s js s' ∧ js.length = 2 ∧
    (s.ms.cfg.total 1, s.ms.cfg.total 2) = (2, 2) ∧ (s'.ms.cfg.total 1, s'.ms.cfg.total 2) = (0, 4) ∧
    ∀ p ∈ procs, ([1, 2].map (fun k => (1 : Int) * p.net k)).sum = 0 := by
  obtain ⟨cfg, procs, s, -, h2, h, h'⟩ := Sample.good_run (env := Sample.env (Sample.chain 3 true))
    (P := Sample.chain 3 true) (els := [["A", "A"], ["B"], ["B"]]) (procs := Sample.oneOf) (ds := [])
    (f := fun s => ((s.ms.cfg.total 1, s.ms.cfg.total 2),
      ((run (Sample.env (Sample.chain 3 true)) Sample.lg [Sample.half, Sample.half] s).map
        (fun s => (s.ms.cfg.total 1, s.ms.cfg.total 2))).toOption))
    (b := ((2, 2), some (0, 4))) 3 (by decide +kernel) rfl (by decide +kernel) (by decide +kernel)
  rw [Prod.mk.injEq] at h'
  cases hr : run (Sample.env (Sample.chain 3 true)) Sample.lg [Sample.half, Sample.half] s with
  | error e => rw [hr] at h'; cases h'.2
  | ok s' =>
    rw [hr] at h'
    obtain ⟨js, h3, h4⟩ := run_performed hr
    exact ⟨cfg, procs, s, s', js, h, h3, h4, h'.1, Option.some.inj h'.2,
      Sample.all_of_map (x := Sample.oneOf) (P := fun p => ([1, 2].map (fun k => (1 : Int) * p.net k)).sum = 0)
        (by decide +kernel) h2⟩

end KMC
