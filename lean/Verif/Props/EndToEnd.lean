import Verif.Lemmas.Bounded
import Verif.Lemmas.OneEach
import Verif.Lemmas.Prepare
import Verif.Props.BucketProcess
import Verif.Props.Equidistant
import Verif.Props.RunLoop

/-!
# Properties C26 and C52: models accepted by the front end run to the end
-/

set_option linter.unusedSectionVars false

namespace KMC

variable {K : Type _} [Field K] [LinearOrder K] [IsStrictOrderedRing K]
variable {env : Env K} {n nT : Nat} {negLog : K → Option K} {cfg : Config K} {procs : List (Proc K)} {s : Sim K}

open LatticeModel PyRun

/-! ### C26 with few enough particles -/

/-- **C26** With few enough particles, a single step always ends properly in a state with an available site: nothing
overflows. This is for bucket processes as well. -/
theorem C26_step_bounded (h : GoodRun env n nT negLog cfg procs s) (hr : PositiveRates env procs) {M : Nat}
    (hb : Bounded M cfg procs) (hf : FewEnough M procs)
    (ha : Interactions.totalAvailableSites s.ms.procs ≠ 0) (u1 u2 : K) (hu1 : 0 < u1) (hu1' : u1 < 1)
    (hu2 : 0 ≤ u2) (hu2' : u2 < 1) : ∃ s', singleStep env s u1 u2 = .ok s' := by
  obtain ⟨hsel, hpos⟩ := sumRates_pos h hr ha
  obtain ⟨i, p, k, site, procs', he, -⟩ := C27_only_possible_events_partial s.ms.procs hsel hpos u1 u2 hu1.le hu1' hu2
    hu2' (.inl hu1)
  obtain ⟨cfg1, procs1, hprep, hok, ⟨hI, htab⟩, hkept⟩ := h.inv
  rw [← htab] at he
  have hk := crowd_kept h.input hprep M
  exact World.singleStep_bounded hok hI hf.1 (prepared_need hprep hf) hk
    (hkept _ hk (crowd_start h.input hprep hb)) he

/-- **C26** With few enough particles the constructor ends properly, when the insertion of wildcards goes through. -/
theorem C26_init_bounded (h : WellFormed env n nT cfg procs)
    (hcu : env.useCustomRates = true → CustomRatesOk env n nT cfg procs) {M : Nat}
    (hb : Bounded M cfg procs) (hf : FewEnough M procs) {cfg1 : Config K} {procs1 : List (Proc K)}
    (hprep : Prepared env cfg procs cfg1 procs1) : ∃ s, LatticeModel.init env cfg procs = .ok s := by
  obtain ⟨ms, hms⟩ := initialMatching_bounded h hcu hprep hb hf
  unfold LatticeModel.init
  rw [hms, ok_bind]
  exact ⟨_, rfl⟩

/-- One particle per site is few enough for all processes. -/
theorem bounded_one (h1 : ∀ els ∈ cfg.elements, els.length = 1) (hb : ∀ p ∈ procs, p.Balanced) :
    Bounded 1 cfg procs ∧ FewEnough 1 procs :=
  ⟨.inl ⟨fun els hels => (h1 els hels).le, fun p hp e he => (hb p hp e he).le⟩, one_pos, fun p _ => by
    rw [one_pow]; norm_num⟩

/-! ### C26 with one particle per site -/

/-- **C26** With one particle per site and processes that keep it so, a single step always ends properly in a state
with an available site: nothing overflows. -/
theorem C26_step_ordinary (h : GoodRun env n nT negLog cfg procs s) (hr : PositiveRates env procs)
    (h1 : ∀ els ∈ cfg.elements, els.length = 1) (hb : ∀ p ∈ procs, p.Balanced)
    (ha : Interactions.totalAvailableSites s.ms.procs ≠ 0) (u1 u2 : K) (hu1 : 0 < u1) (hu1' : u1 < 1)
    (hu2 : 0 ≤ u2) (hu2' : u2 < 1) : ∃ s', singleStep env s u1 u2 = .ok s' := by
  obtain ⟨hsel, hpos⟩ := sumRates_pos h hr ha
  obtain ⟨i, p, k, site, procs', he, -⟩ := C27_only_possible_events_partial s.ms.procs hsel hpos u1 u2 hu1.le hu1' hu2
    hu2' (.inl hu1)
  obtain ⟨cfg1, procs1, hprep, hok, ⟨hI, htab⟩, hkept⟩ := h.inv
  rw [← htab] at he
  have hk := one_kept h.input hprep hb
  exact World.singleStep_one hok hI hk (hkept _ hk (one_start h.input hprep h1)) he

/-- **C26** With one particle per site the constructor ends properly, when the coordinates of processes with moves and
a single basis site are those of sites. -/
theorem C26_init_ordinary [FloorRing K] (h : WellFormed env n nT cfg procs)
    (hcu : env.useCustomRates = true → CustomRatesOk env n nT cfg procs)
    (h1 : ∀ els ∈ cfg.elements, els.length = 1) (P : PyLattice K) (hL : env.L = P.map) (hc : cfg.coords = P.sites)
    (hp : env.implicitWildcards = true → ∀ p ∈ procs, p.Insertable env.dist P (Interactions.maxRange procs)) :
    ∃ s, LatticeModel.init env cfg procs = .ok s := by
  obtain ⟨cfg1, procs1, hprep⟩ := prepared_of_sites h P hL hc hp
  obtain ⟨ms, hms⟩ := initialMatching_one h hcu hprep h1
  unfold LatticeModel.init
  rw [hms, ok_bind]
  exact ⟨_, rfl⟩

/-- A finite time step can be drawn. -/
def LatticeModel.Draws.Finite (negLog : K → Option K) (d : Draws K) : Prop := ∃ u ∈ d.time, ∃ l, negLog u = some l

theorem drawStep_finite {r : K} (hr : r ≠ 0) : ∀ us : List K, (∃ u ∈ us, ∃ l, negLog u = some l) →
    ∃ dt, drawStep negLog r us = .ok dt
  | [], h => by obtain ⟨u, hu, -⟩ := h; simp at hu
  | u :: us, h => by
    unfold drawStep
    split
    · exact ⟨_, rfl⟩
    · next hn =>
      apply drawStep_finite hr us
      obtain ⟨v, hv, l, hl⟩ := h
      rcases List.mem_cons.1 hv with rfl | hv
      · unfold timeStep at hn
        rw [hl] at hn
        simp [hr] at hn
      · exact ⟨v, hv, l, hl⟩

/-- The clock can be advanced in every state with an available site. -/
theorem propagateTime_isOk (h : GoodRun env n nT negLog cfg procs s) (hr : PositiveRates env procs)
    (ha : Interactions.totalAvailableSites s.ms.procs ≠ 0) {us : List K} (hu : ∃ u ∈ us, ∃ l, negLog u = some l) :
    ∃ dt, propagateTime negLog s us = .ok { s with time := s.time + dt } := by
  have hne : s.ms.procs ≠ [] := by
    intro h0; rw [h0] at ha; exact ha rfl
  have htot := (C25_totals h).2.2.2 hne
  have hc := (C25_totals h).1
  obtain ⟨-, hpos⟩ := sumRates_pos h hr ha
  have heq : (s.ms.procs.map (·.weights.sum)).sum = sumRates s.ms.procs := by
    unfold sumRates
    congr 1
    apply List.map_congr_left
    intro p hp
    exact (hc p hp).2.2.2.symm
  obtain ⟨dt, hdt⟩ := drawStep_finite (negLog := negLog) (r := (s.ms.procs.map (·.weights.sum)).sum)
    (by rw [heq]; exact hpos.ne') us hu
  refine ⟨dt, ?_⟩
  unfold propagateTime
  rw [htot, ok_bind, hdt, ok_bind]
  rfl

theorem singleStep_time_eq (s : Sim K) (t u1 u2 : K) : singleStep env { s with time := t } u1 u2 =
    (singleStep env s u1 u2).map (fun s' => { s' with time := t }) := by
  unfold singleStep
  dsimp only
  cases select s.ms.procs s.table u1 u2 with
  | error e => rfl
  | ok r =>
    rw [ok_bind, ok_bind]
    cases performAt { s.ms with procs := r.2.2 } r.1 r.2.1 with
    | error e => rfl
    | ok m =>
      rw [ok_bind, ok_bind]
      cases rematch env m r.1 with
      | error e => rfl
      | ok m => rfl

/-! ### C52 -/

/-- **C52** A run of the front end on a model with few enough particles and positive rates, whatever the random numbers:
when the control parameters are accepted, intervals are not zero, and plug-ins neither raise nor stop the run, then it
does all steps asked for, or it ends with the exception of the front end in a state without available sites. Nothing
else happens: no fault, no overflow, no endless loop. The states are those of the back end. -/
theorem C52_run_bounded (h : GoodRun env n nT negLog cfg procs s) (hr : PositiveRates env procs) {M : Nat}
    (hb : Bounded M cfg procs) (hf : FewEnough M procs)
    (o : Outside (Sim K × List (Draws K)) K) (ho : Calm o) (c : PyControl K) (hca : c.analyse ≠ 0)
    (hcd : c.dumpTime = none → ∃ d, c.dump = some d ∧ d ≠ 0)
    (ds : List (Draws K)) (hn : c.steps ≤ ds.length) (hd : ∀ d ∈ ds, Draws.Inside d ∧ d.Finite negLog) :
    (∃ s', run env negLog (ds.take c.steps) s = .ok s' ∧
      (main (ofModel env negLog) o c (s, ds) []).1 = .ok (s', ds.drop c.steps)) ∨
    (∃ m s', m ≤ c.steps ∧ run env negLog (ds.take m) s = .ok s' ∧ Interactions.totalAvailableSites s'.ms.procs = 0 ∧
      (main (ofModel env negLog) o c (s, ds) []).1 = .error .exception) := by
  have key := C42_runs (ofModel env negLog) o c (s, ds) ho hca hcd
    (fun k x => GoodRun env n nT negLog cfg procs x.1 ∧ k ≤ x.2.length ∧ ∀ d ∈ x.2, Draws.Inside d ∧ d.Finite negLog)
    ⟨h, hn, hd⟩ (by
      rintro k ⟨x, l⟩ ⟨g1, g2, g3⟩ hav
      cases l with
      | nil => simp at g2
      | cons d l =>
        have hav : Interactions.totalAvailableSites x.ms.procs ≠ 0 := hav
        obtain ⟨⟨i1, i2, i3, i4⟩, i5⟩ := g3 d (by simp)
        obtain ⟨dt, hdt⟩ := propagateTime_isOk g1 hr hav i5
        obtain ⟨x', hx'⟩ := C26_step_bounded g1 hr hb hf hav d.process d.site i1 i2 i3.le i4
        have hx2 : singleStep env { x with time := x.time + dt } d.process d.site = .ok { x' with time := x.time + dt } := by
          rw [singleStep_time_eq, hx']; rfl
        refine ⟨({ x with time := x.time + dt }, d :: l), ({ x' with time := x.time + dt }, l), ?_, ?_, ?_, ?_, ?_⟩
        · show (propagateTime negLog x d.time >>= _) = _
          rw [hdt]; rfl
        · show (singleStep env { x with time := x.time + dt } d.process d.site >>= _) = _
          rw [hx2]; rfl
        · refine g1.step (d := d) ?_
          show (propagateTime negLog x d.time >>= _) = _
          rw [hdt, ok_bind]
          exact hx2
        · simpa using g2
        · exact fun d' hd' => g3 d' (by simp [hd']))
  rcases key with ⟨st, mid, k1, k2, -⟩ | ⟨m, st, mid, k0, k1, k2, k3⟩
  · left
    obtain ⟨-, m2, -⟩ := C42_model env negLog s ds _ st mid k2
    obtain ⟨a, b⟩ := m2 c.steps le_rfl
    refine ⟨_, a, ?_⟩
    rw [k1, ← b]
  · right
    obtain ⟨-, m2, -⟩ := C42_model env negLog s ds _ st mid k2
    obtain ⟨a, b⟩ := m2 m le_rfl
    exact ⟨m, _, k0, a, k3, k1⟩

/-- **C52** A run of the front end on a model with one particle per site, with processes that keep it so and positive
rates, whatever the random numbers: when the control parameters are accepted, intervals are not zero, and plug-ins
neither raise nor stop the run, then it does all steps asked for, or it ends with the exception of the front end in a
state without available sites. Nothing else happens: no fault, no overflow, no endless loop. The states are those of
the back end. -/
theorem C52_run (h : GoodRun env n nT negLog cfg procs s) (hr : PositiveRates env procs)
    (h1 : ∀ els ∈ cfg.elements, els.length = 1) (hb : ∀ p ∈ procs, p.Balanced)
    (o : Outside (Sim K × List (Draws K)) K) (ho : Calm o) (c : PyControl K) (hca : c.analyse ≠ 0)
    (hcd : c.dumpTime = none → ∃ d, c.dump = some d ∧ d ≠ 0)
    (ds : List (Draws K)) (hn : c.steps ≤ ds.length) (hd : ∀ d ∈ ds, Draws.Inside d ∧ d.Finite negLog) :
    (∃ s', run env negLog (ds.take c.steps) s = .ok s' ∧
      (main (ofModel env negLog) o c (s, ds) []).1 = .ok (s', ds.drop c.steps)) ∨
    (∃ m s', m ≤ c.steps ∧ run env negLog (ds.take m) s = .ok s' ∧ Interactions.totalAvailableSites s'.ms.procs = 0 ∧
      (main (ofModel env negLog) o c (s, ds) []).1 = .error .exception) :=
  C52_run_bounded h hr (bounded_one h1 hb).1 (bounded_one h1 hb).2 o ho c hca hcd ds hn hd

section
variable [FloorRing K]

/-- The parts of the back end process of an accepted process. -/
theorem PyProcess.plain_parts {coords : List (Coord K)} {before after : List String} {moves : Option (List (Int × Coord K))}
    {basis : List Int} {rate : K} {p : PyProc K} (h : PyProc.make coords before after moves basis rate = .ok p)
    {rc : Option (Calculator K)} {dist : Coord K → K} {pt : List (String × Nat)} {nBasis number : Nat} (hpt : Numbering pt)
    (hknown : ∀ e ∈ before ++ after, e ∈ pt.map Prod.fst) (hapart : coords.Pairwise Apart) {q : Proc K}
    (hq : (PyProcess.plain p).backend rc dist pt nBasis number = .ok q) :
    (∃ es, q.matchList = sortP es ∧ es.map (·.coord) = p.coords ∧ ∀ e ∈ es, e.distance = dist e.coord) ∧
    p.coords.Nodup ∧ q.Balanced ∧ (p.moves = [] → q.idMoves = []) ∧ ∀ b ∈ q.basisSites, b < nBasis := by
  obtain ⟨σ, c0, s1, s2, s3, s4, s5, s6, -, -, -, s10, -, -⟩ := C39_same_process _ _ _ _ _ _ _ h
  have hplace : ∀ k, k < p.coords.length → ∃ i, σ[k]? = some i ∧ i < coords.length := by
    intro k hk
    have hk' : k < σ.length := by rw [s2.length_eq, List.length_range, ← s3]; exact hk
    exact ⟨σ[k], List.getElem?_eq_getElem hk', List.mem_range.1 (s2.mem_iff.1 (List.getElem_mem hk'))⟩
  have hb' : ∀ e ∈ p.before, e ∈ before := by
    intro e he
    obtain ⟨k, hk⟩ := List.mem_iff_getElem?.1 he
    obtain ⟨i, hi, -⟩ := hplace k (by rw [s3, ← s4]; exact (List.getElem?_eq_some_iff.1 hk).1)
    rw [(s6 k i hi).2.1] at hk
    exact List.mem_of_getElem? hk
  have ha' : ∀ e ∈ p.after, e ∈ after := by
    intro e he
    obtain ⟨k, hk⟩ := List.mem_iff_getElem?.1 he
    obtain ⟨i, hi, -⟩ := hplace k (by rw [s3, ← s5]; exact (List.getElem?_eq_some_iff.1 hk).1)
    rw [(s6 k i hi).2.2] at hk
    exact List.mem_of_getElem? hk
  have hsub : ∀ x : Coord K, x - 0 = x := by
    intro x
    ext
    · show x.x - 0 = x.x; ring
    · show x.y - 0 = x.y; ring
    · show x.z - 0 = x.z; ring
  have hq : (PyProc.centre p.coords >>= _) = _ := hq
  obtain ⟨cs, e1, hq⟩ := bind_ok.1 hq
  obtain ⟨d0, hd0, rfl⟩ := PyProc.centre_ok e1
  rw [s10, Option.some.injEq] at hd0
  subst hd0
  have hcs : p.coords.map (fun x => x - 0) = p.coords := by
    conv_rhs => rw [← List.map_id p.coords]
    exact List.map_congr_left fun x _ => hsub x
  rw [hcs] at hq
  obtain ⟨first, e2, hq⟩ := bind_ok.1 hq
  obtain ⟨second, e3, hq⟩ := bind_ok.1 hq
  obtain ⟨first', f1, f2, f3, f4, -⟩ := Config.mk'_ok hpt (coords := p.coords) rfl
    (Occupation.of_single (l := p.before) (by omega) (fun e he => hknown e (List.mem_append_left _ (hb' e he))))
  rw [e2] at f1
  obtain rfl := Except.ok.inj f1
  obtain ⟨second', g1, g2, g3, g4, -⟩ := Config.mk'_ok hpt (coords := p.coords) rfl
    (Occupation.of_single (l := p.after) (by omega) (fun e he => hknown e (List.mem_append_right _ (ha' e he))))
  rw [e3] at g1
  obtain rfl := Except.ok.inj g1
  obtain ⟨q0, q1, q2, q3, q4⟩ := Calculator.process_parts hq
  obtain ⟨es, origin, m1, m2, m3, m4, m5⟩ := mkProcess_entries q1 (by rw [f2.shape.elements, f2.shape.coords])
  rw [f3, s10, Option.some.injEq] at m1
  subst m1
  refine ⟨⟨es, q2.trans m2, m3.trans f3, fun e he => by rw [m4 e he, hsub]⟩, ?_, ?_, fun hm => q3.trans (m5 hm), ?_⟩
  · rw [List.nodup_iff_injective_getElem]
    intro k l hkl
    obtain ⟨k, hk⟩ := k
    obtain ⟨l, hl⟩ := l
    have hkl : p.coords[k] = p.coords[l] := hkl
    obtain ⟨a, ha, hal⟩ := hplace k hk
    obtain ⟨b, hb, hbl⟩ := hplace l hl
    have hab : a = b := by
      by_contra hab
      have hc := (s6 k a ha).1
      have hd := (s6 l b hb).1
      rw [List.getElem?_eq_getElem hk, List.getElem?_eq_getElem hal, Option.map_some, Option.some.injEq] at hc
      rw [List.getElem?_eq_getElem hl, List.getElem?_eq_getElem hbl, Option.map_some, Option.some.injEq] at hd
      rw [hc, hd] at hkl
      have hx : coords[a] = coords[b] := by
        have hx := congrArg Coord.x hkl
        have hy := congrArg Coord.y hkl
        have hz := congrArg Coord.z hkl
        ext
        · exact sub_left_injective hx
        · exact sub_left_injective hy
        · exact sub_left_injective hz
      have hself : ∀ c : Coord K, ¬ Apart c c := by
        intro c hc
        unfold Apart at hc
        simp only [sub_self, abs_zero] at hc
        have : ¬ (1 : K) / 50000 < 0 := not_lt.2 (by positivity)
        tauto
      rcases Nat.lt_or_gt_of_ne hab with hlt | hgt
      · have := List.pairwise_iff_getElem.1 hapart a b hal hbl hlt
        rw [hx] at this
        exact hself _ this
      · have := List.pairwise_iff_getElem.1 hapart b a hbl hal hgt
        rw [hx] at this
        exact hself _ this
    subst hab
    have hnd : σ.Nodup := s2.nodup_iff.2 List.nodup_range
    have e1 := List.getElem?_eq_some_iff.1 ha
    have e2 := List.getElem?_eq_some_iff.1 hb
    have := hnd.getElem_inj_iff.1 (e1.2.trans e2.2.symm)
    exact Fin.ext this
  · unfold Proc.Balanced
    rw [q2]
    refine mkProcess_balanced q1 f2 g2 ?_ ?_
    · rw [f4]
      intro els hels
      obtain ⟨e, -, rfl⟩ := List.mem_map.1 hels
      rfl
    · rw [g4]
      intro els hels
      obtain ⟨e, -, rfl⟩ := List.mem_map.1 hels
      rfl
  · intro b hb
    rw [q4, List.mem_filter] at hb
    simpa using hb.2

/-- **C52** From the input of the user to the end of the run. A lattice, types in full or sparse format and ordinary
processes are accepted by the front end; all rates are positive; with implicit wildcards, the coordinates of processes
that move ids and have a single basis site are those of sites around the middle of the lattice. Then the model is
constructed, and every run of it does all steps asked for or ends in a state without available sites, whatever the
random numbers, when the plug-ins do not interfere and intervals are not zero.

Missing: rate calculators need what is asked in `CustomRatesOk`, which the front end does not check. Bucket processes
can overflow (`C26_run_partial`). Hence `_partial`. -/
theorem C52_model_partial (P : PyLattice K) (types : List Py) (default : Option Py) (possible : Option (List String))
    (els : List (List String)) (pt : List (String × Nat)) (hP : P.map.WF)
    (hp : ∀ l, possible = some l → l.Nodup) (hf : PyConfig.detect types ≠ .ok .buckets)
    (h : PyConfig.elements P types default possible = .ok (els, pt))
    (ps : List (PyProc K)) (hps : ∀ p ∈ ps, FrontProcess pt p) (hrate : ∀ p ∈ ps, 0 < p.rate)
    (rc : Option (Calculator K)) (hranks : 0 < env.nRanks) (hL : env.L = P.map) (qs : List (Proc K))
    (hcfg : Config.mk' P.sites els pt = .ok cfg)
    (hqs : PyProcess.interactions rc env.dist pt P.basis.length (ps.map .plain) = .ok qs)
    (hcu : env.useCustomRates = true → CustomRatesOk env P.sites.length pt.length cfg qs ∧ ∀ a, 0 < env.callback a)
    (hplace : env.implicitWildcards = true → ∀ (i b : Nat) (p : PyProc K) (q : Proc K), ps[i]? = some p → qs[i]? = some q →
      p.moves ≠ [] → q.basisSites = [b] → Placed env.dist P (Interactions.maxRange qs) b p.coords) :
    ∃ s0, LatticeModel.init env cfg qs = .ok s0 ∧
      ∀ (o : Outside (Sim K × List (Draws K)) K) (c : PyControl K) (ds : List (Draws K)), Calm o → c.analyse ≠ 0 →
        (c.dumpTime = none → ∃ d, c.dump = some d ∧ d ≠ 0) → c.steps ≤ ds.length →
        (∀ d ∈ ds, Draws.Inside d ∧ d.Finite negLog) →
        (∃ s', run env negLog (ds.take c.steps) s0 = .ok s' ∧
          (main (ofModel env negLog) o c (s0, ds) []).1 = .ok (s', ds.drop c.steps)) ∨
        (∃ m s', m ≤ c.steps ∧ run env negLog (ds.take m) s0 = .ok s' ∧
          Interactions.totalAvailableSites s'.ms.procs = 0 ∧
          (main (ofModel env negLog) o c (s0, ds) []).1 = .error .exception) := by
  obtain ⟨-, hone, hnum, h0, hocc, cfg', hc1, hc2⟩ := C36_constructed_partial P types default possible els pt hp hf h
  rw [hcfg] at hc1
  obtain rfl := Except.ok.inj hc1
  have hne : ps.map PyProcess.plain ≠ [] := by
    intro hnil
    rw [hnil] at hqs
    cases hqs
  obtain ⟨cfg', qs', e1, e2, hwf, hlen, hall⟩ := C51_processes P els pt hP hnum h0 hocc (ps.map .plain) hne (by
    intro x hx
    obtain ⟨p, hpm, rfl⟩ := List.mem_map.1 hx
    exact hps p hpm) rc env hranks hL
  rw [hcfg] at e1
  obtain rfl := Except.ok.inj e1
  rw [hqs] at e2
  obtain rfl := Except.ok.inj e2
  have hsrc : ∀ q ∈ qs, ∃ (i : Nat) (p : PyProc K), ps[i]? = some p ∧ qs[i]? = some q ∧ q.rate = p.rate ∧
      (PyProcess.plain p).backend rc env.dist pt P.basis.length i = .ok q := by
    intro q hq
    obtain ⟨i, hi⟩ := List.mem_iff_getElem?.1 hq
    have hil : i < ps.length := by
      have := (List.getElem?_eq_some_iff.1 hi).1
      rw [hlen, List.length_map] at this
      exact this
    have hpi : (ps.map PyProcess.plain)[i]? = some (.plain ps[i]) := by
      rw [List.getElem?_map, List.getElem?_eq_getElem hil]; rfl
    refine ⟨i, ps[i], List.getElem?_eq_getElem hil, hi, (hall i _ q hpi hi).2.1, ?_⟩
    unfold PyProcess.interactions at hqs
    rw [if_neg (by simpa using hne)] at hqs
    obtain ⟨ok, -, hqs⟩ := bind_ok.1 hqs
    split at hqs
    · cases hqs
    obtain ⟨x, hx, hxq⟩ := mapMM_getElem?' hqs hi
    rw [List.getElem?_zipIdx, hpi] at hx
    simp only [Option.map_some, Nat.zero_add, Option.some.injEq] at hx
    subst hx
    exact hxq
  have hparts : ∀ q ∈ qs, ∃ (i : Nat) (p : PyProc K), ps[i]? = some p ∧ qs[i]? = some q ∧ q.rate = p.rate ∧
      (∃ es, q.matchList = sortP es ∧ es.map (·.coord) = p.coords ∧ ∀ e ∈ es, e.distance = env.dist e.coord) ∧
      p.coords.Nodup ∧ q.Balanced ∧ (p.moves = [] → q.idMoves = []) ∧ ∀ b ∈ q.basisSites, b < P.basis.length := by
    intro q hq
    obtain ⟨i, p, h1, h2, h3, h4⟩ := hsrc q hq
    obtain ⟨coords, before, after, moves, basis, rate, a1, a2, a3, a4⟩ := hps p (List.mem_of_getElem? h1)
    exact ⟨i, p, h1, h2, h3, PyProcess.plain_parts a1 hnum a2 a3 h4⟩
  have hbal : ∀ q ∈ qs, q.Balanced := fun q hq => by
    obtain ⟨i, p, -, -, -, -, -, h, -⟩ := hparts q hq
    exact h
  have hone' : ∀ els ∈ cfg.elements, els.length = 1 := by rw [hc2]; exact hone
  have hcoords : cfg.coords = P.sites := by
    obtain ⟨cfg', m1, -, m3, -⟩ := Config.mk'_ok hnum (coords := P.sites) rfl hocc
    rw [hcfg] at m1
    obtain rfl := Except.ok.inj m1
    exact m3
  obtain ⟨s0, hs0⟩ := C26_init_ordinary hwf (fun hu => (hcu hu).1) hone' P hL hcoords (by
    intro himp q hq
    obtain ⟨i, p, h1, h2, h3, ⟨es, h4, h5, h6⟩, h7, h8, h9, h10⟩ := hparts q hq
    refine ⟨?_, ⟨es, h4, by rw [h5]; exact h7, h6⟩, ?_⟩
    · intro b hb
      exact h10 b (by rw [hb]; simp)
    · intro b hb hid
      have hpl := hplace himp i b p q h1 h2 (fun hm => hid (h9 hm)) hb
      refine ⟨?_, hpl.clear, hpl.distances⟩
      intro c hc
      apply hpl.there
      rw [← h5]
      rw [h4] at hc
      exact ((perm_sortP es).map (fun e => e.coord)).mem_iff.1 hc)
  refine ⟨s0, hs0, ?_⟩
  intro o c ds ho hca hcd hn hd
  refine C52_run (n := P.sites.length) (nT := pt.length) (cfg := cfg) (procs := qs)
    ⟨hwf, fun hu => (hcu hu).1, s0, [], hs0, rfl⟩ ⟨?_, fun hu => (hcu hu).2⟩ hone' hbal o ho c hca hcd ds hn hd
  intro q hq
  obtain ⟨i, p, h1, -, h3, -⟩ := hparts q hq
  rw [h3]
  exact hrate p (List.mem_of_getElem? h1)

end

/-- On a ring of four sites, with the exchange of A and C, three steps end properly or in a state without available
sites. -/
example : ∃ p : PyProc ℚ, PyProc.make (K := ℚ) [⟨0, 0, 0⟩, ⟨1, 0, 0⟩] ["A", "C"] ["C", "A"] none [0] 1 = .ok p ∧
    ∃ cfg qs s0, Config.mk' (Sample.chain 4 true).sites [["C"], ["A"], ["C"], ["A"]] [("*", 0), ("A", 1), ("C", 2)] = .ok cfg ∧
      LatticeModel.init (Sample.env (Sample.chain 4 true)) cfg qs = .ok s0 ∧
      ((∃ s', run (Sample.env (Sample.chain 4 true)) Sample.lg [Sample.half, Sample.half, Sample.half] s0 = .ok s' ∧
        (main (ofModel (Sample.env (Sample.chain 4 true)) Sample.lg) ⟨true, 1, [1], fun _ => .ok false⟩
          (Sample.control 3 (some 1) none) (s0, [Sample.half, Sample.half, Sample.half]) []).1 = .ok (s', [])) ∨
      (∃ m s', m ≤ 3 ∧ run (Sample.env (Sample.chain 4 true)) Sample.lg ([Sample.half, Sample.half, Sample.half].take m) s0 = .ok s' ∧
        Interactions.totalAvailableSites s'.ms.procs = 0 ∧
        (main (ofModel (Sample.env (Sample.chain 4 true)) Sample.lg) ⟨true, 1, [1], fun _ => .ok false⟩
          (Sample.control 3 (some 1) none) (s0, [Sample.half, Sample.half, Sample.half]) []).1 = .error .exception)) := by
  have hm : ∃ p, PyProc.make (K := ℚ) [⟨0, 0, 0⟩, ⟨1, 0, 0⟩] ["A", "C"] ["C", "A"] none [0] 1 = .ok p ∧
      (∀ m ∈ p.moves, p.before[m.1]? ≠ some "*") ∧ p.rate = 1 ∧ p.coords = [⟨0, 0, 0⟩, ⟨1, 0, 0⟩] ∧
      (PyProcess.interactions none Sample.dist1 [("*", 0), ("A", 1), ("C", 2)] 1 [.plain p]).map
        (fun qs => (Interactions.maxRange qs, qs.map (·.basisSites))) = .ok (1, [[0]]) :=
    ⟨⟨[⟨0, 0, 0⟩, ⟨1, 0, 0⟩], ["A", "C"], ["C", "A"], [(0, ⟨1, 0, 0⟩), (1, ⟨-1, 0, 0⟩)], [0], 1⟩, by decide +kernel,
      by decide +kernel, rfl, rfl, by decide +kernel⟩
  obtain ⟨p, hp, hw, hr, hco, hi⟩ := hm
  have hf : FrontProcess [("*", 0), ("A", 1), ("C", 2)] p :=
    ⟨_, _, _, _, _, _, hp, by decide, by decide +kernel, hw⟩
  refine ⟨p, hp, ?_⟩
  obtain ⟨cfg, qs, h1, h2, h3, h4, -⟩ := C51_processes (Sample.chain 4 true) [["C"], ["A"], ["C"], ["A"]]
    [("*", 0), ("A", 1), ("C", 2)] (by decide +kernel) (by decide +kernel) (by decide) (by
      exact ⟨by decide +kernel, by decide +kernel, by decide +kernel⟩) [.plain p] (by simp) (by
      intro x hx
      rw [List.mem_singleton] at hx
      subst hx
      exact hf) none
    (Sample.env (Sample.chain 4 true)) (by decide) rfl
  have hi' : (Interactions.maxRange qs, qs.map (·.basisSites)) = (1, [[0]]) := by
    have h2 : PyProcess.interactions none Sample.dist1 [("*", 0), ("A", 1), ("C", 2)] 1 [.plain p] = .ok qs := h2
    rw [h2] at hi
    exact Except.ok.inj hi
  obtain ⟨hmax, hbas⟩ := Prod.mk.inj hi'
  obtain ⟨s0, g1, g2⟩ := C52_model_partial (negLog := Sample.lg) (Sample.chain 4 true)
    [.str "C", .str "A", .str "C", .str "A"] none none [["C"], ["A"], ["C"], ["A"]] [("*", 0), ("A", 1), ("C", 2)]
    (by decide +kernel) (by simp) (by decide +kernel) (by decide +kernel) [p] (by simpa using hf) (by simp [hr]) none
    (env := Sample.env (Sample.chain 4 true)) (by decide) rfl qs h1 h2 (fun hu => by cases hu) (by
      intro _ i b p' q hp' hq _ hqb
      have hi0 : i = 0 := by
        have := (List.getElem?_eq_some_iff.1 hp').1
        simpa using this
      subst hi0
      obtain rfl := Option.some.inj hp'
      have hb0 : b = 0 := by
        have := congrArg (fun l => l[0]?) hbas
        simp only [List.getElem?_map, hq, Option.map_some, hqb] at this
        simpa using this
      subst hb0
      rw [hmax, hco]
      exact placed_of (by decide +kernel) (by decide) (by decide +kernel) (by decide +kernel) (by decide +kernel))
  refine ⟨cfg, qs, s0, h1, g1, ?_⟩
  exact g2 ⟨true, 1, [1], fun _ => .ok false⟩ (Sample.control 3 (some 1) none) [Sample.half, Sample.half, Sample.half]
    ⟨fun _ => ⟨_, rfl⟩, fun _ _ _ _ _ => rfl, by decide⟩ (by decide) (fun _ => ⟨1, rfl, by decide⟩) (by decide) (by
      intro d hd
      have : d = Sample.half := by simpa using hd
      subst this
      exact ⟨⟨by decide +kernel, by decide +kernel, by decide +kernel, by decide +kernel⟩,
        1 / 2, by decide +kernel, 1 / 2, by decide +kernel⟩)

/-! ### Where it fails -/

/-- C52. The hop of an A to the next site is accepted on a chain of two sites that is not periodic, and the whole input
is well formed. The cell in the middle of the chain is the last one, which has no next site: the constructor reads
`index_mapping` outside its bounds when it prepares the moves (interactions.cpp:174-185). Without implicit wildcards
the same model is constructed. -/
theorem C52_edge :
    ∃ p cfg qs, PyProc.make (K := ℚ) [⟨0, 0, 0⟩, ⟨1, 0, 0⟩] ["A", "C"] ["C", "A"] none [0] 1 = .ok p ∧
      PyConfig.elements (Sample.chain 2 false) [.str "A", .str "C"] none none =
        .ok ([["A"], ["C"]], [("*", 0), ("A", 1), ("C", 2)]) ∧
      Config.mk' (Sample.chain 2 false).sites [["A"], ["C"]] [("*", 0), ("A", 1), ("C", 2)] = .ok cfg ∧
      PyProcess.interactions none Sample.dist1 [("*", 0), ("A", 1), ("C", 2)] 1 [.plain p] = .ok qs ∧
      WellFormed (Sample.env (Sample.chain 2 false)) 2 3 cfg qs ∧
      LatticeModel.init (Sample.env (Sample.chain 2 false)) cfg qs = .error .outOfBounds ∧
      ∃ s, LatticeModel.init { Sample.env (Sample.chain 2 false) with implicitWildcards := false } cfg qs = .ok s := by
  have hm : ∃ p, PyProc.make (K := ℚ) [⟨0, 0, 0⟩, ⟨1, 0, 0⟩] ["A", "C"] ["C", "A"] none [0] 1 = .ok p ∧
      (∀ m ∈ p.moves, p.before[m.1]? ≠ some "*") ∧
      (do
        let cfg ← Config.mk' (Sample.chain 2 false).sites [["A"], ["C"]] [("*", 0), ("A", 1), ("C", 2)]
        let qs ← PyProcess.interactions none Sample.dist1 [("*", 0), ("A", 1), ("C", 2)] 1 [.plain p]
        .ok (decide ((LatticeModel.init (Sample.env (Sample.chain 2 false)) cfg qs).map (fun _ => ()) = .error .outOfBounds),
          decide ((LatticeModel.init { Sample.env (Sample.chain 2 false) with implicitWildcards := false } cfg qs).map
            (fun _ => ()) = .ok ()))) = (.ok (true, true) : M (Bool × Bool)) :=
    ⟨⟨[⟨0, 0, 0⟩, ⟨1, 0, 0⟩], ["A", "C"], ["C", "A"], [(0, ⟨1, 0, 0⟩), (1, ⟨-1, 0, 0⟩)], [0], 1⟩, by decide +kernel,
      by decide +kernel, by decide +kernel⟩
  obtain ⟨p, hp, hw, hi⟩ := hm
  have hf : FrontProcess [("*", 0), ("A", 1), ("C", 2)] p :=
    ⟨_, _, _, _, _, _, hp, by decide, by decide +kernel, hw⟩
  obtain ⟨cfg, qs, h1, h2, h3, h4, -⟩ := C51_processes (Sample.chain 2 false) [["A"], ["C"]]
    [("*", 0), ("A", 1), ("C", 2)] (by decide +kernel) (by decide +kernel) (by decide) (by
      exact ⟨by decide +kernel, by decide +kernel, by decide +kernel⟩) [.plain p] (by simp) (by
      intro x hx
      rw [List.mem_singleton] at hx
      subst hx
      exact hf) none
    (Sample.env (Sample.chain 2 false)) (by decide) rfl
  have h2 : PyProcess.interactions none Sample.dist1 [("*", 0), ("A", 1), ("C", 2)] 1 [.plain p] = .ok qs := h2
  rw [h1, ok_bind, h2, ok_bind] at hi
  obtain ⟨i1, i2⟩ := Prod.mk.inj (Except.ok.inj hi)
  rw [decide_eq_true_eq] at i1 i2
  refine ⟨p, cfg, qs, hp, by decide +kernel, h1, h2, h3, ?_, ?_⟩
  · cases hx : LatticeModel.init (Sample.env (Sample.chain 2 false)) cfg qs with
    | ok s => rw [hx] at i1; cases i1
    | error e => rw [hx] at i1; cases i1; rfl
  · cases hx : LatticeModel.init { Sample.env (Sample.chain 2 false) with implicitWildcards := false } cfg qs with
    | ok s => exact ⟨s, rfl⟩
    | error e => rw [hx] at i2; cases i2

end KMC
