import Verif.Props.Reverse
import Verif.Lemmas.Jumps

/-!
# C64: runs solve the master equation

The probability that the model has given types after a given time is the solution of the master equation with the rates
`flow`.
-/

set_option linter.unusedSectionVars false

namespace KMC

open LatticeModel Interactions MeasureTheory Classical

/-- With these random numbers the state of the model a time `t` later has the types `y`, and this is known after less than
`N` events, or the model got to a state without available sites by then. It stays in such a state; the front end stops
there. -/
def AtTime (env : Env ℝ) (y : List Bucket) : (N : Nat) → Sim ℝ → ℝ → (Fin N → ℝ × ℝ × ℝ) → Prop
  | 0, _, _, _ => False
  | N + 1, s, t, w => (totalAvailableSites s.ms.procs = 0 ∧ s.ms.cfg.types = y) ∨
      (totalAvailableSites s.ms.procs ≠ 0 ∧ ∃ s', step env negLog s (drawsOf (w 0)) = .ok s' ∧
        ((t < s'.time - s.time ∧ s.ms.cfg.types = y) ∨
          (s'.time - s.time ≤ t ∧ AtTime env y N s' (t - (s'.time - s.time)) (fun i => w i.succ))))

/-- The probability, with independent uniform random numbers, that the model has the types `y` a time `t` later. -/
noncomputable def chance (env : Env ℝ) (s : Sim ℝ) (y : List Bucket) (t : ℝ) : ENNReal :=
  ⨆ N, volume {w : Fin N → ℝ × ℝ × ℝ | InCube w ∧ AtTime env y N s t w}

/-- A step from the same state at another time. -/
theorem step_shift {env : Env ℝ} {s s' a : Sim ℝ} {d : Draws ℝ} (h1 : s.ms = s'.ms) (h2 : s.table = s'.table)
    (h : step env negLog s d = .ok a) : step env negLog s' d = .ok { a with time := s'.time + (a.time - s.time) } := by
  obtain ⟨R, dt, hR, hdt, ht⟩ := step_time h
  unfold step propagateTime singleStep at h ⊢
  rw [hR, ok_bind, hdt, ok_bind, pure_ok, ok_bind] at h
  rw [← h2, hR, ok_bind, hdt, ok_bind, pure_ok, ok_bind, ← h1]
  obtain ⟨e, he, h⟩ := bind_ok.1 h
  obtain ⟨m1, hm1, h⟩ := bind_ok.1 h
  obtain ⟨m2, hm2, h⟩ := bind_ok.1 h
  cases h
  simp only at he
  rw [he, ok_bind, hm1, ok_bind, hm2, ok_bind, ht, add_sub_cancel_left]
  rfl

theorem atTime_time (env : Env ℝ) (y : List Bucket) (N : Nat) {s s' : Sim ℝ} (h1 : s.ms = s'.ms) (h2 : s.table = s'.table)
    (t : ℝ) (w : Fin N → ℝ × ℝ × ℝ) : AtTime env y N s t w ↔ AtTime env y N s' t w := by
  have key : ∀ (N : Nat) (s s' : Sim ℝ), s.ms = s'.ms → s.table = s'.table → ∀ (t : ℝ) (w : Fin N → ℝ × ℝ × ℝ),
      AtTime env y N s t w → AtTime env y N s' t w := by
    intro N
    induction N with
    | zero => exact fun _ _ _ _ _ _ h => h
    | succ N ih =>
      intro s s' h1 h2 t w h
      rcases h with h | ⟨h0, a, ha, h⟩
      · left
        rw [← h1]
        exact h
      · refine .inr ⟨by rw [← h1]; exact h0, _, step_shift h1 h2 ha, ?_⟩
        have e : s'.time + (a.time - s.time) - s'.time = a.time - s.time := by ring
        show (t < s'.time + (a.time - s.time) - s'.time ∧ _) ∨ (s'.time + (a.time - s.time) - s'.time ≤ t ∧
          AtTime env y N _ (t - (s'.time + (a.time - s.time) - s'.time)) _)
        rw [e, ← h1]
        exact h.imp_right fun h => ⟨h.1, ih a _ (by rfl) (by rfl) _ _ h.2⟩
  exact ⟨key N s s' h1 h2 t w, key N s' s h1.symm h2.symm t w⟩

variable {env : Env ℝ} {n nT : Nat} {cfg : Config ℝ} {procs : List (Proc ℝ)} {s s' : Sim ℝ}

/-- The event is in the lists of the processes. -/
def ListedEvent (s : Sim ℝ) (e : Nat × Nat) : Prop := ∃ p, s.ms.procs[e.1]? = some p ∧ e.2 ∈ p.sites

/-- The random numbers that select the event. -/
def pickSet (s : Sim ℝ) (e : Nat × Nat) : Set (ℝ × ℝ) :=
  {u | u.1 ∈ Set.Ico (0 : ℝ) 1 ∧ u.2 ∈ Set.Ico (0 : ℝ) 1 ∧ ∃ ps, select s.ms.procs s.table u.1 u.2 = .ok (e.1, e.2, ps)}

theorem listed_weight (h : GoodRun env n nT negLog cfg procs s) (hr : PositiveRates env procs) {e : Nat × Nat}
    (he : ListedEvent s e) : ∃ (p : Proc ℝ) (k : Nat), s.ms.procs[e.1]? = some p ∧ p.sites[k]? = some e.2 ∧
      p.weights[k]? = some (rateAt s e.1 e.2) ∧ 0 < rateAt s e.1 e.2 := by
  obtain ⟨p, hp, hs⟩ := he
  obtain ⟨k, hk⟩ := List.mem_iff_getElem?.1 hs
  have hkl : k < p.weights.length := by
    rw [weights_length h (List.mem_of_getElem? hp)]; exact (List.getElem?_eq_some_iff.1 hk).1
  have hw := List.getElem?_eq_getElem hkl
  refine ⟨p, k, hp, hk, ?_, ?_⟩
  · rw [rateAt_listed h hp hk hw]; exact hw
  · rw [rateAt_listed h hp hk hw]
    exact weights_pos h hr p (List.mem_of_getElem? hp) _ (List.getElem_mem hkl)

theorem pickSet_eq (h : GoodRun env n nT negLog cfg procs s) (e : Nat × Nat) :
    pickSet s e = {u | u.1 ∈ Set.Ico (0 : ℝ) 1 ∧ u.2 ∈ Set.Ico (0 : ℝ) 1 ∧
      ∃ ps, select s.ms.procs (probabilityTable s.ms.procs) u.1 u.2 = .ok (e.1, e.2, ps)} := by
  unfold pickSet
  rw [(C25_totals h).2.2.1]

theorem measurable_cumulative (ws : List ℝ) (k : Nat) : MeasurableSet {u : ℝ | u ∈ Set.Ico (0 : ℝ) 1 ∧
    (k = 0 ∨ (ws.take k).sum < u * ws.sum) ∧ u * ws.sum ≤ (ws.take (k + 1)).sum} := by
  have hm : Measurable fun u : ℝ => u * ws.sum := measurable_id.mul_const _
  exact measurableSet_Ico.inter (((MeasurableSet.const _).union (measurableSet_lt measurable_const hm)).inter
    (measurableSet_le hm measurable_const))

theorem pickSet_measurable (h : GoodRun env n nT negLog cfg procs s) (hr : PositiveRates env procs)
    (ha : totalAvailableSites s.ms.procs ≠ 0) {e : Nat × Nat} (he : ListedEvent s e) : MeasurableSet (pickSet s e) := by
  obtain ⟨hS, hpos⟩ := sumRates_pos h hr ha
  obtain ⟨p, k, hp, hk, hw, -⟩ := listed_weight h hr he
  have hpm := List.mem_of_getElem? hp
  have hc := hS.consistent p hpm
  rw [pickSet_eq h, select_set hp]
  refine MeasurableSet.prod ?_ ?_
  · convert measurable_cumulative (s.ms.procs.map (·.totalRate)) e.1 using 1
    ext u
    simp only [Set.mem_ofPred_eq, C28_process_interval s.ms.procs hS u e.1 (List.getElem?_eq_some_iff.1 hp).1, List.map_take,
      sumRates]
  · convert measurable_cumulative p.weights k using 1
    ext u
    simp only [Set.mem_ofPred_eq]
    refine and_congr_right fun h1 => ?_
    rw [C28_site_interval p hc (hS.nonneg p hpm) u h1.2.le k e.2 hk, hc.total]

theorem pickSet_volume (h : GoodRun env n nT negLog cfg procs s) (hr : PositiveRates env procs)
    (ha : totalAvailableSites s.ms.procs ≠ 0) {e : Nat × Nat} (he : ListedEvent s e) :
    volume (pickSet s e) = ENNReal.ofReal (rateAt s e.1 e.2 / sumRates s.ms.procs) := by
  obtain ⟨hS, hpos⟩ := sumRates_pos h hr ha
  obtain ⟨p, k, hp, hk, hw, -⟩ := listed_weight h hr he
  rw [pickSet_eq h, Measure.volume_eq_prod]
  exact C28_event_probability s.ms.procs hS hpos e.1 p hp k e.2 _ hk hw

theorem pickSet_disjoint (s : Sim ℝ) {e e' : Nat × Nat} (hne : e ≠ e') : Disjoint (pickSet s e) (pickSet s e') := by
  rw [Set.disjoint_left]
  rintro u ⟨-, -, ps, h1⟩ ⟨-, -, ps', h2⟩
  rw [h1] at h2
  have := Except.ok.inj h2
  simp only [Prod.mk.injEq] at this
  exact hne (Prod.ext this.1 this.2.1)

/-- The listed events. -/
noncomputable def eventsOf (n : Nat) (s : Sim ℝ) : Finset (Nat × Nat) :=
  (Finset.range s.ms.procs.length ×ˢ Finset.range n).filter (ListedEvent s)

theorem mem_eventsOf (h : GoodRun env n nT negLog cfg procs s) {e : Nat × Nat} : e ∈ eventsOf n s ↔ ListedEvent s e := by
  unfold eventsOf
  rw [Finset.mem_filter, Finset.mem_product, Finset.mem_range, Finset.mem_range]
  refine ⟨fun h => h.2, fun he => ⟨?_, he⟩⟩
  obtain ⟨p, hp, hs⟩ := he
  exact ⟨(List.getElem?_eq_some_iff.1 hp).1, ((C24_available h hp e.2).1 hs).1⟩

theorem rateAt_not_listed {e : Nat × Nat} (he : ¬ ListedEvent s e) : rateAt s e.1 e.2 = 0 := by
  cases hp : s.ms.procs[e.1]? with
  | none => unfold rateAt; rw [hp]
  | some p => exact rateAt_unlisted hp fun hs => he ⟨p, hp, hs⟩

theorem sum_eventsOf (h : GoodRun env n nT negLog cfg procs s) :
    ∑ e ∈ eventsOf n s, rateAt s e.1 e.2 = sumRates s.ms.procs := by
  have := sum_rateAt h
  unfold sumRates
  rw [← this, eventsOf, Finset.sum_filter]
  refine Finset.sum_congr rfl fun e _ => ?_
  split
  · rfl
  · next he => exact (rateAt_not_listed he).symm

/-- The states with available sites, and the steps from them. -/
theorem step_listed (h : GoodRun env n nT negLog cfg procs s) (hr : PositiveRates env procs)
    (ha : totalAvailableSites s.ms.procs ≠ 0) {a : Nat × Nat → Sim ℝ}
    (hnext : ∀ e, ListedEvent s e → ∃ d ps, select s.ms.procs s.table d.process d.site = .ok (e.1, e.2, ps) ∧
      step env negLog s d = .ok (a e)) {d : ℝ × ℝ × ℝ} (hd : d.1 ∈ Set.Ico (0 : ℝ) 1) (hd1 : d.2.1 ∈ Set.Ico (0 : ℝ) 1)
    (hd2 : d.2.2 ∈ Set.Ico (0 : ℝ) 1) :
    step env negLog s (drawsOf d) = .ok s' ↔ ∃ e, ListedEvent s e ∧ d.2 ∈ pickSet s e ∧ d.1 ∈ Set.Ioo (0 : ℝ) 1 ∧
      s' = { a e with time := s.time + -Real.log d.1 / sumRates s.ms.procs } := by
  obtain ⟨hS, hpos⟩ := sumRates_pos h hr ha
  obtain ⟨-, -, htab, htot⟩ := C25_totals h
  have hne : s.ms.procs ≠ [] := by
    intro h0
    rw [h0] at hpos
    simp [sumRates] at hpos
  have htot : totalRate s.table = .ok (sumRates s.ms.procs) := by
    rw [htot hne]
    congr 2
    exact List.map_congr_left fun p hp => ((hS.consistent p hp).total).symm
  have htime : ∀ dt, drawStep negLog (sumRates s.ms.procs) (drawsOf d).time = .ok dt ↔
      d.1 ∈ Set.Ioo (0 : ℝ) 1 ∧ dt = -Real.log d.1 / sumRates s.ms.procs := by
    intro dt
    rcases eq_or_lt_of_le hd.1 with h0 | h0
    · unfold drawsOf drawStep timeStep negLog
      rw [if_pos h0.symm]
      simp [drawStep, h0.symm]
    · have := (C29_time_step _ d.1 hpos h0 hd.2).1
      unfold drawsOf drawStep
      rw [this]
      simp only [Except.ok.injEq]
      exact ⟨fun h => ⟨⟨h0, hd.2⟩, h.symm⟩, fun h => h.2.symm⟩
  constructor
  · intro hs
    obtain ⟨s0, hs0, -⟩ := step_single hs
    obtain ⟨⟨j, site, ps⟩, hsel, -⟩ := bind_ok.1 hs0
    have hl : ListedEvent s (j, site) := LeadsTo.listed h ⟨drawsOf d, ps, s', hsel, hs, rfl⟩
    obtain ⟨R, dt, hR, hdt, -⟩ := step_time hs
    rw [htot] at hR
    cases hR
    obtain ⟨h0, rfl⟩ := (htime dt).1 hdt
    obtain ⟨d', ps', g1, g2⟩ := hnext _ hl
    refine ⟨(j, site), hl, ⟨hd1, hd2, ps, hsel⟩, h0, ?_⟩
    have := step_determined (d' := drawsOf d) g1 hsel g2 htot hdt
    rw [hs] at this
    exact Except.ok.inj this
  · rintro ⟨e, hl, ⟨-, -, ps, hsel⟩, h0, rfl⟩
    obtain ⟨d', ps', g1, g2⟩ := hnext _ hl
    exact step_determined (d' := drawsOf d) g1 hsel g2 htot ((htime _).2 ⟨h0, rfl⟩)

/-- A finite set of types that no event leads out of, such that the types decide the rates from state to state. -/
structure ClosedFamily (env : Env ℝ) (n nT : Nat) (cfg : Config ℝ) (procs : List (Proc ℝ)) (T : Finset (List Bucket))
    (W : List Bucket → List Bucket → ℝ) : Prop where
  /-- every member is the types of some state of a run -/
  reached : ∀ x ∈ T, ∃ s, GoodRun env n nT negLog cfg procs s ∧ s.ms.cfg.types = x
  closed : ∀ s, GoodRun env n nT negLog cfg procs s → s.ms.cfg.types ∈ T → ∀ j site t, LeadsTo env s j site t → t ∈ T
  rates : ∀ s, GoodRun env n nT negLog cfg procs s → s.ms.cfg.types ∈ T → ∀ t ∈ T, flow env n s t = W s.ms.cfg.types t

/-- The states with types in the family. -/
abbrev Member (env : Env ℝ) (n nT : Nat) (cfg : Config ℝ) (procs : List (Proc ℝ)) (T : Finset (List Bucket)) :=
  {s : Sim ℝ // GoodRun env n nT negLog cfg procs s ∧ s.ms.cfg.types ∈ T}

section
variable {T : Finset (List Bucket)} {W : List Bucket → List Bucket → ℝ}

theorem next_exists (hF : ClosedFamily env n nT cfg procs T W) (hr : PositiveRates env procs) {M : Nat}
    (hb : Bounded M cfg procs) (hf : FewEnough M procs) (s : Member env n nT cfg procs T) (e : Nat × Nat) :
    ∃ a : Member env n nT cfg procs T, ListedEvent s.1 e → ∃ d ps,
      select s.1.ms.procs s.1.table d.process d.site = .ok (e.1, e.2, ps) ∧ step env negLog s.1 d = .ok a.1 := by
  by_cases he : ListedEvent s.1 e
  · obtain ⟨p, k, hp, hk, -, -⟩ := listed_weight s.2.1 hr he
    obtain ⟨d, ps, b, r, g1, g2, -⟩ := C58_possible s.2.1 hr hb hf hp hk
    exact ⟨⟨b, s.2.1.step g2, hF.closed s.1 s.2.1 s.2.2 _ _ _ ⟨d, ps, b, g1, g2, rfl⟩⟩, fun _ => ⟨d, ps, g1, g2⟩⟩
  · exact ⟨s, fun h => absurd h he⟩

/-- The model as a system of jumps. -/
noncomputable def jumps (hF : ClosedFamily env n nT cfg procs T W) (hr : PositiveRates env procs) {M : Nat}
    (hb : Bounded M cfg procs) (hf : FewEnough M procs) : Chain.Jumps (Member env n nT cfg procs T) where
  halted s := totalAvailableSites s.1.ms.procs = 0
  ev s := eventsOf n s.1
  pick s e := pickSet s.1 e
  next s e := (next_exists hF hr hb hf s e).choose
  rate s e := rateAt s.1 e.1 e.2
  total s := sumRates s.1.ms.procs
  total_pos s hs := (sumRates_pos s.2.1 hr hs).2
  rate_nonneg s e he := by
    obtain ⟨p, k, -, -, -, h⟩ := listed_weight s.2.1 hr ((mem_eventsOf s.2.1).1 he)
    exact h.le
  measurable s hs e he := pickSet_measurable s.2.1 hr hs ((mem_eventsOf s.2.1).1 he)
  volume_pick s hs e he := pickSet_volume s.2.1 hr hs ((mem_eventsOf s.2.1).1 he)
  disjoint s e e' h := pickSet_disjoint s.1 h
  pick_sub s e := fun u hu => ⟨hu.1, hu.2.1⟩
  sum_rate s _ := sum_eventsOf s.2.1

theorem jumps_next (hF : ClosedFamily env n nT cfg procs T W) (hr : PositiveRates env procs) {M : Nat}
    (hb : Bounded M cfg procs) (hf : FewEnough M procs) (s : Member env n nT cfg procs T) {e : Nat × Nat}
    (he : ListedEvent s.1 e) : ∃ d ps, select s.1.ms.procs s.1.table d.process d.site = .ok (e.1, e.2, ps) ∧
      step env negLog s.1 d = .ok ((jumps hF hr hb hf).next s e).1 :=
  (next_exists hF hr hb hf s e).choose_spec he

/-- The jumps are those of the model. -/
theorem jumps_at (hF : ClosedFamily env n nT cfg procs T W) (hr : PositiveRates env procs) {M : Nat}
    (hb : Bounded M cfg procs) (hf : FewEnough M procs) (y : List Bucket) (N : Nat) (s : Member env n nT cfg procs T) (t : ℝ)
    (w : Fin N → ℝ × ℝ × ℝ) :
    InCube w ∧ AtTime env y N s.1 t w ↔ (jumps hF hr hb hf).At (fun s => s.1.ms.cfg.types = y) N s t w := by
  induction N generalizing s t with
  | zero => exact ⟨fun h => h.2, fun h => h.elim⟩
  | succ N ih =>
    have hcube : InCube w ↔ ((w 0).1 ∈ Set.Ico (0 : ℝ) 1 ∧ (w 0).2.1 ∈ Set.Ico (0 : ℝ) 1 ∧
        (w 0).2.2 ∈ Set.Ico (0 : ℝ) 1) ∧ InCube (fun i : Fin N => w i.succ) := Fin.forall_fin_succ
    by_cases ha : totalAvailableSites s.1.ms.procs = 0
    · constructor
      · rintro ⟨hc, ⟨-, h⟩ | ⟨h, -⟩⟩
        · exact .inl ⟨ha, h, hc⟩
        · exact absurd ha h
      · rintro (⟨-, h, hc⟩ | ⟨h, -⟩)
        · exact ⟨hc, .inl ⟨ha, h⟩⟩
        · exact absurd ha h
    · constructor
      · rintro ⟨hc, ⟨h, -⟩ | ⟨-, s', hs', h⟩⟩
        · exact absurd h ha
        · obtain ⟨⟨c1, c2, c3⟩, c4⟩ := hcube.1 hc
          obtain ⟨e, hl, hp, h0, rfl⟩ := (step_listed s.2.1 hr ha (fun e he => jumps_next hF hr hb hf s he) c1 c2 c3).1 hs'
          refine .inr ⟨ha, e, (mem_eventsOf s.2.1).2 hl, hp, h0, ?_⟩
          simp only [add_sub_cancel_left] at h
          refine h.imp (fun h => ⟨h.1, h.2, c4⟩) fun h => ⟨h.1, ?_⟩
          exact (ih _ _ _).1 ⟨c4, (atTime_time env y N (by rfl) (by rfl) _ _).1 h.2⟩
      · rintro (⟨h, -⟩ | ⟨-, e, hl, hp, h0, h⟩)
        · exact absurd h ha
        · have c4 : InCube (fun i : Fin N => w i.succ) := by
            rcases h with ⟨-, -, h⟩ | ⟨-, h⟩
            · exact h
            · exact ((ih _ _ _).2 h).1
          have c1 : (w 0).1 ∈ Set.Ico (0 : ℝ) 1 := ⟨h0.1.le, h0.2⟩
          refine ⟨hcube.2 ⟨⟨c1, hp.1, hp.2.1⟩, c4⟩, .inr ⟨ha, _, (step_listed s.2.1 hr ha
            (fun e he => jumps_next hF hr hb hf s he) c1 hp.1 hp.2.1).2 ⟨e, (mem_eventsOf s.2.1).1 hl, hp, h0, rfl⟩, ?_⟩⟩
          simp only [add_sub_cancel_left]
          refine h.imp (fun h => ⟨h.1, h.2.1⟩) fun h => ⟨h.1, ?_⟩
          exact (atTime_time env y N (by rfl) (by rfl) _ _).2 ((ih _ _ _).2 h.2).2

theorem jumps_chance (hF : ClosedFamily env n nT cfg procs T W) (hr : PositiveRates env procs) {M : Nat}
    (hb : Bounded M cfg procs) (hf : FewEnough M procs) (y : List Bucket) (s : Member env n nT cfg procs T) (t : ℝ) :
    chance env s.1 y t = (jumps hF hr hb hf).chance (fun s => s.1.ms.cfg.types = y) s t := by
  unfold chance Chain.Jumps.chance Chain.Jumps.prob
  refine iSup_congr fun N => ?_
  congr 1
  ext w
  exact jumps_at hF hr hb hf y N s t w

theorem flow_nonneg (h : GoodRun env n nT negLog cfg procs s) (hr : PositiveRates env procs) (t : List Bucket) :
    0 ≤ flow env n s t := by
  unfold flow
  refine Finset.sum_nonneg fun e _ => ?_
  split
  · by_cases he : ListedEvent s e
    · obtain ⟨p, k, -, -, -, h⟩ := listed_weight h hr he
      exact h.le
    · rw [rateAt_not_listed he]
  · exact le_rfl

/-- The types of a state, as a member of the family. -/
def typesOf (s : Member env n nT cfg procs T) : {x // x ∈ T} := ⟨s.1.ms.cfg.types, s.2.2⟩

theorem jumps_classes (hF : ClosedFamily env n nT cfg procs T W) (hr : PositiveRates env procs) {M : Nat}
    (hb : Bounded M cfg procs) (hf : FewEnough M procs) :
    (jumps hF hr hb hf).Classes typesOf (fun i k => W i.1 k.1) (fun i => ∑ k : {x // x ∈ T}, W i.1 k.1) := by
  have htot : ∀ s : Member env n nT cfg procs T, ∑ k : {x // x ∈ T}, W s.1.ms.cfg.types k.1 = sumRates s.1.ms.procs := by
    intro s
    rw [Finset.sum_coe_sort T (fun k => W s.1.ms.cfg.types k)]
    rw [← Finset.sum_congr rfl fun t ht => hF.rates s.1 s.2.1 s.2.2 t ht]
    exact C59_total s.2.1 hr hb hf (hF.closed s.1 s.2.1 s.2.2)
  refine ⟨?_, ?_, ?_⟩
  · intro s hs
    have hs : totalAvailableSites s.1.ms.procs = 0 := hs
    have hno : ∀ e, ¬ ListedEvent s.1 e := by
      rintro e ⟨p, hp, hsite⟩
      rw [(C25_totals s.2.1).2.1] at hs
      have h1 : p.sites.length ≤ (s.1.ms.procs.map (·.sites.length)).sum :=
        List.single_le_sum (fun _ _ => Nat.zero_le _) _ (List.mem_map_of_mem (List.mem_of_getElem? hp))
      have h2 := List.length_pos_of_mem hsite
      omega
    have hz : ∀ k : {x // x ∈ T}, W s.1.ms.cfg.types k.1 = 0 := by
      intro k
      rw [← hF.rates s.1 s.2.1 s.2.2 k.1 k.2]
      unfold flow
      refine Finset.sum_eq_zero fun e _ => ?_
      rw [rateAt_not_listed (hno e), ite_self]
    exact ⟨Finset.sum_eq_zero fun k _ => hz k, hz⟩
  · intro s _
    exact (htot s).symm
  · intro s hs k
    show _ = W s.1.ms.cfg.types k.1
    rw [← hF.rates s.1 s.2.1 s.2.2 k.1 k.2]
    unfold flow
    show ∑ e ∈ (eventsOf n s.1).filter _, rateAt s.1 e.1 e.2 = _
    rw [eventsOf, Finset.filter_filter, Finset.sum_filter]
    refine Finset.sum_congr rfl fun e _ => ?_
    by_cases he : ListedEvent s.1 e
    · obtain ⟨d, ps, g1, g2⟩ := jumps_next hF hr hb hf s he
      have hl : LeadsTo env s.1 e.1 e.2 ((jumps hF hr hb hf).next s e).1.ms.cfg.types := ⟨d, ps, _, g1, g2, rfl⟩
      by_cases hk : typesOf ((jumps hF hr hb hf).next s e) = k
      · rw [if_pos ⟨he, hk⟩, if_pos]
        rw [← hk]
        exact hl
      · rw [if_neg fun h => hk h.2, if_neg]
        intro hl'
        exact hk (Subtype.ext (hl.unique hl'))
    · rw [if_neg fun h => he h.1, rateAt_not_listed he, ite_self]

theorem renewal (hF : ClosedFamily env n nT cfg procs T W) (hr : PositiveRates env procs) {M : Nat}
    (hb : Bounded M cfg procs) (hf : FewEnough M procs) (σ : {x // x ∈ T} → Member env n nT cfg procs T)
    (hσ : ∀ i, typesOf (σ i) = i) (y : {x // x ∈ T}) :
    Chain.Renewal (fun i k : {x // x ∈ T} => W i.1 k.1) (fun i => ∑ k : {x // x ∈ T}, W i.1 k.1)
      (fun i => if i = y then 1 else 0) (fun i t => (chance env (σ i).1 y.1 t).toReal) := by
  have h := (jumps_classes hF hr hb hf).renewal (A := fun i => i = y) hσ (fun i k => by
    obtain ⟨s, hs, ht⟩ := hF.reached i.1 i.2
    rw [← ht, ← hF.rates s hs (by rw [ht]; exact i.2) k.1 k.2]
    exact flow_nonneg hs hr _)
  have hA : (fun s : Member env n nT cfg procs T => typesOf s = y) = fun s => s.1.ms.cfg.types = y.1 := by
    funext s
    exact propext Subtype.ext_iff
  rw [hA] at h
  convert h using 3 with i t
  rw [jumps_chance hF hr hb hf]

theorem exists_section (hF : ClosedFamily env n nT cfg procs T W) (s : Member env n nT cfg procs T) :
    ∃ σ : {x // x ∈ T} → Member env n nT cfg procs T, (∀ i, typesOf (σ i) = i) ∧ σ (typesOf s) = s := by
  have h : ∀ i : {x // x ∈ T}, ∃ a : Member env n nT cfg procs T, typesOf a = i := by
    intro i
    obtain ⟨a, ha, ht⟩ := hF.reached i.1 i.2
    exact ⟨⟨a, ha, by rw [ht]; exact i.2⟩, Subtype.ext ht⟩
  choose σ hσ using h
  refine ⟨fun i => if i = typesOf s then s else σ i, fun i => ?_, if_pos rfl⟩
  dsimp only
  split
  · next hi => exact hi.symm
  · exact hσ i

variable (hF : ClosedFamily env n nT cfg procs T W) (hr : PositiveRates env procs) {M : Nat}
  (hb : Bounded M cfg procs) (hf : FewEnough M procs)
include hF hr hb hf

/-- **C64** The types of a state decide the probabilities of what comes later. -/
theorem C64_types (h : GoodRun env n nT negLog cfg procs s) (h' : GoodRun env n nT negLog cfg procs s')
    (ht : s.ms.cfg.types ∈ T) (he : s.ms.cfg.types = s'.ms.cfg.types) (y : List Bucket) {t : ℝ} (h0 : 0 ≤ t) :
    chance env s y t = chance env s' y t := by
  let a : Member env n nT cfg procs T := ⟨s, h, ht⟩
  let b : Member env n nT cfg procs T := ⟨s', h', by rw [← he]; exact ht⟩
  obtain ⟨σ, hσ, hb'⟩ := exists_section hF b
  have hab : typesOf a = typesOf b := Subtype.ext he
  have := (jumps_classes hF hr hb hf).chance (A := fun i => i.1 = y) hσ a h0
  rw [hab, hb'] at this
  exact (jumps_chance hF hr hb hf y a t).trans (this.trans (jumps_chance hF hr hb hf y b t).symm)

/-- **C64** At the start the model has the types it has. -/
theorem C64_start (h : GoodRun env n nT negLog cfg procs s) (ht : s.ms.cfg.types ∈ T) {y : List Bucket} (hy : y ∈ T) :
    (chance env s y 0).toReal = if s.ms.cfg.types = y then 1 else 0 := by
  let a : Member env n nT cfg procs T := ⟨s, h, ht⟩
  obtain ⟨σ, hσ, ha⟩ := exists_section hF a
  have := (renewal hF hr hb hf σ hσ ⟨y, hy⟩).start (typesOf a)
  rw [ha] at this
  rw [this]
  simp only [typesOf, Subtype.mk.injEq, a]

/-- **C64** The master equation: the probability of the types `y` changes by what flows in from other types, at the rates
`W`, less what flows out. -/
theorem C64_master (h : GoodRun env n nT negLog cfg procs s) (ht : s.ms.cfg.types ∈ T) {y : List Bucket} (hy : y ∈ T) {t : ℝ}
    (h0 : 0 ≤ t) :
    HasDerivWithinAt (fun t => (chance env s y t).toReal)
      (∑ x ∈ T, (chance env s x t).toReal * W x y - (chance env s y t).toReal * ∑ x ∈ T, W y x) (Set.Ici t) t := by
  let a : Member env n nT cfg procs T := ⟨s, h, ht⟩
  obtain ⟨σ, hσ, ha⟩ := exists_section hF a
  have := Chain.forward (P := fun i j t => (chance env (σ i).1 j.1 t).toReal) (fun j => renewal hF hr hb hf σ hσ j)
    (typesOf a) ⟨y, hy⟩ h0
  simp only [ha] at this
  rw [Finset.sum_coe_sort T (fun x => (chance env a.1 x t).toReal * W x y), Finset.sum_coe_sort T (fun x => W y x)] at this
  exact this

/-- **C64** The probabilities add up to one: in a finite time there are finitely many events, with probability one. -/
theorem C64_total (h : GoodRun env n nT negLog cfg procs s) (ht : s.ms.cfg.types ∈ T) {t : ℝ} (h0 : 0 ≤ t) :
    ∑ y ∈ T, (chance env s y t).toReal = 1 := by
  let a : Member env n nT cfg procs T := ⟨s, h, ht⟩
  obtain ⟨σ, hσ, ha⟩ := exists_section hF a
  have := Chain.total (P := fun i j t => (chance env (σ i).1 j.1 t).toReal) (fun j => renewal hF hr hb hf σ hσ j)
    (fun _ => rfl) (typesOf a) h0
  simp only [ha] at this
  rw [Finset.sum_coe_sort T (fun y => (chance env a.1 y t).toReal)] at this
  exact this

/-- **C64** The master equation has no other solution. -/
theorem C64_unique (h : GoodRun env n nT negLog cfg procs s) (ht : s.ms.cfg.types ∈ T) (p : List Bucket → ℝ → ℝ)
    (hc : ∀ y ∈ T, ContinuousOn (p y) (Set.Ici 0)) (hstart : ∀ y ∈ T, p y 0 = if s.ms.cfg.types = y then 1 else 0)
    (hp : ∀ y ∈ T, ∀ t, 0 ≤ t → HasDerivWithinAt (p y) (∑ x ∈ T, p x t * W x y - p y t * ∑ x ∈ T, W y x) (Set.Ici t) t)
    {y : List Bucket} (hy : y ∈ T) {t : ℝ} (h0 : 0 ≤ t) : p y t = (chance env s y t).toReal := by
  let a : Member env n nT cfg procs T := ⟨s, h, ht⟩
  obtain ⟨σ, hσ, ha⟩ := exists_section hF a
  have hgen : ∀ (q : List Bucket → ℝ → ℝ) (y : {x // x ∈ T}) (t : ℝ),
      Chain.gen (fun i k : {x // x ∈ T} => W k.1 i.1) (fun i => ∑ x ∈ T, W i.1 x) (fun i => q i.1 t) y =
        ∑ x ∈ T, q x t * W x y.1 - q y.1 t * ∑ x ∈ T, W y.1 x := by
    intro q y t
    unfold Chain.gen
    rw [Finset.sum_coe_sort T (fun x => W x y.1 * q x t), mul_comm (q y.1 t)]
    congr 1
    exact Finset.sum_congr rfl fun x _ => mul_comm _ _
  have := Chain.unique (ι := {x // x ∈ T}) (W := fun i k => W k.1 i.1) (R := fun i => ∑ x ∈ T, W i.1 x)
    (f := fun t i => p i.1 t) (g := fun t i => (chance env s i.1 t).toReal) ?_ ?_ ?_ ?_ ?_ h0
  · exact congrFun this ⟨y, hy⟩
  · exact continuousOn_pi.2 fun i => hc i.1 i.2
  · refine continuousOn_pi.2 fun i => ?_
    have := (renewal hF hr hb hf σ hσ i).continuousOn (typesOf a)
    rw [ha] at this
    exact this
  · intro t h0
    refine hasDerivWithinAt_pi.2 fun i => ?_
    rw [hgen]
    exact hp i.1 i.2 t h0
  · intro t h0
    refine hasDerivWithinAt_pi.2 fun i => ?_
    rw [hgen (fun y t => (chance env s y t).toReal)]
    exact C64_master hF hr hb hf h ht i.2 h0
  · funext i
    show p i.1 0 = _
    rw [hstart i.1 i.2, C64_start hF hr hb hf h ht i.2]

/-- **C64** Stationary weights stay: if the first state is drawn with these weights then the types have these weights at
all times. The weights of detailed balance are of this kind (C59). -/
theorem C64_stationary {st : List Bucket → Sim ℝ} (hst : ∀ x ∈ T, GoodRun env n nT negLog cfg procs (st x))
    (htypes : ∀ x ∈ T, (st x).ms.cfg.types = x) {w : List Bucket → ℝ}
    (hw : ∀ y ∈ T, ∑ x ∈ T, w x * W x y = w y * ∑ x ∈ T, W y x) {y : List Bucket} (hy : y ∈ T) {t : ℝ} (h0 : 0 ≤ t) :
    ∑ x ∈ T, w x * (chance env (st x) y t).toReal = w y := by
  let σ : {x // x ∈ T} → Member env n nT cfg procs T := fun i => ⟨st i.1, hst i.1 i.2, by rw [htypes i.1 i.2]; exact i.2⟩
  have hσ : ∀ i, typesOf (σ i) = i := fun i => Subtype.ext (htypes i.1 i.2)
  have := Chain.stationary (P := fun i j t => (chance env (σ i).1 j.1 t).toReal) (fun j => renewal hF hr hb hf σ hσ j)
    (w := fun i => w i.1) (fun j => by
      rw [Finset.sum_coe_sort T (fun x => w x * W x j.1), Finset.sum_coe_sort T (fun x => W j.1 x)]
      exact hw j.1 j.2) ⟨y, hy⟩ h0
  rw [Finset.sum_coe_sort T (fun x => w x * (chance env (st x) y t).toReal)] at this
  exact this

end

/-! ### Models with constant rates -/

theorem took_unique {ps : List (PEntry ℝ)} {sk : List (CEntry ℝ)} {a b c : List Bucket} (h1 : Took ps sk a b)
    (h2 : Took ps sk a c) : b = c := by
  apply List.ext_getElem?
  intro i
  by_cases hi : ∃ (k : Nat) (e : PEntry ℝ) (c : CEntry ℝ), ps[k]? = some e ∧ sk[k]? = some c ∧ e.Changes ∧ c.index = i
  · obtain ⟨k, e, c, hk, hc, hch, rfl⟩ := hi
    obtain ⟨t, x1, x2⟩ := h1.changed k e c hk hc hch
    obtain ⟨t', y1, y2⟩ := h2.changed k e c hk hc hch
    rw [x1] at y1
    rw [x2, y2, Option.some.inj y1]
  · rw [h1.kept i, h2.kept i] <;>
    · intro k e c hk hc hch hidx
      exact hi ⟨k, e, c, hk, hc, hch, hidx⟩

/-- The types decide where events can lead. -/
theorem leadsTo_types (h : GoodRun env n nT negLog cfg procs s) (h' : GoodRun env n nT negLog cfg procs s')
    (hr : PositiveRates env procs) {M : Nat} (hb : Bounded M cfg procs) (hf : FewEnough M procs)
    (he : s.ms.cfg.types = s'.ms.cfg.types) {j site : Nat} {t : List Bucket} (hl : LeadsTo env s j site t) :
    LeadsTo env s' j site t := by
  obtain ⟨cfg1, procs1, hprep, hok, ⟨⟨A, hI⟩, -⟩, -⟩ := h.inv
  obtain ⟨cfg2, procs2, hprep', hok', ⟨⟨A', hI'⟩, -⟩, -⟩ := h'.inv
  have ec : cfg2 = cfg1 := Except.ok.inj (hprep'.1.symm.trans hprep.1)
  subst ec
  have ep : procs2 = procs1 := Except.ok.inj (hprep'.2.symm.trans hprep.2)
  subst ep
  obtain ⟨d, ps, a, g1, g2, rfl⟩ := hl
  obtain ⟨p, sk, hp, hsk, hsite, hfit, htook⟩ := h.took g1 g2 hprep
  have hav := (C24_available h hp site).1 hsite
  obtain ⟨q, hq⟩ : ∃ q, s'.ms.procs[j]? = some q := by
    refine ⟨_, List.getElem?_eq_getElem ?_⟩
    rw [procs_length h', ← procs_length h]
    exact (List.getElem?_eq_some_iff.1 hp).1
  have e1 : (procs2.map Proc.still)[j]? = some p.still := hI.proc hp
  have e2 : (procs2.map Proc.still)[j]? = some q.still := hI'.proc hq
  rw [e1] at e2
  have est : p.still = q.still := Option.some.inj e2
  have em : p.matchList = q.matchList := by have h := congrArg Proc.matchList est; exact h
  have eb : p.basisSites = q.basisSites := by have h := congrArg Proc.basisSites est; exact h
  have hl := lists_of h.input hprep.1
  have m1 := hl.matchList h.input.lattice h.input.sites h.good.shape h.coords hsk
  have m2 := hl.matchList h'.input.lattice h'.input.sites h'.good.shape h'.coords hsk
  have hsite' : site ∈ q.sites := by
    refine (C24_available h' hq site).2 ⟨hav.1, by rw [← eb]; exact hav.2.1, _, m2, ?_⟩
    obtain ⟨ml, k1, k2⟩ := hav.2.2
    have k1 := m1.symm.trans k1
    rw [← em, ← he, Except.ok.inj k1]
    exact k2
  obtain ⟨k, hk⟩ := List.mem_iff_getElem?.1 hsite'
  obtain ⟨d', ps', b, r, f1, f2, -⟩ := C58_possible h' hr hb hf hq hk
  refine ⟨d', ps', b, f1, f2, ?_⟩
  obtain ⟨q', sk', hq', hsk', -, -, htook'⟩ := h'.took f1 f2 hprep
  rw [hq] at hq'
  obtain rfl := Option.some.inj hq'
  rw [hsk] at hsk'
  obtain rfl := Option.some.inj hsk'
  rw [← em, ← he] at htook'
  exact took_unique htook' htook

/-- **C64** With constant rates the types of a state decide the rates to other types. -/
theorem C64_rates (h : GoodRun env n nT negLog cfg procs s) (h' : GoodRun env n nT negLog cfg procs s')
    (hr : PositiveRates env procs) {M : Nat} (hb : Bounded M cfg procs) (hf : FewEnough M procs)
    (hc : ∀ p ∈ procs, p.custom = false) (he : s.ms.cfg.types = s'.ms.cfg.types) (t : List Bucket) :
    flow env n s t = flow env n s' t := by
  unfold flow
  rw [procs_length h, procs_length h']
  refine Finset.sum_congr rfl fun e hm => ?_
  rw [Finset.mem_product, Finset.mem_range] at hm
  have e1 := List.getElem?_eq_getElem hm.1
  have hce := hc _ (List.getElem_mem hm.1)
  by_cases hl : LeadsTo env s e.1 e.2 t
  · have hl' := leadsTo_types h h' hr hb hf he hl
    rw [if_pos hl, if_pos hl', rateAt_constant h e1 hce hl, rateAt_constant h' e1 hce hl']
  · rw [if_neg hl, if_neg fun hl' => hl (leadsTo_types h' h hr hb hf he.symm hl')]

theorem finite_lists {α : Type _} {A : Set α} (hA : A.Finite) (n : Nat) : {l : List α | l.length = n ∧ ∀ x ∈ l, x ∈ A}.Finite := by
  induction n with
  | zero =>
    refine (Set.finite_singleton []).subset ?_
    rintro l ⟨hl, -⟩
    exact List.length_eq_zero_iff.1 hl
  | succ n ih =>
    refine (hA.image2 (fun x l => x :: l) ih).subset ?_
    rintro l ⟨hl, hx⟩
    match l, hl, hx with
    | x :: l, hl, hx => exact ⟨x, hx x (by simp), l, ⟨by simpa using hl, fun y hy => hx y (by simp [hy])⟩, rfl⟩

/-- The states of all runs have finitely many types. -/
theorem finite_types {M : Nat} (hb : Bounded M cfg procs) :
    {x | ∃ s, GoodRun env n nT negLog cfg procs s ∧ s.ms.cfg.types = x}.Finite := by
  refine (finite_lists (finite_lists (Set.finite_Icc (0 : Int) M) nT) n).subset ?_
  rintro x ⟨s, h, rfl⟩
  have hg := h.good
  refine ⟨hg.shape.types, fun t ht => ⟨hg.bucket t ht, fun y hy => ⟨?_, ?_⟩⟩⟩
  · obtain ⟨i, hi⟩ := List.mem_iff_getElem?.1 ht
    have hil : i < s.ms.cfg.elements.length := by
      rw [hg.shape.elements, ← hg.shape.types]
      exact (List.getElem?_eq_some_iff.1 hi).1
    obtain ⟨k, hk⟩ := List.mem_iff_getElem?.1 hy
    have hkl : k < s.ms.cfg.typeNames.length := by
      rw [hg.names, ← hg.bucket t ht]
      exact (List.getElem?_eq_some_iff.1 hk).1
    have h3 := (hg.tallied i _ t (List.getElem?_eq_getElem hil) hi).2 k _ (List.getElem?_eq_getElem hkl)
    rw [hk, Option.some.injEq] at h3
    omega
  · obtain ⟨cfg1, procs1, hprep, hok, ⟨hI, htab⟩, hkept⟩ := h.inv
    exact crowd_most hg (hkept _ (crowd_kept h.input hprep M) (crowd_start h.input hprep hb)) t ht y hy

/-- **C64** In a model with constant rates and few enough particles, the types of all the states of its runs make such a
family. -/
theorem C64_family (hr : PositiveRates env procs) {M : Nat} (hb : Bounded M cfg procs) (hf : FewEnough M procs)
    (hc : ∀ p ∈ procs, p.custom = false) :
    ∃ T W, ClosedFamily env n nT cfg procs T W ∧ ∀ s, GoodRun env n nT negLog cfg procs s → s.ms.cfg.types ∈ T ∧
      ∀ t, W s.ms.cfg.types t = flow env n s t := by
  have hW : ∀ x : List Bucket, ∃ f : List Bucket → ℝ, ∀ s, GoodRun env n nT negLog cfg procs s → s.ms.cfg.types = x →
      ∀ t, f t = flow env n s t := by
    intro x
    by_cases hx : ∃ s, GoodRun env n nT negLog cfg procs s ∧ s.ms.cfg.types = x
    · obtain ⟨s, h, ht⟩ := hx
      exact ⟨flow env n s, fun s' h' ht' t => C64_rates h h' hr hb hf hc (ht.trans ht'.symm) t⟩
    · exact ⟨fun _ => 0, fun s h ht => absurd ⟨s, h, ht⟩ hx⟩
  choose W hW using hW
  refine ⟨(finite_types (env := env) (n := n) (nT := nT) hb).toFinset, W, ⟨?_, ?_, ?_⟩, ?_⟩
  · intro x hx
    rw [Set.Finite.mem_toFinset] at hx
    exact hx
  · rintro s h - j site t ⟨d, ps, a, -, g2, rfl⟩
    rw [Set.Finite.mem_toFinset]
    exact ⟨a, h.step g2, rfl⟩
  · intro s h _ t _
    exact (hW _ s h rfl t).symm
  · intro s h
    refine ⟨?_, fun t => hW _ s h rfl t⟩
    rw [Set.Finite.mem_toFinset]
    exact ⟨s, h, rfl⟩

/-! ### Non-vacuity -/

/-- From a state with `A` on the site the model goes to `B` with rate 2, from one with `B` to `A` with rate 3. -/
theorem toAndFro_next (h : GoodRun Sample.oneEnv 1 3 negLog Sample.oneSite Sample.toAndFro s) {a b : List Bucket} {r : ℝ}
    (hab : a = [[0, 1, 0]] ∧ b = [[0, 0, 1]] ∧ r = 2 ∨ a = [[0, 0, 1]] ∧ b = [[0, 1, 0]] ∧ r = 3) (ht : s.ms.cfg.types = a) :
    (∀ j site t, LeadsTo Sample.oneEnv s j site t → t = b) ∧ flow Sample.oneEnv 1 s b = r ∧ flow Sample.oneEnv 1 s a = 0 ∧
      ∃ s', GoodRun Sample.oneEnv 1 3 negLog Sample.oneSite Sample.toAndFro s' ∧ s'.ms.cfg.types = b := by
  obtain ⟨hb, hf⟩ := bounded_one Sample.oneSite_one Sample.toAndFro_balanced
  obtain ⟨j0, p, p', hj0, hp, hs, hw, hp', hs'⟩ : ∃ (j0 : Nat) (p p' : Proc ℝ), j0 < 2 ∧ s.ms.procs[j0]? = some p ∧ p.sites = [0] ∧
      p.weights = [r] ∧ s.ms.procs[1 - j0]? = some p' ∧ p'.sites = [] := by
    rcases hab with ⟨rfl, rfl, rfl⟩ | ⟨rfl, rfl, rfl⟩
    · obtain ⟨p, hp, hs, hw, -⟩ := Sample.turn_listed Sample.toAndFro_range h ht (j := 0) rfl rfl (b := true) rfl
      obtain ⟨p', hp', hs', -, -⟩ := Sample.turn_listed Sample.toAndFro_range h ht (j := 1) rfl rfl (b := false) rfl
      exact ⟨0, p, p', by decide, hp, hs, hw, hp', hs'⟩
    · obtain ⟨p, hp, hs, hw, -⟩ := Sample.turn_listed Sample.toAndFro_range h ht (j := 1) rfl rfl (b := true) rfl
      obtain ⟨p', hp', hs', -, -⟩ := Sample.turn_listed Sample.toAndFro_range h ht (j := 0) rfl rfl (b := false) rfl
      exact ⟨1, p, p', by decide, hp, hs, hw, hp', hs'⟩
  have hlen := procs_length h
  have hto : ∀ j site t, LeadsTo Sample.oneEnv s j site t → t = b ∧ j = j0 ∧ site = 0 := by
    intro j site t hl
    obtain ⟨q, hq, hqs⟩ := hl.listed h
    have hj : j < 2 := by
      have := (List.getElem?_eq_some_iff.1 hq).1
      rw [hlen] at this
      exact this
    obtain rfl : j = j0 := by
      by_contra hne
      have : j = 1 - j0 := by omega
      rw [this, hp'] at hq
      obtain rfl := Option.some.inj hq
      rw [hs'] at hqs
      simp at hqs
    rw [hp] at hq
    obtain rfl := Option.some.inj hq
    rw [hs, List.mem_singleton] at hqs
    refine ⟨?_, rfl, hqs⟩
    obtain ⟨d, ps, s', a1, a2, rfl⟩ := hl
    have h' := h.step a2
    obtain ⟨s0, hs0, hms⟩ := step_single a2
    obtain ⟨q, hq, htot⟩ := C17_total h a1 hs0
    rw [hms] at htot
    obtain ⟨x, hx⟩ := List.length_eq_one_iff.1 h'.good.shape.types
    have hxl := h'.good.bucket x (by rw [hx]; simp)
    have h0 := htot 0
    have h1 := htot 1
    have h2 := htot 2
    unfold Config.total at h0 h1 h2
    rw [hx, ht] at h0 h1 h2
    have hcase : j = 0 ∧ a = [[0, 1, 0]] ∧ b = [[0, 0, 1]] ∨ j = 1 ∧ a = [[0, 0, 1]] ∧ b = [[0, 1, 0]] := by
      rcases hab with ⟨rfl, rfl, rfl⟩ | ⟨rfl, rfl, rfl⟩
      · left
        refine ⟨?_, rfl, rfl⟩
        by_contra hne
        obtain rfl : j = 1 := by omega
        obtain ⟨q, hq, hs, -⟩ := Sample.turn_listed Sample.toAndFro_range h ht (j := 1) rfl rfl (b := false) rfl
        rw [hp] at hq
        obtain rfl := Option.some.inj hq
        simp_all
      · right
        refine ⟨?_, rfl, rfl⟩
        by_contra hne
        obtain rfl : j = 0 := by omega
        obtain ⟨q, hq, hs, -⟩ := Sample.turn_listed Sample.toAndFro_range h ht (j := 0) rfl rfl (b := false) rfl
        rw [hp] at hq
        obtain rfl := Option.some.inj hq
        simp_all
    rcases hcase with ⟨rfl, rfl, rfl⟩ | ⟨rfl, rfl, rfl⟩
    · obtain rfl := Option.some.inj hq
      match x, hxl with
      | [x, y, w], _ =>
        simp [Proc.net, Sample.turn] at h0 h1 h2
        rw [hx, h0, h1, h2]
    · obtain rfl := Option.some.inj hq
      match x, hxl with
      | [x, y, w], _ =>
        simp [Proc.net, Sample.turn] at h0 h1 h2
        rw [hx, h0, h1, h2]
  obtain ⟨d, ps, s', r', g1, g2, -⟩ := C58_possible h Sample.toAndFro_positive hb hf hp (k := 0) (site := 0) (by rw [hs]; rfl)
  have hl : LeadsTo Sample.oneEnv s j0 0 b := by
    have hl : LeadsTo Sample.oneEnv s j0 0 s'.ms.cfg.types := ⟨d, ps, s', g1, g2, rfl⟩
    rw [(hto _ _ _ hl).1] at hl
    exact hl
  refine ⟨fun j site t hl => (hto j site t hl).1, ?_, ?_, s', h.step g2, (hto j0 0 _ ⟨d, ps, s', g1, g2, rfl⟩).1⟩
  · unfold flow
    rw [Finset.sum_eq_single (j0, 0)]
    · rw [if_pos hl]
      exact rateAt_listed h hp (k := 0) (by rw [hs]; rfl) (by rw [hw]; rfl)
    · rintro ⟨j, site⟩ - hne
      rw [if_neg]
      intro hl'
      obtain ⟨-, rfl, rfl⟩ := hto _ _ _ hl'
      exact hne rfl
    · intro hn
      exfalso
      apply hn
      rw [Finset.mem_product, Finset.mem_range, Finset.mem_range]
      exact ⟨(List.getElem?_eq_some_iff.1 hp).1, Nat.zero_lt_one⟩
  · unfold flow
    refine Finset.sum_eq_zero fun e _ => ?_
    rw [if_neg]
    intro hl'
    have := (hto _ _ _ hl').1
    rcases hab with ⟨rfl, rfl, -⟩ | ⟨rfl, rfl, -⟩ <;> exact absurd this (by decide)

/-- The rates of the sample. -/
noncomputable def toAndFroRate (x y : List Bucket) : ℝ :=
  if x = [[0, 1, 0]] ∧ y = [[0, 0, 1]] then 2 else if x = [[0, 0, 1]] ∧ y = [[0, 1, 0]] then 3 else 0

theorem toAndFro_family : ClosedFamily Sample.oneEnv 1 3 Sample.oneSite Sample.toAndFro {[[0, 1, 0]], [[0, 0, 1]]} toAndFroRate := by
  obtain ⟨s, h, ht⟩ := Sample.oneSite_starts Sample.toAndFro_wellFormed
  obtain ⟨-, -, -, s', h', ht'⟩ := toAndFro_next h (.inl ⟨rfl, rfl, rfl⟩) ht
  have hAB : ([[0, 1, 0]] : List Bucket) ≠ [[0, 0, 1]] := by decide
  refine ⟨?_, ?_, ?_⟩
  · intro x hx
    simp only [Finset.mem_insert, Finset.mem_singleton] at hx
    rcases hx with rfl | rfl
    · exact ⟨s, h, ht⟩
    · exact ⟨s', h', ht'⟩
  · intro s h hm j site t hl
    simp only [Finset.mem_insert, Finset.mem_singleton] at hm ⊢
    rcases hm with hm | hm
    · exact .inr ((toAndFro_next h (.inl ⟨rfl, rfl, rfl⟩) hm).1 j site t hl)
    · exact .inl ((toAndFro_next h (.inr ⟨rfl, rfl, rfl⟩) hm).1 j site t hl)
  · intro s h hm t ht
    simp only [Finset.mem_insert, Finset.mem_singleton] at hm ht
    rcases hm with hm | hm
    · obtain ⟨-, f1, f2, -⟩ := toAndFro_next h (.inl ⟨rfl, rfl, rfl⟩) hm
      rcases ht with rfl | rfl
      · rw [hm]
        exact f2.trans (by simp [toAndFroRate])
      · rw [hm]
        exact f1.trans (by simp [toAndFroRate])
    · obtain ⟨-, f1, f2, -⟩ := toAndFro_next h (.inr ⟨rfl, rfl, rfl⟩) hm
      rcases ht with rfl | rfl
      · rw [hm]
        exact f1.trans (by simp [toAndFroRate])
      · rw [hm]
        exact f2.trans (by simp [toAndFroRate])

/-- Non-vacuity: a site that turns from `A` to `B` with rate 2 and back with rate 3. The probability of `A` on the site after a
time `t` is `3/5 + 2/5 exp (-5 t)`. -/
theorem toAndFro_chance : ∃ s, GoodRun Sample.oneEnv 1 3 negLog Sample.oneSite Sample.toAndFro s ∧ s.ms.cfg.types = [[0, 1, 0]] ∧
    ∀ t : ℝ, 0 ≤ t → (chance Sample.oneEnv s [[0, 1, 0]] t).toReal = 3 / 5 + 2 / 5 * Real.exp (-(5 * t)) := by
  obtain ⟨hb, hf⟩ := bounded_one Sample.oneSite_one Sample.toAndFro_balanced
  obtain ⟨s, h, ht⟩ := Sample.oneSite_starts Sample.toAndFro_wellFormed
  let A : List Bucket := [[0, 1, 0]]
  let B : List Bucket := [[0, 0, 1]]
  have hAB : A ≠ B := by decide
  let W := toAndFroRate
  have hF : ClosedFamily Sample.oneEnv 1 3 Sample.oneSite Sample.toAndFro {A, B} W := toAndFro_family
  refine ⟨s, h, ht, fun t h0 => ?_⟩
  let p : List Bucket → ℝ → ℝ := fun x t => if x = A then 3 / 5 + 2 / 5 * Real.exp (-(5 * t)) else 2 / 5 - 2 / 5 * Real.exp (-(5 * t))
  have hpA : p A = fun t => 3 / 5 + 2 / 5 * Real.exp (-(5 * t)) := by funext t; simp [p]
  have hpB : p B = fun t => 2 / 5 - 2 / 5 * Real.exp (-(5 * t)) := by funext t; simp [p, hAB.symm]
  have hexp : ∀ t : ℝ, HasDerivAt (fun t => 2 / 5 * Real.exp (-(5 * t))) (-2 * Real.exp (-(5 * t))) t := by
    intro t
    have h1 : HasDerivAt (fun t : ℝ => -(5 * t)) (-5) t := 
      ((hasDerivAt_id' t).const_mul (5 : ℝ)).fun_neg.congr_deriv (by norm_num)
    exact (h1.exp.const_mul (2 / 5)).congr_deriv (by ring)
  have hu := C64_unique hF Sample.toAndFro_positive hb hf h (by rw [ht]; simp [A]) p ?_ ?_ ?_ (y := A) (by simp) h0
  · rw [← hu, hpA]
  · intro y hy
    simp only [Finset.mem_insert, Finset.mem_singleton] at hy
    rcases hy with rfl | rfl
    · rw [hpA]; fun_prop
    · rw [hpB]; fun_prop
  · intro y hy
    simp only [Finset.mem_insert, Finset.mem_singleton] at hy
    rw [ht]
    rcases hy with rfl | rfl
    · rw [hpA, if_pos rfl]; norm_num
    · rw [hpB, if_neg hAB]; norm_num
  · intro y hy t _
    simp only [Finset.mem_insert, Finset.mem_singleton] at hy
    rw [Finset.sum_pair hAB, Finset.sum_pair hAB]
    rcases hy with rfl | rfl
    · have : HasDerivAt (p A) (-2 * Real.exp (-(5 * t))) t := by
        rw [hpA]
        exact (hexp t).const_add (3 / 5)
      refine (this.congr_deriv ?_).hasDerivWithinAt
      rw [hpA, hpB]
      simp [W, toAndFroRate, A, B]
      ring
    · have : HasDerivAt (p B) (-(-2 * Real.exp (-(5 * t)))) t := by
        rw [hpB]
        exact (hexp t).const_sub (2 / 5)
      refine (this.congr_deriv ?_).hasDerivWithinAt
      rw [hpA, hpB]
      simp [W, toAndFroRate, A, B]
      ring

end KMC
