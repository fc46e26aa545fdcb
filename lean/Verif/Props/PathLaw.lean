import Verif.Samples.OneSite
import Mathlib.MeasureTheory.Constructions.Pi

/-!
# C58: the law of a whole run

With independent uniform random numbers the events and the waiting times of a run are distributed as in the continuous
time Markov chain with the rates of the states passed through.
-/

namespace KMC

open Interactions LatticeModel MeasureTheory

/-- A course of events from a state: process, site and a time for each step, such that the model can go this way. The
last argument is the product over the steps of `r / R * exp (-R t)`, where `r` is the rate of the event and `R` the total
rate in the state it starts from. -/
inductive Course (env : Env ℝ) : Sim ℝ → List (Nat × Nat × ℝ) → ℝ → Prop
  | nil (s : Sim ℝ) : Course env s [] 1
  | cons {s s' : Sim ℝ} {d : Draws ℝ} {ps : List (Proc ℝ)} {j site k : Nat} {p : Proc ℝ} {r t : ℝ}
      {es : List (Nat × Nat × ℝ)} {q : ℝ}
      (selected : select s.ms.procs s.table d.process d.site = .ok (j, site, ps))
      (step : step env negLog s d = .ok s') (process : s.ms.procs[j]? = some p) (listed : p.sites[k]? = some site)
      (rate : p.weights[k]? = some r) (rest : Course env s' es q) :
      Course env s ((j, site, t) :: es)
        (r / (s.ms.procs.map (·.totalRate)).sum * Real.exp (-((s.ms.procs.map (·.totalRate)).sum * t)) * q)

/-- The random numbers of one step from a point of the cube. -/
def drawsOf (d : ℝ × ℝ × ℝ) : Draws ℝ := { time := [d.1], process := d.2.1, site := d.2.2 }

/-- With these random numbers the run goes through the given events, each waiting time being longer than the given one. -/
def Follows (env : Env ℝ) : (es : List (Nat × Nat × ℝ)) → Sim ℝ → (Fin es.length → ℝ × ℝ × ℝ) → Prop
  | [], _, _ => True
  | (j, site, t) :: es, s, w => ∃ s', step env negLog s (drawsOf (w 0)) = .ok s' ∧
      (∃ ps, select s.ms.procs s.table (w 0).2.1 (w 0).2.2 = .ok (j, site, ps)) ∧ t < s'.time - s.time ∧
      Follows env es s' (fun i => w i.succ)

/-- The random numbers are at least zero and less than one. -/
def InCube {n : Nat} (w : Fin n → ℝ × ℝ × ℝ) : Prop :=
  ∀ i, (w i).1 ∈ Set.Ico (0 : ℝ) 1 ∧ (w i).2.1 ∈ Set.Ico (0 : ℝ) 1 ∧ (w i).2.2 ∈ Set.Ico (0 : ℝ) 1

/-- What follows depends on the time in no way. -/
theorem follows_time (env : Env ℝ) (es : List (Nat × Nat × ℝ)) {s s' : Sim ℝ} (h1 : s.ms = s'.ms) (h2 : s.table = s'.table)
    (w : Fin es.length → ℝ × ℝ × ℝ) (h : Follows env es s w) : Follows env es s' w := by
  induction es generalizing s s' with
  | nil => trivial
  | cons e es ih =>
    obtain ⟨j, site, t⟩ := e
    obtain ⟨s1, hs, hsel, ht, hf⟩ := h
    unfold step propagateTime at hs
    rw [bind_ok] at hs
    obtain ⟨s2, hs2, hs⟩ := hs
    rw [bind_ok] at hs2
    obtain ⟨R, hR, hs2⟩ := hs2
    rw [bind_ok] at hs2
    obtain ⟨dt, hdt, hs2⟩ := hs2
    cases hs2
    unfold singleStep at hs
    rw [bind_ok] at hs
    obtain ⟨e, he, hs⟩ := hs
    rw [bind_ok] at hs
    obtain ⟨m1, hm1, hs⟩ := hs
    rw [bind_ok] at hs
    obtain ⟨m2, hm2, hs⟩ := hs
    cases hs
    refine ⟨{ ms := m2, table := probabilityTable m2.procs, time := s'.time + dt }, ?_, ?_, ?_, ?_⟩
    · unfold step propagateTime singleStep
      rw [← h2, hR, ok_bind, hdt, ok_bind, pure_ok, ok_bind, ← h1, he, ok_bind, hm1, ok_bind, hm2, ok_bind]
      rfl
    · rw [← h1, ← h2]; exact hsel
    · simp only at ht ⊢
      linarith
    · exact ih (s := { ms := m2, table := probabilityTable m2.procs, time := s.time + dt })
        (s' := { ms := m2, table := probabilityTable m2.procs, time := s'.time + dt }) rfl rfl _ hf

/-- Which processes a selection leaves. -/
theorem select_procs {procs ps : List (Proc ℝ)} {table : List (ℝ × Nat)} {u1 u2 : ℝ} {j site : Nat}
    (h : select procs table u1 u2 = .ok (j, site, ps)) :
    ∃ p p', procs[j]? = some p ∧ p.updateRateTable = .ok p' ∧ ps = procs.set j p' := by
  unfold select at h
  rw [bind_ok] at h
  obtain ⟨pk, hpk, h⟩ := h
  rw [bind_ok] at h
  obtain ⟨st, hsite, h⟩ := h
  cases h
  unfold Interactions.pickProcess at hpk
  rw [bind_ok] at hpk
  obtain ⟨i, hi, hpk⟩ := hpk
  rw [bind_ok] at hpk
  obtain ⟨p, hp, hpk⟩ := hpk
  rw [bind_ok] at hpk
  obtain ⟨p', hp', hpk⟩ := hpk
  rw [bind_ok] at hpk
  obtain ⟨ps, hps, hpk⟩ := hpk
  cases hpk
  exact ⟨p, p', rd_ok.1 hp, hp', (wr_ok.1 hps).2.symm⟩

/-- The time after a step. -/
theorem step_time {env : Env ℝ} {s a : Sim ℝ} {d : Draws ℝ} (h : step env negLog s d = .ok a) :
    ∃ R dt, totalRate s.table = .ok R ∧ drawStep negLog R d.time = .ok dt ∧ a.time = s.time + dt := by
  unfold step propagateTime at h
  rw [bind_ok] at h
  obtain ⟨s2, hs2, hs⟩ := h
  rw [bind_ok] at hs2
  obtain ⟨R, hR, hs2⟩ := hs2
  rw [bind_ok] at hs2
  obtain ⟨dt, hdt, hs2⟩ := hs2
  cases hs2
  unfold singleStep at hs
  rw [bind_ok] at hs
  obtain ⟨e, he, hs⟩ := hs
  rw [bind_ok] at hs
  obtain ⟨m1, hm1, hs⟩ := hs
  rw [bind_ok] at hs
  obtain ⟨m2, hm2, hs⟩ := hs
  cases hs
  exact ⟨R, dt, hR, hdt, rfl⟩

/-- The state after a step depends on the event only, apart from the time. -/
theorem step_determined {env : Env ℝ} {s a : Sim ℝ} {d d' : Draws ℝ} {j site : Nat} {ps ps' : List (Proc ℝ)}
    (h1 : select s.ms.procs s.table d.process d.site = .ok (j, site, ps))
    (h1' : select s.ms.procs s.table d'.process d'.site = .ok (j, site, ps'))
    (ha : step env negLog s d = .ok a) {R dt : ℝ} (hR : totalRate s.table = .ok R)
    (hdt : drawStep negLog R d'.time = .ok dt) : step env negLog s d' = .ok { a with time := s.time + dt } := by
  have hps : ps = ps' := by
    obtain ⟨p, p', hp, hp', rfl⟩ := select_procs h1
    obtain ⟨q, q', hq, hq', rfl⟩ := select_procs h1'
    rw [hp, Option.some.injEq] at hq
    subst hq
    rw [hp'] at hq'
    cases hq'
    rfl
  subst hps
  unfold step at ha ⊢
  rw [bind_ok] at ha
  obtain ⟨a1, ha1, ha⟩ := ha
  obtain ⟨e1, e2⟩ := propagateTime_ok ha1
  unfold singleStep at ha
  rw [e1, e2, h1, ok_bind, bind_ok] at ha
  obtain ⟨m1, hm1, ha⟩ := ha
  rw [bind_ok] at ha
  obtain ⟨m2, hm2, ha⟩ := ha
  cases ha
  unfold propagateTime singleStep
  rw [hR, ok_bind, hdt, ok_bind, pure_ok, ok_bind, h1', ok_bind, hm1, ok_bind, hm2, ok_bind]
  rfl

/-- The random numbers that lead to one event with a long enough waiting time. -/
theorem volume_step (procs : List (Proc ℝ)) (h : Selectable procs) (hpos : 0 < sumRates procs) {j : Nat} {p : Proc ℝ}
    (hp : procs[j]? = some p) {k site : Nat} {r t : ℝ} (hk : p.sites[k]? = some site) (hw : p.weights[k]? = some r)
    (ht : 0 ≤ t) :
    volume {d : ℝ × ℝ × ℝ | (d.1 ∈ Set.Ico (0 : ℝ) 1 ∧ ∃ dt, timeStep negLog (sumRates procs) d.1 = some dt ∧ t < dt) ∧
        d.2.1 ∈ Set.Ico (0 : ℝ) 1 ∧ d.2.2 ∈ Set.Ico (0 : ℝ) 1 ∧
        ∃ ps, select procs (probabilityTable procs) d.2.1 d.2.2 = .ok (j, site, ps)} =
      ENNReal.ofReal (r / sumRates procs * Real.exp (-(sumRates procs * t))) := by
  have hset : {d : ℝ × ℝ × ℝ | (d.1 ∈ Set.Ico (0 : ℝ) 1 ∧ ∃ dt, timeStep negLog (sumRates procs) d.1 = some dt ∧ t < dt) ∧
        d.2.1 ∈ Set.Ico (0 : ℝ) 1 ∧ d.2.2 ∈ Set.Ico (0 : ℝ) 1 ∧
        ∃ ps, select procs (probabilityTable procs) d.2.1 d.2.2 = .ok (j, site, ps)} =
      {u : ℝ | u ∈ Set.Ico (0 : ℝ) 1 ∧ ∃ dt, timeStep negLog (sumRates procs) u = some dt ∧ t < dt} ×ˢ
        {u : ℝ × ℝ | u.1 ∈ Set.Ico (0 : ℝ) 1 ∧ u.2 ∈ Set.Ico (0 : ℝ) 1 ∧
          ∃ ps, select procs (probabilityTable procs) u.1 u.2 = .ok (j, site, ps)} := rfl
  have hr : 0 ≤ r := h.nonneg p (List.mem_of_getElem? hp) r (List.mem_of_getElem? hw)
  rw [hset, Measure.volume_eq_prod, Measure.prod_prod, C29_exponential _ _ hpos ht, Measure.volume_eq_prod,
    C28_event_probability procs h hpos j p hp k site r hk hw, ← ENNReal.ofReal_mul (Real.exp_pos _).le, mul_comm]

variable {env : Env ℝ} {n nT : Nat} {cfg : Config ℝ} {procs : List (Proc ℝ)} {s : Sim ℝ}

/-- **C58** With independent uniform random numbers, the probability that a run goes through given events with each
waiting time longer than a given one is the product over the steps of `r / R * exp (-R t)`, with the rate `r` of the
event and the total rate `R` in the state it starts from: the law of the continuous time Markov chain with these rates.

That the listed events are the possible ones and have the right rates is C24, C25 and C32. -/
theorem C58_path_law (h : GoodRun env n nT negLog cfg procs s) (hr : PositiveRates env procs)
    {es : List (Nat × Nat × ℝ)} {q : ℝ} (hc : Course env s es q) (ht : ∀ e ∈ es, 0 ≤ e.2.2) :
    volume {w : Fin es.length → ℝ × ℝ × ℝ | InCube w ∧ Follows env es s w} = ENNReal.ofReal q := by
  have hq : ∀ {s es q}, GoodRun env n nT negLog cfg procs s → Course env s es q → (∀ e ∈ es, 0 ≤ e.2.2) →
      0 ≤ q ∧ volume {w : Fin es.length → ℝ × ℝ × ℝ | InCube w ∧ Follows env es s w} = ENNReal.ofReal q := by
    clear h hc ht
    intro s es q h hc
    induction hc with
    | nil s =>
      intro _
      refine ⟨zero_le_one, ?_⟩
      have : {w : Fin ([] : List (Nat × Nat × ℝ)).length → ℝ × ℝ × ℝ | InCube w ∧ Follows env [] s w} = Set.univ := by
        ext w
        simp only [Set.mem_ofPred_eq, Set.mem_univ, iff_true]
        exact ⟨fun i => i.elim0, trivial⟩
      rw [this]
      simp [volume_pi]
    | @cons s s' d ps j site k p r t es q hsel hstep hp hk hw rest ih =>
      intro ht
      obtain ⟨hq0, hvol⟩ := ih (h.step hstep) (fun e he => ht e (by simp [he]))
      obtain ⟨-, hav, htab, htot⟩ := C25_totals h
      have hpm : p ∈ s.ms.procs := List.mem_of_getElem? hp
      have ha : totalAvailableSites s.ms.procs ≠ 0 := by
        rw [hav]
        have h1 : p.sites.length ≤ (s.ms.procs.map (·.sites.length)).sum :=
          List.single_le_sum (fun _ _ => Nat.zero_le _) _ (List.mem_map_of_mem hpm)
        have h2 := (List.getElem?_eq_some_iff.1 hk).1
        omega
      obtain ⟨hS, hpos⟩ := sumRates_pos h hr ha
      have hr0 : 0 ≤ r := hS.nonneg p (List.mem_of_getElem? hp) r (List.mem_of_getElem? hw)
      have hne : s.ms.procs ≠ [] := by
        intro h0
        rw [h0] at hp
        simp at hp
      have htot : totalRate s.table = .ok (sumRates s.ms.procs) := by
        rw [htot hne]
        congr 2
        exact List.map_congr_left fun p hp => ((hS.consistent p hp).total).symm
      refine ⟨mul_nonneg (mul_nonneg (div_nonneg hr0 hpos.le) (Real.exp_pos _).le) hq0, ?_⟩
      have hset : {w : Fin ((j, site, t) :: es).length → ℝ × ℝ × ℝ | InCube w ∧ Follows env ((j, site, t) :: es) s w} =
          MeasurableEquiv.piFinSuccAbove (fun _ : Fin (es.length + 1) => ℝ × ℝ × ℝ) 0 ⁻¹'
            ({d : ℝ × ℝ × ℝ | (d.1 ∈ Set.Ico (0 : ℝ) 1 ∧
                ∃ dt, timeStep negLog (sumRates s.ms.procs) d.1 = some dt ∧ t < dt) ∧
              d.2.1 ∈ Set.Ico (0 : ℝ) 1 ∧ d.2.2 ∈ Set.Ico (0 : ℝ) 1 ∧
              ∃ ps, select s.ms.procs (probabilityTable s.ms.procs) d.2.1 d.2.2 = .ok (j, site, ps)} ×ˢ
            {w : Fin es.length → ℝ × ℝ × ℝ | InCube w ∧ Follows env es s' w}) := by
        ext w
        have hcube : InCube w ↔ ((w 0).1 ∈ Set.Ico (0 : ℝ) 1 ∧ (w 0).2.1 ∈ Set.Ico (0 : ℝ) 1 ∧
            (w 0).2.2 ∈ Set.Ico (0 : ℝ) 1) ∧ InCube (fun i : Fin es.length => w i.succ) := Fin.forall_fin_succ
        show InCube w ∧ Follows env ((j, site, t) :: es) s w ↔
          (((w 0).1 ∈ Set.Ico (0 : ℝ) 1 ∧ ∃ dt, timeStep negLog (sumRates s.ms.procs) (w 0).1 = some dt ∧ t < dt) ∧
            (w 0).2.1 ∈ Set.Ico (0 : ℝ) 1 ∧ (w 0).2.2 ∈ Set.Ico (0 : ℝ) 1 ∧
            ∃ ps, select s.ms.procs (probabilityTable s.ms.procs) (w 0).2.1 (w 0).2.2 = .ok (j, site, ps)) ∧
          InCube (fun i : Fin es.length => w i.succ) ∧ Follows env es s' (fun i : Fin es.length => w i.succ)
        rw [hcube, ← htab]
        constructor
        · rintro ⟨⟨⟨c1, c2, c3⟩, c4⟩, s1, hs1, ⟨ps1, hsel1⟩, ht1, hf⟩
          obtain ⟨R, dt, hR, hdt, htime⟩ := step_time hs1
          rw [htot] at hR
          cases hR
          have hd := step_determined (d' := drawsOf (w 0)) hsel hsel1 hstep htot hdt
          rw [hs1] at hd
          have hd := Except.ok.inj hd
          refine ⟨⟨⟨c1, dt, ?_, ?_⟩, c2, c3, ps1, hsel1⟩, c4, ?_⟩
          · unfold drawsOf drawStep at hdt
            split at hdt
            · next x hx =>
              cases hdt
              exact hx
            · cases hdt
          · rw [htime] at ht1
            linarith
          · refine follows_time env es ?_ ?_ _ hf
            · rw [hd]
            · rw [hd]
        · rintro ⟨⟨⟨c1, dt, hdt, ht1⟩, c2, c3, ps1, hsel1⟩, c4, hf⟩
          have hdt' : drawStep negLog (sumRates s.ms.procs) (drawsOf (w 0)).time = .ok dt := by
            unfold drawsOf drawStep
            rw [hdt]
          refine ⟨⟨⟨c1, c2, c3⟩, c4⟩, _, step_determined (d' := drawsOf (w 0)) hsel hsel1 hstep htot hdt', ⟨ps1, hsel1⟩,
            ?_, ?_⟩
          · show t < s.time + dt - s.time
            linarith
          · exact follows_time env es (by rfl) (by rfl) _ hf
      rw [hset, (volume_preserving_piFinSuccAbove (fun _ : Fin (es.length + 1) => ℝ × ℝ × ℝ) 0).measure_preimage_equiv,
        Measure.volume_eq_prod, Measure.prod_prod, hvol,
        volume_step s.ms.procs hS hpos hp hk hw (ht (j, site, t) (by simp)), ← ENNReal.ofReal_mul]
      · rfl
      · exact mul_nonneg (div_nonneg hr0 hpos.le) (Real.exp_pos _).le
  exact (hq h hc ht).2

/-- **C58** The probabilities of the listed events add up to one: with probability one a listed event comes next. -/
theorem C58_total (h : GoodRun env n nT negLog cfg procs s) (hr : PositiveRates env procs)
    (ha : totalAvailableSites s.ms.procs ≠ 0) :
    ((s.ms.procs.flatMap (·.weights)).map (· / (s.ms.procs.map (·.totalRate)).sum)).sum = 1 := by
  obtain ⟨hS, hpos⟩ := sumRates_pos h hr ha
  have hpos : 0 < (s.ms.procs.map (·.totalRate)).sum := hpos
  simp only [div_eq_mul_inv]
  rw [List.sum_map_mul_right, List.map_id']
  have : (s.ms.procs.flatMap (·.weights)).sum = (s.ms.procs.map (·.totalRate)).sum := by
    rw [List.flatMap, List.sum_flatten, List.map_map]
    congr 1
    exact List.map_congr_left fun p hp => ((hS.consistent p hp).total).symm
  rw [this, mul_inv_cancel₀ hpos.ne']

/-- **C58** In a model with few enough particles, such as one with one particle per site and processes that keep it so,
every listed event can come next: there are random numbers that lead to it, with the step ending properly. -/
theorem C58_possible (h : GoodRun env n nT negLog cfg procs s) (hr : PositiveRates env procs)
    {M : Nat} (hb : Bounded M cfg procs) (hf : FewEnough M procs) {j k site : Nat} {p : Proc ℝ}
    (hp : s.ms.procs[j]? = some p) (hk : p.sites[k]? = some site) :
    ∃ d ps s' r, select s.ms.procs s.table d.process d.site = .ok (j, site, ps) ∧ step env negLog s d = .ok s' ∧
      p.weights[k]? = some r ∧ 0 < r := by
  obtain ⟨hcons, hav, htab, -⟩ := C25_totals h
  have hpm : p ∈ s.ms.procs := List.mem_of_getElem? hp
  have ha : totalAvailableSites s.ms.procs ≠ 0 := by
    rw [hav]
    have h1 : p.sites.length ≤ (s.ms.procs.map (·.sites.length)).sum :=
      List.single_le_sum (fun _ _ => Nat.zero_le _) _ (List.mem_map_of_mem hpm)
    have h2 := (List.getElem?_eq_some_iff.1 hk).1
    omega
  obtain ⟨hS, hpos⟩ := sumRates_pos h hr ha
  have hkl : k < p.weights.length := by
    have h2 := (List.getElem?_eq_some_iff.1 hk).1
    obtain ⟨-, c1, c2, -⟩ := hcons p hpm
    unfold Proc.weights
    split
    · next hcu => rw [List.length_zipWith, c1, c2 hcu, min_self]; exact h2
    · rw [List.length_map, c1]; exact h2
  obtain ⟨r, hw⟩ : ∃ r, p.weights[k]? = some r := ⟨_, List.getElem?_eq_getElem hkl⟩
  have hr0 : 0 < r := weights_pos h hr p hpm r (List.mem_of_getElem? hw)
  have hvol := C28_event_probability s.ms.procs hS hpos j p hp k site r hk hw
  obtain ⟨u1, u2, hu1, hu2, hu0, ps, hsel⟩ : ∃ u1 u2 : ℝ, u1 ∈ Set.Ico (0 : ℝ) 1 ∧ u2 ∈ Set.Ico (0 : ℝ) 1 ∧ u1 ≠ 0 ∧
      ∃ ps, select s.ms.procs (probabilityTable s.ms.procs) u1 u2 = .ok (j, site, ps) := by
    by_contra hno
    push Not at hno
    have hsub : {u : ℝ × ℝ | u.1 ∈ Set.Ico (0 : ℝ) 1 ∧ u.2 ∈ Set.Ico (0 : ℝ) 1 ∧
        ∃ ps, select s.ms.procs (probabilityTable s.ms.procs) u.1 u.2 = .ok (j, site, ps)} ⊆
        ({0} : Set ℝ) ×ˢ Set.univ := by
      rintro ⟨u1, u2⟩ ⟨a, b, ps, c⟩
      refine ⟨?_, trivial⟩
      by_contra h0
      exact hno u1 u2 a b h0 ps c
    have h0 := measure_mono_null (μ := (volume : Measure ℝ).prod volume) hsub (by
      rw [Measure.prod_prod, Real.volume_singleton, zero_mul])
    rw [hvol, ENNReal.ofReal_eq_zero] at h0
    exact absurd (div_pos hr0 hpos) (not_lt.2 h0)
  rw [← htab] at hsel
  obtain ⟨dt, hdt⟩ := propagateTime_isOk h hr ha (us := [1 / 2]) ⟨1 / 2, by simp, _, if_neg (by norm_num)⟩
  obtain ⟨x', hx'⟩ := C26_step_bounded h hr hb hf ha u1 u2 (lt_of_le_of_ne hu1.1 (Ne.symm hu0)) hu1.2 hu2.1 hu2.2
  refine ⟨{ time := [1 / 2], process := u1, site := u2 }, ps, { x' with time := s.time + dt }, r, hsel, ?_, hw, hr0⟩
  unfold step
  rw [hdt, ok_bind, singleStep_time_eq, hx']
  rfl

/-- **C58** In such a model there is, for given times, a course of any length, or one that ends in a state without
available sites. Its probability is positive. -/
theorem C58_courses (h : GoodRun env n nT negLog cfg procs s) (hr : PositiveRates env procs)
    {M : Nat} (hb : Bounded M cfg procs) (hf : FewEnough M procs) (ts : List ℝ) :
    ∃ es q, Course env s es q ∧ 0 < q ∧ es.map (·.2.2) <+: ts ∧
      (es.length = ts.length ∨ ∃ ds s', ds.length = es.length ∧ run env negLog ds s = .ok s' ∧
        totalAvailableSites s'.ms.procs = 0) := by
  induction ts generalizing s with
  | nil => exact ⟨[], 1, .nil s, one_pos, by simp, .inl rfl⟩
  | cons t ts ih =>
    by_cases ha : totalAvailableSites s.ms.procs = 0
    · exact ⟨[], 1, .nil s, one_pos, by simp, .inr ⟨[], s, rfl, rfl, ha⟩⟩
    · obtain ⟨-, hav, -, -⟩ := C25_totals h
      have hex : ∃ p ∈ s.ms.procs, p.sites ≠ [] := by
        by_contra hno
        push Not at hno
        apply ha
        rw [hav]
        apply List.sum_eq_zero
        intro x hx
        rw [List.mem_map] at hx
        obtain ⟨p, hp, rfl⟩ := hx
        rw [hno p hp]
        rfl
      obtain ⟨p, hp, hne⟩ := hex
      obtain ⟨j, hj⟩ := List.mem_iff_getElem?.1 hp
      obtain ⟨site, rest, hs⟩ := List.exists_cons_of_ne_nil hne
      have hk : p.sites[0]? = some site := by rw [hs]; rfl
      obtain ⟨d, ps, s', r, a1, a2, a3, a4⟩ := C58_possible h hr hb hf hj hk
      obtain ⟨es, q, b1, b2, b3, b4⟩ := ih (h.step a2)
      refine ⟨(j, site, t) :: es, _, .cons a1 a2 hj hk a3 b1, ?_, ?_, ?_⟩
      · obtain ⟨hS, hpos⟩ := sumRates_pos h hr ha
        have hpos : 0 < (s.ms.procs.map (·.totalRate)).sum := hpos
        exact mul_pos (mul_pos (div_pos a4 hpos) (Real.exp_pos _)) b2
      · rw [List.map_cons]
        exact List.cons_prefix_cons.2 ⟨rfl, b3⟩
      · rcases b4 with b4 | b4
        · left; simp [b4]
        · obtain ⟨ds, s2, c1, c2, c3⟩ := b4
          refine .inr ⟨d :: ds, s2, by simp [c1], ?_, c3⟩
          unfold run at c2 ⊢
          rw [loopM_cons, a2, ok_bind]
          exact c2

/-- Non-vacuity: a site that turns from `A` to `B` by two processes, with rates 2 and 1. The first event is the first
process after a time longer than `t` with probability `2/3 exp (-3 t)`. -/
example : ∃ s, GoodRun Sample.oneEnv 1 3 negLog Sample.oneSite Sample.turns s ∧ ∀ t : ℝ, 0 ≤ t →
    volume {w : Fin 1 → ℝ × ℝ × ℝ | InCube w ∧ Follows Sample.oneEnv [(0, 0, t)] s w} =
      ENNReal.ofReal (2 / 3 * Real.exp (-(3 * t))) := by
  obtain ⟨s, h, ht⟩ := Sample.oneSite_start
  obtain ⟨e1, e2, e3⟩ := Sample.oneSite_A h ht
  refine ⟨s, h, fun t ht0 => ?_⟩
  obtain ⟨p, ps, hps⟩ : ∃ p ps, s.ms.procs = p :: ps := by
    match hl : s.ms.procs, e1 with
    | p :: ps, _ => exact ⟨p, ps, rfl⟩
  have hj : s.ms.procs[0]? = some p := by rw [hps]; rfl
  rw [hps] at e1 e2
  have f1 : p.sites = [0] := (List.cons.inj e1).1
  have f2 : p.weights = [2] := (List.cons.inj e2).1
  obtain ⟨d, ds, s', r, a1, a2, a3, -⟩ := C58_possible h Sample.turns_positive
    (bounded_one Sample.oneSite_one Sample.turns_balanced).1 (bounded_one Sample.oneSite_one Sample.turns_balanced).2
    (k := 0) hj (by rw [f1]; rfl)
  obtain rfl : 2 = r := by
    rw [f2] at a3
    exact Option.some.inj a3
  have := C58_path_law h Sample.turns_positive (.cons (t := t) a1 a2 hj (by rw [f1]; rfl) a3 (.nil s')) (by simpa using ht0)
  have hq : 2 / ([2, 1, 0] : List ℝ).sum * Real.exp (-(([2, 1, 0] : List ℝ).sum * t)) * 1 = 2 / 3 * Real.exp (-(3 * t)) := by
    norm_num
  rw [e3, hq] at this
  exact this

end KMC
