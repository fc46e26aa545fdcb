import Verif.Spec.Process
import Verif.Lemmas.Select
import Verif.Model.LatticeModel
import Mathlib.MeasureTheory.Measure.Lebesgue.Basic
import Mathlib.Analysis.SpecialFunctions.Log.Basic

/-!
# C27, C28 (selection of events), C29, C30 (time)
-/

set_option linter.unusedSectionVars false

namespace KMC

open Interactions LatticeModel

section
variable {K : Type _} [Field K] [LinearOrder K]

/-- The total rate of all processes. -/
def sumRates (procs : List (Proc K)) : K := (procs.map (·.totalRate)).sum

theorem customTerms_eq (rs ms : List K) (h : rs.length = ms.length) :
    Proc.customTerms rs ms = .ok (List.zipWith (fun r m => r * m) rs ms) := by
  induction ms generalizing rs with
  | nil => cases rs <;> simp_all [Proc.customTerms]
  | cons m ms ih =>
    cases rs with
    | nil => simp at h
    | cons r rs => simp [Proc.customTerms, ih rs (by simpa using h)]

theorem updateRateTable_eq {p : Proc K} (h : p.Consistent) :
    p.updateRateTable = .ok { p with rateTable := Proc.prefixSums 0 p.weights } := by
  unfold Proc.updateRateTable Proc.weights
  split
  · next hc => rw [customTerms_eq _ _ (by rw [h.rates hc, h.mults])]; rfl
  · rfl

theorem pickSite_eq {p : Proc K} (h : p.Consistent) (hne : p.sites ≠ []) (u : K) :
    ({ p with rateTable := Proc.prefixSums 0 p.weights } : Proc K).pickSite u
      = rd p.sites (lowerBound (fun x => decide (x < u * p.weights.sum))
          (Proc.prefixSums 0 p.weights)) := by
  unfold Proc.pickSite
  have hw : p.weights ≠ [] := by
    rw [← List.length_pos_iff, h.length_weights, List.length_pos_iff]; exact hne
  simp only [prefixSums_getLast? 0 _ hw, zero_add]

variable [IsStrictOrderedRing K]

theorem u_mul_le {u t : K} (hu : u ≤ 1) (ht : 0 ≤ t) : u * t ≤ t := by
  simpa using mul_le_mul_of_nonneg_right hu ht

/-- What is assumed of the processes when an event is selected: consistent records, rates that are
not negative. (C25 shows the first of every state of a run.) -/
structure Selectable (procs : List (Proc K)) : Prop where
  consistent : ∀ p ∈ procs, p.Consistent
  nonneg : ∀ p ∈ procs, ∀ w ∈ p.weights, 0 ≤ w

theorem Selectable.total_nonneg {procs : List (Proc K)} (h : Selectable procs) :
    ∀ t ∈ procs.map (·.totalRate), 0 ≤ t := by
  intro t ht
  obtain ⟨p, hp, rfl⟩ := List.mem_map.1 ht
  rw [(h.consistent p hp).total]
  exact List.sum_nonneg (h.nonneg p hp)

/-- Which process is selected: number `i` exactly when `u` times the total rate is above the rates of
the processes before `i` and not above the rates including `i`. -/
theorem C28_process_interval (procs : List (Proc K)) (h : Selectable procs) (u : K) (i : Nat)
    (hi : i < procs.length) :
    pickProcessIndex (probabilityTable procs) u = .ok i ↔
      (i = 0 ∨ ((procs.take i).map (·.totalRate)).sum < u * sumRates procs) ∧
      u * sumRates procs ≤ ((procs.take (i + 1)).map (·.totalRate)).sum := by
  have hne : procs ≠ [] := by intro h; subst h; simp at hi
  rw [pick_eq procs hne, Except.ok.injEq,
    lowerBound_prefixSums h.total_nonneg _ _ (by simpa using hi)]
  simp only [List.map_take, sumRates]

/-- Which site is selected, given the process: the one at position `k` exactly when `u` times the
process's total rate is above the rates of the sites before and not above those including `k`. -/
theorem C28_site_interval (p : Proc K) (hc : p.Consistent) (hw : ∀ w ∈ p.weights, 0 ≤ w) (u : K)
    (hu : u ≤ 1) (k site : Nat) (hk : p.sites[k]? = some site) :
    (∃ p', p.updateRateTable = .ok p' ∧ p'.pickSite u = .ok site) ↔
      (k = 0 ∨ (p.weights.take k).sum < u * p.totalRate) ∧
      u * p.totalRate ≤ (p.weights.take (k + 1)).sum := by
  have hklt : k < p.sites.length := (List.getElem?_eq_some_iff.1 hk).1
  have hne : p.sites ≠ [] := by intro h; rw [h] at hklt; simp at hklt
  have hkw : k < p.weights.length := by rw [hc.length_weights]; exact hklt
  rw [updateRateTable_eq hc]
  have hsum : 0 ≤ p.weights.sum := List.sum_nonneg hw
  have hwne : p.weights ≠ [] := by intro h; rw [h] at hkw; simp at hkw
  have hlt := lowerBound_prefixSums_lt hw hwne (u * p.weights.sum) (u_mul_le hu hsum)
  rw [hc.length_weights] at hlt
  have key := lowerBound_prefixSums hw (u * p.weights.sum) _ hkw
  rw [← hc.total] at key hlt
  rw [← key]
  have hpick := pickSite_eq hc hne u
  rw [← hc.total] at hpick
  constructor
  · rintro ⟨p', hp', hs⟩
    cases hp'
    rw [hpick, rd_ok] at hs
    obtain ⟨hk1, hk2⟩ := List.getElem?_eq_some_iff.1 hk
    obtain ⟨hl1, hl2⟩ := List.getElem?_eq_some_iff.1 hs
    exact (List.Nodup.getElem_inj_iff hc.nodup).1 (hl2.trans hk2.symm)
  · intro h
    exact ⟨_, rfl, by rw [hpick, h]; exact rd_of_getElem? hk⟩

/-- **C27** For random numbers above zero (or a first process that has a site) the selected process
has an available site, the selected site is one of its available sites, and its rate is positive
when the second random number is. Nothing undefined happens.

Not true for the random number zero when the first process has no site, see
`C27_zero_random_number`; hence `_partial`. -/
theorem C27_only_possible_events_partial (procs : List (Proc K)) (h : Selectable procs)
    (hpos : 0 < sumRates procs) (u1 u2 : K) (h1 : 0 ≤ u1) (h1' : u1 < 1) (h2 : 0 ≤ u2) (h2' : u2 < 1)
    (hu : 0 < u1 ∨ ∀ p, procs.head? = some p → p.sites ≠ []) :
    ∃ (i : Nat) (p : Proc K) (k site : Nat) (procs' : List (Proc K)),
      select procs (probabilityTable procs) u1 u2 = .ok (i, site, procs') ∧
      procs[i]? = some p ∧ p.sites[k]? = some site ∧
      (0 < u1 → 0 < p.totalRate) ∧
      (0 < u1 → 0 < u2 → ∃ w, p.weights[k]? = some w ∧ 0 < w) := by
  have hne : procs ≠ [] := by intro h; subst h; simp [sumRates] at hpos
  have hmne : procs.map (·.totalRate) ≠ [] := by simpa using hne
  -- the process
  have hi := lowerBound_prefixSums_lt h.total_nonneg hmne (u1 * sumRates procs)
    (u_mul_le h1'.le hpos.le)
  obtain ⟨i, hidef⟩ : ∃ i, lowerBound (fun x => decide (x < u1 * sumRates procs))
    (Proc.prefixSums 0 (procs.map (·.totalRate))) = i := ⟨_, rfl⟩
  have hpick : pickProcessIndex (probabilityTable procs) u1 = .ok i := by
    rw [pick_eq procs hne]; exact congrArg _ hidef
  rw [hidef, List.length_map] at hi
  have hint := (C28_process_interval procs h u1 i hi).1 hpick
  have hpm : procs[i] ∈ procs := List.getElem_mem hi
  have hget : procs[i]? = some procs[i] := List.getElem?_eq_getElem hi
  have hc := h.consistent _ hpm
  have hw := h.nonneg _ hpm
  have htot : 0 < u1 → 0 < procs[i].totalRate := by
    intro hu1
    have hr : 0 < u1 * sumRates procs := mul_pos hu1 hpos
    have hs : ((procs.take (i + 1)).map (·.totalRate)).sum
        = ((procs.take i).map (·.totalRate)).sum + procs[i].totalRate := by
      rw [List.map_take, List.map_take]
      exact take_succ_sum (by simp [hget])
    rcases hint.1 with h0 | h0
    · subst h0
      simp only [List.take_zero, List.map_nil, List.sum_nil, zero_add] at hs
      rw [hs] at hint
      exact lt_of_lt_of_le hr hint.2
    · have := lt_of_lt_of_le h0 hint.2
      rw [hs] at this
      linarith
  have hsites : procs[i].sites ≠ [] := by
    intro hnil
    by_cases hu1 : 0 < u1
    · have := htot hu1
      rw [hc.total] at this
      have hw0 : procs[i].weights = [] := by
        rw [← List.length_eq_zero_iff, hc.length_weights, hnil]; rfl
      rw [hw0] at this
      simp at this
    · have hz : u1 = 0 := le_antisymm (not_lt.1 hu1) h1
      have hi0 : i = 0 := by
        rcases hint.1 with h0 | h0
        · exact h0
        · rw [hz, zero_mul] at h0
          exact absurd h0 (not_lt.2 (List.sum_nonneg fun x hx => by
            rw [List.map_take] at hx
            exact h.total_nonneg x (List.mem_of_mem_take hx)))
      subst hi0
      rcases hu with hu | hu
      · exact absurd hu hu1
      · exact hu procs[0] (by rw [List.head?_eq_getElem?]; exact hget) hnil
  -- the site
  have hwne : procs[i].weights ≠ [] := by
    rw [← List.length_pos_iff, hc.length_weights, List.length_pos_iff]; exact hsites
  have hk := lowerBound_prefixSums_lt hw hwne (u2 * procs[i].weights.sum)
    (u_mul_le h2'.le (List.sum_nonneg hw))
  obtain ⟨k, hkdef⟩ : ∃ k, lowerBound (fun x => decide (x < u2 * procs[i].weights.sum))
    (Proc.prefixSums 0 procs[i].weights) = k := ⟨_, rfl⟩
  rw [hkdef] at hk
  have hksites : k < procs[i].sites.length := by rw [← hc.length_weights]; exact hk
  refine ⟨i, procs[i], k, procs[i].sites[k],
    procs.set i { procs[i] with rateTable := Proc.prefixSums 0 procs[i].weights }, ?_, hget,
    List.getElem?_eq_getElem hksites, htot, ?_⟩
  · unfold select pickProcess
    rw [hpick, ok_bind, rd_of_getElem? hget, ok_bind, updateRateTable_eq hc, ok_bind, wr_of_lt hi,
      ok_bind, pure_ok, ok_bind]
    dsimp only
    rw [pickSite_eq hc hsites, hkdef, rd_of_lt hksites]
    rfl
  · intro hu1 hu2
    refine ⟨procs[i].weights[k], List.getElem?_eq_getElem hk, ?_⟩
    have hint2 := (lowerBound_prefixSums hw _ k hk).1 hkdef
    have hT : 0 < procs[i].weights.sum := by rw [← hc.total]; exact htot hu1
    have hr : 0 < u2 * procs[i].weights.sum := mul_pos hu2 hT
    have hs := take_succ_sum (List.getElem?_eq_getElem hk)
    rcases hint2.1 with h0 | h0
    · subst h0
      simp only [List.take_zero, List.sum_nil, zero_add] at hs
      rw [← hs]
      exact lt_of_lt_of_le hr hint2.2
    · have := lt_of_lt_of_le h0 hint2.2
      rw [hs] at this
      linarith
end

/-- A process record with the given listed sites, for witnesses. -/
def sampleProc {K : Type _} [Field K] [LinearOrder K] (number : Nat) (rate : K) (sites : List Nat) :
    Proc K :=
  { number := number, custom := false, cacheRate := false, bucketProcess := false, range := 1,
    rate := rate, cutoff := 1, basisSites := [0], matchList := [], idMoves := [], affected := [],
    sites := sites, siteMult := sites.map (fun _ => 1), siteRates := [],
    totalRate := rate * sites.length, rateTable := [] }

/-- **C27** is false for the random number zero: with a first process that has no available site the
code selects that process and then reads the last element of its empty rate table. -/
theorem C27_zero_random_number :
    ∃ procs : List (Proc ℚ), Selectable procs ∧ 0 < sumRates procs ∧
      pickProcessIndex (probabilityTable procs) 0 = .ok 0 ∧
      (procs.map (·.sites)).head? = some [] ∧
      ∀ u2 : ℚ, select procs (probabilityTable procs) 0 u2 = .error .outOfBounds := by
  refine ⟨[sampleProc 0 1 [], sampleProc 1 2 [3, 4]], ⟨?_, ?_⟩, ?_, ?_, ?_, ?_⟩
  · intro p hp
    simp only [List.mem_cons, List.not_mem_nil, or_false] at hp
    rcases hp with rfl | rfl
    · exact ⟨by decide, rfl, by decide, by decide +kernel⟩
    · exact ⟨by decide, rfl, by decide, by decide +kernel⟩
  · decide +kernel
  · decide +kernel
  · decide +kernel
  · rfl
  · intro u2
    unfold select
    have : pickProcess [sampleProc 0 (1 : ℚ) [], sampleProc 1 2 [3, 4]]
        (probabilityTable [sampleProc 0 1 [], sampleProc 1 2 [3, 4]]) 0
        = .ok (0, sampleProc 0 1 [], [sampleProc 0 1 [], sampleProc 1 2 [3, 4]]) := by
      unfold pickProcess
      rw [show pickProcessIndex (probabilityTable [sampleProc 0 (1 : ℚ) [], sampleProc 1 2 [3, 4]]) 0
        = .ok 0 by decide +kernel]
      rfl
    rw [this]
    rfl

/-- The hypotheses of `C27_only_possible_events_partial` are met by a list with three processes, one
of them without sites. -/
example : ∀ procs : List (Proc ℚ),
    procs = [sampleProc 0 1 [], sampleProc 1 2 [3, 4], sampleProc 2 5 [0, 3, 7]] →
    Selectable procs ∧ 0 < sumRates procs ∧
    (select procs (probabilityTable procs) (1 / 2) (1 / 2)).map (fun r => (r.1, r.2.1))
      = .ok (2, 3) := by
  rintro procs rfl
  refine ⟨⟨?_, ?_⟩, ?_, ?_⟩
  · intro p hp
    simp only [List.mem_cons, List.not_mem_nil, or_false] at hp
    rcases hp with rfl | rfl | rfl
    · exact ⟨by decide, rfl, by decide, by decide +kernel⟩
    · exact ⟨by decide, rfl, by decide, by decide +kernel⟩
    · exact ⟨by decide, rfl, by decide, by decide +kernel⟩
  · decide +kernel
  · decide +kernel
  · decide +kernel

/-! ### Probabilities -/

open MeasureTheory

/-- A set of numbers in [0,1) squeezed between the open and the closed interval from `a` to `b` has
probability `b - a`. -/
theorem volume_squeeze {S : Set ℝ} {a b : ℝ} (h1 : Set.Ioo a b ⊆ S) (h2 : S ⊆ Set.Icc a b) :
    volume S = ENNReal.ofReal (b - a) := by
  apply le_antisymm
  · calc volume S ≤ volume (Set.Icc a b) := measure_mono h2
      _ = _ := Real.volume_Icc
  · calc _ = volume (Set.Ioo a b) := Real.volume_Ioo.symm
      _ ≤ _ := measure_mono h1

theorem volume_cumulative {ws : List ℝ} (hw : ∀ w ∈ ws, 0 ≤ w) (hT : 0 < ws.sum) {k : Nat} {w : ℝ}
    (hk : ws[k]? = some w) :
    volume {u : ℝ | u ∈ Set.Ico (0 : ℝ) 1 ∧ (k = 0 ∨ (ws.take k).sum < u * ws.sum) ∧
      u * ws.sum ≤ (ws.take (k + 1)).sum} = ENNReal.ofReal (w / ws.sum) := by
  have hs := take_succ_sum hk
  have h0 : 0 ≤ (ws.take k).sum := List.sum_nonneg fun x hx => hw x (List.mem_of_mem_take hx)
  have hle : (ws.take (k + 1)).sum ≤ ws.sum := by
    have := take_sum_mono hw (i := k + 1) (j := max (k + 1) ws.length) (le_max_left _ _)
    rwa [List.take_of_length_le (le_max_right _ _)] at this
  have : w / ws.sum = (ws.take (k + 1)).sum / ws.sum - (ws.take k).sum / ws.sum := by
    rw [hs]; ring
  rw [this]
  apply volume_squeeze
  · rintro u ⟨hu1, hu2⟩
    rw [div_lt_iff₀ hT] at hu1
    rw [lt_div_iff₀ hT] at hu2
    refine ⟨⟨?_, ?_⟩, .inr hu1, hu2.le⟩
    · by_contra hneg
      have : u * ws.sum ≤ 0 := mul_nonpos_of_nonpos_of_nonneg (not_le.1 hneg).le hT.le
      linarith
    · by_contra hge
      have : ws.sum ≤ u * ws.sum := by nlinarith [not_lt.1 hge]
      linarith
  · rintro u ⟨⟨hu0, -⟩, hlow, hup⟩
    refine ⟨?_, by rw [le_div_iff₀ hT]; exact hup⟩
    rw [div_le_iff₀ hT]
    rcases hlow with h | h
    · subst h
      simpa using mul_nonneg hu0 hT.le
    · exact h.le

/-- **C28** With a uniform random number in [0,1), process `i` is selected with probability (its
total rate) / (total rate of all processes). -/
theorem C28_process_probability (procs : List (Proc ℝ)) (h : Selectable procs)
    (hpos : 0 < sumRates procs) (i : Nat) (p : Proc ℝ) (hp : procs[i]? = some p) :
    volume {u : ℝ | u ∈ Set.Ico (0 : ℝ) 1 ∧ pickProcessIndex (probabilityTable procs) u = .ok i}
      = ENNReal.ofReal (p.totalRate / sumRates procs) := by
  have hi : i < procs.length := (List.getElem?_eq_some_iff.1 hp).1
  rw [show sumRates procs = (procs.map (·.totalRate)).sum from rfl,
    ← volume_cumulative h.total_nonneg hpos (k := i) (by simp [hp])]
  congr 1
  ext u
  simp only [Set.mem_ofPred_eq, C28_process_interval procs h u i hi, List.map_take, sumRates]

/-- **C28** Given the process, site `s` is selected with probability (rate at `s`) / (total rate of
the process). -/
theorem C28_site_probability (p : Proc ℝ) (hc : p.Consistent) (hw : ∀ w ∈ p.weights, 0 ≤ w)
    (hpos : 0 < p.totalRate) (k site : Nat) (w : ℝ) (hk : p.sites[k]? = some site)
    (hwk : p.weights[k]? = some w) :
    volume {u : ℝ | u ∈ Set.Ico (0 : ℝ) 1 ∧
        ∃ p', p.updateRateTable = .ok p' ∧ p'.pickSite u = .ok site}
      = ENNReal.ofReal (w / p.totalRate) := by
  rw [hc.total] at hpos ⊢
  rw [← volume_cumulative hw hpos hwk]
  congr 1
  ext u
  simp only [Set.mem_ofPred_eq]
  constructor
  · rintro ⟨h1, h2⟩
    have := (C28_site_interval p hc hw u h1.2.le k site hk).1 h2
    rw [hc.total] at this
    exact ⟨h1, this⟩
  · rintro ⟨h1, h2⟩
    refine ⟨h1, (C28_site_interval p hc hw u h1.2.le k site hk).2 ?_⟩
    rw [hc.total]
    exact h2

/-- The two random numbers decide separately: one on the process, the other on the site. -/
theorem select_set {procs : List (Proc ℝ)} {i : Nat} {p : Proc ℝ} (hp : procs[i]? = some p) (site : Nat) :
    {u : ℝ × ℝ | u.1 ∈ Set.Ico (0 : ℝ) 1 ∧ u.2 ∈ Set.Ico (0 : ℝ) 1 ∧
        ∃ procs', select procs (probabilityTable procs) u.1 u.2 = .ok (i, site, procs')}
      = {u : ℝ | u ∈ Set.Ico (0 : ℝ) 1 ∧ pickProcessIndex (probabilityTable procs) u = .ok i} ×ˢ
        {u : ℝ | u ∈ Set.Ico (0 : ℝ) 1 ∧
          ∃ p', p.updateRateTable = .ok p' ∧ p'.pickSite u = .ok site} := by
  have hilt : i < procs.length := (List.getElem?_eq_some_iff.1 hp).1
  ext ⟨u1, u2⟩
  simp only [Set.mem_ofPred_eq, Set.mem_prod]
  constructor
  · rintro ⟨h1, h2, procs', hs⟩
    unfold select at hs
    rw [bind_ok] at hs
    obtain ⟨pk, hpk, hs⟩ := hs
    rw [bind_ok] at hs
    obtain ⟨st, hst, hs⟩ := hs
    cases hs
    unfold pickProcess at hpk
    rw [bind_ok] at hpk
    obtain ⟨j, hj, hpk⟩ := hpk
    rw [bind_ok] at hpk
    obtain ⟨q, hq, hpk⟩ := hpk
    rw [bind_ok] at hpk
    obtain ⟨q', hq', hpk⟩ := hpk
    rw [bind_ok] at hpk
    obtain ⟨pr, -, hpk⟩ := hpk
    cases hpk
    rw [rd_ok, hp] at hq
    cases hq
    exact ⟨⟨h1, hj⟩, h2, q', hq', hst⟩
  · rintro ⟨⟨h1, hj⟩, h2, p', hp', hst⟩
    refine ⟨h1, h2, procs.set i p', ?_⟩
    unfold select pickProcess
    rw [hj, ok_bind, rd_of_getElem? hp, ok_bind, hp', ok_bind, wr_of_lt hilt, ok_bind, pure_ok,
      ok_bind, hst]
    rfl

/-- **C28** With two independent uniform random numbers, the event "process `i` at site `s`" is
selected with probability (rate of the event) / (total rate of the system). -/
theorem C28_event_probability (procs : List (Proc ℝ)) (h : Selectable procs)
    (hpos : 0 < sumRates procs) (i : Nat) (p : Proc ℝ) (hp : procs[i]? = some p) (k site : Nat)
    (w : ℝ) (hk : p.sites[k]? = some site) (hwk : p.weights[k]? = some w) :
    (volume.prod volume) {u : ℝ × ℝ | u.1 ∈ Set.Ico (0 : ℝ) 1 ∧ u.2 ∈ Set.Ico (0 : ℝ) 1 ∧
        ∃ procs', select procs (probabilityTable procs) u.1 u.2 = .ok (i, site, procs')}
      = ENNReal.ofReal (w / sumRates procs) := by
  have hpm : p ∈ procs := List.mem_of_getElem? hp
  have hc := h.consistent p hpm
  have hw := h.nonneg p hpm
  rw [select_set hp, Measure.prod_prod, C28_process_probability procs h hpos i p hp]
  by_cases htp : 0 < p.totalRate
  · rw [C28_site_probability p hc hw htp k site w hk hwk, ← ENNReal.ofReal_mul (by positivity)]
    congr 1
    field_simp
  · have ht0 : p.totalRate = 0 := by
      apply le_antisymm (not_lt.1 htp)
      rw [hc.total]; exact List.sum_nonneg hw
    have hw0 : w = 0 := by
      apply le_antisymm _ (hw w (List.mem_of_getElem? hwk))
      have := List.single_le_sum hw w (List.mem_of_getElem? hwk)
      rwa [← hc.total, ht0] at this
    simp [ht0, hw0]

/-! ### Time -/

/-- `-log u`, infinite at zero, as computed by c++/src/simulationtimer.cpp:36. -/
noncomputable def negLog (u : ℝ) : Option ℝ := if u = 0 then none else some (-Real.log u)

/-- **C29** For a positive total rate and a random number in (0,1) the time step is finite, equal to
`-ln u / R` and positive. -/
theorem C29_time_step (R u : ℝ) (hR : 0 < R) (h0 : 0 < u) (h1 : u < 1) :
    timeStep negLog R u = some (-Real.log u / R) ∧ 0 < -Real.log u / R := by
  refine ⟨by simp [timeStep, negLog, h0.ne', hR.ne'], div_pos ?_ hR⟩
  have := Real.log_neg h0 h1
  linarith

/-- **C29** The time step exceeds `t` with probability `exp (-R t)`. -/
theorem C29_exponential (R t : ℝ) (hR : 0 < R) (ht : 0 ≤ t) :
    volume {u : ℝ | u ∈ Set.Ico (0 : ℝ) 1 ∧ ∃ dt, timeStep negLog R u = some dt ∧ t < dt}
      = ENNReal.ofReal (Real.exp (-(R * t))) := by
  have he : Real.exp (-(R * t)) ≤ 1 := Real.exp_le_one_iff.2 (by nlinarith)
  rw [← sub_zero (Real.exp (-(R * t)))]
  apply volume_squeeze
  · rintro u ⟨h0, h1⟩
    have hu1 : u < 1 := lt_of_lt_of_le h1 he
    refine ⟨⟨h0.le, hu1⟩, _, (C29_time_step R u hR h0 hu1).1, ?_⟩
    rw [lt_div_iff₀ hR]
    have := (Real.log_lt_iff_lt_exp h0).2 h1
    linarith
  · rintro u ⟨⟨h0, h1⟩, dt, hdt, hlt⟩
    refine ⟨h0, ?_⟩
    rcases h0.eq_or_lt with h0 | h0
    · rw [← h0]; exact (Real.exp_pos _).le
    · rw [(C29_time_step R u hR h0 h1).1, Option.some.injEq] at hdt
      subst hdt
      rw [lt_div_iff₀ hR] at hlt
      apply ((Real.log_lt_iff_lt_exp h0).1 _).le
      linarith

theorem drawStep_ok {K : Type _} [Field K] [LinearOrder K] {nl : K → Option K} {R dt : K}
    {us : List K} (h : drawStep nl R us = .ok dt) : ∃ u ∈ us, timeStep nl R u = some dt := by
  induction us with
  | nil => cases h
  | cons u us ih =>
    unfold drawStep at h
    split at h
    · next d hd => cases h; exact ⟨u, by simp, hd⟩
    · obtain ⟨v, hv, h'⟩ := ih h
      exact ⟨v, List.mem_cons_of_mem _ hv, h'⟩

/-- **C29** The clock never runs backwards in one propagation, for random numbers in [0,1) and a
total rate that is not negative. -/
theorem C29_propagate (s s' : Sim ℝ) (draws : List ℝ) (hd : ∀ u ∈ draws, 0 ≤ u ∧ u < 1)
    (hR : ∀ R, Interactions.totalRate s.table = .ok R → 0 ≤ R)
    (h : propagateTime negLog s draws = .ok s') : s.time < s'.time := by
  unfold propagateTime at h
  rw [bind_ok] at h
  obtain ⟨R, hr, h⟩ := h
  rw [bind_ok] at h
  obtain ⟨dt, hdt, h⟩ := h
  cases h
  obtain ⟨u, hu, hts⟩ := drawStep_ok hdt
  have hR0 := hR R hr
  obtain ⟨hu0, hu1⟩ := hd u hu
  have hup : 0 < u := by
    rcases hu0.eq_or_lt with h0 | h0
    · rw [← h0] at hts; simp [timeStep, negLog] at hts
    · exact h0
  have hRp : 0 < R := by
    rcases hR0.eq_or_lt with h0 | h0
    · rw [← h0] at hts; simp [timeStep, negLog, hup.ne'] at hts
    · exact h0
  have := C29_time_step R u hRp hup hu1
  rw [this.1, Option.some.injEq] at hts
  subst hts
  simp only
  linarith [this.2]

/-- **C29** Over any run: if the total rate is not negative in the states passed through (which
C25 gives for rates that are not negative), time never decreases. -/
theorem C29_run_monotone (env : Env ℝ) (ds : List (Draws ℝ)) (s s' : Sim ℝ)
    (hd : ∀ d ∈ ds, ∀ u ∈ d.time, 0 ≤ u ∧ u < 1)
    (P : Sim ℝ → Prop) (hP0 : P s) (hstep : ∀ a d b, d ∈ ds → P a → step env negLog a d = .ok b → P b)
    (hR : ∀ a R, P a → Interactions.totalRate a.table = .ok R → 0 ≤ R)
    (h : run env negLog ds s = .ok s') : s.time ≤ s'.time := by
  have := loopM_inv (fun a => P a ∧ s.time ≤ a.time) (step env negLog) ds s s' ⟨hP0, le_rfl⟩ ?_ h
  · exact this.2
  · rintro a b d hd' ⟨hPa, hta⟩ hab
    refine ⟨hstep a d b hd' hPa hab, ?_⟩
    unfold step at hab
    rw [bind_ok] at hab
    obtain ⟨a1, ha1, hab⟩ := hab
    have h1 := C29_propagate a a1 d.time (hd d hd') (fun R hr => hR a R hPa hr) ha1
    have h2 : b.time = a1.time := by
      unfold singleStep at hab
      rw [bind_ok] at hab; obtain ⟨_, _, hab⟩ := hab
      rw [bind_ok] at hab; obtain ⟨_, _, hab⟩ := hab
      rw [bind_ok] at hab; obtain ⟨_, _, hab⟩ := hab
      cases hab; rfl
    rw [h2]; linarith

/-- Concrete instance of the hypotheses of C29: total rate 3, random number 1/2. -/
example : timeStep negLog 3 (1 / 2) = some (-Real.log (1 / 2) / 3) ∧ 0 < -Real.log (1 / 2) / 3 :=
  C29_time_step 3 (1 / 2) (by norm_num) (by norm_num) (by norm_num)

/-- **C30** With a positive total rate the time loop ends at the first random number that is not
zero. -/
theorem C30_time_loop_ends_partial (R : ℝ) (hR : 0 < R) (us : List ℝ) (h : ∃ u ∈ us, u ≠ 0) :
    ∃ dt, drawStep negLog R us = .ok dt := by
  obtain ⟨u, hu, h0⟩ := h
  induction us with
  | nil => simp at hu
  | cons v vs ih =>
    by_cases hv : v = 0
    · rcases List.mem_cons.1 hu with h | h
      · exact absurd (h.trans hv) h0
      · obtain ⟨dt, hdt⟩ := ih h
        exact ⟨dt, by simp [drawStep, timeStep, negLog, hv, hdt]⟩
    · exact ⟨-Real.log v / R, by simp [drawStep, timeStep, negLog, hv, hR.ne']⟩

/-- **C30** is false when the available events all have rate zero (a rate constant of 0.0 is
accepted by the front end): whatever random numbers are drawn, the time loop never ends. -/
theorem C30_zero_rate_never_ends :
    ∃ procs : List (Proc ℝ), Interactions.totalAvailableSites procs > 0 ∧
      Interactions.totalRate (probabilityTable procs) = .ok 0 ∧
      ∀ us : List ℝ, drawStep negLog 0 us = .error .diverges := by
  refine ⟨[sampleProc 0 0 [2]], ?_, ?_, ?_⟩
  · simp [Interactions.totalAvailableSites, sampleProc]
  · simp [Interactions.totalRate, probabilityTable, probabilityLoop, sampleProc]
  · intro us
    induction us with
    | nil => rfl
    | cons u us ih =>
      unfold drawStep timeStep
      cases negLog u <;> simp [ih]

end KMC
