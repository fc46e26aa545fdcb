import Verif.Lemmas.Faded

/-!
# Without rounding, and runs with rounding
-/

set_option linter.unusedSectionVars false

namespace KMC

open LatticeModel

variable {K : Type} [Field K] [LinearOrder K]

namespace Rounded

theorem addSite_id (p : Proc K) (i : Nat) (r m : K) : addSite id p i r m = p.addSite i r m := rfl

theorem removeSite_id (p : Proc K) (i : Nat) : removeSite id p i = p.removeSite i := rfl

theorem prefixSums_id (a : K) (l : List K) : prefixSums id a l = Proc.prefixSums a l := by
  induction l generalizing a with
  | nil => rfl
  | cons x xs ih =>
    unfold prefixSums Proc.prefixSums
    rw [ih]
    rfl

theorem updateRateTable_id (p : Proc K) : updateRateTable id p = p.updateRateTable := by
  unfold updateRateTable Proc.updateRateTable
  simp only [prefixSums_id, List.map_id]
  rfl

theorem pickSite_id (p : Proc K) (u : K) : pickSite id p u = p.pickSite u := rfl

theorem probabilityTable_id (procs : List (Proc K)) : probabilityTable id procs = Interactions.probabilityTable procs := by
  unfold probabilityTable Interactions.probabilityTable
  generalize (0 : K) = a
  induction procs generalizing a with
  | nil => rfl
  | cons p ps ih =>
    unfold probabilityLoop Interactions.probabilityLoop
    rw [ih]
    rfl

theorem select_id (procs : List (Proc K)) (table : List (K × Nat)) (u1 u2 : K) :
    select id procs table u1 u2 = LatticeModel.select procs table u1 u2 := by
  unfold select LatticeModel.select pickProcess Interactions.pickProcess
  simp only [updateRateTable_id, pickSite_id]
  rfl

theorem calculateMatching_id (env : Env K) (s : MState K) (is : List Nat) :
    calculateMatching id env s is = Matcher.calculateMatching env s is := rfl

theorem initialMatching_id (env : Env K) (cfg : Config K) (procs : List (Proc K)) :
    initialMatching id env cfg procs = LatticeModel.initialMatching env cfg procs := rfl

theorem init_id (env : Env K) (cfg : Config K) (procs : List (Proc K)) :
    init id env cfg procs = LatticeModel.init env cfg procs := by
  unfold init LatticeModel.init
  simp only [probabilityTable_id, initialMatching_id]

theorem singleStep_id (env : Env K) (s : Sim K) (u1 u2 : K) :
    singleStep id env s u1 u2 = LatticeModel.singleStep env s u1 u2 := by
  unfold singleStep LatticeModel.singleStep
  simp only [probabilityTable_id, select_id]
  rfl

theorem drawStep_id (negLog : K → Option K) (r : K) (us : List K) :
    drawStep id negLog r us = LatticeModel.drawStep negLog r us := by
  induction us with
  | nil => rfl
  | cons u us ih =>
    unfold drawStep LatticeModel.drawStep
    rw [ih]
    rfl

theorem step_id (env : Env K) (negLog : K → Option K) (s : Sim K) (d : Draws K) :
    step id env negLog s d = LatticeModel.step env negLog s d := by
  unfold step LatticeModel.step propagateTime LatticeModel.propagateTime
  simp only [singleStep_id, drawStep_id]
  rfl

theorem run_id (env : Env K) (negLog : K → Option K) (ds : List (Draws K)) (s : Sim K) :
    run id env negLog ds s = LatticeModel.run env negLog ds s := by
  unfold run LatticeModel.run
  have : step id env negLog = LatticeModel.step env negLog := by
    funext s d
    exact step_id env negLog s d
  rw [this]

variable [IsStrictOrderedRing K] {fl : K → K}
variable {env : Env K} {n nT : Nat} {negLog : K → Option K} {cfg : Config K} {procs : List (Proc K)}

/-- There is a number between 0 and 1 that falls into the given one of some positive intervals. -/
theorem exists_between_sums {ws : List K} (hw : ∀ w ∈ ws, 0 ≤ w) {k : Nat} {w : K} (hk : ws[k]? = some w) (hp : 0 < w) :
    ∃ u, 0 < u ∧ u < 1 ∧ (ws.take k).sum < u * ws.sum ∧ u * ws.sum ≤ (ws.take (k + 1)).sum := by
  have hs := take_succ_sum hk
  have h0 : 0 ≤ (ws.take k).sum := List.sum_nonneg fun x hx => hw x (List.mem_of_mem_take hx)
  have hle : (ws.take (k + 1)).sum ≤ ws.sum := by
    have := take_sum_mono hw (i := k + 1) (j := max (k + 1) ws.length) (le_max_left _ _)
    rwa [List.take_of_length_le (le_max_right _ _)] at this
  have hT : 0 < ws.sum := by linarith
  have hh : w / 2 * 2 = w := div_mul_cancel₀ w two_ne_zero
  have hh2 : 0 < w / 2 := by linarith
  refine ⟨((ws.take k).sum + w / 2) / ws.sum, div_pos (by linarith) hT, ?_, ?_, ?_⟩
  · rw [div_lt_one hT]
    linarith
  · rw [div_mul_cancel₀ _ hT.ne']
    linarith
  · rw [div_mul_cancel₀ _ hT.ne']
    linarith

/-- Every listed event can be selected. -/
theorem exists_select {s : Sim K} (h : GoodRun env n nT negLog cfg procs s) (hr : PositiveRates env procs) {j site : Nat}
    {p : Proc K} (hj : s.ms.procs[j]? = some p) (hs : site ∈ p.sites) :
    ∃ u1 u2 procs', 0 < u1 ∧ u1 < 1 ∧ 0 < u2 ∧ u2 < 1 ∧
      LatticeModel.select s.ms.procs s.table u1 u2 = .ok (j, site, procs') := by
  have ha : Interactions.totalAvailableSites s.ms.procs ≠ 0 := by
    rw [(C25_totals h).2.1]
    intro h0
    have := List.sum_eq_zero_iff.1 h0 _ (List.mem_map_of_mem (f := fun p : Proc K => p.sites.length)
      (List.mem_of_getElem? hj))
    rw [List.length_eq_zero_iff] at this
    rw [this] at hs
    cases hs
  obtain ⟨hsel, hpos⟩ := sumRates_pos h hr ha
  have hw := weights_pos h hr
  have hpm := List.mem_of_getElem? hj
  have hc := hsel.consistent p hpm
  obtain ⟨k, hk⟩ := List.mem_iff_getElem?.1 hs
  have hkl : k < p.weights.length := by
    rw [hc.length_weights]
    exact (List.getElem?_eq_some_iff.1 hk).1
  have hwk := List.getElem?_eq_getElem hkl
  obtain ⟨u2, a1, a2, a3, a4⟩ := exists_between_sums (hsel.nonneg p hpm) hwk (hw p hpm _ (List.getElem_mem hkl))
  have htot : 0 < p.totalRate := by
    rw [hc.total]
    exact lt_of_lt_of_le (hw p hpm _ (List.getElem_mem hkl))
      (List.single_le_sum (hsel.nonneg p hpm) _ (List.getElem_mem hkl))
  obtain ⟨u1, b1, b2, b3, b4⟩ := exists_between_sums (ws := s.ms.procs.map (·.totalRate)) (k := j) (w := p.totalRate)
    (by
      intro t ht
      obtain ⟨q, hq, rfl⟩ := List.mem_map.1 ht
      rw [(hsel.consistent q hq).total]
      exact List.sum_nonneg (hsel.nonneg q hq))
    (by rw [List.getElem?_map, hj]; rfl) htot
  have hjl := (List.getElem?_eq_some_iff.1 hj).1
  have hpick := (C28_process_interval s.ms.procs hsel u1 j hjl).2 ⟨.inr (by
    rw [List.map_take]; exact b3), by rw [List.map_take]; exact b4⟩
  obtain ⟨p', hp', hs'⟩ := (C28_site_interval p hc (hsel.nonneg p hpm) u2 a2.le k site hk).2 ⟨.inr (by
    rw [hc.total]; exact a3), by rw [hc.total]; exact a4⟩
  refine ⟨u1, u2, s.ms.procs.set j p', b1, b2, a1, a2, ?_⟩
  rw [(C25_totals h).2.2.1]
  unfold LatticeModel.select Interactions.pickProcess
  rw [hpick, ok_bind, rd_of_getElem? hj, ok_bind, hp', ok_bind, wr_of_lt hjl, ok_bind, pure_ok, ok_bind]
  dsimp only
  rw [hs', ok_bind]
  rfl

theorem propagateTime_ok {s s' : Sim K} {us : List K} (h : propagateTime fl negLog s us = .ok s') :
    s'.ms = s.ms ∧ s'.table = s.table := by
  unfold propagateTime at h
  rw [bind_ok] at h
  obtain ⟨r, -, h⟩ := h
  rw [bind_ok] at h
  obtain ⟨dt, -, h⟩ := h
  cases h
  exact ⟨rfl, rfl⟩

/-- A step with rounding can be followed without. -/
theorem step_follow (hr : PositiveRates env procs) (hl : ∃ u, 0 < u ∧ u < 1 ∧ negLog u ≠ none) {s s' t : Sim K}
    (ht : GoodRun env n nT negLog cfg procs t) (hst : s.ms.faded = t.ms.faded) {d : Draws K}
    (h : step fl env negLog s d = .ok s') :
    ∃ d' t', Draws.Inside d' ∧ LatticeModel.step env negLog t d' = .ok t' ∧ s'.ms.faded = t'.ms.faded := by
  unfold step at h
  rw [bind_ok] at h
  obtain ⟨s1, h1, h⟩ := h
  obtain ⟨e1, -⟩ := propagateTime_ok h1
  unfold singleStep at h
  rw [bind_ok] at h
  obtain ⟨e, h2, h⟩ := h
  rw [bind_ok] at h
  obtain ⟨ms1, h3, h⟩ := h
  rw [bind_ok] at h
  obtain ⟨ms2, h4, h⟩ := h
  cases h
  rw [e1] at h2 h3
  obtain ⟨p, hp, hsite, hps⟩ := select_ok h2
  obtain ⟨q, hq, hpq⟩ := faded_get (MState.faded_procs hst) hp
  have hsite' : e.2.1 ∈ q.sites := by
    have : p.sites = q.sites := (congrArg Proc.sites hpq :)
    rw [← this]
    exact hsite
  obtain ⟨u1, u2, procs', c1, c2, c3, c4, hsel⟩ := exists_select ht hr hq hsite'
  have hsel' := hsel
  rw [← select_id] at hsel'
  obtain ⟨-, -, -, hps'⟩ := select_ok hsel'
  have hf : ({ s.ms with procs := e.2.2 } : MState K).faded = ({ t.ms with procs := procs' } : MState K).faded := by
    have hp2 := MState.faded_procs hst
    have g1 : s.ms.cfg = t.ms.cfg := MState.faded_cfg hst
    have g2 : s.ms.inverse = t.ms.inverse := (congrArg MState.inverse hst :)
    have g3 : s.ms.rates = t.ms.rates := (congrArg MState.rates hst :)
    unfold MState.faded
    dsimp only at hps' ⊢
    rw [hps, hps', hp2, g1, g2, g3]
  obtain ⟨mt1, k1, k2⟩ := map_ok_of (performAt_faded hf e.1 e.2.1) h3
  obtain ⟨mt2, k3, k4⟩ := map_ok_of (rematch_faded env k2 e.1) h4
  obtain ⟨u, v1, v2, v3⟩ := hl
  have hne : t.ms.procs ≠ [] := by
    intro h0
    rw [h0] at hq
    cases hq
  have htot := (C25_totals ht).2.2.2 hne
  have hR : (t.ms.procs.map (·.weights.sum)).sum ≠ 0 := by
    have ha : Interactions.totalAvailableSites t.ms.procs ≠ 0 := by
      rw [(C25_totals ht).2.1]
      intro h0
      have := List.sum_eq_zero_iff.1 h0 _ (List.mem_map_of_mem (f := fun p : Proc K => p.sites.length)
        (List.mem_of_getElem? hq))
      rw [List.length_eq_zero_iff] at this
      rw [this] at hsite'
      cases hsite'
    have := (sumRates_pos ht hr ha).2
    unfold sumRates at this
    have e : t.ms.procs.map (·.totalRate) = t.ms.procs.map (·.weights.sum) :=
      List.map_congr_left fun p hp => ((C25_totals ht).1 p hp).2.2.2
    rw [e] at this
    exact this.ne'
  obtain ⟨l, hl'⟩ := Option.ne_none_iff_exists'.1 v3
  refine ⟨⟨[u], u1, u2⟩, ⟨mt2, Interactions.probabilityTable mt2.procs,
      t.time + l / (t.ms.procs.map (·.weights.sum)).sum⟩, ?_, ?_, k4⟩
  · exact ⟨c1, c2, c3, c4⟩
  · unfold LatticeModel.step LatticeModel.propagateTime
    rw [htot, ok_bind]
    simp only [LatticeModel.drawStep, LatticeModel.timeStep, hl', if_neg hR]
    rw [ok_bind, pure_ok, ok_bind]
    unfold LatticeModel.singleStep
    dsimp only
    rw [hsel, ok_bind]
    dsimp only
    rw [k1, ok_bind, k3, ok_bind]
    rfl

/-- A run with rounding can be followed without. -/
theorem run_follow (hr : PositiveRates env procs) (hl : ∃ u, 0 < u ∧ u < 1 ∧ negLog u ≠ none) (ds : List (Draws K)) :
    ∀ {s s' t : Sim K}, GoodRun env n nT negLog cfg procs t → s.ms.faded = t.ms.faded →
      run fl env negLog ds s = .ok s' →
      ∃ ds' t', (∀ d ∈ ds', Draws.Inside d) ∧ LatticeModel.run env negLog ds' t = .ok t' ∧
        GoodRun env n nT negLog cfg procs t' ∧ s'.ms.faded = t'.ms.faded := by
  induction ds with
  | nil =>
    intro s s' t ht hst h
    cases h
    exact ⟨[], t, by simp, rfl, ht, hst⟩
  | cons d ds ih =>
    intro s s' t ht hst h
    unfold run at h
    rw [loopM_cons, bind_ok] at h
    obtain ⟨s1, h1, h2⟩ := h
    obtain ⟨d', t1, i1, i2, i3⟩ := step_follow hr hl ht hst h1
    obtain ⟨ds', t', j1, j2, j3, j4⟩ := ih (ht.step i2) i3 h2
    refine ⟨d' :: ds', t', ?_, ?_, j3, j4⟩
    · intro x hx
      rcases List.mem_cons.1 hx with rfl | hx
      · exact i1
      · exact j1 x hx
    · unfold LatticeModel.run at j2 ⊢
      rw [loopM_cons, i2, ok_bind]
      exact j2

end Rounded
end KMC
