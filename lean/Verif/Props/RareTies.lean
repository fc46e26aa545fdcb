import Verif.Props.NearTies
import Verif.Props.Random

/-!
# C55: how often rounding changes a run

A run in exact arithmetic and one with rounding do the same, unless a random number is close to a border (`C55_near_ties_partial`, and the
converse here). The random numbers are fractions with a common denominator (C57), so the cases in which one of them is close to a border
can be counted.
-/

set_option linter.unusedSectionVars false

namespace KMC

open LatticeModel Interactions Matcher

variable {fl : ℚ → ℚ} {env : Env ℚ} {n nT : Nat} {negLog : ℚ → Option ℚ} {cfg : Config ℚ} {procs : List (Proc ℚ)}

/-! ### From exact arithmetic to rounded arithmetic -/

theorem select_same' (hfl : Rounding fl) {k : Nat} {ps : List (Proc ℚ)} {t : Sim ℚ} (hf : ps.map Proc.faded = t.ms.procs.map Proc.faded)
    (hd : ∀ p ∈ ps, Drifted n k p) (hn : ∀ p ∈ ps, p.sites.length ≤ n) (hpos : ∀ p ∈ ps, 0 < p.rate)
    (hq : ∀ q ∈ t.ms.procs, q.totalRate = q.weights.sum) (htab : t.table = Interactions.probabilityTable t.ms.procs) {d : Draws ℚ}
    (ha : Away n k t d) {e : Nat × Nat × List (Proc ℚ)} (h : LatticeModel.select t.ms.procs t.table d.process d.site = .ok e) :
    ∃ qs, Rounded.select fl ps (Rounded.probabilityTable fl ps) d.process d.site = .ok (e.1, e.2.1, qs) := by
  have hproc := process_same hfl hf hd hn hq ha.process0 ha.process1 (htab ▸ ha.process)
  rw [← htab] at hproc
  unfold LatticeModel.select at h
  obtain ⟨pk, h1, h⟩ := bind_ok.1 h
  obtain ⟨site, h2, h⟩ := bind_ok.1 h
  obtain rfl := Except.ok.inj h
  unfold pickProcess at h1
  obtain ⟨i, h3, h1⟩ := bind_ok.1 h1
  obtain ⟨q, h4, h1⟩ := bind_ok.1 h1
  obtain ⟨q', h5, h1⟩ := bind_ok.1 h1
  obtain ⟨qs', h6, h1⟩ := bind_ok.1 h1
  obtain rfl := Except.ok.inj h1
  have hqi := rd_ok.1 h4
  obtain ⟨p, hp, hpq⟩ := faded_get hf.symm hqi
  have hpm := List.mem_of_getElem? hp
  have e1 : q.sites = p.sites := (congrArg Proc.sites hpq :)
  obtain ⟨p', hp'⟩ : ∃ p', Rounded.updateRateTable fl p = .ok p' := by
    unfold Rounded.updateRateTable
    rw [(hd p hpm).constant]
    exact ⟨_, rfl⟩
  obtain ⟨q'', g1, g2⟩ := site_same hfl hpq.symm (hd p hpm) (hpos p hpm) hp' ha.site0 ha.site1 (by
    rw [← e1]
    exact ha.site i q h3 hqi)
  rw [h5] at g1
  obtain rfl := Except.ok.inj g1
  dsimp only at h2
  rw [← g2] at h2
  rw [← hproc] at h3
  refine ⟨ps.set i p', ?_⟩
  have hw : wr ps i p' = .ok (ps.set i p') := wr_ok.2 ⟨(List.getElem?_eq_some_iff.1 hp).1, rfl⟩
  unfold Rounded.select Rounded.pickProcess
  simp only [h3, ok_bind, rd_of_getElem? hp, hp', hw, pure_ok, h2]

theorem drawStep_same' {r r' dt : ℚ} (hr : r ≠ 0) (us : List ℚ) (h : LatticeModel.drawStep negLog r' us = .ok dt) :
    ∃ dt', Rounded.drawStep fl negLog r us = .ok dt' := by
  induction us with
  | nil => cases h
  | cons u us ih =>
    unfold Rounded.drawStep
    cases hl : negLog u with
    | none =>
      unfold LatticeModel.drawStep at h
      simp only [timeStep, hl] at h ⊢
      exact ih h
    | some l => exact ⟨fl (l / r), by simp only [timeStep, hl, if_neg hr]⟩

theorem totalRate_mem {l : List (ℚ × Nat)} {X : ℚ} (h : Interactions.totalRate l = .ok X) : ∃ e ∈ l, e.1 = X := by
  unfold Interactions.totalRate at h
  cases hl : l.getLast? with
  | none => rw [hl] at h; cases h
  | some e =>
    rw [hl] at h
    exact ⟨e, List.mem_of_getLast? hl, Except.ok.inj h⟩

theorem step_same' (hfl : Rounding fl) (hr : PositiveRates env procs) (hl : ∃ u, 0 < u ∧ u < 1 ∧ negLog u ≠ none) {k : Nat} {s t t' : Sim ℚ}
    (hs : RoundedRun fl env n nT negLog cfg procs s) (ht : GoodRun env n nT negLog cfg procs t) (hst : s.ms.faded = t.ms.faded)
    (hd : AllDrifted n k procs.length s.ms) {d : Draws ℚ} (ha : Away n k t d) (h : LatticeModel.step env negLog t d = .ok t') :
    ∃ s', Rounded.step fl env negLog s d = .ok s' := by
  have hdp : ∀ p ∈ s.ms.procs, Drifted n k p ∧ p.sites.length ≤ n ∧ 0 < p.rate := by
    intro p hp
    obtain ⟨j, hj⟩ := List.mem_iff_getElem?.1 hp
    obtain ⟨p', hp', h1⟩ := hd j (by rw [← hs.processes_length hr hl]; exact (List.getElem?_eq_some_iff.1 hj).1)
    rw [hj] at hp'
    obtain rfl := Option.some.inj hp'
    refine ⟨h1, hs.few hr hl hj, ?_⟩
    obtain ⟨q, hq, hpq⟩ := faded_get (MState.faded_procs hst) hj
    obtain ⟨p0, hp0, -, h2, -⟩ := ht.source hq
    have e2 : p.rate = q.rate := (congrArg Proc.rate hpq :)
    rw [e2, h2]
    exact hr.constant p0 (List.mem_of_getElem? hp0)
  have htot := C25_totals ht
  unfold LatticeModel.step at h
  obtain ⟨t1, h1, h⟩ := bind_ok.1 h
  unfold LatticeModel.propagateTime at h1
  obtain ⟨X, hX, h1⟩ := bind_ok.1 h1
  obtain ⟨dt, h5, h1⟩ := bind_ok.1 h1
  obtain rfl := Except.ok.inj h1
  unfold LatticeModel.singleStep at h
  obtain ⟨e, h2, h⟩ := bind_ok.1 h
  obtain ⟨mt1, h3, h⟩ := bind_ok.1 h
  obtain ⟨mt2, h4, h⟩ := bind_ok.1 h
  dsimp only at h2 h3 h4
  obtain ⟨ps, hsel⟩ := select_same' hfl (MState.faded_procs hst) (fun p hp => (hdp p hp).1) (fun p hp => (hdp p hp).2.1)
    (fun p hp => (hdp p hp).2.2) (fun q hq => (htot.1 q hq).2.2.2) htot.2.2.1 ha h2
  obtain ⟨p, hp, hsite, hps⟩ := Rounded.select_ok hsel
  have hsel' := h2
  rw [← Rounded.select_id] at hsel'
  obtain ⟨q, hq, hsite', hps'⟩ := Rounded.select_ok hsel'
  have hf : ({ s.ms with procs := ps } : MState ℚ).faded = ({ t.ms with procs := e.2.2 } : MState ℚ).faded := by
    have hp2 := MState.faded_procs hst
    have g1 : s.ms.cfg = t.ms.cfg := MState.faded_cfg hst
    have g2 : s.ms.inverse = t.ms.inverse := (congrArg MState.inverse hst :)
    have g3 : s.ms.rates = t.ms.rates := (congrArg MState.rates hst :)
    unfold MState.faded
    dsimp only at hps hps' ⊢
    rw [hps, hps', hp2, g1, g2, g3]
  obtain ⟨ms1, k1, k2⟩ := map_ok_of (Rounded.performAt_faded hf e.1 e.2.1).symm h3
  obtain ⟨ms2, k3, k4⟩ := map_ok_of (Rounded.rematch_faded (fl := fl) env k2.symm e.1).symm h4
  obtain ⟨Y, hY⟩ : ∃ Y, Interactions.totalRate (Rounded.probabilityTable fl s.ms.procs) = .ok Y := by
    unfold Rounded.select Rounded.pickProcess Rounded.pickProcessIndex at hsel
    obtain ⟨pk, h6, -⟩ := bind_ok.1 hsel
    obtain ⟨i, h6, -⟩ := bind_ok.1 h6
    obtain ⟨Y, h6, -⟩ := bind_ok.1 h6
    exact ⟨Y, h6⟩
  have hY0 : Y ≠ 0 := by
    have h7 := total_close hfl (MState.faded_procs hst) (fun p hp => (hdp p hp).1) (fun p hp => (hdp p hp).2.1)
      (fun q hq => (htot.1 q hq).2.2.2) hY (by rw [← htot.2.2.1]; exact hX)
    obtain ⟨x, hx, rfl⟩ := totalRate_mem hX
    have h8 := ha.process _ hX x hx
    have hS : 0 ≤ (t.ms.procs.map fun p => (n * p.rate : ℚ)).sum := List.sum_nonneg fun w hw => by
      obtain ⟨q, hq, rfl⟩ := List.mem_map.1 hw
      obtain ⟨j, hj⟩ := List.mem_iff_getElem?.1 hq
      obtain ⟨p0, hp0, -, h2, -⟩ := ht.source hj
      rw [h2]
      exact mul_nonneg (Nat.cast_nonneg _) (hr.constant p0 (List.mem_of_getElem? hp0)).le
    rintro rfl
    have h9 : |x.1 - d.process * x.1| ≤ |x.1| := by
      rw [show x.1 - d.process * x.1 = (1 - d.process) * x.1 by ring, abs_mul, abs_of_nonneg (by linarith [ha.process1])]
      exact mul_le_of_le_one_left (abs_nonneg _) (by linarith [ha.process0])
    rw [zero_sub, abs_neg] at h7
    have h10 : ulp ^ (k + t.ms.procs.length) ≤ ulp ^ (k + t.ms.procs.length + 1) := ulp_pow_mono (by omega)
    have h11 := ulp_pow_ge (k + t.ms.procs.length)
    change 2 * _ * (ulp ^ _ - 1) < _ at h8
    nlinarith [mul_le_mul_of_nonneg_left h10 hS, mul_nonneg hS (by linarith : (0 : ℚ) ≤ ulp ^ (k + t.ms.procs.length) - 1)]
  obtain ⟨dt', h12⟩ := drawStep_same' (fl := fl) hY0 d.time h5
  refine ⟨⟨ms2, Rounded.probabilityTable fl ms2.procs, fl (s.time + dt')⟩, ?_⟩
  unfold Rounded.step Rounded.propagateTime
  rw [hs.table]
  simp only [hY, ok_bind, h12, pure_ok]
  unfold Rounded.singleStep
  simp only [hsel, ok_bind, k1, k3, pure_ok]

/-! ### Counting -/

open Classical in
/-- How many of the fractions `j / N`, times `r`, are close to a number. -/
theorem card_near {N : Nat} {r x δ : ℚ} (hr : 0 < r) (hδ : 0 ≤ δ) :
    (((Finset.univ : Finset (Fin N)).filter fun j : Fin N => |x - (j : ℚ) / N * r| ≤ δ).card : ℚ) ≤ 2 * δ * N / r + 1 := by
  rcases Nat.eq_zero_or_pos N with rfl | hN
  · simp
  have hN' : (0 : ℚ) < N := by exact_mod_cast hN
  have hle : ((Finset.univ : Finset (Fin N)).filter fun j : Fin N => |x - (j : ℚ) / N * r| ≤ δ).card ≤
      (Finset.Icc ⌈(x - δ) * N / r⌉ ⌊(x + δ) * N / r⌋).card := by
    refine Finset.card_le_card_of_injOn (fun j : Fin N => ((j : Nat) : ℤ)) ?_ ?_
    · intro j hj
      have hj := (Finset.mem_filter.1 hj).2
      rw [abs_le] at hj
      have e : (j : ℚ) / N * r = j * r / N := by ring
      rw [e] at hj
      have h1 : x - δ ≤ j * r / N := by linarith [hj.2]
      have h2 : (j : ℚ) * r / N ≤ x + δ := by linarith [hj.1]
      rw [le_div_iff₀ hN'] at h1
      rw [div_le_iff₀ hN'] at h2
      simp only [Finset.coe_Icc, Set.mem_Icc, Int.ceil_le, Int.le_floor, Int.cast_natCast]
      rw [div_le_iff₀ hr, le_div_iff₀ hr]
      exact ⟨h1, h2⟩
    · intro i _ j _ h
      have h : ((i : Nat) : ℤ) = ((j : Nat) : ℤ) := h
      exact Fin.ext (by exact_mod_cast h)
  rw [Int.card_Icc] at hle
  have hw : 0 ≤ 2 * δ * N / r := by positivity
  have hw' : (x + δ) * N / r - (x - δ) * N / r = 2 * δ * N / r := by ring
  have h1 := Int.floor_le ((x + δ) * N / r)
  have h2 := Int.le_ceil ((x - δ) * N / r)
  have h3 : (((⌊(x + δ) * N / r⌋ + 1 - ⌈(x - δ) * N / r⌉).toNat : ℤ) : ℚ) ≤ 2 * δ * N / r + 1 := by
    rcases le_total 0 (⌊(x + δ) * N / r⌋ + 1 - ⌈(x - δ) * N / r⌉) with h | h
    · rw [Int.toNat_of_nonneg h]
      push_cast
      linarith
    · rw [Int.toNat_eq_zero.2 h]
      push_cast
      linarith
  have h4 : ((⌊(x + δ) * N / r⌋ + 1 - ⌈(x - δ) * N / r⌉).toNat : ℚ) ≤ 2 * δ * N / r + 1 := by exact_mod_cast h3
  exact le_trans (by exact_mod_cast hle) h4

open Classical in
/-- How many are close to one of the numbers of a list. -/
theorem card_near_list {α : Type} {N : Nat} {r δ : ℚ} (hr : 0 < r) (hδ : 0 ≤ δ) (x : α → ℚ) (l : List α) :
    (((Finset.univ : Finset (Fin N)).filter fun j : Fin N => ∃ e ∈ l, |x e - (j : ℚ) / N * r| ≤ δ).card : ℚ) ≤ l.length * (2 * δ * N / r + 1) := by
  induction l with
  | nil => simp
  | cons e l ih =>
    have hsub : ((Finset.univ : Finset (Fin N)).filter fun j : Fin N => ∃ e' ∈ e :: l, |x e' - (j : ℚ) / N * r| ≤ δ) ⊆
        ((Finset.univ : Finset (Fin N)).filter fun j : Fin N => |x e - (j : ℚ) / N * r| ≤ δ) ∪
        ((Finset.univ : Finset (Fin N)).filter fun j : Fin N => ∃ e' ∈ l, |x e' - (j : ℚ) / N * r| ≤ δ) := by
      intro j hj
      obtain ⟨e', he', h⟩ := (Finset.mem_filter.1 hj).2
      rw [Finset.mem_union, Finset.mem_filter, Finset.mem_filter]
      rcases List.mem_cons.1 he' with rfl | he'
      · exact .inl ⟨Finset.mem_univ _, h⟩
      · exact .inr ⟨Finset.mem_univ _, e', he', h⟩
    have h1 : (((Finset.univ : Finset (Fin N)).filter fun j : Fin N => ∃ e' ∈ e :: l, |x e' - (j : ℚ) / N * r| ≤ δ).card : ℚ) ≤
        ((Finset.univ : Finset (Fin N)).filter fun j : Fin N => |x e - (j : ℚ) / N * r| ≤ δ).card +
        ((Finset.univ : Finset (Fin N)).filter fun j : Fin N => ∃ e' ∈ l, |x e' - (j : ℚ) / N * r| ≤ δ).card := by
      exact_mod_cast (Finset.card_le_card hsub).trans (Finset.card_union_le _ _)
    have h2 := card_near (N := N) (x := x e) hr hδ
    rw [List.length_cons]
    push_cast
    linarith

/-- Bound for the share of pairs of random numbers that are close to a border, in a state of a model with `n` sites, after `k` roundings
of each stored total, with rates `rates` of which none is less than `r`, when the random numbers are multiples of `1 / N`. -/
def tieChance (n N k : Nat) (rates : List ℚ) (r : ℚ) : ℚ :=
  rates.length * (4 * (n * rates.sum) * ((1 + 1 / 2 ^ 53) ^ (k + rates.length + 1) - 1) / r + 1 / N) +
    (4 * n * ((1 + 1 / 2 ^ 53) ^ (n + 1) - 1) + n / N)

open Classical in
/-- How many pairs of random numbers are close to a border. -/
theorem card_not_away {k N : Nat} (hN : 0 < N) {t : Sim ℚ} {r : ℚ} (hr : 0 < r) {total : ℚ} (ht : Interactions.totalRate t.table = .ok total)
    (htot : r ≤ total) (hpos : ∀ p ∈ t.ms.procs, 0 ≤ p.rate) (hn : ∀ p ∈ t.ms.procs, p.sites.length ≤ n)
    (hlen : t.table.length = t.ms.procs.length) (time : List ℚ) :
    (((Finset.univ : Finset (Fin N × Fin N)).filter fun a : Fin N × Fin N => ¬ Away n k t ⟨time, (a.1 : ℚ) / N, (a.2 : ℚ) / N⟩).card : ℚ) ≤
      N ^ 2 * tieChance n N k (t.ms.procs.map (·.rate)) r := by
  have hN' : (0 : ℚ) < N := by exact_mod_cast hN
  have hu : ∀ j : Fin N, 0 ≤ (j : ℚ) / N ∧ (j : ℚ) / N ≤ 1 := fun j =>
    ⟨by positivity, by rw [div_le_one hN']; exact_mod_cast j.2.le⟩
  have hS : (t.ms.procs.map fun p => (n * p.rate : ℚ)).sum = n * (t.ms.procs.map (·.rate)).sum := by
    rw [← List.sum_map_mul_left]
  have hS0 : 0 ≤ (t.ms.procs.map (·.rate)).sum := List.sum_nonneg fun w hw => by
    obtain ⟨p, hp, rfl⟩ := List.mem_map.1 hw
    exact hpos p hp
  set δ : ℚ := 2 * (n * (t.ms.procs.map (·.rate)).sum) * (ulp ^ (k + t.ms.procs.length + 1) - 1) with hδ
  have hδ0 : 0 ≤ δ := mul_nonneg (by positivity) (by linarith [ulp_pow_ge (k + t.ms.procs.length + 1)])
  set A := (Finset.univ : Finset (Fin N)).filter fun j : Fin N => ∃ e ∈ t.table, |e.1 - (j : ℚ) / N * total| ≤ δ with hA
  have hAc : (A.card : ℚ) ≤ t.table.length * (2 * δ * N / total + 1) := card_near_list (hr.trans_le htot) hδ0 Prod.fst t.table
  set C : Fin N → Finset (Fin N) := fun a => (Finset.univ : Finset (Fin N)).filter fun b : Fin N =>
    ∃ j p, pickProcessIndex t.table ((a : ℚ) / N) = .ok j ∧ t.ms.procs[j]? = some p ∧ ∃ i < p.sites.length,
      |(i + 1 : ℚ) - (b : ℚ) / N * p.sites.length| ≤ 2 * p.sites.length * (ulp ^ (p.sites.length + 1) - 1) with hC
  have hCc : ∀ a, ((C a).card : ℚ) ≤ 4 * n * (ulp ^ (n + 1) - 1) * N + n := by
    intro a
    have h0 : 0 ≤ 4 * (n : ℚ) * (ulp ^ (n + 1) - 1) * N + n := by
      have := ulp_pow_ge (n + 1)
      have : 0 ≤ ulp ^ (n + 1) - 1 := by linarith
      positivity
    by_cases hex : ∃ j p, pickProcessIndex t.table ((a : ℚ) / N) = .ok j ∧ t.ms.procs[j]? = some p ∧ 0 < p.sites.length
    · obtain ⟨j, p, h1, h2, h3⟩ := hex
      have h3' : (0 : ℚ) < p.sites.length := by exact_mod_cast h3
      have hln : (p.sites.length : ℚ) ≤ n := by exact_mod_cast hn p (List.mem_of_getElem? h2)
      have hu1 := ulp_pow_ge (p.sites.length + 1)
      have hu2 : ulp ^ (p.sites.length + 1) ≤ ulp ^ (n + 1) := ulp_pow_mono (by have := hn p (List.mem_of_getElem? h2); omega)
      have hsub : C a ⊆ (Finset.univ : Finset (Fin N)).filter fun b : Fin N => ∃ i ∈ List.range p.sites.length,
          |(i + 1 : ℚ) - (b : ℚ) / N * p.sites.length| ≤ 2 * p.sites.length * (ulp ^ (p.sites.length + 1) - 1) := by
        intro b hb
        obtain ⟨j', p', g1, g2, i, hi, g3⟩ := (Finset.mem_filter.1 hb).2
        rw [h1] at g1
        obtain rfl := Except.ok.inj g1
        rw [h2] at g2
        obtain rfl := Option.some.inj g2
        exact Finset.mem_filter.2 ⟨Finset.mem_univ _, i, List.mem_range.2 hi, g3⟩
      have h4 := card_near_list (N := N) h3' (mul_nonneg (by positivity : (0 : ℚ) ≤ 2 * p.sites.length)
        (by linarith : 0 ≤ ulp ^ (p.sites.length + 1) - 1)) (fun i : Nat => (i + 1 : ℚ)) (List.range p.sites.length)
      rw [List.length_range] at h4
      have h5 : ((C a).card : ℚ) ≤ _ := le_trans (by exact_mod_cast Finset.card_le_card hsub) h4
      refine h5.trans ?_
      have e : (p.sites.length : ℚ) * (2 * (2 * p.sites.length * (ulp ^ (p.sites.length + 1) - 1)) * N / p.sites.length + 1) =
          4 * p.sites.length * (ulp ^ (p.sites.length + 1) - 1) * N + p.sites.length := by
        field_simp
        ring
      rw [e]
      have h6 : (p.sites.length : ℚ) * (ulp ^ (p.sites.length + 1) - 1) ≤ n * (ulp ^ (n + 1) - 1) :=
        mul_le_mul hln (by linarith) (by linarith) (by positivity)
      nlinarith [mul_le_mul_of_nonneg_right h6 hN'.le]
    · have : C a = ∅ := by
        rw [hC]
        refine Finset.filter_eq_empty_iff.2 fun b _ => ?_
        rintro ⟨j, p, h1, h2, i, hi, -⟩
        exact hex ⟨j, p, h1, h2, by omega⟩
      rw [this]
      simpa using h0
  have hsub : ((Finset.univ : Finset (Fin N × Fin N)).filter fun a : Fin N × Fin N => ¬ Away n k t ⟨time, (a.1 : ℚ) / N, (a.2 : ℚ) / N⟩) ⊆
      (A ×ˢ Finset.univ) ∪ (Finset.univ.sigma C).map ⟨fun a => (a.1, a.2), fun a b h => by
        obtain ⟨a1, a2⟩ := a
        obtain ⟨b1, b2⟩ := b
        simp only [Prod.mk.injEq] at h
        obtain ⟨rfl, rfl⟩ := h
        rfl⟩ := by
    rintro ⟨a, b⟩ hab
    have hab := (Finset.mem_filter.1 hab).2
    rw [Finset.mem_union]
    by_contra hno
    rw [not_or] at hno
    apply hab
    refine ⟨(hu a).1, (hu a).2, (hu b).1, (hu b).2, fun total' ht' e he => ?_, fun j p hj hp i hi => ?_⟩
    · rw [ht] at ht'
      obtain rfl := Except.ok.inj ht'
      by_contra hc
      refine hno.1 (Finset.mem_product.2 ⟨Finset.mem_filter.2 ⟨Finset.mem_univ _, e, he, ?_⟩, Finset.mem_univ _⟩)
      rw [not_lt, hS] at hc
      exact hc
    · by_contra hc
      refine hno.2 (Finset.mem_map.2 ⟨⟨a, b⟩, Finset.mem_sigma.2 ⟨Finset.mem_univ _, Finset.mem_filter.2
        ⟨Finset.mem_univ _, j, p, hj, hp, i, hi, not_lt.1 hc⟩⟩, rfl⟩)
  have h1 := (Finset.card_le_card hsub).trans (Finset.card_union_le _ _)
  rw [Finset.card_map, Finset.card_sigma, Finset.card_product, Finset.card_univ, Fintype.card_fin] at h1
  have h2 : (((Finset.univ : Finset (Fin N × Fin N)).filter fun a : Fin N × Fin N => ¬ Away n k t ⟨time, (a.1 : ℚ) / N, (a.2 : ℚ) / N⟩).card : ℚ) ≤
      A.card * N + ∑ a, ((C a).card : ℚ) := by exact_mod_cast h1
  have h3 : ∑ a, ((C a).card : ℚ) ≤ N * (4 * n * (ulp ^ (n + 1) - 1) * N + n) := by
    have := Finset.sum_le_sum fun a (_ : a ∈ (Finset.univ : Finset (Fin N))) => hCc a
    rwa [Finset.sum_const, Finset.card_univ, Fintype.card_fin, nsmul_eq_mul] at this
  have h4 : 2 * δ * N / total ≤ 2 * δ * N / r := div_le_div_of_nonneg_left (by positivity) hr htot
  refine h2.trans ?_
  have h5 : (A.card : ℚ) ≤ t.ms.procs.length * (2 * δ * N / r + 1) := by
    rw [← hlen]
    exact hAc.trans (mul_le_mul_of_nonneg_left (by linarith) (Nat.cast_nonneg _))
  refine (add_le_add (mul_le_mul_of_nonneg_right h5 hN'.le) h3).trans (le_of_eq ?_)
  unfold tieChance
  rw [hδ, List.length_map]
  unfold ulp
  field_simp
  ring

/-! ### Runs -/

/-- Both runs end properly, with the same configuration and the same processes but for total rates and tables, or neither does. -/
structure SameOutcome (x y : M (Sim ℚ)) : Prop where
  there : ∀ s, x = .ok s → ∃ t, y = .ok t ∧ s.ms.cfg = t.ms.cfg ∧
    s.ms.procs.map (fun p => { p with totalRate := 0, rateTable := [] }) = t.ms.procs.map (fun p => { p with totalRate := 0, rateTable := [] })
  back : ∀ t, y = .ok t → ∃ s, x = .ok s ∧ s.ms.cfg = t.ms.cfg ∧
    s.ms.procs.map (fun p => { p with totalRate := 0, rateTable := [] }) = t.ms.procs.map (fun p => { p with totalRate := 0, rateTable := [] })

/-- The random numbers of a run: those for the time, and multiples of `1 / N` for the selection. -/
def gridDraws (N : Nat) {T : Nat} (times : Fin T → List ℚ) (f : Fin T → Fin N × Fin N) : List (Draws ℚ) :=
  List.ofFn fun i => ⟨times i, ((f i).1 : ℚ) / N, ((f i).2 : ℚ) / N⟩

theorem gridDraws_cons (N : Nat) {T : Nat} (times : Fin (T + 1) → List ℚ) (x : Fin N × Fin N) (f : Fin T → Fin N × Fin N) :
    gridDraws N times (Fin.cons x f : Fin (T + 1) → Fin N × Fin N) =
      ⟨times 0, (x.1 : ℚ) / N, (x.2 : ℚ) / N⟩ :: gridDraws N (fun i => times i.succ) f := by
  unfold gridDraws
  rw [List.ofFn_succ]
  simp

/-- A step needs an available event. -/
theorem step_needs_site {s s' : Sim ℚ} {d : Draws ℚ} (h : Rounded.step fl env negLog s d = .ok s') : ∃ p ∈ s.ms.procs, p.sites ≠ [] := by
  unfold Rounded.step at h
  obtain ⟨s1, h1, h⟩ := bind_ok.1 h
  obtain ⟨e1, -⟩ := Rounded.propagateTime_ok h1
  unfold Rounded.singleStep at h
  obtain ⟨e, h2, -⟩ := bind_ok.1 h
  rw [e1] at h2
  obtain ⟨p, hp, hsite, -⟩ := Rounded.select_ok h2
  exact ⟨p, List.mem_of_getElem? hp, fun h0 => by rw [h0] at hsite; cases hsite⟩

theorem exact_step_needs_site {s s' : Sim ℚ} {d : Draws ℚ} (h : LatticeModel.step env negLog s d = .ok s') :
    ∃ p ∈ s.ms.procs, p.sites ≠ [] := by
  unfold LatticeModel.step at h
  obtain ⟨s1, h1, h⟩ := bind_ok.1 h
  unfold LatticeModel.propagateTime at h1
  obtain ⟨X, -, h1⟩ := bind_ok.1 h1
  obtain ⟨dt, -, h1⟩ := bind_ok.1 h1
  obtain rfl := Except.ok.inj h1
  unfold LatticeModel.singleStep at h
  obtain ⟨e, h2, -⟩ := bind_ok.1 h
  dsimp only at h2
  rw [← Rounded.select_id] at h2
  obtain ⟨p, hp, hsite, -⟩ := Rounded.select_ok h2
  exact ⟨p, List.mem_of_getElem? hp, fun h0 => by rw [h0] at hsite; cases hsite⟩

/-- The total rate of a state with an available event. -/
theorem total_ge (hl : ∃ u, 0 < u ∧ u < 1 ∧ negLog u ≠ none) {k : Nat} {s t : Sim ℚ} (hs : RoundedRun fl env n nT negLog cfg procs s)
    (ht : GoodRun env n nT negLog cfg procs t) (hst : s.ms.faded = t.ms.faded) (hd : AllDrifted n k procs.length s.ms)
    (hr : PositiveRates env procs) {r : ℚ} (hlow : ∀ p ∈ procs, r ≤ p.rate) (hlive : ∃ p ∈ t.ms.procs, p.sites ≠ []) :
    ∃ total, Interactions.totalRate t.table = .ok total ∧ r ≤ total := by
  have htot := C25_totals ht
  obtain ⟨q, hq, hsites⟩ := hlive
  have hne : t.ms.procs ≠ [] := List.ne_nil_of_mem hq
  refine ⟨_, htot.2.2.2 hne, ?_⟩
  have hdp : ∀ p ∈ s.ms.procs, Drifted n k p := by
    intro p hp
    obtain ⟨j, hj⟩ := List.mem_iff_getElem?.1 hp
    obtain ⟨p', hp', h1⟩ := hd j (by rw [← hs.processes_length hr hl]; exact (List.getElem?_eq_some_iff.1 hj).1)
    rw [hj] at hp'
    obtain rfl := Option.some.inj hp'
    exact h1
  rw [List.map_congr_left (g := fun p : Proc ℚ => p.totalRate) fun p hp => (htot.1 p hp).2.2.2.symm,
    totals_same (MState.faded_procs hst) hdp fun q hq => (htot.1 q hq).2.2.2]
  obtain ⟨j, hj⟩ := List.mem_iff_getElem?.1 hq
  obtain ⟨p, hp, hpq⟩ := faded_get (MState.faded_procs hst).symm hj
  have e1 : q.sites = p.sites := (congrArg Proc.sites hpq :)
  have e2 : q.rate = p.rate := (congrArg Proc.rate hpq :)
  obtain ⟨p0, hp0, -, h2, -⟩ := ht.source hj
  have hpm := List.mem_of_getElem? hp
  have h3 : r ≤ p.rate := by
    rw [← e2, h2]
    exact hlow p0 (List.mem_of_getElem? hp0)
  have h4 : (1 : ℚ) ≤ p.sites.length := by
    rw [← e1]
    exact_mod_cast List.length_pos_iff.2 hsites
  have h5 : (p.sites.length * p.rate : ℚ) ≤ (s.ms.procs.map fun p => (p.sites.length * p.rate : ℚ)).sum :=
    List.single_le_sum (fun w hw => by
      obtain ⟨x, hx, rfl⟩ := List.mem_map.1 hw
      exact mul_nonneg (Nat.cast_nonneg _) (hdp x hx).nonneg) _ (List.mem_map_of_mem (f := fun p : Proc ℚ => (p.sites.length * p.rate : ℚ)) hpm)
  nlinarith [(hdp p hpm).nonneg]

theorem tieChance_nonneg (hr : PositiveRates env procs) {N : Nat} {r : ℚ} (hr0 : 0 < r) (k : Nat) :
    0 ≤ tieChance n N k (procs.map (·.rate)) r := by
  have h1 : 0 ≤ (procs.map (·.rate)).sum := List.sum_nonneg fun w hw => by
    obtain ⟨p, hp, rfl⟩ := List.mem_map.1 hw
    exact (hr.constant p hp).le
  have h2 := ulp_pow_ge (k + (procs.map (·.rate)).length + 1)
  have h3 := ulp_pow_ge (n + 1)
  have h4 : 0 ≤ ulp ^ (k + (procs.map (·.rate)).length + 1) - 1 := by linarith
  have h5 : 0 ≤ ulp ^ (n + 1) - 1 := by linarith
  unfold ulp at h4 h5
  unfold tieChance
  positivity

open Classical in
theorem card_differ (hfl : Rounding fl) (hc : ConstantRates env procs) (hr : PositiveRates env procs)
    (hl : ∃ u, 0 < u ∧ u < 1 ∧ negLog u ≠ none) {N : Nat} (hN : 0 < N) {r : ℚ} (hr0 : 0 < r) (hlow : ∀ p ∈ procs, r ≤ p.rate) (T : Nat) :
    ∀ {k : Nat} {s t : Sim ℚ} (times : Fin T → List ℚ),
    RoundedRun fl env n nT negLog cfg procs s → GoodRun env n nT negLog cfg procs t → s.ms.faded = t.ms.faded →
    AllDrifted n k procs.length s.ms →
    (((Finset.univ : Finset (Fin T → Fin N × Fin N)).filter fun f =>
        ¬ SameOutcome (Rounded.run fl env negLog (gridDraws N times f) s) (LatticeModel.run env negLog (gridDraws N times f) t)).card : ℚ) ≤
      (N ^ 2) ^ T * ∑ i ∈ Finset.range T, tieChance n N (k + i * (2 * n)) (procs.map (·.rate)) r := by
  have hrates : ∀ {t : Sim ℚ}, GoodRun env n nT negLog cfg procs t → t.ms.procs.map (·.rate) = procs.map (·.rate) := by
    intro t ht
    refine List.ext_getElem? fun j => ?_
    rw [List.getElem?_map, List.getElem?_map]
    cases hp : t.ms.procs[j]? with
    | none => rw [List.getElem?_eq_none (by rw [← ht.processes_length]; exact List.getElem?_eq_none_iff.1 hp)]
    | some p =>
      obtain ⟨p0, hp0, -, h2, -⟩ := ht.source hp
      rw [hp0, Option.map_some, Option.map_some, h2]
  have hchance : ∀ k, 0 ≤ tieChance n N k (procs.map (·.rate)) r := fun k => tieChance_nonneg hr hr0 k
  induction T with
  | zero =>
    intro k s t times _ _ hst _
    rw [Finset.filter_false_of_mem]
    · simp
    · intro f _
      rw [not_not]
      have e : gridDraws N times f = [] := rfl
      rw [e]
      refine ⟨fun s' h => ?_, fun t' h => ?_⟩
      · obtain rfl := Except.ok.inj h
        exact ⟨t, rfl, MState.faded_cfg hst, MState.faded_procs hst⟩
      · obtain rfl := Except.ok.inj h
        exact ⟨s, rfl, MState.faded_cfg hst, MState.faded_procs hst⟩
  | succ T ih =>
    intro k s t times hs ht hst hd
    have hcard : ((Finset.univ : Finset (Fin (T + 1) → Fin N × Fin N)).filter fun f =>
          ¬ SameOutcome (Rounded.run fl env negLog (gridDraws N times f) s) (LatticeModel.run env negLog (gridDraws N times f) t)).card =
        ∑ x : Fin N × Fin N, ((Finset.univ : Finset (Fin T → Fin N × Fin N)).filter fun f =>
          ¬ SameOutcome (Rounded.run fl env negLog (⟨times 0, (x.1 : ℚ) / N, (x.2 : ℚ) / N⟩ :: gridDraws N (fun i => times i.succ) f) s)
            (LatticeModel.run env negLog (⟨times 0, (x.1 : ℚ) / N, (x.2 : ℚ) / N⟩ :: gridDraws N (fun i => times i.succ) f) t)).card := by
      simp only [Finset.card_filter]
      rw [← Fintype.sum_prod_type', ← Equiv.sum_comp (Fin.consEquiv fun _ => Fin N × Fin N)]
      refine Finset.sum_congr rfl fun x _ => ?_
      have e := gridDraws_cons N times x.1 x.2
      rw [show (Fin.consEquiv fun _ => Fin N × Fin N) x = (Fin.cons x.1 x.2 : Fin (T + 1) → Fin N × Fin N) from rfl, e]
    have hall : ∀ x : Fin N × Fin N, ((Finset.univ : Finset (Fin T → Fin N × Fin N)).filter fun f =>
          ¬ SameOutcome (Rounded.run fl env negLog (⟨times 0, (x.1 : ℚ) / N, (x.2 : ℚ) / N⟩ :: gridDraws N (fun i => times i.succ) f) s)
            (LatticeModel.run env negLog (⟨times 0, (x.1 : ℚ) / N, (x.2 : ℚ) / N⟩ :: gridDraws N (fun i => times i.succ) f) t)).card ≤
        (N ^ 2) ^ T := by
      intro x
      refine (Finset.card_filter_le _ _).trans (le_of_eq ?_)
      rw [Finset.card_univ, Fintype.card_fun, Fintype.card_prod, Fintype.card_fin, Fintype.card_fin, ← sq]
    set D : Fin N × Fin N → Finset (Fin T → Fin N × Fin N) := fun x => (Finset.univ : Finset (Fin T → Fin N × Fin N)).filter fun f =>
          ¬ SameOutcome (Rounded.run fl env negLog (⟨times 0, (x.1 : ℚ) / N, (x.2 : ℚ) / N⟩ :: gridDraws N (fun i => times i.succ) f) s)
            (LatticeModel.run env negLog (⟨times 0, (x.1 : ℚ) / N, (x.2 : ℚ) / N⟩ :: gridDraws N (fun i => times i.succ) f) t) with hD
    set E : ℚ := (N ^ 2) ^ T * ∑ i ∈ Finset.range T, tieChance n N (k + 2 * n + i * (2 * n)) (procs.map (·.rate)) r with hE
    have hE0 : 0 ≤ E := mul_nonneg (by positivity) (Finset.sum_nonneg fun i _ => hchance _)
    have hsum : (∑ x, ((D x).card : ℚ)) ≤ N ^ 2 * tieChance n N k (procs.map (·.rate)) r * (N ^ 2) ^ T + N ^ 2 * E := by
      by_cases hlive : ∃ p ∈ t.ms.procs, p.sites ≠ []
      swap
      · have h0 : ∀ x, D x = ∅ := by
          intro x
          refine Finset.filter_eq_empty_iff.2 fun f _ => ?_
          rw [not_not]
          refine ⟨fun s' h => ?_, fun t' h => ?_⟩
          · unfold Rounded.run at h
            rw [loopM_cons] at h
            obtain ⟨s1, h1, -⟩ := bind_ok.1 h
            obtain ⟨p, hp, h2⟩ := step_needs_site h1
            obtain ⟨j, hj⟩ := List.mem_iff_getElem?.1 hp
            obtain ⟨q, hq, hpq⟩ := faded_get (MState.faded_procs hst) hj
            have e : p.sites = q.sites := (congrArg Proc.sites hpq :)
            exact (hlive ⟨q, List.mem_of_getElem? hq, e ▸ h2⟩).elim
          · unfold LatticeModel.run at h
            rw [loopM_cons] at h
            obtain ⟨t1, h1, -⟩ := bind_ok.1 h
            exact (hlive (exact_step_needs_site h1)).elim
        simp only [h0, Finset.card_empty, Nat.cast_zero, Finset.sum_const_zero]
        have := hchance k
        positivity
      · obtain ⟨total, htot, hle⟩ := total_ge hl hs ht hst hd hr hlow hlive
        have htotals := C25_totals ht
        have hbad := card_not_away (n := n) (k := k) hN hr0 htot hle
          (fun p hp => by
            obtain ⟨j, hj⟩ := List.mem_iff_getElem?.1 hp
            obtain ⟨p0, hp0, -, h2, -⟩ := ht.source hj
            rw [h2]
            exact (hr.constant p0 (List.mem_of_getElem? hp0)).le)
          (fun p hp => by
            obtain ⟨j, hj⟩ := List.mem_iff_getElem?.1 hp
            obtain ⟨q, hq, hpq⟩ := faded_get (MState.faded_procs hst).symm hj
            have e : p.sites = q.sites := (congrArg Proc.sites hpq :)
            rw [e]
            exact hs.few hr hl hq)
          (by rw [htotals.2.2.1, ← List.length_map (f := Prod.fst), Interactions.probabilityTable, probabilityLoop_fst,
                ← Rounded.prefixSums_id, Rounded.length_prefixSums, List.length_map]) (times 0)
        rw [hrates ht] at hbad
        set W := (Finset.univ : Finset (Fin N × Fin N)).filter fun a : Fin N × Fin N =>
          ¬ Away n k t ⟨times 0, (a.1 : ℚ) / N, (a.2 : ℚ) / N⟩ with hW
        have hx : ∀ x, ((D x).card : ℚ) ≤ (if x ∈ W then ((N : ℚ) ^ 2) ^ T else 0) + E := by
          intro x
          by_cases hxW : x ∈ W
          · rw [if_pos hxW]
            have : ((D x).card : ℚ) ≤ (N ^ 2) ^ T := by exact_mod_cast hall x
            linarith
          rw [if_neg hxW, zero_add]
          have ha : Away n k t ⟨times 0, (x.1 : ℚ) / N, (x.2 : ℚ) / N⟩ := by
            by_contra hc
            exact hxW (Finset.mem_filter.2 ⟨Finset.mem_univ _, hc⟩)
          cases hst1 : LatticeModel.step env negLog t ⟨times 0, (x.1 : ℚ) / N, (x.2 : ℚ) / N⟩ with
          | error e =>
            have h0 : D x = ∅ := by
              refine Finset.filter_eq_empty_iff.2 fun f _ => ?_
              rw [not_not]
              refine ⟨fun s' h => ?_, fun t' h => ?_⟩
              · unfold Rounded.run at h
                rw [loopM_cons] at h
                obtain ⟨s1, h1, -⟩ := bind_ok.1 h
                obtain ⟨t1, h2, -⟩ := step_same hfl hr hl hs ht hst hd ha h1
                rw [hst1] at h2
                cases h2
              · unfold LatticeModel.run at h
                rw [loopM_cons, hst1] at h
                cases h
            rw [h0]
            simpa using hE0
          | ok t1 =>
            obtain ⟨s1, hs1⟩ := step_same' hfl hr hl hs ht hst hd ha hst1
            obtain ⟨t1', h2, h3, -⟩ := step_same hfl hr hl hs ht hst hd ha hs1
            rw [hst1] at h2
            obtain rfl := Except.ok.inj h2
            have := ih (fun i => times i.succ) (hs.step hs1) (ht.step hst1) h3 (step_drift hfl hc hr hl hs hd hs1)
            refine le_trans (le_of_eq ?_) this
            congr 2
            rw [hD]
            refine Finset.filter_congr fun f _ => ?_
            unfold Rounded.run LatticeModel.run
            rw [loopM_cons, loopM_cons, hs1, hst1, ok_bind, ok_bind]
        have := Finset.sum_le_sum fun x (_ : x ∈ (Finset.univ : Finset (Fin N × Fin N))) => hx x
        refine this.trans ?_
        rw [Finset.sum_add_distrib, Finset.sum_const, Finset.card_univ, Fintype.card_prod, Fintype.card_fin, nsmul_eq_mul,
          Finset.sum_ite_mem, Finset.univ_inter, Finset.sum_const, nsmul_eq_mul]
        push_cast
        have := mul_le_mul_of_nonneg_right hbad (by positivity : (0 : ℚ) ≤ ((N : ℚ) ^ 2) ^ T)
        rw [← sq]
        linarith
    rw [hcard]
    push_cast
    refine hsum.trans (le_of_eq ?_)
    have hshift : ∑ i ∈ Finset.range T, tieChance n N (k + 2 * n + i * (2 * n)) (procs.map (·.rate)) r =
        ∑ i ∈ Finset.range T, tieChance n N (k + (i + 1) * (2 * n)) (procs.map (·.rate)) r :=
      Finset.sum_congr rfl fun i _ => by rw [show k + 2 * n + i * (2 * n) = k + (i + 1) * (2 * n) by ring]
    rw [hE, Finset.sum_range_succ', Nat.zero_mul, Nat.add_zero, hshift]
    generalize ∑ i ∈ Finset.range T, tieChance n N (k + (i + 1) * (2 * n)) (procs.map (·.rate)) r = z
    rw [pow_succ ((N : ℚ) ^ 2) T]
    generalize ((N : ℚ) ^ 2) ^ T = y
    ring_nf

open Classical in
/-- C55 (partial: constant rates). The random numbers for the selection are `N` equally likely fractions (C57). Of all choices of them for
a run of `T` events, the share for which the program, with rounding, does not do the same as in exact arithmetic is at most the sum of
`tieChance` over the events. For each event that is a few rounding errors, times the ratio of the sum of all rates to the smallest one,
and `1 / N` for each border. -/
theorem C55_rare_partial (hfl : Rounding fl) (hin : WellFormed env n nT cfg procs) (hc : ConstantRates env procs)
    (hr : PositiveRates env procs) (hl : ∃ u, 0 < u ∧ u < 1 ∧ negLog u ≠ none) {N : Nat} (hN : 0 < N) {r : ℚ} (hr0 : 0 < r)
    (hlow : ∀ p ∈ procs, r ≤ p.rate) {T : Nat} (times : Fin T → List ℚ) :
    (((Finset.univ : Finset (Fin T → Fin N × Fin N)).filter fun f =>
        ¬ SameOutcome (Rounded.init fl env cfg procs >>= Rounded.run fl env negLog (gridDraws N times f))
          (LatticeModel.init env cfg procs >>= LatticeModel.run env negLog (gridDraws N times f))).card : ℚ) ≤
      (N ^ 2) ^ T * ∑ i ∈ Finset.range T, tieChance n N (2 * n * (i + 1)) (procs.map (·.rate)) r := by
  have hoff : env.useCustomRates = true → CustomRatesOk env n nT cfg procs := fun h => (by rw [hc.off] at h; cases h)
  have hsum0 : 0 ≤ ∑ i ∈ Finset.range T, tieChance n N (2 * n * (i + 1)) (procs.map (·.rate)) r :=
    Finset.sum_nonneg fun i _ => tieChance_nonneg hr hr0 _
  cases h0 : Rounded.init fl env cfg procs with
  | error e =>
    cases ht0 : LatticeModel.init env cfg procs with
    | error e' =>
      rw [Finset.filter_false_of_mem]
      · simp only [Finset.card_empty, Nat.cast_zero]
        positivity
      · intro f _
        rw [not_not]
        exact ⟨fun s h => (by cases h), fun t h => (by cases h)⟩
    | ok t0 =>
      exfalso
      unfold LatticeModel.init at ht0
      obtain ⟨mt, h1, -⟩ := bind_ok.1 ht0
      obtain ⟨ms, h2, -⟩ := map_ok_of (Rounded.initialMatching_faded (fl := fl) env cfg procs).symm h1
      unfold Rounded.init at h0
      rw [h2] at h0
      cases h0
  | ok s0 =>
    obtain ⟨t0, ht0⟩ : ∃ t0, LatticeModel.init env cfg procs = .ok t0 := by
      unfold Rounded.init at h0
      obtain ⟨ms, h1, -⟩ := bind_ok.1 h0
      obtain ⟨mt, h2, -⟩ := map_ok_of (Rounded.initialMatching_faded (fl := fl) env cfg procs) h1
      unfold LatticeModel.init
      rw [h2]
      exact ⟨_, rfl⟩
    rw [ht0]
    simp only [ok_bind]
    have hs : RoundedRun fl env n nT negLog cfg procs s0 := ⟨hin, hoff, s0, [], h0, rfl⟩
    have ht : GoodRun env n nT negLog cfg procs t0 := ⟨hin, hoff, t0, [], ht0, rfl⟩
    obtain ⟨hst, -, -⟩ := init_faded h0 ht0
    refine (card_differ hfl hc hr hl hN hr0 hlow T times hs ht hst (init_drift hfl hin hc hr hl h0)).trans (le_of_eq ?_)
    congr 1
    exact Finset.sum_congr rfl fun i _ => by rw [show 2 * n + i * (2 * n) = 2 * n * (i + 1) by ring]

/-! ### A simpler bound -/

theorem pow_le_linear {x : ℚ} (hx : 0 ≤ x) (k : Nat) (hk : 2 * (k * x) ≤ 1) : (1 + x) ^ k - 1 ≤ 2 * (k * x) := by
  induction k with
  | zero => simp
  | succ k ih =>
    push_cast at hk ⊢
    have h1 : 0 ≤ (k : ℚ) * x := by positivity
    have h2 := ih (by linarith)
    rw [pow_succ]
    nlinarith

/-- C55. If the number of roundings of a stored total, `k`, is less than `2 ^ 52`, then the share of random numbers that are close to a
border is at most a few times `k` rounding errors, scaled by the number of processes, the number of sites and the ratio of the sum of all
rates to the smallest one, and `1 / N` for every process and site. -/
theorem C55_tie_chance {n N k : Nat} {rates : List ℚ} {r : ℚ} (hr : 0 < r) (hrates : ∀ x ∈ rates, 0 ≤ x)
    (hk : 2 * (k + rates.length + 1) ≤ 2 ^ 53) (hn : 2 * (n + 1) ≤ 2 ^ 53) :
    tieChance n N k rates r ≤
      rates.length * (n * rates.sum * (k + rates.length + 1) / (r * 2 ^ 50) + 1 / N) + (n * (n + 1) / 2 ^ 50 + n / N) := by
  have hk' : (2 * ((k + rates.length + 1 : Nat) * (1 / 2 ^ 53)) : ℚ) ≤ 1 := by
    have : ((2 * (k + rates.length + 1) : Nat) : ℚ) ≤ ((2 ^ 53 : Nat) : ℚ) := by exact_mod_cast hk
    push_cast at this ⊢
    linarith
  have hn' : (2 * ((n + 1 : Nat) * (1 / 2 ^ 53)) : ℚ) ≤ 1 := by
    have : ((2 * (n + 1) : Nat) : ℚ) ≤ ((2 ^ 53 : Nat) : ℚ) := by exact_mod_cast hn
    push_cast at this ⊢
    linarith
  have h1 := pow_le_linear (by positivity : (0 : ℚ) ≤ 1 / 2 ^ 53) _ hk'
  have h2 := pow_le_linear (by positivity : (0 : ℚ) ≤ 1 / 2 ^ 53) _ hn'
  have hs : 0 ≤ rates.sum := List.sum_nonneg hrates
  have h3 : 4 * (n * rates.sum) * ((1 + 1 / 2 ^ 53) ^ (k + rates.length + 1) - 1) / r ≤
      n * rates.sum * (k + rates.length + 1) / (r * 2 ^ 50) := by
    rw [div_le_div_iff₀ hr (by positivity)]
    have := mul_le_mul_of_nonneg_left h1 (by positivity : (0 : ℚ) ≤ 4 * (n * rates.sum) * (r * 2 ^ 50))
    push_cast at this
    refine le_trans (le_of_eq (by ring)) (this.trans (le_of_eq ?_))
    ring
  have h4 : 4 * (n : ℚ) * ((1 + 1 / 2 ^ 53) ^ (n + 1) - 1) ≤ n * (n + 1) / 2 ^ 50 := by
    have := mul_le_mul_of_nonneg_left h2 (by positivity : (0 : ℚ) ≤ 4 * n)
    push_cast at this
    refine this.trans (le_of_eq ?_)
    ring
  unfold tieChance
  exact add_le_add (mul_le_mul_of_nonneg_left (by linarith) (Nat.cast_nonneg _)) (by linarith)

/-- The bound for a thousand sites and ten processes with equal rates, after a thousand events, with the default generator. -/
example : tieChance 1000 (2 ^ 32) (2 * 1000 * 1000) (List.replicate 10 1) 1 ≤ 1 / 5000 := by
  refine (C55_tie_chance (by norm_num) (fun x hx => by rw [List.eq_of_mem_replicate hx]; norm_num) (by norm_num) (by norm_num)).trans ?_
  norm_num

/-! ### The theorem is about something -/

set_option synthInstance.maxSize 1000 in
open Classical in
/-- Three atoms that decay with rate 0.1 and one with rate 0.3, in double precision, with the default generator: of all random numbers for
four events fewer than one in ten million give another run than in exact arithmetic. -/
example : ∃ (cfg : Config ℚ) (procs : List (Proc ℚ)),
    WellFormed (Sample.env Sample.ring) 4 4 cfg procs ∧ ConstantRates (Sample.env Sample.ring) procs ∧
    PositiveRates (Sample.env Sample.ring) procs ∧ (∀ p ∈ procs, 1 / 10 ≤ p.rate) ∧
    (((Finset.univ : Finset (Fin 4 → Fin (2 ^ 32) × Fin (2 ^ 32))).filter fun f => ¬ SameOutcome
        (Rounded.init toDouble (Sample.env Sample.ring) cfg procs >>=
          Rounded.run toDouble (Sample.env Sample.ring) Sample.lg (gridDraws (2 ^ 32) (fun _ => [1 / 2]) f))
        (LatticeModel.init (Sample.env Sample.ring) cfg procs >>=
          LatticeModel.run (Sample.env Sample.ring) Sample.lg (gridDraws (2 ^ 32) (fun _ => [1 / 2]) f))).card : ℚ) ≤
      ((2 ^ 32) ^ 2) ^ 4 * (1 / 10000000) := by
  obtain ⟨cfg, ps, hcfg, hps, hin⟩ := Sample.goodCheck_ok (env := Sample.env Sample.ring) (P := Sample.ring) (els := Sample.threeAndOne)
    (procs := Sample.decay (toDouble (1 / 10)) (toDouble (3 / 10))) (by decide +kernel)
  have hrate : (Sample.decay (toDouble (1 / 10)) (toDouble (3 / 10))).map (fun ps => ps.map fun p => (p.rate, p.custom)) =
      .ok [(toDouble (1 / 10), false), (toDouble (3 / 10), false)] := by decide +kernel
  rw [hps] at hrate
  have hrate : ps.map (fun p => (p.rate, p.custom)) = [(toDouble (1 / 10), false), (toDouble (3 / 10), false)] := Except.ok.inj hrate
  have hp : ∀ p ∈ ps, p.custom = false ∧ (p.rate = toDouble (1 / 10) ∨ p.rate = toDouble (3 / 10)) := by
    intro p hp
    have : (p.rate, p.custom) ∈ [(toDouble (1 / 10), false), (toDouble (3 / 10), false)] := by
      rw [← hrate]
      exact List.mem_map_of_mem (f := fun p : Proc ℚ => (p.rate, p.custom)) hp
    simp only [List.mem_cons, Prod.mk.injEq, List.not_mem_nil, or_false] at this
    rcases this with h | h
    · exact ⟨h.2, .inl h.1⟩
    · exact ⟨h.2, .inr h.1⟩
  have hrates : ps.map (·.rate) = [toDouble (1 / 10), toDouble (3 / 10)] := by
    have := congrArg (List.map Prod.fst) hrate
    rw [List.map_map] at this
    exact this
  have hc : ConstantRates (Sample.env Sample.ring) ps := by
    refine ⟨rfl, fun p h => (hp p h).1, fun p h => ?_⟩
    rcases (hp p h).2 with e | e
    · rw [e]
      exact toDouble_rounding.isDouble _
    · rw [e]
      exact toDouble_rounding.isDouble _
  have hlow : ∀ p ∈ ps, 1 / 10 ≤ p.rate := by
    intro p h
    rcases (hp p h).2 with e | e
    · rw [e]
      decide +kernel
    · rw [e]
      decide +kernel
  have hr : PositiveRates (Sample.env Sample.ring) ps :=
    ⟨fun p h => lt_of_lt_of_le (by norm_num) (hlow p h), fun h => (by cases h)⟩
  refine ⟨cfg, ps, hin, hc, hr, hlow, ?_⟩
  have key := C55_rare_partial (T := 4) toDouble_rounding hin hc hr (negLog := Sample.lg)
    ⟨1 / 2, by norm_num, by norm_num, by decide +kernel⟩ (N := 2 ^ 32) (by norm_num) (r := 1 / 10) (by norm_num) hlow (fun _ => [1 / 2])
  refine key.trans ?_
  rw [hrates]
  have h1 : ∑ i ∈ Finset.range 4, tieChance 4 (2 ^ 32) (2 * 4 * (i + 1)) [toDouble (1 / 10), toDouble (3 / 10)] (1 / 10) ≤ 1 / 10000000 := by
    decide +kernel
  have h2 := mul_le_mul_of_nonneg_left h1 (by positivity : (0 : ℚ) ≤ (((2 ^ 32 : Nat) : ℚ) ^ 2) ^ 4)
  refine h2.trans (le_of_eq ?_)
  push_cast
  ring

end KMC
