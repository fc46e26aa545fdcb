import Verif.Model.Random
import Verif.Props.Select
import Mathlib.Algebra.Order.Floor.Semiring

/-!
# Property C57: the random numbers are on a grid
-/

set_option linter.unusedSectionVars false

namespace KMC

open Interactions LatticeModel

/-! ### The numbers -/

theorem ofDigits_lt {R : Nat} (g : List Nat) (h : ∀ d ∈ g, d < R) : Nat.ofDigits R g < R ^ g.length := by
  induction g with
  | nil => simp [Nat.ofDigits]
  | cons d g ih =>
    have h1 := ih (fun x hx => h x (by simp [hx]))
    have h2 := h d (by simp)
    rw [Nat.ofDigits_cons, List.length_cons, pow_succ]
    calc d + R * Nat.ofDigits R g < R + R * Nat.ofDigits R g := by omega
      _ = R * (Nat.ofDigits R g + 1) := by ring
      _ ≤ R * R ^ g.length := Nat.mul_le_mul_left _ h1
      _ = R ^ g.length * R := by ring

theorem ofDigits_inj {R : Nat} : ∀ (g g' : List Nat), g.length = g'.length → (∀ d ∈ g, d < R) → (∀ d ∈ g', d < R) →
    Nat.ofDigits R g = Nat.ofDigits R g' → g = g'
  | [], [], _, _, _, _ => rfl
  | [], _ :: _, h, _, _, _ => by simp at h
  | _ :: _, [], h, _, _, _ => by simp at h
  | d :: g, d' :: g', h, h1, h2, he => by
    rw [Nat.ofDigits_cons, Nat.ofDigits_cons] at he
    have a := h1 d (by simp)
    have b := h2 d' (by simp)
    have hR : 0 < R := by omega
    have hd : d = d' := by
      have := congrArg (· % R) he
      simpa [Nat.add_mul_mod_self_left, Nat.mod_eq_of_lt a, Nat.mod_eq_of_lt b] using this
    subst hd
    have he : Nat.ofDigits R g = Nat.ofDigits R g' := Nat.eq_of_mul_eq_mul_left hR (by omega)
    rw [ofDigits_inj g g' (by simpa using h) (fun x hx => h1 x (by simp [hx])) (fun x hx => h2 x (by simp [hx])) he]

theorem exists_ofDigits {R : Nat} (hR : 0 < R) : ∀ (k j : Nat), j < R ^ k →
    ∃ g : List Nat, g.length = k ∧ (∀ d ∈ g, d < R) ∧ Nat.ofDigits R g = j
  | 0, j, h => ⟨[], rfl, by simp, by simp at h; simp [h, Nat.ofDigits]⟩
  | k + 1, j, h => by
    obtain ⟨g, h1, h2, h3⟩ := exists_ofDigits hR k (j / R) (by
      rw [Nat.div_lt_iff_lt_mul hR, ← pow_succ]; exact h)
    refine ⟨j % R :: g, by simp [h1], ?_, ?_⟩
    · intro d hd
      rcases List.mem_cons.1 hd with rfl | hd
      · exact Nat.mod_lt _ hR
      · exact h2 d hd
    · rw [Nat.ofDigits_cons, h3]
      exact Nat.mod_add_div j R

/-- **C57** A random number is one of the fractions `j / N`, where `N` is the number of values of the engine to the power
of the number of calls: at least zero and less than one. -/
theorem C57_grid {K : Type _} [Field K] [LinearOrder K] [IsStrictOrderedRing K] (t : RngType) (g : List Nat)
    (hl : g.length = t.calls) (hg : ∀ d ∈ g, d < t.values) :
    ∃ j, j < t.values ^ t.calls ∧ (canonical t.values g : K) = (j : K) / ((t.values ^ t.calls : Nat) : K) ∧
      0 ≤ (canonical t.values g : K) ∧ (canonical t.values g : K) < 1 := by
  have h1 := ofDigits_lt g hg
  rw [hl] at h1
  have hN : (0 : K) < ((t.values ^ t.calls : Nat) : K) := by
    have : 0 < t.values ^ t.calls := by omega
    exact_mod_cast this
  refine ⟨Nat.ofDigits t.values g, h1, by unfold canonical; rw [hl], ?_, ?_⟩
  · unfold canonical
    positivity
  · unfold canonical
    rw [hl, div_lt_one hN]
    exact_mod_cast h1

/-- **C57** Every such fraction is given by exactly one choice of values of the engine: when those are independent and
uniform, so are the fractions. -/
theorem C57_uniform {K : Type _} [Field K] [LinearOrder K] [IsStrictOrderedRing K] (t : RngType) (j : Nat)
    (hj : j < t.values ^ t.calls) :
    ∃! g : List Nat, g.length = t.calls ∧ (∀ d ∈ g, d < t.values) ∧
      (canonical t.values g : K) = (j : K) / ((t.values ^ t.calls : Nat) : K) := by
  have hR : 0 < t.values := by cases t <;> decide
  have hN : ((t.values ^ t.calls : Nat) : K) ≠ 0 := by
    have : 0 < t.values ^ t.calls := by omega
    exact_mod_cast this.ne'
  obtain ⟨g, h1, h2, h3⟩ := exists_ofDigits hR _ _ hj
  refine ⟨g, ⟨h1, h2, by unfold canonical; rw [h1, h3]⟩, ?_⟩
  rintro g' ⟨a1, a2, a3⟩
  unfold canonical at a3
  rw [a1, div_left_inj' hN] at a3
  have a3 : Nat.ofDigits t.values g' = j := by exact_mod_cast a3
  exact ofDigits_inj g' g (a1.trans h1.symm) a2 h2 (a3.trans h3.symm)

/-- **C57** With the default generator the fractions have 32 bits. -/
theorem C57_bits : RngType.values .MT ^ RngType.calls .MT = 2 ^ 32 ∧ RngType.values .DEVICE ^ RngType.calls .DEVICE = 2 ^ 32 ∧
    RngType.values .RANLUX24 ^ RngType.calls .RANLUX24 = 2 ^ 48 ∧ RngType.values .RANLUX48 ^ RngType.calls .RANLUX48 = 2 ^ 48 ∧
    RngType.values .MINSTD ^ RngType.calls .MINSTD = 2147483646 ^ 2 ∧
    ∀ t : RngType, 2 ^ 32 ≤ t.values ^ t.calls ∧ (t.calls = 1 ∨ t.values ^ (t.calls - 1) < 2 ^ 32) := by
  refine ⟨rfl, rfl, by decide, rfl, rfl, ?_⟩
  intro t
  cases t <;> decide

/-! ### Counting -/

section
variable {K : Type _} [Field K] [LinearOrder K] [IsStrictOrderedRing K]

/-- How many of the `N` fractions have a property. -/
noncomputable def gridCount (N : Nat) (P : K → Prop) : Nat :=
  by classical exact ((Finset.range N).filter (fun (j : Nat) => P ((j : K) / (N : K)))).card

theorem gridCount_le (N : Nat) (P : K → Prop) : gridCount N P ≤ N := by
  classical
  unfold gridCount
  exact (Finset.card_filter_le _ _).trans (by simp)

theorem gridCount_pos {N : Nat} {P : K → Prop} {j : Nat} (hj : j < N) (h : P ((j : K) / N)) : 1 ≤ gridCount N P := by
  classical
  unfold gridCount
  exact Finset.card_pos.2 ⟨j, Finset.mem_filter.2 ⟨Finset.mem_range.2 hj, h⟩⟩

variable [FloorRing K]

theorem count_le {N : Nat} {y : K} (h0 : 0 ≤ y) (h1 : y ≤ N) :
    y ≤ (((Finset.range N).filter (fun (j : Nat) => (j : K) ≤ y)).card : K) ∧
    (((Finset.range N).filter (fun (j : Nat) => (j : K) ≤ y)).card : K) ≤ y + 1 := by
  have hs : (Finset.range N).filter (fun (j : Nat) => (j : K) ≤ y) = Finset.range (min N (⌊y⌋₊ + 1)) := by
    ext j
    simp only [Finset.mem_filter, Finset.mem_range, lt_min_iff, Nat.lt_succ_iff, ← Nat.le_floor_iff h0]
  rw [hs, Finset.card_range]
  have a := Nat.floor_le h0
  have b := Nat.lt_floor_add_one y
  rcases le_total N (⌊y⌋₊ + 1) with h | h
  · rw [min_eq_left h]
    refine ⟨h1, ?_⟩
    have : (N : K) ≤ (⌊y⌋₊ : K) + 1 := by exact_mod_cast h
    linarith
  · rw [min_eq_right h]
    push_cast
    exact ⟨b.le, by linarith⟩

theorem div_mul_le_iff {N : Nat} (hN : 0 < N) {W c : K} (hW : 0 < W) (j : Nat) :
    (j : K) / N * W ≤ c ↔ (j : K) ≤ c * N / W := by
  have hN' : (0 : K) < N := by exact_mod_cast hN
  rw [le_div_iff₀ hW, div_mul_eq_mul_div, div_le_iff₀ hN']

/-- The number of fractions that fall into the share of an entry of a table differs by at most one from the exact
share. -/
theorem count_cumulative {ws : List K} (hw : ∀ w ∈ ws, 0 ≤ w) (hT : 0 < ws.sum) {k : Nat} {w : K} (hk : ws[k]? = some w)
    {N : Nat} (hN : 0 < N) :
    |(gridCount N (fun u : K => (k = 0 ∨ (ws.take k).sum < u * ws.sum) ∧ u * ws.sum ≤ (ws.take (k + 1)).sum) : K) -
      N * (w / ws.sum)| ≤ 1 := by
  classical
  have hN' : (0 : K) < N := by exact_mod_cast hN
  have hs := take_succ_sum hk
  have h0 : 0 ≤ (ws.take k).sum := List.sum_nonneg fun x hx => hw x (List.mem_of_mem_take hx)
  have hw0 := hw w (List.mem_of_getElem? hk)
  have hle : (ws.take (k + 1)).sum ≤ ws.sum := by
    have := take_sum_mono hw (i := k + 1) (j := max (k + 1) ws.length) (le_max_left _ _)
    rwa [List.take_of_length_le (le_max_right _ _)] at this
  have hy1 : (ws.take (k + 1)).sum * N / ws.sum ≤ N := by
    rw [div_le_iff₀ hT, mul_comm]
    exact mul_le_mul_of_nonneg_left hle hN'.le
  have hy01 : (ws.take k).sum * N / ws.sum ≤ (ws.take (k + 1)).sum * N / ws.sum := by
    rw [div_le_div_iff_of_pos_right hT]
    exact mul_le_mul_of_nonneg_right (by linarith) hN'.le
  have hy0 : 0 ≤ (ws.take k).sum * N / ws.sum := by positivity
  obtain ⟨a1, a2⟩ := count_le (hy0.trans hy01) hy1
  obtain ⟨b1, b2⟩ := count_le hy0 (hy01.trans hy1)
  have hdiff : (ws.take (k + 1)).sum * N / ws.sum - (ws.take k).sum * N / ws.sum = N * (w / ws.sum) := by
    rw [hs]
    ring
  by_cases hk0 : k = 0
  · subst hk0
    have hc : gridCount N (fun u : K => ((0 : Nat) = 0 ∨ (ws.take 0).sum < u * ws.sum) ∧ u * ws.sum ≤ (ws.take (0 + 1)).sum) =
        ((Finset.range N).filter (fun (j : Nat) => (j : K) ≤ (ws.take (0 + 1)).sum * N / ws.sum)).card := by
      unfold gridCount
      congr 1
      ext j
      simp only [Finset.mem_filter, true_or, true_and, div_mul_le_iff hN hT]
    rw [hc, abs_le]
    simp only [List.take_zero, List.sum_nil, zero_mul, zero_div] at hdiff b1 b2 hy0
    constructor <;> linarith
  · have hc : gridCount N (fun u : K => (k = 0 ∨ (ws.take k).sum < u * ws.sum) ∧ u * ws.sum ≤ (ws.take (k + 1)).sum) +
        ((Finset.range N).filter (fun (j : Nat) => (j : K) ≤ (ws.take k).sum * N / ws.sum)).card =
        ((Finset.range N).filter (fun (j : Nat) => (j : K) ≤ (ws.take (k + 1)).sum * N / ws.sum)).card := by
      unfold gridCount
      rw [← Finset.card_union_of_disjoint]
      · congr 1
        ext j
        simp only [Finset.mem_union, Finset.mem_filter, hk0, false_or, div_mul_le_iff hN hT, ← not_le]
        constructor
        · rintro (⟨h1, -, h2⟩ | ⟨h1, h2⟩)
          · exact ⟨h1, h2⟩
          · exact ⟨h1, h2.trans hy01⟩
        · rintro ⟨h1, h2⟩
          by_cases h3 : (j : K) ≤ (ws.take k).sum * N / ws.sum
          · exact .inr ⟨h1, h3⟩
          · exact .inl ⟨h1, h3, h2⟩
      · rw [Finset.disjoint_left]
        intro j hj hj'
        simp only [Finset.mem_filter, hk0, false_or, ← not_le, div_mul_le_iff hN hT] at hj hj'
        exact hj.2.1 hj'.2
    have hc' := congrArg (fun n : Nat => (n : K)) hc
    simp only [Nat.cast_add] at hc'
    rw [abs_le]
    constructor <;> linarith

/-! ### Events -/

/-- **C57** Of the `N` random numbers the number that select process `i` differs by at most one from the exact share: the
probability of the process is right up to `1 / N`. -/
theorem C57_process_share (procs : List (Proc K)) (h : Selectable procs) (hpos : 0 < sumRates procs) (i : Nat) (p : Proc K)
    (hp : procs[i]? = some p) {N : Nat} (hN : 0 < N) :
    |(gridCount N (fun u : K => pickProcessIndex (probabilityTable procs) u = .ok i) : K) -
      N * (p.totalRate / sumRates procs)| ≤ 1 := by
  have hi : i < procs.length := (List.getElem?_eq_some_iff.1 hp).1
  have := count_cumulative (ws := procs.map (·.totalRate)) h.total_nonneg hpos (k := i) (w := p.totalRate) (by simp [hp]) hN
  simp only [C28_process_interval procs h _ i hi, List.map_take]
  exact this

/-- **C57** The same for the sites of a process. -/
theorem C57_site_share (p : Proc K) (hc : p.Consistent) (hw : ∀ w ∈ p.weights, 0 ≤ w) (hpos : 0 < p.totalRate) (k site : Nat)
    (w : K) (hk : p.sites[k]? = some site) (hwk : p.weights[k]? = some w) {N : Nat} (hN : 0 < N) :
    |(gridCount N (fun u : K => ∃ p', p.updateRateTable = .ok p' ∧ p'.pickSite u = .ok site) : K) -
      N * (w / p.totalRate)| ≤ 1 := by
  have hpos' := hpos
  rw [hc.total] at hpos'
  have := count_cumulative hw hpos' hwk hN
  rw [← hc.total] at this
  have he : gridCount N (fun u : K => ∃ p', p.updateRateTable = .ok p' ∧ p'.pickSite u = .ok site) =
      gridCount N (fun u : K => (k = 0 ∨ (p.weights.take k).sum < u * p.totalRate) ∧
        u * p.totalRate ≤ (p.weights.take (k + 1)).sum) := by
    classical
    unfold gridCount
    congr 1
    ext j
    simp only [Finset.mem_filter, Finset.mem_range]
    refine and_congr_right fun hj => ?_
    have hN' : (0 : K) < N := by exact_mod_cast hN
    apply C28_site_interval p hc hw _ _ k site hk
    rw [div_le_one hN']
    exact_mod_cast hj.le
  rw [he]
  exact this

/-- The first random number selects the process, the second one the site. -/
theorem select_event (procs : List (Proc K)) (i : Nat) (p : Proc K) (hp : procs[i]? = some p) (site : Nat) (u v : K) :
    (∃ procs', select procs (probabilityTable procs) u v = .ok (i, site, procs')) ↔
      pickProcessIndex (probabilityTable procs) u = .ok i ∧ ∃ p', p.updateRateTable = .ok p' ∧ p'.pickSite v = .ok site := by
  have hilt : i < procs.length := (List.getElem?_eq_some_iff.1 hp).1
  constructor
  · rintro ⟨procs', hs⟩
    unfold select at hs
    rw [bind_ok] at hs
    obtain ⟨pk, hpk, hs⟩ := hs
    rw [bind_ok] at hs
    obtain ⟨st, hst, hs⟩ := hs
    cases hs
    unfold pickProcess at hpk
    rw [bind_ok] at hpk
    obtain ⟨j, hj, hpk⟩ := hpk
    rw [bind_ok] at hpk
    obtain ⟨q, hq, hpk⟩ := hpk
    rw [bind_ok] at hpk
    obtain ⟨q', hq', hpk⟩ := hpk
    rw [bind_ok] at hpk
    obtain ⟨pr, -, hpk⟩ := hpk
    cases hpk
    rw [rd_ok, hp] at hq
    cases hq
    exact ⟨hj, q', hq', hst⟩
  · rintro ⟨hj, p', hp', hst⟩
    refine ⟨procs.set i p', ?_⟩
    unfold select pickProcess
    rw [hj, ok_bind, rd_of_getElem? hp, ok_bind, hp', ok_bind, wr_of_lt hilt, ok_bind, pure_ok, ok_bind, hst]
    rfl

/-- How many of the pairs of fractions have a property. -/
noncomputable def gridCount2 (N : Nat) (P : K → K → Prop) : Nat :=
  by classical exact (((Finset.range N) ×ˢ (Finset.range N)).filter
    (fun a : Nat × Nat => P ((a.1 : K) / (N : K)) ((a.2 : K) / (N : K)))).card

/-- **C57** Of the `N ^ 2` pairs of random numbers the number that select an event differs by at most `2 N` from the exact
share: the probability of an event is right up to `2 / N`. -/
theorem C57_event_share (procs : List (Proc K)) (h : Selectable procs) (hpos : 0 < sumRates procs) (i : Nat) (p : Proc K)
    (hp : procs[i]? = some p) (htp : 0 < p.totalRate) (k site : Nat) (w : K) (hk : p.sites[k]? = some site)
    (hwk : p.weights[k]? = some w) {N : Nat} (hN : 0 < N) :
    |(gridCount2 N (fun u v : K => ∃ procs', select procs (probabilityTable procs) u v = .ok (i, site, procs')) : K) -
      (N : K) ^ 2 * (w / sumRates procs)| ≤ 2 * N := by
  classical
  have hpm : p ∈ procs := List.mem_of_getElem? hp
  have hc := h.consistent p hpm
  have hw := h.nonneg p hpm
  have hN' : (0 : K) < N := by exact_mod_cast hN
  have hcount : gridCount2 N (fun u v : K => ∃ procs', select procs (probabilityTable procs) u v = .ok (i, site, procs')) =
      gridCount N (fun u : K => pickProcessIndex (probabilityTable procs) u = .ok i) *
      gridCount N (fun v : K => ∃ p', p.updateRateTable = .ok p' ∧ p'.pickSite v = .ok site) := by
    unfold gridCount2 gridCount
    rw [← Finset.card_product]
    congr 1
    ext ⟨a, b⟩
    simp only [Finset.mem_filter, Finset.mem_product, select_event procs i p hp]
    tauto
  have h1 := C57_process_share procs h hpos i p hp hN
  have h2 := C57_site_share p hc hw htp k site w hk hwk hN
  have hA : (gridCount N (fun u : K => pickProcessIndex (probabilityTable procs) u = .ok i) : K) ≤ N := by
    exact_mod_cast gridCount_le N _
  have hb1 : w / p.totalRate ≤ 1 := by
    rw [div_le_one htp, hc.total]
    exact List.single_le_sum hw w (List.mem_of_getElem? hwk)
  have hb0 : 0 ≤ w / p.totalRate := div_nonneg (hw w (List.mem_of_getElem? hwk)) htp.le
  rw [hcount, Nat.cast_mul]
  generalize hAe : (gridCount N (fun u : K => pickProcessIndex (probabilityTable procs) u = .ok i) : K) = A at *
  generalize (gridCount N (fun v : K => ∃ p', p.updateRateTable = .ok p' ∧ p'.pickSite v = .ok site) : K) = B at *
  have hA0 : 0 ≤ A := by rw [← hAe]; positivity
  have hsplit : A * B - (N : K) ^ 2 * (w / sumRates procs) =
      A * (B - N * (w / p.totalRate)) + N * (w / p.totalRate) * (A - N * (p.totalRate / sumRates procs)) := by
    have : w / sumRates procs = w / p.totalRate * (p.totalRate / sumRates procs) := by field_simp
    rw [this]
    ring
  rw [hsplit]
  calc _ ≤ |A * (B - N * (w / p.totalRate))| + |N * (w / p.totalRate) * (A - N * (p.totalRate / sumRates procs))| :=
        abs_add_le _ _
    _ = A * |B - N * (w / p.totalRate)| + N * (w / p.totalRate) * |A - N * (p.totalRate / sumRates procs)| := by
        rw [abs_mul, abs_mul, abs_of_nonneg hA0, abs_of_nonneg (mul_nonneg hN'.le hb0)]
    _ ≤ N * 1 + N * 1 * 1 := by
        apply add_le_add
        · exact mul_le_mul hA h2 (abs_nonneg _) hN'.le
        · exact mul_le_mul (mul_le_mul_of_nonneg_left hb1 hN'.le) h1 (abs_nonneg _) (by linarith)
    _ = 2 * N := by ring

end

section
variable {K : Type _} [Field K] [LinearOrder K] [IsStrictOrderedRing K]

/-- **C57** is false for small shares: the last process of a list is never selected when its share is at most `1 / N`,
however often it is possible. -/
theorem C57_last_never (procs : List (Proc K)) (h : Selectable procs) (i : Nat) (p : Proc K) (hp : procs[i]? = some p)
    (hlast : i + 1 = procs.length) (hi : i ≠ 0) {N : Nat} (hs : p.totalRate * N ≤ sumRates procs) (j : Nat) (hj : j < N) :
    pickProcessIndex (probabilityTable procs) ((j : K) / N) ≠ .ok i := by
  have hN' : (0 : K) < N := by exact_mod_cast (by omega : 0 < N)
  intro hpick
  obtain ⟨h1, -⟩ := (C28_process_interval procs h _ i (by omega)).1 hpick
  rcases h1 with h1 | h1
  · exact hi h1
  have hsum := take_succ_sum (ws := procs.map (·.totalRate)) (k := i) (w := p.totalRate) (by simp [hp])
  rw [List.take_of_length_le (by simp; omega)] at hsum
  change sumRates procs = _ at hsum
  rw [← List.map_take] at hsum
  have hjN : (j : K) + 1 ≤ N := by exact_mod_cast hj
  have hW : 0 ≤ sumRates procs := List.sum_nonneg h.total_nonneg
  rw [div_mul_eq_mul_div, lt_div_iff₀ hN'] at h1
  have h2 : (j : K) * sumRates procs ≤ (N - 1) * sumRates procs :=
    mul_le_mul_of_nonneg_right (by linarith) hW
  have h3 : ((procs.take i).map (·.totalRate)).sum = sumRates procs - p.totalRate := by linarith
  rw [h3] at h1
  nlinarith

/-- **C57** The first process is selected by the random number zero, so at least with probability `1 / N`, however small
its rate is, even if that is zero. -/
theorem C57_first_always (procs : List (Proc K)) (h : Selectable procs) (hne : procs ≠ []) {N : Nat} (hN : 0 < N) :
    pickProcessIndex (probabilityTable procs) ((0 : Nat) / (N : K)) = .ok 0 ∧
    1 ≤ gridCount N (fun u : K => pickProcessIndex (probabilityTable procs) u = .ok 0) := by
  classical
  have h0 : pickProcessIndex (probabilityTable procs) ((0 : Nat) / (N : K)) = .ok 0 := by
    rw [C28_process_interval procs h _ 0 (List.length_pos_iff.2 hne)]
    refine ⟨.inl rfl, ?_⟩
    simp only [Nat.cast_zero, zero_div, zero_mul, List.map_take]
    exact List.sum_nonneg fun x hx => h.total_nonneg x (List.mem_of_mem_take hx)
  exact ⟨h0, gridCount_pos (P := fun u : K => pickProcessIndex (probabilityTable procs) u = .ok 0) hN h0⟩

end

/-- **C57** The witness for the default generator: of two processes, the second one with the rate `2 ^ -40` of the first,
the second one is never selected. In the other order it is selected for one in `2 ^ 32` random numbers, `256` times as
often as it should. -/
theorem C57_slow_processes :
    (∀ (g : List Nat), g.length = RngType.calls .MT → (∀ d ∈ g, d < RngType.values .MT) →
      pickProcessIndex (probabilityTable [sampleProc 0 (1 : ℚ) [3], sampleProc 1 (1 / 2 ^ 40) [5]])
        (canonical (RngType.values .MT) g) = .ok 0) ∧
    pickProcessIndex (probabilityTable [sampleProc 1 (1 / 2 ^ 40 : ℚ) [5], sampleProc 0 1 [3]])
      (canonical (RngType.values .MT) [0]) = .ok 0 := by
  have hsel : Selectable [sampleProc 0 (1 : ℚ) [3], sampleProc 1 (1 / 2 ^ 40) [5]] := by
    refine ⟨?_, by decide +kernel⟩
    intro p hp
    simp only [List.mem_cons, List.not_mem_nil, or_false] at hp
    rcases hp with rfl | rfl
    · exact ⟨by decide, rfl, by decide, by decide +kernel⟩
    · exact ⟨by decide, rfl, by decide, by decide +kernel⟩
  refine ⟨?_, by decide +kernel⟩
  intro g hl hg
  obtain ⟨j, hj, he, h0, h1⟩ := C57_grid (K := ℚ) .MT g hl hg
  rw [C28_process_interval _ hsel _ 0 (by simp)]
  refine ⟨.inl rfl, ?_⟩
  have hj' : (j : ℚ) + 1 ≤ 2 ^ 32 := by
    have : j + 1 ≤ 2 ^ 32 := by
      have : RngType.values .MT ^ RngType.calls .MT = 2 ^ 32 := rfl
      omega
    exact_mod_cast this
  rw [he]
  have h1 : sumRates [sampleProc 0 (1 : ℚ) [3], sampleProc 1 (1 / 2 ^ 40) [5]] = 1 + 1 / 2 ^ 40 := by decide +kernel
  have h2 : ((RngType.values .MT ^ RngType.calls .MT : Nat) : ℚ) = 2 ^ 32 := by decide +kernel
  have h3 : (((([sampleProc 0 (1 : ℚ) [3], sampleProc 1 (1 / 2 ^ 40) [5]] : List (Proc ℚ)).take (0 + 1)).map
    (·.totalRate)).sum) = 1 := by decide +kernel
  rw [h1, h2, h3, div_mul_eq_mul_div, div_le_iff₀ (by norm_num)]
  nlinarith

/-- The hypotheses of `C57_event_share` are met: the second site of the second process has the share `2 / 5`, and with the
default generator it is selected with that probability up to `2 / 2 ^ 32`. -/
example : |(gridCount2 (2 ^ 32) (fun u v : ℚ => ∃ procs', select [sampleProc 0 1 [3], sampleProc 1 2 [3, 4]]
      (probabilityTable [sampleProc 0 1 [3], sampleProc 1 2 [3, 4]]) u v = .ok (1, 4, procs')) : ℚ) -
    ((2 ^ 32 : Nat) : ℚ) ^ 2 * (2 / sumRates [sampleProc 0 (1 : ℚ) [3], sampleProc 1 2 [3, 4]])| ≤ 2 * ((2 ^ 32 : Nat) : ℚ) := by
  have hsel : Selectable [sampleProc 0 (1 : ℚ) [3], sampleProc 1 2 [3, 4]] := by
    refine ⟨?_, by decide +kernel⟩
    intro p hp
    simp only [List.mem_cons, List.not_mem_nil, or_false] at hp
    rcases hp with rfl | rfl
    · exact ⟨by decide, rfl, by decide, by decide +kernel⟩
    · exact ⟨by decide, rfl, by decide, by decide +kernel⟩
  exact C57_event_share _ hsel (by decide +kernel) 1 (sampleProc 1 2 [3, 4]) rfl (by decide +kernel) 1 4 2 rfl
    (by decide +kernel) (by norm_num)

/-! ### Time -/

/-- **C57** No time step is longer than `log N` over the total rate. -/
theorem C57_time_bound (R : ℝ) (hR : 0 < R) {N j : Nat} (hj : j < N) (dt : ℝ)
    (h : timeStep negLog R ((j : ℝ) / N) = some dt) : dt ≤ Real.log N / R := by
  have hN : (0 : ℝ) < N := by exact_mod_cast (by omega : 0 < N)
  rcases Nat.eq_zero_or_pos j with rfl | h0
  · simp [timeStep, negLog] at h
  have hj1 : (1 : ℝ) ≤ j := by exact_mod_cast h0
  rw [(C29_time_step R _ hR (by positivity) (by rw [div_lt_one hN]; exact_mod_cast hj)).1, Option.some.injEq] at h
  subst h
  rw [Real.log_div (by positivity) hN.ne']
  apply div_le_div_of_nonneg_right _ hR.le
  have := Real.log_nonneg hj1
  linarith

/-- **C57** Of the `N` random numbers the number that give a time step longer than `t` is less than `N exp (-R t)` by at
most one: the distribution is right up to `1 / N`. -/
theorem C57_time_share (R t : ℝ) (hR : 0 < R) (ht : 0 ≤ t) {N : Nat} (hN : 0 < N) :
    (gridCount N (fun u : ℝ => ∃ dt, timeStep negLog R u = some dt ∧ t < dt) : ℝ) ≤ N * Real.exp (-(R * t)) ∧
    N * Real.exp (-(R * t)) - 1 ≤ (gridCount N (fun u : ℝ => ∃ dt, timeStep negLog R u = some dt ∧ t < dt) : ℝ) := by
  classical
  have hN' : (0 : ℝ) < N := by exact_mod_cast hN
  have he : Real.exp (-(R * t)) ≤ 1 := Real.exp_le_one_iff.2 (by nlinarith)
  have hc : gridCount N (fun u : ℝ => ∃ dt, timeStep negLog R u = some dt ∧ t < dt) =
      (Finset.Ioo 0 ⌈N * Real.exp (-(R * t))⌉₊).card := by
    unfold gridCount
    congr 1
    ext j
    simp only [Finset.mem_filter, Finset.mem_range, Finset.mem_Ioo, Nat.lt_ceil]
    constructor
    · rintro ⟨hj, dt, h1, h2⟩
      rcases Nat.eq_zero_or_pos j with rfl | h0
      · simp [timeStep, negLog] at h1
      have hj0 : (0 : ℝ) < j := by exact_mod_cast h0
      have hu : (0 : ℝ) < j / N := by positivity
      rw [(C29_time_step R _ hR hu (by rw [div_lt_one hN']; exact_mod_cast hj)).1, Option.some.injEq] at h1
      subst h1
      rw [lt_div_iff₀ hR] at h2
      have := (Real.log_lt_iff_lt_exp hu).1 (by linarith : Real.log (j / N) < -(R * t))
      rw [div_lt_iff₀ hN'] at this
      exact ⟨h0, by linarith⟩
    · rintro ⟨h0, h1⟩
      have hj0 : (0 : ℝ) < j := by exact_mod_cast h0
      have hu : (0 : ℝ) < j / N := by positivity
      have hjN : (j : ℝ) < N := lt_of_lt_of_le h1 (by nlinarith)
      refine ⟨by exact_mod_cast hjN, _, (C29_time_step R _ hR hu (by rw [div_lt_one hN']; exact hjN)).1, ?_⟩
      rw [lt_div_iff₀ hR]
      have : Real.log (j / N) < -(R * t) := by
        rw [Real.log_lt_iff_lt_exp hu, div_lt_iff₀ hN']
        linarith
      linarith
  have hpos : 0 < N * Real.exp (-(R * t)) := by positivity
  have h1 : 1 ≤ ⌈N * Real.exp (-(R * t))⌉₊ := Nat.ceil_pos.2 hpos
  rw [hc, Nat.card_Ioo, Nat.sub_zero, Nat.cast_sub h1, Nat.cast_one]
  have a := Nat.le_ceil (N * Real.exp (-(R * t)))
  have b := Nat.ceil_lt_add_one hpos.le
  constructor <;> linarith

/-! ### Seeds -/

namespace Rngs
variable {σ : Type _}

theorem draw_agree (E : Engines σ) : ∀ (k : Nat) (g g' : Rngs σ), g.type = g'.type → g.state g.type = g'.state g'.type →
    (draw E k g).1 = (draw E k g').1 ∧ (draw E k g).2.type = (draw E k g').2.type ∧
      (draw E k g).2.state (draw E k g).2.type = (draw E k g').2.state (draw E k g').2.type
  | 0, _, _, h1, h2 => ⟨rfl, h1, h2⟩
  | k + 1, g, g', h1, h2 => by
    obtain ⟨a, b, c⟩ := draw_agree E k
      { g with state := fun t => if t = g.type then (E.next g.type (g.state g.type)).2 else g.state t }
      { g' with state := fun t => if t = g'.type then (E.next g'.type (g'.state g'.type)).2 else g'.state t }
      h1 (by simp only [if_true]; rw [h2, h1])
    refine ⟨?_, b, c⟩
    unfold draw
    dsimp only
    rw [a, h2, h1]

theorem numbers_agree {K : Type _} [Field K] (E : Engines σ) : ∀ (n : Nat) (g g' : Rngs σ), g.type = g'.type →
    g.state g.type = g'.state g'.type → numbers (K := K) E n g = numbers E n g'
  | 0, _, _, _, _ => rfl
  | n + 1, g, g', h1, h2 => by
    obtain ⟨a, b, c⟩ := draw_agree E g.type.calls g g' h1 h2
    unfold numbers randomDouble01
    dsimp only
    rw [a, h1]
    rw [h1] at b c
    rw [numbers_agree E n _ _ b c]

end Rngs

open Rngs in
/-- **C57** With a generator other than the device, the random numbers of a run depend on the generator and the seed (with
the time added, if it is taken from the clock) only, not on what was drawn before. So a run with a given seed can be
repeated, and the processes of a parallel run, which all receive the time of the first one, draw the same numbers. -/
theorem C57_reproducible {K : Type _} [Field K] {σ : Type _} (E : Engines σ) (e e' : Bool) (t : RngType) (ht : t ≠ .DEVICE)
    (time : Option Int) (seed : Nat) (g g' s s' : Rngs σ) (h : start E e t time seed g = .ok s)
    (h' : start E e' t time seed g' = .ok s') (n : Nat) : numbers (K := K) E n s = numbers E n s' := by
  have key : ∀ (e : Bool) (g s : Rngs σ), start E e t time seed g = .ok s →
      s.type = t ∧ s.state t = E.seed t (seed + time.getD 0) := by
    intro e g s h
    unfold start setRngType at h
    have hs : seed < 2 ^ 31 := by
      by_contra hs
      simp only [ht, if_false, Bool.true_eq_false, Nat.not_lt.1 hs, if_true] at h
      cases h
    simp only [ht, if_false, Bool.true_eq_false, Nat.not_le.2 hs] at h
    unfold seedRandom at h
    rw [bind_ok] at h
    obtain ⟨x, hx, h⟩ := h
    simp only [ht, if_false] at h
    cases h
    refine ⟨rfl, ?_⟩
    cases time with
    | none => cases hx; simp
    | some v =>
      unfold seedValue at hx
      simp only at hx
      split_ifs at hx
      cases hx
      simp
  obtain ⟨a1, a2⟩ := key e g s h
  obtain ⟨b1, b2⟩ := key e' g' s' h'
  apply numbers_agree
  · rw [a1, b1]
  · rw [a1, b1, a2, b2]

open Rngs in
/-- **C57** With a seed in the range of an `int` and a generator other than the device the start succeeds. -/
theorem C57_start {σ : Type _} (E : Engines σ) (e : Bool) (t : RngType) (ht : t ≠ .DEVICE) (seed : Nat)
    (hs : seed < 2 ^ 31) (g : Rngs σ) : ∃ s, start E e t none seed g = .ok s := by
  unfold start setRngType seedRandom
  simp only [ht, if_false, Bool.true_eq_false, Nat.not_le.2 hs]
  exact ⟨_, rfl⟩

open Rngs in
/-- **C57** With the device nothing is seeded and the processes of a parallel run draw their own numbers, which are not
exchanged: here one of them selects the first process of the model and the other one the second. -/
theorem C57_device : ∃ (E : Engines Nat) (g g' s s' : Rngs Nat), start E true .DEVICE none 1 g = .ok s ∧
    start E true .DEVICE none 1 g' = .ok s' ∧
    ((numbers E 1 s).map fun u : ℚ => pickProcessIndex (probabilityTable [sampleProc 0 1 [3], sampleProc 1 1 [5]]) u) =
      [.ok 0] ∧
    ((numbers E 1 s').map fun u : ℚ => pickProcessIndex (probabilityTable [sampleProc 0 1 [3], sampleProc 1 1 [5]]) u) =
      [.ok 1] :=
  ⟨⟨fun _ s => s.toNat, fun _ s => (s, s)⟩, ⟨.MT, fun _ => 2 ^ 30⟩, ⟨.MT, fun _ => 2 ^ 31 + 1⟩,
    ⟨.DEVICE, fun _ => 2 ^ 30⟩, ⟨.DEVICE, fun _ => 2 ^ 31 + 1⟩, rfl, rfl, by decide +kernel, by decide +kernel⟩

end KMC
