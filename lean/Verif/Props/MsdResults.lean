import Verif.Props.MsdRun
import Mathlib.Tactic.Positivity
import Mathlib.Tactic.FieldSimp

/-!
# C47: what is made of the sums of the mean square displacements

`C47_bin`: the bins of time differences, also of negative ones. `C47_effective`: the effective number of steps of a bin is
the mean number of steps between the positions in it. `C47_cutoff`: what the cutoff is. `C47_deviation`,
`C47_factor_pos`, `C47_factor_joins`: the estimated deviations; `C47_deviation_counter`: the counter used for them is not
that of the pairs in the bin.
-/

namespace KMC
namespace Msd

section
variable {K : Type _} [Field K] [LinearOrder K] [IsStrictOrderedRing K] [FloorRing K]

/-- C47. Time differences from `b` to `b + 1` bin sizes are in bin `b`; those less than one bin size below zero are in bin
0, and those further below in none. -/
theorem C47_bin {w dt : K} (hw : 0 < w) (h1 : -2147483648 ≤ dt / w) (h2 : dt / w < 2147483648) :
    ∃ r, bin w dt = .ok r ∧
      (∀ b, r = some b ↔ (b : K) * w ≤ dt ∧ dt < ((b : K) + 1) * w ∨ b = 0 ∧ -w < dt ∧ dt < 0) ∧
      (r = none ↔ dt ≤ -w) := by
  unfold bin
  rw [if_neg hw.ne']
  dsimp only
  rcases le_or_gt 0 dt with h0 | h0
  · have hq : 0 ≤ dt / w := div_nonneg h0 hw.le
    have hf : 0 ≤ ⌊dt / w⌋ := Int.floor_nonneg.2 hq
    have hf2 : ⌊dt / w⌋ < 2147483648 := Int.floor_lt.2 (by push_cast; exact h2)
    have ht : truncInt (dt / w) = ⌊dt / w⌋ := if_pos hq
    rw [ht, if_neg (by omega), if_neg (by omega)]
    refine ⟨_, rfl, ?_, ?_⟩
    · intro b
      rw [Option.some.injEq, bin_iff hw h0 b]
      constructor
      · exact .inl
      · rintro (h | ⟨-, -, h⟩)
        · exact h
        · exact absurd h (not_lt.2 h0)
    · simp only [reduceCtorEq, false_iff, not_le]
      linarith
  · have hq : dt / w < 0 := div_neg_of_neg_of_pos h0 hw
    have ht : truncInt (dt / w) = ⌈dt / w⌉ := if_neg (not_le.2 hq)
    have hf : ⌈dt / w⌉ ≤ 0 := Int.ceil_le.2 (by push_cast; exact hq.le)
    have hf2 : -2147483648 ≤ ⌈dt / w⌉ := by
      have := (Int.le_ceil (dt / w)).trans' h1
      exact_mod_cast this
    have hiff : ⌈dt / w⌉ < 0 ↔ dt ≤ -w := by
      rw [show ⌈dt / w⌉ < 0 ↔ ⌈dt / w⌉ ≤ -1 by omega, Int.ceil_le]
      push_cast
      rw [div_le_iff₀ hw, neg_one_mul]
    have hno : ∀ b : Nat, ¬ ((b : K) * w ≤ dt ∧ dt < ((b : K) + 1) * w) := by
      rintro b ⟨h, -⟩
      have : 0 ≤ (b : K) * w := by positivity
      linarith
    rw [ht, if_neg (by omega)]
    by_cases hn : ⌈dt / w⌉ < 0
    · rw [if_pos hn]
      refine ⟨_, rfl, ?_, ?_⟩
      · intro b
        simp only [reduceCtorEq, hno b, false_or, false_iff, not_and]
        rintro - h
        exact absurd (hiff.1 hn) (not_le.2 h)
      · simpa using hiff.1 hn
    · rw [if_neg hn]
      have hz : ⌈dt / w⌉ = 0 := by omega
      rw [hz]
      refine ⟨_, rfl, ?_, ?_⟩
      · intro b
        have : -w < dt := not_le.1 (fun h => hn (hiff.2 h))
        simp only [Option.some.injEq, hno b, false_or, this, h0, and_self, and_true]
        exact eq_comm
      · simp only [reduceCtorEq, false_iff, not_le]
        exact not_le.1 (fun h => hn (hiff.2 h))

omit [LinearOrder K] [IsStrictOrderedRing K] [FloorRing K] in
/-- A sum over the numbers of entries with each value. -/
theorem sum_by_value (l : List Nat) (m : Nat) (h : ∀ y ∈ l, 1 ≤ y ∧ y ≤ m) :
    ((List.range m).map fun b : Nat => ((l.countP fun y => decide (y = b + 1) : Nat) : K) * ((b : K) + 1)).sum =
      ((l.sum : Nat) : K) := by
  induction l with
  | nil => simp
  | cons a l ih =>
    have hsplit : ((List.range m).map fun b : Nat =>
        (((a :: l).countP fun y => decide (y = b + 1) : Nat) : K) * ((b : K) + 1)) =
        (List.range m).map fun b : Nat => (if b + 1 = a then (a : K) else 0) +
          ((l.countP fun y => decide (y = b + 1) : Nat) : K) * ((b : K) + 1) := by
      refine List.map_congr_left fun b _ => ?_
      rw [List.countP_cons]
      by_cases hb : b + 1 = a
      · subst hb
        simp only [decide_true, if_true]
        push_cast
        ring
      · rw [if_neg hb, if_neg (by simpa using Ne.symm hb)]
        simp
    rw [hsplit, List.sum_map_add, ih (fun y hy => h y (by simp [hy])), List.sum_cons, Nat.cast_add]
    congr 1
    obtain ⟨h1, h2⟩ := h a (by simp)
    obtain ⟨c, rfl⟩ : ∃ c, a = c + 1 := ⟨a - 1, by omega⟩
    have : ∀ m, c + 1 ≤ m → ((List.range m).map fun b : Nat => if b + 1 = c + 1 then ((c + 1 : Nat) : K) else 0).sum =
        ((c + 1 : Nat) : K) := by
      intro m
      induction m with
      | zero => omega
      | succ m ih =>
        intro hm
        rw [List.range_succ, List.map_append, List.sum_append]
        by_cases hc : c = m
        · subst hc
          rw [List.map_congr_left (g := fun _ => (0 : K)) (fun b hb => if_neg (by have := List.mem_range.1 hb; omega))]
          simp
        · rw [ih (by omega), List.map_singleton, List.sum_singleton, if_neg (by omega), add_zero]
    exact this m h2

omit [LinearOrder K] [IsStrictOrderedRing K] [FloorRing K] in
/-- C47. The effective number of steps of a bin is the mean, over the pairs of positions in it, of the number of steps from
one to the other. The assumptions are what `C47_sums_partial` gives. -/
theorem C47_effective [CharZero K] (s : Msd K) (H b : Nat) (l : List (Nat × Pos K × Pos K)) (hl : l ≠ [])
    (hH : s.stepBinCounts.length = H - 1) (hp : ∀ y ∈ l, 1 ≤ y.1 ∧ y.1 < H) (h1 : s.binCounts[b]? = some l.length)
    (h2 : ∀ i, i < H - 1 → ∃ row, s.stepBinCounts[i]? = some row ∧ row[b]? = some (l.countP fun y => decide (y.1 = i + 1))) :
    (MsdInput.effective s)[b]? = some ((((l.map (·.1)).sum : Nat) : K) / (l.length : K)) := by
  have hb : b < s.binCounts.length := (List.getElem?_eq_some_iff.1 h1).1
  have hlen : l.length ≠ 0 := fun h => hl (List.length_eq_zero_iff.1 h)
  have hlenK : (l.length : K) ≠ 0 := by exact_mod_cast hlen
  unfold MsdInput.effective
  rw [List.getElem?_map, List.getElem?_range hb]
  simp only [Option.map_some, List.getD_eq_getElem?_getD, h1, Option.getD_some]
  congr 1
  rw [eq_div_iff hlenK, ← sum_by_value (K := K) (l.map (·.1)) (H - 1) (by
    intro y hy
    obtain ⟨z, hz, rfl⟩ := List.mem_map.1 hy
    have := hp z hz
    omega), hH, mul_comm, ← List.sum_map_mul_left]
  congr 1
  refine List.map_congr_left fun i hi => ?_
  obtain ⟨row, e1, e2⟩ := h2 i (List.mem_range.1 hi)
  rw [e1]
  simp only [Option.getD_some, e2, List.countP_map, Function.comp_def]
  by_cases h0 : List.countP (fun y : Nat × Pos K × Pos K => decide (y.1 = i + 1)) l = 0
  · rw [h0]
    simp
  · rw [if_pos ⟨h0, hlen⟩]
    field_simp

omit [Field K] [LinearOrder K] [IsStrictOrderedRing K] [FloorRing K] in
/-- C47. The cutoff is the first bin with more than a hundredth of the most values that a bin has from the pairs furthest
apart, and the number of bins if there are no such values. -/
theorem C47_cutoff (s : Msd K) (row : List Nat) (h : s.stepBinCounts.getLast? = some row) :
    ∃ i, MsdInput.safeCutoff s = .ok i ∧
      ((∀ c ∈ row, c = 0) → i = row.length) ∧
      ((∃ c ∈ row, c ≠ 0) → ∃ c m, row[i]? = some c ∧ m ∈ row ∧ (∀ d ∈ row, d ≤ m) ∧ m < 100 * c ∧
        ∀ j, j < i → ∀ d, row[j]? = some d → 100 * d ≤ m) := by
  have hmax : ∀ (l : List Nat) (a : Nat), (∀ d ∈ l, d ≤ l.foldl max a) ∧ a ≤ l.foldl max a ∧
      (l.foldl max a = a ∨ l.foldl max a ∈ l) := by
    intro l
    induction l with
    | nil => intro a; simp
    | cons x l ih =>
      intro a
      obtain ⟨i1, i2, i3⟩ := ih (max a x)
      rw [List.foldl_cons]
      refine ⟨?_, by omega, ?_⟩
      · intro d hd
        rcases List.mem_cons.1 hd with rfl | hd
        · omega
        · exact i1 d hd
      · rcases i3 with i3 | i3
        · rw [i3]
          rcases Nat.le_total a x with h | h
          · rw [Nat.max_eq_right h]; simp
          · rw [Nat.max_eq_left h]; simp
        · exact .inr (by simp [i3])
  obtain ⟨m1, -, m3⟩ := hmax row 0
  unfold MsdInput.safeCutoff
  rw [h]
  dsimp only
  cases hf : row.findIdx? (fun c => decide (row.foldl max 0 < 100 * c)) with
  | none =>
    rw [List.findIdx?_eq_none_iff] at hf
    refine ⟨_, rfl, fun _ => rfl, ?_⟩
    rintro ⟨c, hc, h0⟩
    have hle := m1 c hc
    rcases m3 with m3 | m3
    · omega
    · have := hf _ m3
      simp only [decide_eq_false_iff_not] at this
      omega
  | some i =>
    rw [List.findIdx?_eq_some_iff_getElem] at hf
    obtain ⟨hi, h1, h2⟩ := hf
    simp only [decide_eq_true_eq] at h1
    refine ⟨i, rfl, ?_, ?_⟩
    · intro hall
      have := hall _ (List.getElem_mem hi)
      omega
    · rintro ⟨c, hc, h0⟩
      have hle := m1 c hc
      refine ⟨row[i], row.foldl max 0, List.getElem?_eq_getElem hi, ?_, m1, h1, ?_⟩
      · rcases m3 with m3 | m3
        · omega
        · exact m3
      · intro j hj d hd
        have h3 := h2 j hj
        simp only [decide_eq_true_eq] at h3
        obtain ⟨hj', rfl⟩ := List.getElem?_eq_some_iff.1 hd
        omega

omit [FloorRing K] in
/-- C47. The number under the root is positive, so that the deviations are numbers: for every effective number of steps
and every number of values but zero. -/
theorem C47_factor_pos (n1 : K) (hn : 0 < n1) (k : Nat) (hk : 0 < k) : 0 < MsdInput.factorSqr n1 (k : K) := by
  have hk1 : (1 : K) ≤ (k : K) := by exact_mod_cast hk
  have hk0 : (0 : K) < (k : K) := by linarith
  unfold MsdInput.factorSqr
  split
  · rename_i hle
    have h1 : n1 ^ 3 ≤ n1 ^ 2 * k := by
      have : n1 ^ 3 = n1 ^ 2 * n1 := by ring
      rw [this]
      exact mul_le_mul_of_nonneg_left hle (by positivity)
    have h2 : 0 < n1 ^ 2 * k := by positivity
    have : 0 < 4 * n1 ^ 2 * k + 2 * k + n1 - n1 ^ 3 := by nlinarith
    positivity
  · rename_i hle
    rw [not_le] at hle
    have h1 : 0 < 6 * n1 ^ 2 * (k : K) := by positivity
    have h2 : n1 * (k : K) ^ 2 ≤ n1 ^ 2 * k := by
      have := mul_le_mul_of_nonneg_left hle.le (show 0 ≤ n1 * (k : K) by positivity)
      nlinarith
    have h3 : (k : K) ≤ (k : K) ^ 3 := by nlinarith [mul_nonneg hk0.le (sub_nonneg.2 hk1), mul_nonneg (mul_nonneg hk0.le hk0.le) (sub_nonneg.2 hk1)]
    have h4 : 0 < n1 ^ 2 * (k : K) := by positivity
    have : 0 < 1 + ((k : K) ^ 3 - 4 * n1 * k ^ 2 + 4 * n1 - k) / (6 * n1 ^ 2 * k) := by
      have h5 : -1 < ((k : K) ^ 3 - 4 * n1 * k ^ 2 + 4 * n1 - k) / (6 * n1 ^ 2 * k) := by
        rw [lt_div_iff₀ h1]
        nlinarith
      linarith
    linarith

omit [FloorRing K] in
/-- C47. The two formulas for the factor agree where they meet. -/
theorem C47_factor_joins (n1 : K) (hn : 0 < n1) :
    2 * ((4 * n1 ^ 2 * n1 + 2 * n1 + n1 - n1 ^ 3) / (n1 * 6 * n1 ^ 2)) =
      2 * (1 + (n1 ^ 3 - 4 * n1 * n1 ^ 2 + 4 * n1 - n1) / (6 * n1 ^ 2 * n1)) := by
  have := hn.ne'
  field_simp
  ring

/-- C47. In a bin whose pairs of positions are all `m` steps apart the counter used for the deviation is that of the pairs
`m + 2` steps apart, not that of those `m` apart; so there is no deviation from `m = H - 2` on. The assumption on the counters is
what `C47_sums_partial` gives. -/
theorem C47_deviation_counter (s : Msd K) (H m : Nat) (hm : 1 ≤ m) (ps : List (Nat × Pos K × Pos K))
    (hH : s.stepCounts.length = H) (hp : ∀ y ∈ ps, y.1 < H)
    (h : ∀ i, i < H → s.stepCounts[i]? = some (ps.countP fun y => decide (y.1 = i + 1))) :
    (∀ k, MsdInput.deviationCounter s (m : K) = some k → k = ps.countP fun y => decide (y.1 = m + 2)) ∧
    (H ≤ m + 2 → MsdInput.deviationCounter s (m : K) = none ∨ MsdInput.deviationCounter s (m : K) = some 0) := by
  have ht : truncInt ((m : K) + 1) = ((m + 1 : Nat) : Int) := by
    unfold truncInt
    rw [if_pos (by positivity)]
    have : ((m : K) + 1) = ((m + 1 : Nat) : K) := by push_cast; rfl
    rw [this, Int.floor_natCast]
  have key : ∀ k, MsdInput.deviationCounter s (m : K) = some k → k = ps.countP fun y => decide (y.1 = m + 2) := by
    intro k hk
    unfold MsdInput.deviationCounter at hk
    rw [ht] at hk
    split at hk
    · rename_i hc
      rw [hH] at hc
      have hlt : m + 1 < H := by exact_mod_cast hc.1
      rw [Int.toNat_natCast, h _ hlt] at hk
      exact (Option.some.inj hk).symm
    · cases hk
  refine ⟨key, ?_⟩
  intro hle
  cases hd : MsdInput.deviationCounter s (m : K) with
  | none => exact .inl rfl
  | some k =>
    rw [key k hd]
    right
    congr 1
    rw [List.countP_eq_zero]
    intro y hy
    have := hp y hy
    simp only [decide_eq_true_eq]
    omega

omit [IsStrictOrderedRing K] in
/-- C47. What the deviations are: for a bin with effective number of steps `n1` and results `r`, the squares are those of the
results times the factor, over one, two or three for one, two or three directions; without a counter, or if it is zero, they are
zero. -/
theorem C47_deviation (s : Msd K) (b : Nat) (n1 : K) (r : List K) (hr : (MsdInput.results s)[b]? = some r)
    (hn : (MsdInput.effective s)[b]? = some n1) (hb : b < s.hist.length) :
    ∃ d, (MsdInput.deviations s)[b]? = some d ∧
      (∀ k, MsdInput.deviationCounter s n1 = some k → 0 < k → ∃ x y z xy xz yz xyz, r = [x, y, z, xy, xz, yz, xyz] ∧
        d = [x ^ 2 * MsdInput.factorSqr n1 k, y ^ 2 * MsdInput.factorSqr n1 k, z ^ 2 * MsdInput.factorSqr n1 k,
          xy ^ 2 * MsdInput.factorSqr n1 k / 2, xz ^ 2 * MsdInput.factorSqr n1 k / 2, yz ^ 2 * MsdInput.factorSqr n1 k / 2,
          xyz ^ 2 * MsdInput.factorSqr n1 k / 3]) ∧
      (MsdInput.deviationCounter s n1 = none ∨ MsdInput.deviationCounter s n1 = some 0 → ∀ x ∈ d, x = 0) := by
  unfold MsdInput.deviations
  rw [List.getElem?_map, List.getElem?_range hb]
  simp only [Option.map_some, List.getD_eq_getElem?_getD, hn, hr, Option.getD_some]
  refine ⟨_, rfl, ?_, ?_⟩
  · intro k hk h0
    unfold MsdInput.results at hr
    rw [List.getElem?_map, List.getElem?_range hb] at hr
    simp only [Option.map_some, Option.some.injEq] at hr
    subst hr
    refine ⟨_, _, _, _, _, _, _, rfl, ?_⟩
    rw [hk]
    simp only [if_pos h0, List.zipWith_cons_cons, List.zipWith_nil_left, mul_one, mul_one_div]
  · rintro (h | h)
    · rw [h]
      intro x hx
      exact List.eq_of_mem_replicate hx
    · rw [h]
      intro x hx
      exact List.eq_of_mem_replicate hx

end

set_option synthInstance.maxSize 1000 in
/-- A history of five steps with equal times: four bins with pairs one, two, three and four steps apart. The counters are
10, 9, 8, 7, 0 for them, but 8 and 7 are taken for the first two, 0 for the third, and none for the fourth. -/
example : (Witness.analyse 5 5 5 ((List.range 10).map fun i => ((i : ℚ) + 1, (i : ℚ) + 1))).map (fun s =>
      (MsdInput.effective s, s.stepCounts, (MsdInput.effective s).map (MsdInput.deviationCounter s),
        (MsdInput.safeCutoff s).toOption)) =
    .ok ([0, 1, 2, 3, 4], [10, 9, 8, 7, 0], [none, some 8, some 7, some 0, none], some 4) := by
  decide +kernel

end Msd
end KMC
