import Verif.Props.Drift

/-!
# C55: the same events, except near ties

For processes with constant rates. Rounding can change the selected process or site only if a random number is close to a border between
two of them, where "close" is measured by the number of roundings so far. A run in which no random number is that close does what the
run in exact arithmetic does with the same random numbers.
-/

set_option linter.unusedSectionVars false

namespace KMC

open LatticeModel Interactions Matcher

variable {fl : ℚ → ℚ}

theorem lowerBound_congr {α β : Type _} {f : α → Bool} {g : β → Bool} {xs : List α} {ys : List β} (hl : xs.length = ys.length)
    (h : ∀ (i : Nat) x y, xs[i]? = some x → ys[i]? = some y → f x = g y) : lowerBound f xs = lowerBound g ys := by
  have key : ∀ fuel first len, lowerBoundLoop f xs fuel first len = lowerBoundLoop g ys fuel first len := by
    intro fuel
    induction fuel with
    | zero => intro first len; rfl
    | succ fuel ih =>
      intro first len
      unfold lowerBoundLoop
      dsimp only
      by_cases h0 : len = 0
      · rw [if_pos h0, if_pos h0]
      · rw [if_neg h0, if_neg h0]
        by_cases hi : first + len / 2 < xs.length
        · have hx := List.getElem?_eq_getElem hi
          have hy := List.getElem?_eq_getElem (hl ▸ hi : first + len / 2 < ys.length)
          rw [hx, hy]
          dsimp only
          rw [h _ _ _ hx hy, ih, ih]
        · rw [List.getElem?_eq_none (by omega), List.getElem?_eq_none (by omega)]
  unfold lowerBound
  rw [hl]
  exact key _ _ _

/-- Running sums of nearly the same numbers. -/
theorem prefix_close {α : Type _} (hfl : Rounding fl) {x y N : α → ℚ} {k : Nat} (l : List α) :
    (∀ z ∈ l, |x z| ≤ N z ∧ |y z - x z| ≤ N z * (ulp ^ k - 1)) → ∀ {c : Nat} {a b B : ℚ}, |a - b| ≤ B * (ulp ^ (k + c) - 1) → |b| ≤ B →
    ∀ {i : Nat} {X Y : ℚ}, (Rounded.prefixSums fl a (l.map y))[i]? = some Y → (Proc.prefixSums b (l.map x))[i]? = some X →
      |Y - X| ≤ (B + (l.map N).sum) * (ulp ^ (k + c + l.length) - 1) ∧ |X| ≤ B + (l.map N).sum := by
  induction l with
  | nil => intro _ c a b B _ _ i X Y hY; simp [Rounded.prefixSums] at hY
  | cons z l ih =>
    intro hz c a b B hab hb i X Y hY hX
    obtain ⟨z1, z2⟩ := hz z (by simp)
    have hN : 0 ≤ N z := (abs_nonneg _).trans z1
    have hB : 0 ≤ B := (abs_nonneg _).trans hb
    have hrest : 0 ≤ (l.map N).sum := List.sum_nonneg fun w hw => by
      obtain ⟨v, hv, rfl⟩ := List.mem_map.1 hw
      exact (abs_nonneg _).trans (hz v (by simp [hv])).1
    have h1 : |b + x z| ≤ B + N z := (abs_add_le _ _).trans (add_le_add hb z1)
    have h2 : |(a + y z) - (b + x z)| ≤ (B + N z) * (ulp ^ (k + c) - 1) := by
      rw [show (a + y z) - (b + x z) = (a - b) + (y z - x z) by ring, add_mul]
      exact (abs_add_le _ _).trans (add_le_add hab (z2.trans (mul_le_mul_of_nonneg_left
        (sub_le_sub_right (ulp_pow_mono (by omega)) _) hN)))
    have h3 : |fl (a + y z) - (b + x z)| ≤ (B + N z) * (ulp ^ (k + (c + 1)) - 1) := Drifted.next hfl h2 h1 (by ring)
    rw [List.map_cons, List.sum_cons, ← add_assoc, List.length_cons]
    cases i with
    | zero =>
      obtain rfl : fl (a + y z) = Y := by simpa [Rounded.prefixSums] using hY
      obtain rfl : b + x z = X := by simpa [Proc.prefixSums] using hX
      refine ⟨h3.trans (mul_le_mul (by linarith) (sub_le_sub_right (ulp_pow_mono (by omega)) _) ?_ (by linarith)), by linarith⟩
      linarith [ulp_pow_ge (k + (c + 1))]
    | succ i =>
      have := ih (fun v hv => hz v (by simp [hv])) h3 h1 (i := i) (X := X) (Y := Y) (by simpa [Rounded.prefixSums] using hY)
        (by simpa [Proc.prefixSums] using hX)
      rw [show k + c + (l.length + 1) = k + (c + 1) + l.length by omega]
      exact this

/-- A number that is compared with the entries of a table. -/
theorem compare_close (hfl : Rounding fl) {R u X Y X' Y' : ℚ} {k : Nat} (hu : 0 ≤ u) (hu1 : u ≤ 1) (h : |Y - X| ≤ R * (ulp ^ k - 1))
    (h' : |Y' - X'| ≤ R * (ulp ^ k - 1)) (hX' : |X'| ≤ R) (haway : 2 * R * (ulp ^ (k + 1) - 1) < |X - u * X'|) :
    Y < fl (u * Y') ↔ X < u * X' := by
  have hR : 0 ≤ R := (abs_nonneg _).trans hX'
  have h1 : |u * Y' - u * X'| ≤ R * (ulp ^ k - 1) := by
    rw [← mul_sub, abs_mul, abs_of_nonneg hu]
    exact (mul_le_of_le_one_left (abs_nonneg _) hu1).trans h'
  have h2 : |u * X'| ≤ R := by
    rw [abs_mul, abs_of_nonneg hu]
    exact (mul_le_of_le_one_left (abs_nonneg _) hu1).trans hX'
  have h3 : |fl (u * Y') - u * X'| ≤ R * (ulp ^ (k + 1) - 1) := Drifted.next hfl h1 h2 (by ring)
  have h4 : |Y - X| ≤ R * (ulp ^ (k + 1) - 1) := h.trans (mul_le_mul_of_nonneg_left (sub_le_sub_right (ulp_pow_mono (by omega)) _) hR)
  rw [abs_le] at h3 h4
  rw [lt_abs] at haway
  constructor
  · intro hlt
    rcases haway with h | h <;> linarith [h3.1, h3.2, h4.1, h4.2]
  · intro hlt
    rcases haway with h | h <;> linarith [h3.1, h3.2, h4.1, h4.2]

/-- Two tables of running sums of nearly the same numbers: the same entry is found. -/
theorem lowerBound_close {α : Type _} (hfl : Rounding fl) {x y N : α → ℚ} {k : Nat} {l : List α}
    (hl : ∀ z ∈ l, |x z| ≤ N z ∧ |y z - x z| ≤ N z * (ulp ^ k - 1)) {u X' Y' : ℚ} (hu : 0 ≤ u) (hu1 : u ≤ 1)
    (hX : (Proc.prefixSums 0 (l.map x)).getLast? = some X') (hY : (Rounded.prefixSums fl 0 (l.map y)).getLast? = some Y')
    (haway : ∀ X ∈ Proc.prefixSums 0 (l.map x), 2 * (l.map N).sum * (ulp ^ (k + l.length + 1) - 1) < |X - u * X'|) :
    lowerBound (fun z => decide (z < fl (u * Y'))) (Rounded.prefixSums fl 0 (l.map y)) =
      lowerBound (fun z => decide (z < u * X')) (Proc.prefixSums 0 (l.map x)) := by
  have hlen : (Rounded.prefixSums fl 0 (l.map y)).length = (Proc.prefixSums 0 (l.map x)).length := by
    rw [Rounded.length_prefixSums, ← Rounded.prefixSums_id, Rounded.length_prefixSums, List.length_map, List.length_map]
  have close : ∀ {i : Nat} {X Y : ℚ}, (Rounded.prefixSums fl 0 (l.map y))[i]? = some Y → (Proc.prefixSums 0 (l.map x))[i]? = some X →
      |Y - X| ≤ (l.map N).sum * (ulp ^ (k + l.length) - 1) ∧ |X| ≤ (l.map N).sum := by
    intro i X Y h1 h2
    have := prefix_close hfl l hl (c := 0) (a := 0) (b := 0) (B := 0) (by simp) (by simp) h1 h2
    simpa using this
  rw [List.getLast?_eq_getElem?] at hX hY
  rw [hlen] at hY
  obtain ⟨c1, c2⟩ := close hY hX
  refine lowerBound_congr hlen fun i Y X h1 h2 => decide_eq_decide.2 ?_
  exact compare_close hfl hu hu1 (close h1 h2).1 c1 c2 (haway X (List.mem_of_getElem? h2))

/-! ### The selection -/

theorem prefixSums_ones {r : ℚ} (l : List ℚ) : (∀ m ∈ l, m = 1) → ∀ {a X : ℚ} {i : Nat},
    (Proc.prefixSums a (l.map fun m => r * m))[i]? = some X → X = a + (i + 1) * r := by
  induction l with
  | nil => intro _ a X i h; simp [Proc.prefixSums] at h
  | cons m l ih =>
    intro hm a X i h
    have hm1 := hm m (by simp)
    subst hm1
    cases i with
    | zero =>
      obtain rfl : a + r = X := by simpa [Proc.prefixSums] using h
      push_cast
      ring
    | succ i =>
      have := ih (fun x hx => hm x (by simp [hx])) (a := a + r) (X := X) (i := i) (by simpa [Proc.prefixSums] using h)
      rw [this]
      push_cast
      ring

/-- The random numbers `d` are not close to a border, in a state `t` with exact totals: neither between two processes nor, for the process
that is selected, between two sites. -/
structure Away (n k : Nat) (t : Sim ℚ) (d : Draws ℚ) : Prop where
  process0 : 0 ≤ d.process
  process1 : d.process ≤ 1
  site0 : 0 ≤ d.site
  site1 : d.site ≤ 1
  process : ∀ total, Interactions.totalRate t.table = .ok total → ∀ e ∈ t.table,
    2 * (t.ms.procs.map fun p => (n * p.rate : ℚ)).sum * ((1 + 1 / 2 ^ 53) ^ (k + t.ms.procs.length + 1) - 1) < |e.1 - d.process * total|
  site : ∀ j p, pickProcessIndex t.table d.process = .ok j → t.ms.procs[j]? = some p → ∀ i < p.sites.length,
    2 * p.sites.length * ((1 + 1 / 2 ^ 53) ^ (p.sites.length + 1) - 1) < |(i + 1 : ℚ) - d.site * p.sites.length|

theorem totals_same {n k : Nat} {ps qs : List (Proc ℚ)} (hf : ps.map Proc.faded = qs.map Proc.faded) (hd : ∀ p ∈ ps, Drifted n k p)
    (hq : ∀ q ∈ qs, q.totalRate = q.weights.sum) : qs.map (·.totalRate) = ps.map fun p => (p.sites.length * p.rate : ℚ) := by
  refine List.ext_getElem? fun j => ?_
  rw [List.getElem?_map, List.getElem?_map]
  cases hp : ps[j]? with
  | none =>
    have e := congrArg List.length hf
    rw [List.length_map, List.length_map] at e
    rw [List.getElem?_eq_none (by rw [← e]; exact List.getElem?_eq_none_iff.1 hp)]
    rfl
  | some p =>
    obtain ⟨q, hqj, hpq⟩ := faded_get hf hp
    have hdp := hd p (List.mem_of_getElem? hp)
    have e1 : p.sites = q.sites := (congrArg Proc.sites hpq :)
    have e2 : p.rate = q.rate := (congrArg Proc.rate hpq :)
    have e3 : p.siteMult = q.siteMult := (congrArg Proc.siteMult hpq :)
    have e4 : p.custom = q.custom := (congrArg Proc.custom hpq :)
    rw [hqj]
    simp only [Option.map_some, Option.some.injEq]
    rw [hq q (List.mem_of_getElem? hqj)]
    unfold Proc.weights
    rw [← e4, hdp.constant, ← e2, ← e3]
    simp only [Bool.false_eq_true, if_false]
    rw [List.map_congr_left (g := fun _ => p.rate) fun m hm => by rw [hdp.ones m hm, mul_one]]
    rw [List.map_const', List.sum_replicate, hdp.mults, nsmul_eq_mul]

theorem process_same (hfl : Rounding fl) {n k : Nat} {ps qs : List (Proc ℚ)} (hf : ps.map Proc.faded = qs.map Proc.faded)
    (hd : ∀ p ∈ ps, Drifted n k p) (hn : ∀ p ∈ ps, p.sites.length ≤ n) (hq : ∀ q ∈ qs, q.totalRate = q.weights.sum) {u : ℚ} (hu : 0 ≤ u)
    (hu1 : u ≤ 1)
    (haway : ∀ total, Interactions.totalRate (Interactions.probabilityTable qs) = .ok total → ∀ e ∈ Interactions.probabilityTable qs,
      2 * (qs.map fun p => (n * p.rate : ℚ)).sum * (ulp ^ (k + qs.length + 1) - 1) < |e.1 - u * total|) :
    Rounded.pickProcessIndex fl (Rounded.probabilityTable fl ps) u = pickProcessIndex (Interactions.probabilityTable qs) u := by
  have hlen : ps.length = qs.length := by
    have e := congrArg List.length hf
    rwa [List.length_map, List.length_map] at e
  have hfst : (Interactions.probabilityTable qs).map Prod.fst = Proc.prefixSums 0 (ps.map fun p => (p.sites.length * p.rate : ℚ)) := by
    rw [← totals_same hf hd hq]
    exact probabilityLoop_fst 0 qs
  have hNs : (qs.map fun p => (n * p.rate : ℚ)) = ps.map fun p => (n * p.rate : ℚ) := by
    have e : qs.map (fun p => p.rate) = ps.map fun p => p.rate := by
      have h := congrArg (List.map Proc.rate) hf
      rw [List.map_map, List.map_map] at h
      exact h.symm
    have h := congrArg (List.map fun r : ℚ => n * r) e
    rw [List.map_map, List.map_map] at h
    exact h
  cases hX : (Proc.prefixSums 0 (ps.map fun p => (p.sites.length * p.rate : ℚ))).getLast? with
  | none =>
    have hnil : ps = [] := by
      cases ps with
      | nil => rfl
      | cons p ps => simp [Proc.prefixSums] at hX
    subst hnil
    obtain rfl : qs = [] := by
      cases qs with
      | nil => rfl
      | cons q qs => cases hlen
    rfl
  | some X' =>
    cases hY : (Rounded.prefixSums fl 0 (ps.map (·.totalRate))).getLast? with
    | none =>
      have hnil : ps = [] := by
        cases ps with
        | nil => rfl
        | cons p ps => simp [Rounded.prefixSums] at hY
      subst hnil
      cases hX
    | some Y' =>
      have hX2 : (Rounded.prefixSums id 0 (qs.map (·.totalRate))).getLast? = some X' := by
        rw [Rounded.prefixSums_id, totals_same hf hd hq]
        exact hX
      have e2 := Rounded.pickProcessIndex_eq hX2 u
      have htot : Interactions.totalRate (Interactions.probabilityTable qs) = .ok X' := by
        unfold Interactions.totalRate
        have h := congrArg List.getLast? hfst
        rw [List.getLast?_map, hX, Option.map_eq_some_iff] at h
        obtain ⟨e, he, rfl⟩ := h
        rw [he]
      rw [Rounded.pickProcessIndex_eq hY u]
      have e3 : Rounded.pickProcessIndex id (Rounded.probabilityTable id qs) u = pickProcessIndex (Interactions.probabilityTable qs) u := by
        rw [Rounded.probabilityTable_id]
        rfl
      rw [← e3, e2]
      congr 1
      rw [Rounded.prefixSums_id, totals_same hf hd hq]
      refine lowerBound_close hfl (N := fun p => (n * p.rate : ℚ)) (fun p hp => ⟨?_, (hd p hp).close⟩) hu hu1 hX hY ?_
      · rw [abs_of_nonneg (mul_nonneg (Nat.cast_nonneg _) (hd p hp).nonneg)]
        exact mul_le_mul_of_nonneg_right (by exact_mod_cast hn p hp) (hd p hp).nonneg
      · intro X hXm
        rw [← hfst] at hXm
        obtain ⟨e, he, rfl⟩ := List.mem_map.1 hXm
        have := haway X' htot e he
        rw [hNs, ← hlen] at this
        exact this

theorem total_close (hfl : Rounding fl) {n k : Nat} {ps qs : List (Proc ℚ)} (hf : ps.map Proc.faded = qs.map Proc.faded)
    (hd : ∀ p ∈ ps, Drifted n k p) (hn : ∀ p ∈ ps, p.sites.length ≤ n) (hq : ∀ q ∈ qs, q.totalRate = q.weights.sum) {X Y : ℚ}
    (hY : Interactions.totalRate (Rounded.probabilityTable fl ps) = .ok Y)
    (hX : Interactions.totalRate (Interactions.probabilityTable qs) = .ok X) :
    |Y - X| ≤ (qs.map fun p => (n * p.rate : ℚ)).sum * (ulp ^ (k + qs.length) - 1) := by
  have hlen : ps.length = qs.length := by
    have e := congrArg List.length hf
    rwa [List.length_map, List.length_map] at e
  have hNs : (qs.map fun p => (n * p.rate : ℚ)) = ps.map fun p => (n * p.rate : ℚ) := by
    have h := congrArg (List.map fun p : Proc ℚ => (n * p.rate : ℚ)) hf
    rw [List.map_map, List.map_map] at h
    exact h.symm
  have last : ∀ {l : List (ℚ × Nat)} {z : ℚ}, Interactions.totalRate l = .ok z → (l.map Prod.fst)[l.length - 1]? = some z := by
    intro l z h
    unfold Interactions.totalRate at h
    cases hl : l.getLast? with
    | none => rw [hl] at h; cases h
    | some e =>
      rw [hl] at h
      obtain rfl := Except.ok.inj h
      rw [List.getLast?_eq_getElem?] at hl
      rw [List.getElem?_map, hl]
      rfl
  have e1 : (Rounded.probabilityTable fl ps).length = ps.length := by
    rw [← List.length_map (f := Prod.fst), Rounded.probabilityTable, Rounded.probabilityLoop_fst, Rounded.length_prefixSums,
      List.length_map]
  have e2 : (Interactions.probabilityTable qs).length = ps.length := by
    rw [← List.length_map (f := Prod.fst), Interactions.probabilityTable, probabilityLoop_fst, ← Rounded.prefixSums_id,
      Rounded.length_prefixSums, List.length_map, hlen]
  have gY := last hY
  have gX := last hX
  rw [e1, Rounded.probabilityTable, Rounded.probabilityLoop_fst] at gY
  rw [e2, Interactions.probabilityTable, probabilityLoop_fst, totals_same hf hd hq] at gX
  have := (prefix_close hfl ps (N := fun p => (n * p.rate : ℚ)) (fun p hp => ⟨by
      rw [abs_of_nonneg (mul_nonneg (Nat.cast_nonneg _) (hd p hp).nonneg)]
      exact mul_le_mul_of_nonneg_right (by exact_mod_cast hn p hp) (hd p hp).nonneg, (hd p hp).close⟩) (c := 0) (a := 0) (b := 0) (B := 0)
    (by simp) (by simp) gY gX).1
  rw [hNs, ← hlen]
  simpa using this

theorem site_same (hfl : Rounding fl) {n k : Nat} {p q p' : Proc ℚ} (hpq : p.faded = q.faded) (hd : Drifted n k p) (hpos : 0 < p.rate)
    (hp' : Rounded.updateRateTable fl p = .ok p') {u : ℚ} (hu : 0 ≤ u) (hu1 : u ≤ 1)
    (haway : ∀ i < p.sites.length, 2 * p.sites.length * (ulp ^ (p.sites.length + 1) - 1) < |(i + 1 : ℚ) - u * p.sites.length|) :
    ∃ q', q.updateRateTable = .ok q' ∧ Rounded.pickSite fl p' u = q'.pickSite u := by
  have e1 : p.sites = q.sites := (congrArg Proc.sites hpq :)
  have e2 : p.rate = q.rate := (congrArg Proc.rate hpq :)
  have e3 : p.siteMult = q.siteMult := (congrArg Proc.siteMult hpq :)
  have e4 : p.custom = q.custom := (congrArg Proc.custom hpq :)
  unfold Rounded.updateRateTable at hp'
  rw [hd.constant] at hp'
  obtain rfl := Except.ok.inj hp'
  refine ⟨{ q with rateTable := Proc.prefixSums 0 (p.siteMult.map fun m => p.rate * m) }, ?_, ?_⟩
  · unfold Proc.updateRateTable
    rw [← e4, hd.constant, ← e2, ← e3]
    rfl
  unfold Rounded.pickSite Proc.pickSite
  dsimp only
  have hx : ∀ m ∈ p.siteMult, |p.rate * m| ≤ (fun _ : ℚ => p.rate) m ∧ |fl (p.rate * m) - p.rate * m| ≤ (fun _ : ℚ => p.rate) m * (ulp ^ 0 - 1) := by
    intro m hm
    rw [hd.ones m hm, mul_one, hfl.self hd.double, abs_of_pos hpos]
    simp
  cases hX : (Proc.prefixSums 0 (p.siteMult.map fun m => p.rate * m)).getLast? with
  | none =>
    have hnil : p.siteMult = [] := by
      cases h : p.siteMult with
      | nil => rfl
      | cons m l => rw [h] at hX; simp [Proc.prefixSums] at hX
    rw [hnil]
    rfl
  | some X' =>
    cases hY : (Rounded.prefixSums fl 0 (p.siteMult.map fun m => fl (p.rate * m))).getLast? with
    | none =>
      have hnil : p.siteMult = [] := by
        cases h : p.siteMult with
        | nil => rfl
        | cons m l => rw [h] at hY; simp [Rounded.prefixSums] at hY
      rw [hnil] at hX
      cases hX
    | some Y' =>
      dsimp only
      rw [e1]
      congr 1
      have hlen : (Proc.prefixSums 0 (p.siteMult.map fun m => p.rate * m)).length = p.sites.length := by
        rw [← Rounded.prefixSums_id, Rounded.length_prefixSums, List.length_map, hd.mults]
      have hlast : X' = p.sites.length * p.rate := by
        have h := hX
        rw [List.getLast?_eq_getElem?, hlen] at h
        have hpos' : 0 < p.sites.length := by
          rw [← hlen]
          have := (List.getElem?_eq_some_iff.1 h).1
          omega
        rw [prefixSums_ones _ hd.ones h, Nat.cast_sub hpos']
        push_cast
        ring
      refine lowerBound_close hfl hx hu hu1 hX hY fun X hXm => ?_
      obtain ⟨i, hi⟩ := List.mem_iff_getElem?.1 hXm
      have hil : i < p.sites.length := by
        rw [← hlen]
        exact (List.getElem?_eq_some_iff.1 hi).1
      have h := mul_lt_mul_of_pos_right (haway i hil) hpos
      rw [prefixSums_ones _ hd.ones hi, hlast, List.map_const', List.sum_replicate, nsmul_eq_mul, hd.mults, Nat.zero_add]
      rw [← abs_of_pos hpos, ← abs_mul, abs_of_pos hpos] at h
      rw [show 0 + ((i : ℚ) + 1) * p.rate - u * (p.sites.length * p.rate) = ((i : ℚ) + 1 - u * p.sites.length) * p.rate by ring]
      calc _ = 2 * (p.sites.length : ℚ) * (ulp ^ (p.sites.length + 1) - 1) * p.rate := by ring
        _ < _ := by rw [abs_mul, abs_of_pos hpos] at h ⊢; exact h

/-! ### Steps and runs -/

variable {env : Env ℚ} {n nT : Nat} {negLog : ℚ → Option ℚ} {cfg : Config ℚ} {procs : List (Proc ℚ)}

theorem select_same (hfl : Rounding fl) {k : Nat} {ps : List (Proc ℚ)} {t : Sim ℚ} (hf : ps.map Proc.faded = t.ms.procs.map Proc.faded)
    (hd : ∀ p ∈ ps, Drifted n k p) (hn : ∀ p ∈ ps, p.sites.length ≤ n) (hpos : ∀ p ∈ ps, 0 < p.rate)
    (hq : ∀ q ∈ t.ms.procs, q.totalRate = q.weights.sum) (htab : t.table = Interactions.probabilityTable t.ms.procs) {d : Draws ℚ}
    (ha : Away n k t d) {e : Nat × Nat × List (Proc ℚ)}
    (h : Rounded.select fl ps (Rounded.probabilityTable fl ps) d.process d.site = .ok e) :
    ∃ qs, LatticeModel.select t.ms.procs t.table d.process d.site = .ok (e.1, e.2.1, qs) := by
  have hproc := process_same hfl hf hd hn hq ha.process0 ha.process1 (htab ▸ ha.process)
  rw [← htab] at hproc
  unfold Rounded.select at h
  obtain ⟨pk, h1, h⟩ := bind_ok.1 h
  obtain ⟨site, h2, h⟩ := bind_ok.1 h
  obtain rfl := Except.ok.inj h
  unfold Rounded.pickProcess at h1
  obtain ⟨i, h3, h1⟩ := bind_ok.1 h1
  obtain ⟨p, h4, h1⟩ := bind_ok.1 h1
  obtain ⟨p', h5, h1⟩ := bind_ok.1 h1
  obtain ⟨ps', h6, h1⟩ := bind_ok.1 h1
  obtain rfl := Except.ok.inj h1
  rw [hproc] at h3
  have hp := rd_ok.1 h4
  have hpm := List.mem_of_getElem? hp
  obtain ⟨q, hqi, hpq⟩ := faded_get hf hp
  have e1 : p.sites = q.sites := (congrArg Proc.sites hpq :)
  obtain ⟨q', g1, g2⟩ := site_same hfl hpq (hd p hpm) (hpos p hpm) h5 ha.site0 ha.site1 (by
    rw [e1]
    exact ha.site i q h3 hqi)
  dsimp only at h2
  rw [g2] at h2
  refine ⟨t.ms.procs.set i q', ?_⟩
  have hw : wr t.ms.procs i q' = .ok (t.ms.procs.set i q') := wr_ok.2 ⟨(List.getElem?_eq_some_iff.1 hqi).1, rfl⟩
  unfold LatticeModel.select pickProcess
  simp only [h3, ok_bind, rd_of_getElem? hqi, g1, hw, pure_ok, h2]

theorem drawStep_same {r r' dt : ℚ} (hr : r' ≠ 0) (us : List ℚ) (h : Rounded.drawStep fl negLog r us = .ok dt) :
    ∃ u ∈ us, ∃ l, negLog u = some l ∧ dt = fl (l / r) ∧ LatticeModel.drawStep negLog r' us = .ok (l / r') := by
  induction us with
  | nil => cases h
  | cons u us ih =>
    by_cases hr0 : r = 0
    · exfalso
      have key : ∀ us : List ℚ, Rounded.drawStep fl negLog r us ≠ .ok dt := by
        intro us
        induction us with
        | nil => intro h; cases h
        | cons u us ih =>
          intro h
          unfold Rounded.drawStep at h
          cases hl : negLog u with
          | none => simp only [timeStep, hl] at h; exact ih h
          | some l => simp only [timeStep, hl, if_pos hr0] at h; exact ih h
      exact key _ h
    unfold Rounded.drawStep at h
    unfold LatticeModel.drawStep
    cases hl : negLog u with
    | none =>
      simp only [timeStep, hl] at h ⊢
      obtain ⟨v, hv, l, h1⟩ := ih h
      exact ⟨v, List.mem_cons_of_mem _ hv, l, h1⟩
    | some l =>
      simp only [timeStep, hl, if_neg hr, if_neg hr0] at h ⊢
      exact ⟨u, List.mem_cons_self, l, hl, (Except.ok.inj h).symm, rfl⟩

theorem step_same (hfl : Rounding fl) (hr : PositiveRates env procs) (hl : ∃ u, 0 < u ∧ u < 1 ∧ negLog u ≠ none) {k : Nat} {s s' t : Sim ℚ}
    (hs : RoundedRun fl env n nT negLog cfg procs s) (ht : GoodRun env n nT negLog cfg procs t) (hst : s.ms.faded = t.ms.faded)
    (hd : AllDrifted n k procs.length s.ms) {d : Draws ℚ} (ha : Away n k t d) (h : Rounded.step fl env negLog s d = .ok s') :
    ∃ t', LatticeModel.step env negLog t d = .ok t' ∧ s'.ms.faded = t'.ms.faded ∧
      ∃ u ∈ d.time, ∃ l X Y, negLog u = some l ∧ Interactions.totalRate t.table = .ok X ∧ 0 < X ∧
        |Y - X| ≤ (t.ms.procs.map fun p => (n * p.rate : ℚ)).sum * (ulp ^ (k + t.ms.procs.length) - 1) ∧
        s'.time = fl (s.time + fl (l / Y)) ∧ t'.time = t.time + l / X := by
  have hdp : ∀ p ∈ s.ms.procs, Drifted n k p ∧ p.sites.length ≤ n ∧ 0 < p.rate := by
    intro p hp
    obtain ⟨j, hj⟩ := List.mem_iff_getElem?.1 hp
    obtain ⟨p', hp', h1⟩ := hd j (by rw [← hs.processes_length hr hl]; exact (List.getElem?_eq_some_iff.1 hj).1)
    rw [hj] at hp'
    obtain rfl := Option.some.inj hp'
    refine ⟨h1, hs.few hr hl hj, ?_⟩
    obtain ⟨q, hq, hpq⟩ := faded_get (MState.faded_procs hst) hj
    obtain ⟨p0, hp0, -, h2, -⟩ := ht.source hq
    have e2 : p.rate = q.rate := (congrArg Proc.rate hpq :)
    rw [e2, h2]
    exact hr.constant p0 (List.mem_of_getElem? hp0)
  have htot := C25_totals ht
  unfold Rounded.step at h
  obtain ⟨s1, h1, h⟩ := bind_ok.1 h
  obtain ⟨e1, e1'⟩ := Rounded.propagateTime_ok h1
  unfold Rounded.singleStep at h
  obtain ⟨e, h2, h⟩ := bind_ok.1 h
  obtain ⟨ms1, h3, h⟩ := bind_ok.1 h
  obtain ⟨ms2, h4, h⟩ := bind_ok.1 h
  obtain rfl := Except.ok.inj h
  rw [e1] at h2 h3
  rw [e1', hs.table] at h2
  obtain ⟨qs, hsel⟩ := select_same hfl (MState.faded_procs hst) (fun p hp => (hdp p hp).1) (fun p hp => (hdp p hp).2.1)
    (fun p hp => (hdp p hp).2.2) (fun q hq => (htot.1 q hq).2.2.2) htot.2.2.1 ha h2
  obtain ⟨p, hp, hsite, hps⟩ := Rounded.select_ok h2
  have hsel' := hsel
  rw [← Rounded.select_id] at hsel'
  obtain ⟨q, hq, hsite', hps'⟩ := Rounded.select_ok hsel'
  have hf : ({ s.ms with procs := e.2.2 } : MState ℚ).faded = ({ t.ms with procs := qs } : MState ℚ).faded := by
    have hp2 := MState.faded_procs hst
    have g1 : s.ms.cfg = t.ms.cfg := MState.faded_cfg hst
    have g2 : s.ms.inverse = t.ms.inverse := (congrArg MState.inverse hst :)
    have g3 : s.ms.rates = t.ms.rates := (congrArg MState.rates hst :)
    unfold MState.faded
    dsimp only at hps' ⊢
    rw [hps, hps', hp2, g1, g2, g3]
  obtain ⟨mt1, k1, k2⟩ := map_ok_of (Rounded.performAt_faded hf e.1 e.2.1) h3
  obtain ⟨mt2, k3, k4⟩ := map_ok_of (Rounded.rematch_faded env k2 e.1) h4
  have hne : t.ms.procs ≠ [] := by
    intro h0
    rw [h0] at hq
    cases hq
  have hR : 0 < (t.ms.procs.map (·.weights.sum)).sum := by
    have ha : Interactions.totalAvailableSites t.ms.procs ≠ 0 := by
      rw [htot.2.1]
      intro h0
      have := List.sum_eq_zero_iff.1 h0 _ (List.mem_map_of_mem (f := fun p : Proc ℚ => p.sites.length)
        (List.mem_of_getElem? hq))
      rw [List.length_eq_zero_iff] at this
      rw [this] at hsite'
      cases hsite'
    have := (sumRates_pos ht hr ha).2
    unfold sumRates at this
    have e : t.ms.procs.map (·.totalRate) = t.ms.procs.map (·.weights.sum) :=
      List.map_congr_left fun p hp => (htot.1 p hp).2.2.2
    rw [e] at this
    exact this
  unfold Rounded.propagateTime at h1
  obtain ⟨r, h7, h1⟩ := bind_ok.1 h1
  obtain ⟨dt, h5, h1⟩ := bind_ok.1 h1
  have h1 := congrArg Sim.time (Except.ok.inj h1)
  dsimp only at h1
  obtain ⟨u, hu, l, hlog, rfl, h6⟩ := drawStep_same hR.ne' d.time h5
  have htr := htot.2.2.2 hne
  refine ⟨⟨mt2, Interactions.probabilityTable mt2.procs, t.time + l / (t.ms.procs.map (·.weights.sum)).sum⟩, ?_, k4,
    u, hu, l, _, r, hlog, htr, hR, ?_, h1.symm, rfl⟩
  swap
  · rw [hs.table] at h7
    rw [htot.2.2.1] at htr
    exact total_close hfl (MState.faded_procs hst) (fun p hp => (hdp p hp).1) (fun p hp => (hdp p hp).2.1)
      (fun q hq => (htot.1 q hq).2.2.2) h7 htr
  unfold LatticeModel.step LatticeModel.propagateTime
  simp only [htot.2.2.2 hne, ok_bind, h6, pure_ok]
  unfold LatticeModel.singleStep
  simp only [hsel, ok_bind, k1, k3, pure_ok]

theorem run_same (hfl : Rounding fl) (hc : ConstantRates env procs) (hr : PositiveRates env procs)
    (hl : ∃ u, 0 < u ∧ u < 1 ∧ negLog u ≠ none) (ds : List (Draws ℚ)) : ∀ {k : Nat} {s s' t : Sim ℚ},
    RoundedRun fl env n nT negLog cfg procs s → GoodRun env n nT negLog cfg procs t → s.ms.faded = t.ms.faded →
    AllDrifted n k procs.length s.ms →
    (∀ ds1 d ds2 t', ds = ds1 ++ d :: ds2 → LatticeModel.run env negLog ds1 t = .ok t' → Away n (k + ds1.length * (2 * n)) t' d) →
    Rounded.run fl env negLog ds s = .ok s' →
    ∃ t', LatticeModel.run env negLog ds t = .ok t' ∧ s'.ms.faded = t'.ms.faded := by
  induction ds with
  | nil =>
    intro k s s' t _ _ hst _ _ h
    obtain rfl := Except.ok.inj h
    exact ⟨t, rfl, hst⟩
  | cons d ds ih =>
    intro k s s' t hs ht hst hd ha h
    unfold Rounded.run at h
    rw [loopM_cons] at h
    obtain ⟨s1, h1, h⟩ := bind_ok.1 h
    have ha0 := ha [] d ds t rfl rfl
    rw [List.length_nil, Nat.zero_mul, Nat.add_zero] at ha0
    obtain ⟨t1, h2, hst1, -⟩ := step_same hfl hr hl hs ht hst hd ha0 h1
    obtain ⟨t', h3, h4⟩ := ih (hs.step h1) (ht.step h2) hst1 (step_drift hfl hc hr hl hs hd h1) (fun ds1 d' ds2 t' e hrun => by
      have := ha (d :: ds1) d' ds2 t' (by rw [e]; rfl) (by
        unfold LatticeModel.run at hrun ⊢
        rw [loopM_cons, h2, ok_bind]
        exact hrun)
      rw [List.length_cons, Nat.succ_mul, show k + (ds1.length * (2 * n) + 2 * n) = k + 2 * n + ds1.length * (2 * n) by omega] at this
      exact this) h
    refine ⟨t', ?_, h4⟩
    unfold LatticeModel.run at h3 ⊢
    rw [loopM_cons, h2, ok_bind]
    exact h3

theorem init_faded {s0 t0 : Sim ℚ} (h0 : Rounded.init fl env cfg procs = .ok s0) (ht0 : LatticeModel.init env cfg procs = .ok t0) :
    s0.ms.faded = t0.ms.faded ∧ s0.time = 0 ∧ t0.time = 0 := by
  unfold Rounded.init at h0
  obtain ⟨ms, h2, h0⟩ := bind_ok.1 h0
  obtain rfl := Except.ok.inj h0
  obtain ⟨mt, h3, h4⟩ := map_ok_of (Rounded.initialMatching_faded env cfg procs) h2
  unfold LatticeModel.init at ht0
  rw [h3, ok_bind] at ht0
  obtain rfl := Except.ok.inj ht0
  exact ⟨h4, rfl, rfl⟩

/-- C55 (partial: constant rates, and nothing about the time). A run with rounding whose random numbers stay away from the borders between
two processes and between two sites, in the run in exact arithmetic, by twice the rounding errors made so far, selects the same events as
the run in exact arithmetic with the same random numbers. It ends with the same configuration and the same listed sites. -/
theorem C55_near_ties_partial (hfl : Rounding fl) (hin : WellFormed env n nT cfg procs) (hc : ConstantRates env procs)
    (hr : PositiveRates env procs) (hl : ∃ u, 0 < u ∧ u < 1 ∧ negLog u ≠ none) {s0 s t0 : Sim ℚ} {ds : List (Draws ℚ)}
    (h0 : Rounded.init fl env cfg procs = .ok s0) (h1 : Rounded.run fl env negLog ds s0 = .ok s)
    (ht0 : LatticeModel.init env cfg procs = .ok t0)
    (ha : ∀ ds1 d ds2 t, ds = ds1 ++ d :: ds2 → LatticeModel.run env negLog ds1 t0 = .ok t → Away n (2 * n * (ds1.length + 1)) t d) :
    ∃ t, LatticeModel.run env negLog ds t0 = .ok t ∧ t.ms.cfg = s.ms.cfg ∧
      t.ms.procs.map (fun p => { p with totalRate := 0, rateTable := [] }) =
        s.ms.procs.map (fun p => { p with totalRate := 0, rateTable := [] }) := by
  have hoff : env.useCustomRates = true → CustomRatesOk env n nT cfg procs := fun h => (by rw [hc.off] at h; cases h)
  have hs : RoundedRun fl env n nT negLog cfg procs s0 := ⟨hin, hoff, s0, [], h0, rfl⟩
  have ht : GoodRun env n nT negLog cfg procs t0 := ⟨hin, hoff, t0, [], ht0, rfl⟩
  obtain ⟨hst, -, -⟩ := init_faded h0 ht0
  obtain ⟨t, h2, h3⟩ := run_same hfl hc hr hl ds hs ht hst (init_drift hfl hin hc hr hl h0) (fun ds1 d ds2 t' e hrun => by
    have := ha ds1 d ds2 t' e hrun
    rw [show 2 * n * (ds1.length + 1) = 2 * n + ds1.length * (2 * n) by ring] at this
    exact this) h1
  exact ⟨t, h2, (MState.faded_cfg h3).symm, (MState.faded_procs h3).symm⟩

/-! ### The time -/

/-- One more rounding. -/
theorem next_factor (hfl : Rounding fl) {F N x w : ℚ} (h1 : |x - w| ≤ N * (F - 1)) (h2 : |w| ≤ N) : |fl x - w| ≤ N * (F * ulp - 1) := by
  have h4 := hfl.error x
  have h6 : |x| ≤ N * F := by
    rw [show x = w + (x - w) by ring]
    refine (abs_add_le _ _).trans ((add_le_add h2 h1).trans (le_of_eq ?_))
    ring
  have h7 : |fl x - w| ≤ |fl x - x| + |x - w| := by
    rw [show fl x - w = (fl x - x) + (x - w) by ring]
    exact abs_add_le _ _
  refine h7.trans ((add_le_add (h4.trans (div_le_div_of_nonneg_right h6 (by positivity))) h1).trans (le_of_eq ?_))
  unfold ulp
  ring

theorem quotient_close {X Y l δ ε : ℚ} (hX : 0 < X) (hl : 0 ≤ l) (hε : ε ≤ 1) (h : |Y - X| ≤ δ) (hδ : 2 * δ ≤ ε * X) :
    |l / Y - l / X| ≤ l / X * ε := by
  have hXε : ε * X ≤ X := mul_le_of_le_one_left hX.le hε
  have hY : X / 2 ≤ Y := by
    rw [abs_le] at h
    linarith [h.1]
  have hYpos : 0 < Y := by linarith
  have e : l / Y - l / X = l / X * ((X - Y) / Y) := by
    field_simp
  rw [e, abs_mul, abs_of_nonneg (div_nonneg hl hX.le)]
  refine mul_le_mul_of_nonneg_left ?_ (div_nonneg hl hX.le)
  rw [abs_div, abs_of_pos hYpos, div_le_iff₀ hYpos, abs_sub_comm]
  have hε0 : 0 ≤ ε := by
    have : 0 ≤ ε * X := by linarith [abs_nonneg (Y - X)]
    exact nonneg_of_mul_nonneg_left this hX
  nlinarith

theorem time_next (hfl : Rounding fl) {a b dt z ε : ℚ} {c : Nat} (hb : 0 ≤ b) (hdt : 0 ≤ dt) (hε : 0 ≤ ε)
    (h : |a - b| ≤ b * ((1 + ε) * ulp ^ (c + 1) - 1)) (hz : |z - dt| ≤ dt * ε) :
    |fl (a + fl z) - (b + dt)| ≤ (b + dt) * ((1 + ε) * ulp ^ (c + 2) - 1) := by
  have h1 : |fl z - dt| ≤ dt * ((1 + ε) * ulp - 1) :=
    next_factor hfl (by rw [add_sub_cancel_left]; exact hz) (by rw [abs_of_nonneg hdt])
  have h2 : (1 + ε) * ulp ≤ (1 + ε) * ulp ^ (c + 1) := by
    refine mul_le_mul_of_nonneg_left ?_ (by linarith)
    calc ulp = ulp ^ 1 := (pow_one _).symm
      _ ≤ _ := ulp_pow_mono (by omega)
  have h3 : |a + fl z - (b + dt)| ≤ (b + dt) * ((1 + ε) * ulp ^ (c + 1) - 1) := by
    rw [show a + fl z - (b + dt) = (a - b) + (fl z - dt) by ring, add_mul]
    exact (abs_add_le _ _).trans (add_le_add h (h1.trans (mul_le_mul_of_nonneg_left (by linarith) hdt)))
  have := next_factor hfl h3 (by rw [abs_of_nonneg (by linarith)])
  rw [show (1 + ε) * ulp ^ (c + 2) = (1 + ε) * ulp ^ (c + 1) * ulp by ring]
  exact this

/-- The total rate of the state `t` is large compared with its rounding error. -/
def Steady (ε : ℚ) (n k : Nat) (t : Sim ℚ) : Prop := ∀ total, Interactions.totalRate t.table = .ok total →
  2 * (t.ms.procs.map fun p => (n * p.rate : ℚ)).sum * ((1 + 1 / 2 ^ 53) ^ (k + t.ms.procs.length) - 1) ≤ ε * total

theorem run_same_time (hfl : Rounding fl) (hc : ConstantRates env procs) (hr : PositiveRates env procs)
    (hl : ∃ u, 0 < u ∧ u < 1 ∧ negLog u ≠ none) {ε : ℚ} (hε0 : 0 ≤ ε) (hε : ε ≤ 1) (ds : List (Draws ℚ)) :
    ∀ {k c : Nat} {s s' t : Sim ℚ},
    (∀ d ∈ ds, ∀ u ∈ d.time, ∀ l, negLog u = some l → 0 ≤ l) →
    RoundedRun fl env n nT negLog cfg procs s → GoodRun env n nT negLog cfg procs t → s.ms.faded = t.ms.faded →
    AllDrifted n k procs.length s.ms →
    (∀ ds1 d ds2 t', ds = ds1 ++ d :: ds2 → LatticeModel.run env negLog ds1 t = .ok t' →
      Away n (k + ds1.length * (2 * n)) t' d ∧ Steady ε n (k + ds1.length * (2 * n)) t') →
    0 ≤ t.time → |s.time - t.time| ≤ t.time * ((1 + ε) * ulp ^ (c + 1) - 1) →
    Rounded.run fl env negLog ds s = .ok s' →
    ∃ t', LatticeModel.run env negLog ds t = .ok t' ∧ s'.ms.faded = t'.ms.faded ∧
      |s'.time - t'.time| ≤ t'.time * ((1 + ε) * ulp ^ (c + ds.length + 1) - 1) := by
  induction ds with
  | nil =>
    intro k c s s' t _ _ _ hst _ _ _ htime h
    obtain rfl := Except.ok.inj h
    exact ⟨t, rfl, hst, htime⟩
  | cons d ds ih =>
    intro k c s s' t hlog hs ht hst hd ha ht0 htime h
    unfold Rounded.run at h
    rw [loopM_cons] at h
    obtain ⟨s1, h1, h⟩ := bind_ok.1 h
    obtain ⟨ha0, hsd⟩ := ha [] d ds t rfl rfl
    rw [List.length_nil, Nat.zero_mul, Nat.add_zero] at ha0 hsd
    obtain ⟨t1, h2, hst1, u, hu, l, X, Y, g1, g2, g3, g4, g5, g6⟩ := step_same hfl hr hl hs ht hst hd ha0 h1
    have hl0 := hlog d List.mem_cons_self u hu l g1
    have hdt : 0 ≤ l / X := div_nonneg hl0 g3.le
    have hq := quotient_close g3 hl0 hε g4 (by
      have := hsd X g2
      unfold ulp
      rw [← mul_assoc]
      exact this)
    have htime1 : |s1.time - t1.time| ≤ t1.time * ((1 + ε) * ulp ^ (c + 1 + 1) - 1) := by
      rw [g5, g6]
      exact time_next hfl ht0 hdt hε0 htime hq
    obtain ⟨t', h3, h4, h5⟩ := ih (fun d' hd' => hlog d' (List.mem_cons_of_mem _ hd')) (hs.step h1) (ht.step h2) hst1
      (step_drift hfl hc hr hl hs hd h1) (fun ds1 d' ds2 t' e hrun => by
      have := ha (d :: ds1) d' ds2 t' (by rw [e]; rfl) (by
        unfold LatticeModel.run at hrun ⊢
        rw [loopM_cons, h2, ok_bind]
        exact hrun)
      rw [List.length_cons, Nat.succ_mul, show k + (ds1.length * (2 * n) + 2 * n) = k + 2 * n + ds1.length * (2 * n) by omega] at this
      exact this) (by rw [g6]; linarith) htime1 h
    refine ⟨t', ?_, h4, ?_⟩
    · unfold LatticeModel.run at h3 ⊢
      rw [loopM_cons, h2, ok_bind]
      exact h3
    · rw [List.length_cons, show c + (ds.length + 1) + 1 = c + 1 + ds.length + 1 by omega]
      exact h5

/-- C55 (partial: constant rates). As `C55_near_ties_partial`, and if the total rate is always large compared with its rounding error,
by a factor `2 / ε`, then the time differs from that of the run in exact arithmetic by a relative error of little more than `ε` and one
rounding error per event. -/
theorem C55_near_ties_time_partial (hfl : Rounding fl) (hin : WellFormed env n nT cfg procs) (hc : ConstantRates env procs)
    (hr : PositiveRates env procs) (hl : ∃ u, 0 < u ∧ u < 1 ∧ negLog u ≠ none) {ε : ℚ} (hε0 : 0 ≤ ε) (hε : ε ≤ 1)
    {s0 s t0 : Sim ℚ} {ds : List (Draws ℚ)} (hlog : ∀ d ∈ ds, ∀ u ∈ d.time, ∀ l, negLog u = some l → 0 ≤ l)
    (h0 : Rounded.init fl env cfg procs = .ok s0) (h1 : Rounded.run fl env negLog ds s0 = .ok s)
    (ht0 : LatticeModel.init env cfg procs = .ok t0)
    (ha : ∀ ds1 d ds2 t, ds = ds1 ++ d :: ds2 → LatticeModel.run env negLog ds1 t0 = .ok t →
      Away n (2 * n * (ds1.length + 1)) t d ∧ Steady ε n (2 * n * (ds1.length + 1)) t) :
    ∃ t, LatticeModel.run env negLog ds t0 = .ok t ∧ t.ms.cfg = s.ms.cfg ∧
      |s.time - t.time| ≤ t.time * ((1 + ε) * (1 + 1 / 2 ^ 53) ^ (ds.length + 1) - 1) := by
  have hoff : env.useCustomRates = true → CustomRatesOk env n nT cfg procs := fun h => (by rw [hc.off] at h; cases h)
  have hs : RoundedRun fl env n nT negLog cfg procs s0 := ⟨hin, hoff, s0, [], h0, rfl⟩
  have ht : GoodRun env n nT negLog cfg procs t0 := ⟨hin, hoff, t0, [], ht0, rfl⟩
  obtain ⟨hst, z1, z2⟩ := init_faded h0 ht0
  obtain ⟨t, h2, h3, h4⟩ := run_same_time hfl hc hr hl hε0 hε ds (c := 0) hlog hs ht hst (init_drift hfl hin hc hr hl h0)
    (fun ds1 d ds2 t' e hrun => by
      have := ha ds1 d ds2 t' e hrun
      rw [show 2 * n * (ds1.length + 1) = 2 * n + ds1.length * (2 * n) by ring] at this
      exact this) z2.ge (by rw [z1, z2]; simp) h1
  rw [Nat.zero_add] at h4
  exact ⟨t, h2, (MState.faded_cfg h3).symm, h4⟩

/-! ### The theorems are about something -/

namespace Sample

/-- An executable check of `Away`. -/
def awayCheck (n k : Nat) (t : Sim ℚ) (d : Draws ℚ) : Bool :=
  decide (0 ≤ d.process) && decide (d.process ≤ 1) && decide (0 ≤ d.site) && decide (d.site ≤ 1) &&
  (match Interactions.totalRate t.table with
    | .ok total => t.table.all fun e =>
        decide (2 * (t.ms.procs.map fun p => (n * p.rate : ℚ)).sum * ((1 + 1 / 2 ^ 53) ^ (k + t.ms.procs.length + 1) - 1) <
          |e.1 - d.process * total|)
    | .error _ => true) &&
  (match pickProcessIndex t.table d.process with
    | .ok j =>
      match t.ms.procs[j]? with
      | some p => (List.range p.sites.length).all fun i =>
          decide (2 * p.sites.length * ((1 + 1 / 2 ^ 53) ^ (p.sites.length + 1) - 1) < |(i + 1 : ℚ) - d.site * p.sites.length|)
      | none => true
    | .error _ => true)

theorem awayCheck_ok {n k : Nat} {t : Sim ℚ} {d : Draws ℚ} (h : awayCheck n k t d = true) : Away n k t d := by
  unfold awayCheck at h
  simp only [Bool.and_eq_true, decide_eq_true_eq] at h
  obtain ⟨⟨⟨⟨⟨h1, h2⟩, h3⟩, h4⟩, h5⟩, h6⟩ := h
  refine ⟨h1, h2, h3, h4, fun total ht e he => ?_, fun j p hj hp i hi => ?_⟩
  · rw [ht] at h5
    simpa using List.all_eq_true.1 h5 e he
  · rw [hj] at h6
    dsimp only at h6
    rw [hp] at h6
    simpa using List.all_eq_true.1 h6 i (List.mem_range.2 hi)

/-- An executable check of `Steady`. -/
def steadyCheck (ε : ℚ) (n k : Nat) (t : Sim ℚ) : Bool :=
  match Interactions.totalRate t.table with
  | .ok total => decide (2 * (t.ms.procs.map fun p => (n * p.rate : ℚ)).sum * ((1 + 1 / 2 ^ 53) ^ (k + t.ms.procs.length) - 1) ≤ ε * total)
  | .error _ => true

theorem steadyCheck_ok {ε : ℚ} {n k : Nat} {t : Sim ℚ} (h : steadyCheck ε n k t = true) : Steady ε n k t := by
  intro total ht
  unfold steadyCheck at h
  rw [ht] at h
  simpa using h

def quarter : Draws ℚ := ⟨[1 / 2], 1 / 4, 1 / 4⟩

end Sample

set_option synthInstance.maxSize 1000 in
/-- Three atoms that decay with rate 0.1 and one with rate 0.3, in double precision. The stored total rates are not exact, the random
numbers are not close to a border. -/
example : ∃ (cfg : Config ℚ) (procs : List (Proc ℚ)) (s0 s t0 : Sim ℚ) (ds : List (Draws ℚ)),
    WellFormed (Sample.env Sample.ring) 4 4 cfg procs ∧ ConstantRates (Sample.env Sample.ring) procs ∧
    PositiveRates (Sample.env Sample.ring) procs ∧ (∃ u, 0 < u ∧ u < 1 ∧ Sample.lg u ≠ none) ∧
    (∀ d ∈ ds, ∀ u ∈ d.time, ∀ l, Sample.lg u = some l → 0 ≤ l) ∧
    Rounded.init toDouble (Sample.env Sample.ring) cfg procs = .ok s0 ∧
    Rounded.run toDouble (Sample.env Sample.ring) Sample.lg ds s0 = .ok s ∧
    LatticeModel.init (Sample.env Sample.ring) cfg procs = .ok t0 ∧ ds.length = 2 ∧
    s0.ms.procs.map (·.totalRate) ≠ t0.ms.procs.map (·.totalRate) ∧
    ∀ ds1 d ds2 t, ds = ds1 ++ d :: ds2 → LatticeModel.run (Sample.env Sample.ring) Sample.lg ds1 t0 = .ok t →
      Away 4 (2 * 4 * (ds1.length + 1)) t d ∧ Steady (1 / 2 ^ 40) 4 (2 * 4 * (ds1.length + 1)) t := by
  obtain ⟨cfg, ps, hcfg, hps, hin⟩ := Sample.goodCheck_ok (env := Sample.env Sample.ring) (P := Sample.ring) (els := Sample.threeAndOne)
    (procs := Sample.decay (toDouble (1 / 10)) (toDouble (3 / 10))) (by decide +kernel)
  have hrate : (Sample.decay (toDouble (1 / 10)) (toDouble (3 / 10))).map (fun ps => ps.map fun p => (p.rate, p.custom)) =
      .ok [(toDouble (1 / 10), false), (toDouble (3 / 10), false)] := by decide +kernel
  rw [hps] at hrate
  have hrate : ps.map (fun p => (p.rate, p.custom)) = [(toDouble (1 / 10), false), (toDouble (3 / 10), false)] := Except.ok.inj hrate
  have hp : ∀ p ∈ ps, p.custom = false ∧ (p.rate = toDouble (1 / 10) ∨ p.rate = toDouble (3 / 10)) := by
    intro p hp
    have : (p.rate, p.custom) ∈ [(toDouble (1 / 10), false), (toDouble (3 / 10), false)] := by
      rw [← hrate]
      exact List.mem_map_of_mem (f := fun p : Proc ℚ => (p.rate, p.custom)) hp
    simp only [List.mem_cons, Prod.mk.injEq, List.not_mem_nil, or_false] at this
    rcases this with h | h
    · exact ⟨h.2, .inl h.1⟩
    · exact ⟨h.2, .inr h.1⟩
  have hgo : ∀ {ds : List (Draws ℚ)} {s : Sim ℚ}, Sample.go (Sample.env Sample.ring) Sample.ring Sample.threeAndOne
      (Sample.decay (toDouble (1 / 10)) (toDouble (3 / 10))) ds = .ok s →
      ∃ t0, LatticeModel.init (Sample.env Sample.ring) cfg ps = .ok t0 ∧ LatticeModel.run (Sample.env Sample.ring) Sample.lg ds t0 = .ok s := by
    intro ds s h
    unfold Sample.go at h
    rw [hcfg, ok_bind, hps, ok_bind] at h
    exact bind_ok.1 h
  have hgoD : ∀ {ds : List (Draws ℚ)} {s : Sim ℚ}, Sample.goDouble (Sample.env Sample.ring) Sample.ring Sample.threeAndOne
      (Sample.decay (toDouble (1 / 10)) (toDouble (3 / 10))) ds = .ok s →
      ∃ s0, Rounded.init toDouble (Sample.env Sample.ring) cfg ps = .ok s0 ∧
        Rounded.run toDouble (Sample.env Sample.ring) Sample.lg ds s0 = .ok s := by
    intro ds s h
    unfold Sample.goDouble at h
    rw [hcfg, ok_bind, hps, ok_bind] at h
    exact bind_ok.1 h
  obtain ⟨t, ht, ft⟩ := Sample.exists_of_map (x := Sample.go (Sample.env Sample.ring) Sample.ring Sample.threeAndOne
    (Sample.decay (toDouble (1 / 10)) (toDouble (3 / 10))) []) (f := fun t => (t.ms.procs.map (·.totalRate),
      Sample.awayCheck 4 8 t Sample.quarter, Sample.steadyCheck (1 / 2 ^ 40) 4 8 t)) (b := ([3 * toDouble (1 / 10), toDouble (3 / 10)], true, true)) (by decide +kernel)
  obtain ⟨t1, ht1, ft1⟩ := Sample.exists_of_map (x := Sample.go (Sample.env Sample.ring) Sample.ring Sample.threeAndOne
    (Sample.decay (toDouble (1 / 10)) (toDouble (3 / 10))) [Sample.quarter]) (f := fun t => (Sample.awayCheck 4 16 t Sample.quarter,
      Sample.steadyCheck (1 / 2 ^ 40) 4 16 t)) (b := (true, true)) (by decide +kernel)
  obtain ⟨s0, hs0, fs0⟩ := Sample.exists_of_map (x := Sample.goDouble (Sample.env Sample.ring) Sample.ring Sample.threeAndOne
    (Sample.decay (toDouble (1 / 10)) (toDouble (3 / 10))) []) (f := fun s => decide (s.ms.procs.map (·.totalRate) =
      [3 * toDouble (1 / 10), toDouble (3 / 10)])) (b := false) (by decide +kernel)
  obtain ⟨s, hs, -⟩ := Sample.exists_of_map (x := Sample.goDouble (Sample.env Sample.ring) Sample.ring Sample.threeAndOne
    (Sample.decay (toDouble (1 / 10)) (toDouble (3 / 10))) [Sample.quarter, Sample.quarter]) (f := fun _ => ()) (b := ()) (by decide +kernel)
  obtain ⟨t0, a1, a2⟩ := hgo ht
  obtain rfl := Except.ok.inj a2
  obtain ⟨t0', b1, b2⟩ := hgo ht1
  rw [a1] at b1
  obtain rfl := Except.ok.inj b1
  obtain ⟨s0', c1, c2⟩ := hgoD hs0
  obtain rfl := Except.ok.inj c2
  obtain ⟨s0'', d1, d2⟩ := hgoD hs
  rw [c1] at d1
  obtain rfl := Except.ok.inj d1
  simp only [Prod.mk.injEq] at ft ft1
  refine ⟨cfg, ps, s0', s, t0, [Sample.quarter, Sample.quarter], hin, ⟨rfl, fun p h => (hp p h).1, fun p h => ?_⟩,
    ⟨fun p h => ?_, fun h => (by cases h)⟩, ⟨1 / 2, by norm_num, by norm_num, by decide +kernel⟩, ?_, c1, d2, a1, rfl, ?_, ?_⟩
  · rcases (hp p h).2 with e | e
    · rw [e]
      exact toDouble_rounding.isDouble _
    · rw [e]
      exact toDouble_rounding.isDouble _
  · rcases (hp p h).2 with e | e
    · rw [e]
      decide +kernel
    · rw [e]
      decide +kernel
  · intro d hd u hu l hlg
    have hd : d = Sample.quarter := by simpa using hd
    subst hd
    have hu : u = 1 / 2 := by simpa [Sample.quarter] using hu
    subst hu
    have hlg : some (1 / 2 : ℚ) = some l := by rw [← hlg]; decide +kernel
    obtain rfl := Option.some.inj hlg
    norm_num
  · rw [ft.1]
    simpa using fs0
  · intro ds1 d ds2 t e hrun
    rcases ds1 with _ | ⟨x, _ | ⟨y, ds1⟩⟩
    · obtain ⟨rfl, -⟩ := List.cons.inj e
      obtain rfl := Except.ok.inj hrun
      exact ⟨Sample.awayCheck_ok ft.2.1, Sample.steadyCheck_ok ft.2.2⟩
    · obtain ⟨rfl, e2⟩ := List.cons.inj e
      have e3 : [Sample.quarter] = d :: ds2 := e2
      obtain ⟨rfl, -⟩ := List.cons.inj e3
      rw [b2] at hrun
      obtain rfl := Except.ok.inj hrun
      exact ⟨Sample.awayCheck_ok ft1.1, Sample.steadyCheck_ok ft1.2⟩
    · have := congrArg List.length e
      simp at this

end KMC
