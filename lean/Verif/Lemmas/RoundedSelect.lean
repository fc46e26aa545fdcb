import Verif.Lemmas.Double
import Verif.Model.Rounded
import Verif.Props.Select

/-!
# Selection from rounded tables
-/

set_option linter.unusedSectionVars false

namespace KMC.Rounded

variable {fl : ℚ → ℚ}

theorem length_prefixSums (a : ℚ) (ts : List ℚ) : (prefixSums fl a ts).length = ts.length := by
  induction ts generalizing a with
  | nil => rfl
  | cons t ts ih => simp [prefixSums, ih]

theorem prefixSums_double (hfl : Rounding fl) (a : ℚ) (ts : List ℚ) : ∀ x ∈ prefixSums fl a ts, IsDouble x := by
  induction ts generalizing a with
  | nil => simp [prefixSums]
  | cons t ts ih =>
    intro x hx
    rcases List.mem_cons.1 hx with rfl | hx
    · exact hfl.isDouble _
    · exact ih _ x hx

theorem prefixSums_ge (hfl : Rounding fl) {a : ℚ} (ha : IsDouble a) {ts : List ℚ} (ht : ∀ t ∈ ts, 0 ≤ t) :
    ∀ x ∈ prefixSums fl a ts, a ≤ x := by
  induction ts generalizing a with
  | nil => simp [prefixSums]
  | cons t ts ih =>
    have h1 : a ≤ fl (a + t) := hfl.le ha (by have := ht t (by simp); linarith)
    intro x hx
    rcases List.mem_cons.1 hx with rfl | hx
    · exact h1
    · exact h1.trans (ih (hfl.isDouble _) (fun t ht' => ht t (by simp [ht'])) x hx)

theorem prefixSums_sorted (hfl : Rounding fl) {a : ℚ} {ts : List ℚ} (ht : ∀ t ∈ ts, 0 ≤ t) :
    (prefixSums fl a ts).Pairwise (· ≤ ·) := by
  induction ts generalizing a with
  | nil => exact List.Pairwise.nil
  | cons t ts ih =>
    refine List.Pairwise.cons ?_ (ih fun t ht' => ht t (by simp [ht']))
    exact prefixSums_ge hfl (hfl.isDouble _) (fun t ht' => ht t (by simp [ht']))

/-- A step up in the table is at a term that is not zero. -/
theorem prefixSums_term (hfl : Rounding fl) {a r x : ℚ} (ha : IsDouble a) (har : a < r) {ts : List ℚ} {i : Nat}
    (hx : (prefixSums fl a ts)[i]? = some x) (hrx : r ≤ x)
    (hb : ∀ j y, j < i → (prefixSums fl a ts)[j]? = some y → y < r) : ∃ t, ts[i]? = some t ∧ t ≠ 0 := by
  induction ts generalizing a i with
  | nil => simp [prefixSums] at hx
  | cons t ts ih =>
    cases i with
    | zero =>
      refine ⟨t, rfl, ?_⟩
      rintro rfl
      simp only [prefixSums, List.getElem?_cons_zero, Option.some.injEq, add_zero] at hx
      rw [hfl.self ha] at hx
      rw [hx] at har
      exact absurd hrx (not_le.2 har)
    | succ i =>
      simp only [prefixSums, List.getElem?_cons_succ] at hx ⊢
      refine ih (hfl.isDouble _) ?_ hx ?_
      · exact hb 0 _ (Nat.succ_pos i) (by simp [prefixSums])
      · intro j y hj hy
        exact hb (j + 1) y (by omega) (by simpa [prefixSums] using hy)

theorem partitioned_of_sorted {l : List ℚ} (h : l.Pairwise (· ≤ ·)) (r : ℚ) :
    Partitioned (fun x => decide (x < r)) l := by
  intro i j x y hij hx hy hlt
  obtain ⟨hi, rfl⟩ := List.getElem?_eq_some_iff.1 hx
  obtain ⟨hj, rfl⟩ := List.getElem?_eq_some_iff.1 hy
  simp only [decide_eq_true_eq] at hlt ⊢
  exact (List.pairwise_iff_getElem.1 h i j hi hj hij).trans_lt hlt

/-- A number not above the last entry is found in a sorted table. -/
theorem lowerBound_found {l : List ℚ} (h : l.Pairwise (· ≤ ·)) {last r : ℚ} (hl : l.getLast? = some last)
    (hr : r ≤ last) : ∃ x, l[lowerBound (fun x => decide (x < r)) l]? = some x ∧ r ≤ x ∧
      ∀ j y, j < lowerBound (fun x => decide (x < r)) l → l[j]? = some y → y < r := by
  obtain ⟨h1, h2, h3⟩ := lowerBound_spec _ l (partitioned_of_sorted h r)
  have hlt : lowerBound (fun x => decide (x < r)) l < l.length := by
    rcases Nat.lt_or_ge (lowerBound (fun x => decide (x < r)) l) l.length with hc | hc
    · exact hc
    · rw [List.getLast?_eq_getElem?] at hl
      have hp := (List.getElem?_eq_some_iff.1 hl).1
      have := h2 (l.length - 1) last (by omega) hl
      rw [decide_eq_true_eq] at this
      exact absurd hr (not_le.2 this)
  refine ⟨_, List.getElem?_eq_getElem hlt, ?_, ?_⟩
  · have := h3 _ _ le_rfl (List.getElem?_eq_getElem hlt)
    simpa using this
  · intro j y hj hy
    have := h2 j y hj hy
    simpa using this

/-! ### The process -/

theorem probabilityLoop_fst (a : ℚ) (procs : List (Proc ℚ)) :
    (probabilityLoop fl a procs).map Prod.fst = prefixSums fl a (procs.map (·.totalRate)) := by
  induction procs generalizing a with
  | nil => rfl
  | cons p ps ih =>
    simp only [probabilityLoop, List.map_cons, prefixSums, ih]
    rw [add_comm]

theorem pickProcessIndex_eq {procs : List (Proc ℚ)} {last : ℚ}
    (hl : (prefixSums fl 0 (procs.map (·.totalRate))).getLast? = some last) (u : ℚ) :
    pickProcessIndex fl (probabilityTable fl procs) u =
      .ok (lowerBound (fun x => decide (x < fl (u * last))) (prefixSums fl 0 (procs.map (·.totalRate)))) := by
  have h1 : ((probabilityTable fl procs).getLast?).map Prod.fst = some last := by
    rw [← List.getLast?_map, probabilityTable, probabilityLoop_fst, hl]
  obtain ⟨e, he, he1⟩ := Option.map_eq_some_iff.1 h1
  unfold pickProcessIndex Interactions.totalRate
  rw [he]
  simp only [ok_bind, he1]
  unfold lowerBound
  rw [← probabilityLoop_fst, List.length_map]
  rw [Interactions.lowerBoundLoop_map (fun x => decide (x < fl (u * last))) Prod.fst]
  simp only [probabilityTable]
  rfl

theorem exists_getLast {l : List ℚ} (h : l ≠ []) : ∃ x, l.getLast? = some x :=
  ⟨l.getLast h, List.getLast?_eq_getLast_of_ne_nil h⟩

theorem le_getLast {l : List ℚ} (h : l.Pairwise (· ≤ ·)) {last : ℚ} (hl : l.getLast? = some last) :
    ∀ x ∈ l, x ≤ last := by
  intro x hx
  rw [List.getLast?_eq_getElem?] at hl
  obtain ⟨hp, hl⟩ := List.getElem?_eq_some_iff.1 hl
  obtain ⟨i, hi, rfl⟩ := List.mem_iff_getElem.1 hx
  rw [← hl]
  rcases Nat.lt_or_ge i (l.length - 1) with hc | hc
  · exact List.pairwise_iff_getElem.1 h i _ hi hp hc
  · have : i = l.length - 1 := by omega
    subst this
    exact le_rfl

/-- With a positive term the last entry is positive. -/
theorem getLast_pos (hfl : Rounding fl) {ts : List ℚ} (ht : ∀ t ∈ ts, 0 ≤ t) {t : ℚ} (hm : t ∈ ts) (hp : 0 < t)
    {a last : ℚ} (ha : IsDouble a) (ha0 : 0 ≤ a) (hl : (prefixSums fl a ts).getLast? = some last) : 0 < last := by
  have key : ∃ x ∈ prefixSums fl a ts, 0 < x := by
    clear hl
    induction ts generalizing a with
    | nil => simp at hm
    | cons v ts ih =>
      have hv := ht v (by simp)
      rcases List.mem_cons.1 hm with rfl | hm
      · exact ⟨_, List.mem_cons_self, hfl.pos (by linarith)⟩
      · obtain ⟨x, hx, hx0⟩ := ih (fun t ht' => ht t (by simp [ht'])) hm (hfl.isDouble (a + v))
          (hfl.le isDouble_zero (by linarith))
        exact ⟨x, List.mem_cons_of_mem _ hx, hx0⟩
  obtain ⟨x, hx, hx0⟩ := key
  exact hx0.trans_le (le_getLast (prefixSums_sorted hfl ht) hl x hx)

/-! ### The site -/

theorem updateRateTable_eq {p : Proc ℚ} (h : p.siteMult.length = p.sites.length)
    (hr : p.custom = true → p.siteRates.length = p.sites.length) :
    updateRateTable fl p = .ok { p with rateTable := prefixSums fl 0 (p.weights.map fl) } := by
  unfold updateRateTable Proc.weights
  split
  · next hc =>
    rw [customTerms_eq _ _ (by rw [hr hc, h]), ok_bind]
    rfl
  · next hc =>
    rw [List.map_map]
    rfl

theorem length_weights {p : Proc ℚ} (h : p.siteMult.length = p.sites.length)
    (hr : p.custom = true → p.siteRates.length = p.sites.length) : p.weights.length = p.sites.length := by
  unfold Proc.weights
  split
  · next hc => rw [List.length_zipWith, hr hc, h, Nat.min_self]
  · rw [List.length_map, h]

/-- Some site is picked from a process with sites. -/
theorem pickSite_found (hfl : Rounding fl) {p : Proc ℚ} (h : p.siteMult.length = p.sites.length)
    (hr : p.custom = true → p.siteRates.length = p.sites.length) (hw : ∀ w ∈ p.weights, 0 ≤ w) (hne : p.sites ≠ [])
    {u : ℚ} (hu : u ≤ 1) :
    ∃ site, pickSite fl { p with rateTable := prefixSums fl 0 (p.weights.map fl) } u = .ok site ∧ site ∈ p.sites := by
  have hw' : ∀ w ∈ p.weights.map fl, 0 ≤ w := by
    intro w hw'
    obtain ⟨v, hv, rfl⟩ := List.mem_map.1 hw'
    exact hfl.le isDouble_zero (hw v hv)
  have hlen : (prefixSums fl 0 (p.weights.map fl)).length = p.sites.length := by
    rw [length_prefixSums, List.length_map, length_weights h hr]
  have hne' : prefixSums fl 0 (p.weights.map fl) ≠ [] := by
    rw [← List.length_pos_iff, hlen, List.length_pos_iff]
    exact hne
  obtain ⟨last, hl⟩ := exists_getLast hne'
  have hmem := List.mem_of_getLast? hl
  have hlast0 := prefixSums_ge hfl isDouble_zero hw' _ hmem
  have hle : fl (u * last) ≤ last := hfl.ge (prefixSums_double hfl _ _ _ hmem) (u_mul_le hu hlast0)
  obtain ⟨x, hx, -, -⟩ := lowerBound_found (prefixSums_sorted hfl hw') hl hle
  have hlt := (List.getElem?_eq_some_iff.1 hx).1
  rw [hlen] at hlt
  unfold pickSite
  dsimp only
  rw [hl]
  dsimp only
  rw [rd_of_getElem? (List.getElem?_eq_getElem hlt)]
  exact ⟨_, rfl, List.getElem_mem _⟩

end KMC.Rounded
