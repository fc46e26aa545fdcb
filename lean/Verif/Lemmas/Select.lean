import Verif.Model.Interactions
import Verif.Lemmas.Monad
import Mathlib.Algebra.Order.BigOperators.Group.List
import Mathlib.Tactic.Linarith

/-! # Binary search and cumulative tables -/

set_option linter.unusedSectionVars false

namespace KMC

/-- What `std::lower_bound` finds: everything before is ordered before the value, nothing from there
on is. -/
structure IsLowerBound {α : Type _} (less : α → Bool) (xs : List α) (k : Nat) : Prop where
  le : k ≤ xs.length
  before : ∀ i x, i < k → xs[i]? = some x → less x = true
  after : ∀ i x, k ≤ i → xs[i]? = some x → less x = false

/-- The precondition of `std::lower_bound`. -/
def Partitioned {α : Type _} (less : α → Bool) (xs : List α) : Prop :=
  ∀ (i j : Nat) (x y : α), i < j → xs[i]? = some x → xs[j]? = some y → less y = true → less x = true

theorem lowerBoundLoop_spec {α : Type _} (less : α → Bool) (xs : List α) (hp : Partitioned less xs)
    (fuel first len : Nat) (hf : len ≤ fuel) (hl : first + len ≤ xs.length)
    (hb : ∀ i x, i < first → xs[i]? = some x → less x = true)
    (ha : ∀ i x, first + len ≤ i → xs[i]? = some x → less x = false) :
    IsLowerBound less xs (lowerBoundLoop less xs fuel first len) := by
  induction fuel generalizing first len with
  | zero =>
    have : len = 0 := by omega
    subst this
    exact ⟨by simpa [lowerBoundLoop] using hl, hb, ha⟩
  | succ fuel ih =>
    rw [lowerBoundLoop]
    dsimp only
    split
    · next h => subst h; exact ⟨by simpa using hl, hb, ha⟩
    · next hlen =>
      have hlt : first + len / 2 < xs.length := by omega
      rw [List.getElem?_eq_getElem hlt]
      dsimp only
      split
      · next hx =>
        apply ih
        · omega
        · omega
        · intro i x hi hxi
          by_cases h : i = first + len / 2
          · subst h
            rw [List.getElem?_eq_getElem hlt, Option.some.injEq] at hxi
            rw [← hxi]; exact hx
          · exact hp i (first + len / 2) x _ (by omega) hxi (List.getElem?_eq_getElem hlt) hx
        · intro i x hi hxi
          exact ha i x (by omega) hxi
      · next hx =>
        apply ih
        · omega
        · omega
        · exact hb
        · intro i x hi hxi
          by_cases h : i = first + len / 2
          · subst h
            rw [List.getElem?_eq_getElem hlt, Option.some.injEq] at hxi
            rw [← hxi]; simpa using hx
          · by_contra hc
            have hc : less x = true := by simpa using hc
            exact hx (hp _ i _ x (by omega) (List.getElem?_eq_getElem hlt) hxi hc)

theorem lowerBound_spec {α : Type _} (less : α → Bool) (xs : List α) (hp : Partitioned less xs) :
    IsLowerBound less xs (lowerBound less xs) :=
  lowerBoundLoop_spec less xs hp _ _ _ le_rfl (by simp) (fun i x h => by omega)
    (fun i x h hx => by
      have := (List.getElem?_eq_some_iff.1 hx).1
      omega)

theorem IsLowerBound.unique {α : Type _} {less : α → Bool} {xs : List α} {k k' : Nat}
    (h : IsLowerBound less xs k) (h' : IsLowerBound less xs k') : k = k' := by
  by_contra hne
  rcases Nat.lt_or_gt_of_ne hne with hlt | hlt
  · have hk : k < xs.length := by have := h'.le; omega
    have h1 := h.after k xs[k] le_rfl (List.getElem?_eq_getElem hk)
    have h2 := h'.before k xs[k] hlt (List.getElem?_eq_getElem hk)
    rw [h1] at h2; cases h2
  · have hk : k' < xs.length := by have := h.le; omega
    have h1 := h'.after k' xs[k'] le_rfl (List.getElem?_eq_getElem hk)
    have h2 := h.before k' xs[k'] hlt (List.getElem?_eq_getElem hk)
    rw [h1] at h2; cases h2

section
variable {K : Type _} [Field K] [LinearOrder K]

theorem length_prefixSums (s : K) (ws : List K) : (Proc.prefixSums s ws).length = ws.length := by
  induction ws generalizing s with
  | nil => rfl
  | cons w ws ih => simp [Proc.prefixSums, ih]

theorem prefixSums_getElem? (s : K) (ws : List K) (i : Nat) (hi : i < ws.length) :
    (Proc.prefixSums s ws)[i]? = some (s + (ws.take (i + 1)).sum) := by
  induction ws generalizing s i with
  | nil => simp at hi
  | cons w ws ih =>
    cases i with
    | zero => simp [Proc.prefixSums]
    | succ i =>
      simp only [Proc.prefixSums, List.getElem?_cons_succ]
      rw [ih (s + w) i (by simpa using hi)]
      simp [add_assoc]

theorem prefixSums_getLast? (s : K) (ws : List K) (h : ws ≠ []) :
    (Proc.prefixSums s ws).getLast? = some (s + ws.sum) := by
  have hl : 0 < ws.length := List.length_pos_iff.2 h
  rw [List.getLast?_eq_getElem?, length_prefixSums, prefixSums_getElem? _ _ _ (by omega)]
  rw [List.take_of_length_le (by omega)]

variable [IsStrictOrderedRing K]

theorem take_sum_mono {ws : List K} (hw : ∀ w ∈ ws, 0 ≤ w) {i j : Nat} (h : i ≤ j) :
    (ws.take i).sum ≤ (ws.take j).sum := by
  obtain ⟨d, rfl⟩ := Nat.exists_eq_add_of_le h
  rw [List.take_add, List.sum_append]
  have : 0 ≤ ((ws.drop i).take d).sum :=
    List.sum_nonneg fun x hx => hw x (List.mem_of_mem_drop (List.mem_of_mem_take hx))
  linarith

/-- Searching a table of cumulative sums for `r`: position `k` is found exactly when the sum up to
`k` is below `r` and the sum including `k` is not. -/
theorem lowerBound_prefixSums {ws : List K} (hw : ∀ w ∈ ws, 0 ≤ w) (r : K) (k : Nat)
    (hk : k < ws.length) :
    lowerBound (fun x => decide (x < r)) (Proc.prefixSums 0 ws) = k ↔
      (k = 0 ∨ (ws.take k).sum < r) ∧ r ≤ (ws.take (k + 1)).sum := by
  have hpart : Partitioned (fun x => decide (x < r)) (Proc.prefixSums 0 ws) := by
    intro i j x y hij hx hy h
    have hj : j < ws.length := by
      have := (List.getElem?_eq_some_iff.1 hy).1
      rwa [length_prefixSums] at this
    rw [prefixSums_getElem? _ _ _ (by omega), Option.some.injEq, zero_add] at hx hy
    subst hx; subst hy
    simp only [decide_eq_true_eq] at h ⊢
    exact lt_of_le_of_lt (take_sum_mono hw (by omega)) h
  have hspec := lowerBound_spec _ _ hpart
  constructor
  · intro h
    rw [h] at hspec
    constructor
    · by_cases h0 : k = 0
      · exact .inl h0
      · right
        have := hspec.before (k - 1) _ (by omega) (prefixSums_getElem? 0 ws (k - 1) (by omega))
        simp only [decide_eq_true_eq, zero_add] at this
        rwa [show k - 1 + 1 = k by omega] at this
    · have := hspec.after k _ le_rfl (prefixSums_getElem? 0 ws k hk)
      simpa using this
  · rintro ⟨h1, h2⟩
    refine hspec.unique ⟨by rw [length_prefixSums]; omega, ?_, ?_⟩
    · intro i x hi hx
      rw [prefixSums_getElem? _ _ _ (by omega), Option.some.injEq, zero_add] at hx
      subst hx
      rcases h1 with h1 | h1
      · omega
      · simp only [decide_eq_true_eq]
        exact lt_of_le_of_lt (take_sum_mono hw (by omega)) h1
    · intro i x hi hx
      have hi' : i < ws.length := by
        have := (List.getElem?_eq_some_iff.1 hx).1
        rwa [length_prefixSums] at this
      rw [prefixSums_getElem? _ _ _ hi', Option.some.injEq, zero_add] at hx
      subst hx
      simp only [decide_eq_false_iff_not, not_lt]
      exact le_trans h2 (take_sum_mono hw (by omega))

/-- The search stays inside the table when `r` is at most the total. -/
theorem lowerBound_prefixSums_lt {ws : List K} (hw : ∀ w ∈ ws, 0 ≤ w) (hne : ws ≠ []) (r : K)
    (hr : r ≤ ws.sum) :
    lowerBound (fun x => decide (x < r)) (Proc.prefixSums 0 ws) < ws.length := by
  have hl : 0 < ws.length := List.length_pos_iff.2 hne
  have hpart : Partitioned (fun x => decide (x < r)) (Proc.prefixSums 0 ws) := by
    intro i j x y hij hx hy h
    have hj : j < ws.length := by
      have := (List.getElem?_eq_some_iff.1 hy).1
      rwa [length_prefixSums] at this
    rw [prefixSums_getElem? _ _ _ (by omega), Option.some.injEq, zero_add] at hx hy
    subst hx; subst hy
    simp only [decide_eq_true_eq] at h ⊢
    exact lt_of_le_of_lt (take_sum_mono hw (by omega)) h
  have hspec := lowerBound_spec _ _ hpart
  by_contra hge
  have := hspec.before (ws.length - 1) _ (by omega) (prefixSums_getElem? 0 ws _ (by omega))
  rw [show ws.length - 1 + 1 = ws.length by omega, List.take_length, zero_add] at this
  simp only [decide_eq_true_eq] at this
  exact absurd hr (not_le.2 this)

theorem take_succ_sum {ws : List K} {k : Nat} {w : K} (h : ws[k]? = some w) :
    (ws.take (k + 1)).sum = (ws.take k).sum + w := by
  obtain ⟨hk, rfl⟩ := List.getElem?_eq_some_iff.1 h
  rw [List.take_succ_eq_append_getElem hk, List.sum_append, List.sum_singleton]

end

namespace Interactions
variable {K : Type _} [Field K] [LinearOrder K]

theorem probabilityLoop_fst (s : K) (procs : List (Proc K)) :
    (probabilityLoop s procs).map Prod.fst = Proc.prefixSums s (procs.map (·.totalRate)) := by
  induction procs generalizing s with
  | nil => rfl
  | cons p ps ih =>
    simp only [probabilityLoop, List.map_cons, Proc.prefixSums, ih]
    rw [add_comm p.totalRate s]

theorem lowerBoundLoop_map {α β : Type _} (less : β → Bool) (g : α → β) (xs : List α)
    (fuel first len : Nat) :
    lowerBoundLoop less (xs.map g) fuel first len
      = lowerBoundLoop (fun a => less (g a)) xs fuel first len := by
  induction fuel generalizing first len with
  | zero => rfl
  | succ fuel ih =>
    simp only [lowerBoundLoop, List.getElem?_map]
    cases xs[first + len / 2]? with
    | none => rfl
    | some x => simp only [Option.map_some, ih]

theorem pick_eq (procs : List (Proc K)) (hne : procs ≠ []) (u : K) :
    pickProcessIndex (probabilityTable procs) u
      = .ok (lowerBound (fun x => decide (x < u * (procs.map (·.totalRate)).sum))
          (Proc.prefixSums 0 (procs.map (·.totalRate)))) := by
  have hne' : procs.map (·.totalRate) ≠ [] := by simpa using hne
  have h1 : ((probabilityTable procs).getLast?).map Prod.fst = some (procs.map (·.totalRate)).sum := by
    rw [← List.getLast?_map, probabilityTable, probabilityLoop_fst, prefixSums_getLast? _ _ hne',
      zero_add]
  obtain ⟨e, he, he1⟩ := Option.map_eq_some_iff.1 h1
  unfold pickProcessIndex totalRate
  rw [he]
  simp only [ok_bind, he1]
  unfold lowerBound
  rw [← probabilityLoop_fst, List.length_map]
  rw [lowerBoundLoop_map (fun x => decide (x < u * (procs.map (·.totalRate)).sum)) Prod.fst]
  simp only [probabilityTable]
  rfl

end Interactions
end KMC
