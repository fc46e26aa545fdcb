import Verif.Model.Matcher
import Verif.Lemmas.Monad
import Verif.Spec.Process
import Mathlib.Tactic.Ring
import Mathlib.Data.List.Perm.Basic
import Mathlib.Data.List.Nodup

/-!
# Bookkeeping of available sites
-/

set_option linter.unusedSectionVars false

namespace KMC

variable {K : Type _} [Field K] [LinearOrder K]

/-! ### Swap with the last element and drop it -/

theorem swapPop_ok {α : Type _} {xs : List α} {i : Nat} (h : i < xs.length) :
    ∃ ys, swapPop xs i = .ok (xs[i], ys) ∧ ys.length = xs.length - 1 ∧
      ∀ k, ys[k]? = if k < xs.length - 1 then (if k = i then xs.getLast? else xs[k]?) else none := by
  unfold swapPop
  have hne : xs ≠ [] := by rintro rfl; simp at h
  rw [List.getElem?_eq_getElem h, List.getLast?_eq_getLast_of_ne_nil hne]
  refine ⟨_, rfl, by simp, ?_⟩
  intro k
  rw [List.getElem?_dropLast, List.length_set, List.getElem?_set]
  by_cases hk : k < xs.length - 1
  · rw [if_pos hk, if_pos hk]
    by_cases hki : k = i
    · subst hki; simp [h]
    · rw [if_neg (Ne.symm hki), if_neg hki]
  · rw [if_neg hk, if_neg hk]

/-- The position, in the old list, of the element at position `k` of the shortened list. -/
def oldPos (n i k : Nat) : Nat := if k = i then n - 1 else k

theorem swapPop_ok' {α : Type _} {xs : List α} {i : Nat} (h : i < xs.length) :
    ∃ ys, swapPop xs i = .ok (xs[i], ys) ∧ ys.length = xs.length - 1 ∧
      ∀ k, k < xs.length - 1 → ys[k]? = xs[oldPos xs.length i k]? := by
  obtain ⟨ys, h1, h2, h3⟩ := swapPop_ok h
  refine ⟨ys, h1, h2, fun k hk => ?_⟩
  rw [h3, if_pos hk]
  unfold oldPos
  by_cases hki : k = i
  · rw [if_pos hki, if_pos hki, List.getLast?_eq_getElem?]
  · rw [if_neg hki, if_neg hki]

theorem swapPop_perm {α : Type _} {xs : List α} {i : Nat} (h : i < xs.length) {ys : List α}
    (hy : swapPop xs i = .ok (xs[i], ys)) : xs.Perm (xs[i] :: ys) := by
  unfold swapPop at hy
  have hne : xs ≠ [] := by rintro rfl; simp at h
  rw [List.getElem?_eq_getElem h, List.getLast?_eq_getLast_of_ne_nil hne] at hy
  simp only [Except.ok.injEq, Prod.mk.injEq, true_and] at hy
  subst hy
  obtain ⟨init, l, rfl⟩ : ∃ init l, xs = init ++ [l] := ⟨xs.dropLast, xs.getLast hne,
    (List.dropLast_append_getLast hne).symm⟩
  rw [List.getLast_append_singleton]
  by_cases hi : i < init.length
  · rw [List.set_append_left _ _ hi, List.dropLast_append_of_ne_nil (by simp)]
    simp only [List.dropLast_singleton, List.append_nil]
    rw [List.getElem_append_left hi]
    refine (List.perm_append_singleton l init).trans ?_
    have h1 : init = init.take i ++ init[i] :: init.drop (i + 1) := by
      rw [List.cons_getElem_drop_succ, List.take_append_drop]
    have h2 : init.set i l = init.take i ++ l :: init.drop (i + 1) := by
      rw [List.set_eq_take_append_cons_drop, if_pos hi]
    rw [h2]
    conv_lhs => rw [h1]
    have h3 : (init.take i ++ init[i] :: init.drop (i + 1)).Perm
        (init[i] :: (init.take i ++ init.drop (i + 1))) := List.perm_middle
    have h4 : (init.take i ++ l :: init.drop (i + 1)).Perm
        (l :: (init.take i ++ init.drop (i + 1))) := List.perm_middle
    exact ((h3.cons l).trans (List.Perm.swap _ _ _)).trans (h4.symm.cons _)
  · have hi' : i = init.length := by simp at h; omega
    subst hi'
    simp only [List.getElem_append_right (le_refl _), Nat.sub_self, List.getElem_cons_zero]
    rw [List.set_append_right _ _ (le_refl _)]
    simp [List.perm_append_singleton]

/-! ### One process -/

/-- What of a process is never changed by the bookkeeping. -/
def Proc.core (p : Proc K) : Proc K :=
  { p with sites := [], siteMult := [], siteRates := [], totalRate := 0, rateTable := [] }

/-- The record lists exactly the sites given by `A`, once each, with multiplicity one and, for custom
rates, with the rates given by `A`; and its total rate is right. -/
structure Proc.Rep (p : Proc K) (A : Nat → Option K) : Prop where
  consistent : p.Consistent
  ones : ∀ m ∈ p.siteMult, m = 1
  listed : ∀ s, s ∈ p.sites ↔ (A s).isSome
  rates : p.custom = true → ∀ (k s : Nat) (r : K), p.sites[k]? = some s → p.siteRates[k]? = some r →
    A s = some r

theorem Proc.removeSite_rep {p : Proc K} {A : Nat → Option K} (h : p.Rep A) {s : Nat}
    (hs : (A s).isSome) :
    ∃ p', p.removeSite s = .ok p' ∧ p'.core = p.core ∧
      p'.Rep (fun t => if t = s then none else A t) := by
  have hmem : s ∈ p.sites := (h.listed s).2 hs
  unfold removeSite
  cases hf : p.sites.findIdx? (fun t => decide (t = s)) with
  | none =>
    rw [List.findIdx?_eq_none_iff] at hf
    have := hf s hmem
    simp at this
  | some i =>
    obtain ⟨hi, hi1, -⟩ := List.findIdx?_eq_some_iff_getElem.1 hf
    have his : p.sites[i] = s := by simpa using hi1
    obtain ⟨ss, hss, hssl, hssg⟩ := swapPop_ok' hi
    have hperm := swapPop_perm hi hss
    have him : i < p.siteMult.length := by rw [h.consistent.mults]; exact hi
    obtain ⟨ms, hms, hmsl, hmsg⟩ := swapPop_ok' him
    have hpermm := swapPop_perm him hms
    have hm1 : p.siteMult[i] = 1 := h.ones _ (List.getElem_mem _)
    have hones : ∀ m ∈ ms, m = 1 := fun m hm => h.ones m (hpermm.mem_iff.2 (by simp [hm]))
    have hnd : (s :: ss).Nodup := by
      rw [← his]; exact hperm.nodup_iff.1 h.consistent.nodup
    have hlisted : ∀ t, t ∈ ss ↔ ((if t = s then none else A t : Option K)).isSome := by
      intro t
      have h1 : t ∈ p.sites ↔ t = s ∨ t ∈ ss := by
        rw [hperm.mem_iff, his, List.mem_cons]
      by_cases hts : t = s
      · subst hts
        simp only [if_true, Option.isSome_none, Bool.false_eq_true, iff_false]
        exact (List.nodup_cons.1 hnd).1
      · rw [if_neg hts, ← h.listed t, h1]
        simp [hts]
    have hmslen : ms.length = ss.length := by rw [hmsl, hssl, h.consistent.mults]
    dsimp only
    cases hcust : p.custom with
    | true =>
      have hrl := h.consistent.rates hcust
      have hir : i < p.siteRates.length := by rw [hrl]; exact hi
      obtain ⟨rs, hrs, hrsl, hrsg⟩ := swapPop_ok' hir
      rw [if_pos rfl, hss, ok_bind, hrs, ok_bind, hms, ok_bind]
      refine ⟨_, rfl, by simp [core, hcust], ?_⟩
      have hrslen : rs.length = ss.length := by rw [hrsl, hssl, hrl]
      refine ⟨⟨(List.nodup_cons.1 hnd).2, hmslen, fun _ => hrslen, ?_⟩, hones, hlisted, ?_⟩
      · -- total rate
        have w1 : p.weights = p.siteRates := by
          unfold weights
          rw [if_pos hcust]
          apply List.ext_getElem
          · simp [h.consistent.mults, hrl]
          · intro k h1 h2
            simp only [List.getElem_zipWith]
            rw [h.ones _ (List.getElem_mem _), mul_one]
        have w2 : List.zipWith (fun r m : K => r * m) rs ms = rs := by
          apply List.ext_getElem
          · simp [hmslen, hrslen]
          · intro k h1 h2
            simp only [List.getElem_zipWith]
            rw [hones _ (List.getElem_mem _), mul_one]
        unfold weights
        simp only [if_true]
        rw [w2, h.consistent.total, w1, (swapPop_perm hir hrs).sum_eq, hm1, List.sum_cons]
        ring
      · intro _ k t r hk hr
        simp only at hk hr
        have hk' : k < p.sites.length - 1 := by
          have := (List.getElem?_eq_some_iff.1 hk).1; rw [hssl] at this; exact this
        have hts : t ≠ s := by
          rintro rfl
          exact (List.nodup_cons.1 hnd).1 (List.mem_of_getElem? hk)
        rw [if_neg hts]
        rw [hssg k hk'] at hk
        rw [hrsg k (by rw [hrl]; exact hk'), hrl] at hr
        exact h.rates hcust _ _ _ hk hr
    | false =>
      rw [if_neg (by simp), hss, ok_bind, hms, ok_bind]
      refine ⟨_, rfl, by simp [core, hcust], ?_⟩
      refine ⟨⟨(List.nodup_cons.1 hnd).2, hmslen, fun hc => absurd hc (by simp), ?_⟩, hones,
        hlisted, fun hc => absurd hc (by simp)⟩
      unfold weights
      simp only [Bool.false_eq_true, if_false]
      rw [h.consistent.total]
      unfold weights
      rw [if_neg (by simp [hcust]), (hpermm.map (fun m => p.rate * m)).sum_eq, List.map_cons, List.sum_cons]
      ring

theorem Proc.addSite_rep {p : Proc K} {A : Nat → Option K} (h : p.Rep A) {s : Nat} (hs : A s = none)
    (rate : K) :
    (p.addSite s rate 1).core = p.core ∧
      (p.addSite s rate 1).Rep (fun t => if t = s then some rate else A t) := by
  have hnot : s ∉ p.sites := by rw [h.listed, hs]; simp
  have hlisted : ∀ t, t ∈ p.sites ++ [s] ↔ ((if t = s then some rate else A t : Option K)).isSome := by
    intro t
    by_cases hts : t = s
    · simp [hts]
    · simp [hts, h.listed t]
  have hnd : (p.sites ++ [s]).Nodup := by
    rw [List.nodup_append]
    refine ⟨h.consistent.nodup, by simp, ?_⟩
    intro a ha b hb
    simp only [List.mem_singleton] at hb
    subst hb
    rintro rfl
    exact hnot ha
  have hones : ∀ m ∈ p.siteMult ++ [(1 : K)], m = 1 := by
    intro m hm
    rcases List.mem_append.1 hm with h' | h'
    · exact h.ones m h'
    · simpa using h'
  unfold addSite
  cases hcust : p.custom with
  | true =>
    rw [if_pos rfl]
    have hrl := h.consistent.rates hcust
    refine ⟨by simp [core, hcust], ⟨hnd, by simp [h.consistent.mults], fun _ => by simp [hrl], ?_⟩, hones,
      hlisted, ?_⟩
    · unfold weights
      simp only [if_true]
      rw [List.zipWith_append (by rw [hrl, h.consistent.mults]), List.sum_append, h.consistent.total]
      unfold weights
      rw [if_pos hcust]
      simp
    · intro _ k t r hk hr
      simp only at hk hr
      rcases Nat.lt_or_ge k p.sites.length with hk' | hk'
      · rw [List.getElem?_append_left hk'] at hk
        rw [List.getElem?_append_left (by rw [hrl]; exact hk')] at hr
        have hts : t ≠ s := by rintro rfl; exact hnot (List.mem_of_getElem? hk)
        rw [if_neg hts]
        exact h.rates hcust _ _ _ hk hr
      · rw [List.getElem?_append_right hk'] at hk
        rw [List.getElem?_append_right (by rw [hrl]; exact hk'), hrl] at hr
        have hk0 : k - p.sites.length = 0 := by
          have := (List.getElem?_eq_some_iff.1 hk).1
          simpa using this
        rw [hk0] at hk hr
        simp only [List.getElem?_cons_zero, Option.some.injEq] at hk hr
        rw [← hk, ← hr, if_pos rfl]
  | false =>
    rw [if_neg (by simp)]
    refine ⟨by simp [core, hcust], ⟨hnd, by simp [h.consistent.mults], fun hc => absurd hc (by simp), ?_⟩,
      hones, hlisted, fun hc => absurd hc (by simp)⟩
    unfold weights
    simp only [Bool.false_eq_true, if_false]
    rw [h.consistent.total]
    unfold weights
    rw [if_neg (by simp [hcust])]
    simp

/-! ### All processes and the inverse table -/

namespace Matcher

/-- The abstract content of the bookkeeping: process position and site to the rate listed there. -/
abbrev Content (K : Type _) := Nat → Nat → Option K

/-- Change one cell. -/
def Content.put (A : Content K) (j s : Nat) (v : Option K) : Content K :=
  fun j' s' => if j' = j ∧ s' = s then v else A j' s'

/-- The processes and the inverse table hold the content `A`, for `n` sites. -/
structure BookRep (n : Nat) (b : Book K) (A : Content K) : Prop where
  rep : ∀ (j : Nat) (p : Proc K), b.1[j]? = some p → p.Rep (A j)
  inv : ∀ s < n, ∃ row, b.2[s]? = some row ∧ row.length = b.1.length ∧
    ∀ j < b.1.length, row[j]? = some (A j s).isSome
  invLen : b.2.length = n

theorem modifyProc_ok {procs : List (Proc K)} {j : Nat} {p : Proc K} (hj : procs[j]? = some p)
    {f : Proc K → M (Proc K)} {p' : Proc K} (hf : f p = .ok p') :
    modifyProc procs j f = .ok (procs.set j p') := by
  unfold modifyProc
  rw [rd_of_getElem? hj, ok_bind, hf, ok_bind, wr_of_lt (List.getElem?_eq_some_iff.1 hj).1]

theorem setInverse_ok {table : List (List Bool)} {s j : Nat} {row : List Bool} (hs : table[s]? = some row)
    (hj : j < row.length) (b : Bool) :
    setInverse table s j b = .ok (table.set s (row.set j b)) := by
  unfold setInverse
  rw [rd_of_getElem? hs, ok_bind, wr_of_lt hj, ok_bind, wr_of_lt (List.getElem?_eq_some_iff.1 hs).1]

theorem map_core_set {procs : List (Proc K)} {j : Nat} {p p' : Proc K} (hj : procs[j]? = some p)
    (h : p'.core = p.core) : (procs.set j p').map Proc.core = procs.map Proc.core := by
  apply List.ext_getElem?
  intro k
  rw [List.getElem?_map, List.getElem?_map, List.getElem?_set]
  by_cases hk : j = k
  · subst hk
    rw [if_pos rfl, if_pos (List.getElem?_eq_some_iff.1 hj).1, hj]
    simp [h]
  · rw [if_neg hk]

/-- Putting a process with new content at position `j` and setting one inverse cell. -/
theorem BookRep.put {n : Nat} {b : Book K} {A : Content K} (h : BookRep n b A) {j s : Nat}
    (hs : s < n) {p p' : Proc K} (hj : b.1[j]? = some p) {v : Option K}
    (hp : p'.Rep (fun t => if t = s then v else A j t)) {row : List Bool}
    (hrow : b.2[s]? = some row) :
    BookRep n (b.1.set j p', b.2.set s (row.set j v.isSome)) (A.put j s v) := by
  have hjl := (List.getElem?_eq_some_iff.1 hj).1
  have hsl := (List.getElem?_eq_some_iff.1 hrow).1
  refine ⟨?_, ?_, by simpa using h.invLen⟩
  · intro k q hk
    simp only [List.getElem?_set] at hk
    by_cases hkj : j = k
    · subst hkj
      rw [if_pos rfl, if_pos hjl] at hk
      cases hk
      have : A.put j s v j = fun t => if t = s then v else A j t := by
        funext t; simp [Content.put]
      rw [this]
      exact hp
    · rw [if_neg hkj] at hk
      have : A.put j s v k = A k := by
        funext t; unfold Content.put; rw [if_neg (by rintro ⟨h1, -⟩; exact hkj h1.symm)]
      rw [this]
      exact h.rep k q hk
  · intro t ht
    obtain ⟨row', h1, h2, h3⟩ := h.inv t ht
    simp only [List.length_set]
    by_cases hts : t = s
    · subst hts
      rw [hrow, Option.some.injEq] at h1
      subst h1
      refine ⟨row.set j v.isSome, by simp [hsl], by simpa using h2, ?_⟩
      intro k hk
      rw [List.getElem?_set]
      by_cases hkj : j = k
      · subst hkj
        rw [if_pos rfl, if_pos (by rw [h2]; exact hk)]
        simp [Content.put]
      · rw [if_neg hkj, h3 k hk]
        unfold Content.put
        rw [if_neg (by rintro ⟨h1, -⟩; exact hkj h1.symm)]
    · refine ⟨row', ?_, h2, ?_⟩
      · simp only [List.getElem?_set]
        rw [if_neg (Ne.symm hts)]
        exact h1
      · intro k hk
        rw [h3 k hk]
        unfold Content.put
        rw [if_neg (by rintro ⟨-, h1⟩; exact hts h1)]

theorem removeTask_ok {n : Nat} {b : Book K} {A : Content K} (h : BookRep n b A) {t : Nat × Nat}
    (hs : t.1 < n) (hj : t.2 < b.1.length) (hA : (A t.2 t.1).isSome) :
    ∃ b', removeTask b t = .ok b' ∧ b'.1.map Proc.core = b.1.map Proc.core ∧
      BookRep n b' (A.put t.2 t.1 none) := by
  have hj' := List.getElem?_eq_getElem hj
  obtain ⟨p', h1, h2, h3⟩ := Proc.removeSite_rep (h.rep _ _ hj') hA
  obtain ⟨row, hr1, hr2, -⟩ := h.inv _ hs
  unfold removeTask
  rw [modifyProc_ok hj' h1, ok_bind, setInverse_ok hr1 (by rw [hr2]; exact hj), ok_bind]
  exact ⟨_, rfl, map_core_set hj' h2, h.put hs hj' h3 hr1⟩


/-- The process and site of a task, in the order of the pairs. -/
def _root_.KMC.RateTask.cell (t : RateTask K) : Nat × Nat := (t.index, t.process)

theorem updateTask_ok {n : Nat} {b : Book K} {A : Content K} (h : BookRep n b A) {t : RateTask K}
    (hs : t.index < n) (hj : t.process < b.1.length) (hA : (A t.process t.index).isSome) :
    ∃ b', updateTask b t = .ok b' ∧ b'.1.map Proc.core = b.1.map Proc.core ∧
      BookRep n b' (A.put t.process t.index (some t.rate)) := by
  have hj' := List.getElem?_eq_getElem hj
  obtain ⟨p', h1, h2, h3⟩ := Proc.removeSite_rep (h.rep _ _ hj') hA
  obtain ⟨row, hr1, hr2, hr3⟩ := h.inv _ hs
  obtain ⟨h4, h5⟩ := Proc.addSite_rep h3 (s := t.index) (by simp) t.rate
  unfold updateTask
  have hset : (b.1.set t.process p')[t.process]? = some p' := by simp [hj]
  rw [modifyProc_ok hj' h1, ok_bind, modifyProc_ok (f := fun p => .ok (p.addSite t.index t.rate 1)) hset rfl, ok_bind]
  refine ⟨_, rfl, ?_, ?_⟩
  · rw [List.set_set]
    exact map_core_set hj' (h4.trans h2)
  · rw [List.set_set]
    have h6 := h.put (v := some t.rate) hs hj' (p' := p'.addSite t.index t.rate 1) (by
      have : (fun u => if u = t.index then some t.rate else
          (if u = t.index then none else A t.process u)) =
          (fun u => if u = t.index then some t.rate else A t.process u) := by
        funext u; by_cases hu : u = t.index <;> simp [hu]
      rw [← this]
      exact h5) hr1
    have hrow : row.set t.process (some t.rate).isSome = row := by
      apply List.ext_getElem?
      intro k
      rw [List.getElem?_set]
      by_cases hk : t.process = k
      · subst hk
        rw [if_pos rfl, if_pos (by rw [hr2]; exact hj), hr3 _ hj, hA]
        rfl
      · rw [if_neg hk]
    have htab : b.2.set t.index row = b.2 := by
      apply List.ext_getElem?
      intro k
      rw [List.getElem?_set]
      by_cases hk : t.index = k
      · subst hk
        rw [if_pos rfl, if_pos (List.getElem?_eq_some_iff.1 hr1).1, hr1]
      · rw [if_neg hk]
    rw [hrow, htab] at h6
    exact h6

theorem addTask_ok {n : Nat} {b : Book K} {A : Content K} (h : BookRep n b A) {t : RateTask K}
    (hs : t.index < n) (hj : t.process < b.1.length) (hA : A t.process t.index = none) :
    ∃ b', addTask b t = .ok b' ∧ b'.1.map Proc.core = b.1.map Proc.core ∧
      BookRep n b' (A.put t.process t.index (some t.rate)) := by
  have hj' := List.getElem?_eq_getElem hj
  obtain ⟨row, hr1, hr2, -⟩ := h.inv _ hs
  obtain ⟨h4, h5⟩ := Proc.addSite_rep (h.rep _ _ hj') hA t.rate
  unfold addTask
  rw [modifyProc_ok (f := fun p => .ok (p.addSite t.index t.rate 1)) hj' rfl, ok_bind, setInverse_ok hr1 (by rw [hr2]; exact hj), ok_bind]
  exact ⟨_, rfl, map_core_set hj' h4, h.put (v := some t.rate) hs hj' h5 hr1⟩

theorem put_same (A : Content K) (j s : Nat) (v : Option K) : A.put j s v j s = v := by
  simp [Content.put]

theorem put_other (A : Content K) {j s j' s' : Nat} (v : Option K) (h : (s', j') ≠ (s, j)) :
    A.put j s v j' s' = A j' s' := by
  unfold Content.put
  rw [if_neg]
  rintro ⟨rfl, rfl⟩
  exact h rfl

/-- A loop over tasks with distinct cells, each of which writes a value into its cell. -/
theorem book_loop {τ : Type _} (f : Book K → τ → M (Book K)) (cell : τ → Nat × Nat)
    (val : τ → Option K) (pre : Option K → Prop) {n m : Nat}
    (hf : ∀ (b : Book K) (A : Content K) (t : τ), BookRep n b A → b.1.length = m → (cell t).1 < n →
      (cell t).2 < m → pre (A (cell t).2 (cell t).1) →
      ∃ b', f b t = .ok b' ∧ b'.1.map Proc.core = b.1.map Proc.core ∧
        BookRep n b' (A.put (cell t).2 (cell t).1 (val t)))
    (ts : List τ) (b : Book K) (A : Content K) (h : BookRep n b A) (hm : b.1.length = m)
    (hr : ∀ t ∈ ts, (cell t).1 < n ∧ (cell t).2 < m) (hnd : (ts.map cell).Nodup)
    (hpre : ∀ t ∈ ts, pre (A (cell t).2 (cell t).1)) :
    ∃ b' A', loopM f ts b = .ok b' ∧ b'.1.map Proc.core = b.1.map Proc.core ∧ BookRep n b' A' ∧
      (∀ t ∈ ts, A' (cell t).2 (cell t).1 = val t) ∧
      (∀ j s, (s, j) ∉ ts.map cell → A' j s = A j s) := by
  induction ts generalizing b A with
  | nil => exact ⟨b, A, rfl, rfl, h, by simp, by simp⟩
  | cons t ts ih =>
    rw [List.map_cons, List.nodup_cons] at hnd
    obtain ⟨b1, h1, h2, h3⟩ := hf b A t h hm (hr t (by simp)).1 (hr t (by simp)).2 (hpre t (by simp))
    have hm1 : b1.1.length = m := by
      have := congrArg List.length h2
      simp only [List.length_map] at this
      rw [this, hm]
    have hother : ∀ u ∈ ts, A.put (cell t).2 (cell t).1 (val t) (cell u).2 (cell u).1 =
        A (cell u).2 (cell u).1 := by
      intro u hu
      apply put_other
      intro he
      exact hnd.1 (List.mem_map.2 ⟨u, hu, he⟩)
    obtain ⟨b2, A2, h4, h5, h6, h7, h8⟩ := ih b1 _ h3 hm1 (fun u hu => hr u (by simp [hu])) hnd.2
      (fun u hu => by rw [hother u hu]; exact hpre u (by simp [hu]))
    refine ⟨b2, A2, by rw [loopM_cons, h1, ok_bind, h4], h5.trans h2, h6, ?_, ?_⟩
    · intro u hu
      rcases List.mem_cons.1 hu with rfl | hu
      · rw [h8 _ _ hnd.1, put_same]
      · exact h7 u hu
    · intro j s hjs
      rw [List.map_cons, List.mem_cons, not_or] at hjs
      rw [h8 j s hjs.2, put_other]
      exact hjs.1

/-- The whole update of the bookkeeping. -/
theorem updateProcesses_ok {n : Nat} {b : Book K} {A : Content K} (h : BookRep n b A) {ts : Tasks K}
    (hr : ∀ c ∈ ts.remove ++ ts.update.map RateTask.cell ++ ts.add.map RateTask.cell,
      c.1 < n ∧ c.2 < b.1.length)
    (hnd : (ts.remove ++ ts.update.map RateTask.cell ++ ts.add.map RateTask.cell).Nodup)
    (hrem : ∀ c ∈ ts.remove, (A c.2 c.1).isSome)
    (hupd : ∀ t ∈ ts.update, (A t.process t.index).isSome)
    (hadd : ∀ t ∈ ts.add, A t.process t.index = none) :
    ∃ b' A', updateProcesses ts b = .ok b' ∧ b'.1.map Proc.core = b.1.map Proc.core ∧
      BookRep n b' A' ∧ (∀ c ∈ ts.remove, A' c.2 c.1 = none) ∧
      (∀ t ∈ ts.update ++ ts.add, A' t.process t.index = some t.rate) ∧
      (∀ j s, (s, j) ∉ ts.remove ++ ts.update.map RateTask.cell ++ ts.add.map RateTask.cell →
        A' j s = A j s) := by
  rw [List.nodup_append, List.nodup_append] at hnd
  obtain ⟨⟨hnd1, hnd2, hnd12⟩, hnd3, hnd123⟩ := hnd
  have len : ∀ {x y : List (Proc K)}, x.map Proc.core = y.map Proc.core → x.length = y.length := by
    intro x y hxy
    simpa using congrArg List.length hxy
  obtain ⟨b1, A1, e1, c1, r1, s1, o1⟩ := book_loop (n := n) (m := b.1.length) removeTask id
    (fun _ => none) (fun o => o.isSome = true)
    (fun b A t hb hm hs hj hp => removeTask_ok hb hs (by rw [hm]; exact hj) hp) ts.remove b A h rfl
    (fun t ht => hr t (by simp only [List.mem_append]; exact Or.inl (Or.inl ht))) (by simpa using hnd1)
    hrem
  obtain ⟨b2, A2, e2, c2, r2, s2, o2⟩ := book_loop (n := n) (m := b.1.length) updateTask RateTask.cell
    (fun t => some t.rate) (fun o => o.isSome = true)
    (fun b A t hb hm hs hj hp => updateTask_ok hb hs (by rw [hm]; exact hj) hp) ts.update b1 A1 r1
    (len c1)
    (fun t ht => hr t.cell (by
      simp only [List.mem_append]; exact Or.inl (Or.inr (List.mem_map_of_mem ht)))) hnd2
    (fun t ht => by
      rw [o1 t.cell.2 t.cell.1]
      · exact hupd t ht
      · intro hm
        rw [List.map_id] at hm
        exact hnd12 _ hm _ (List.mem_map_of_mem ht) rfl)
  obtain ⟨b3, A3, e3, c3, r3, s3, o3⟩ := book_loop (n := n) (m := b.1.length) addTask RateTask.cell
    (fun t => some t.rate) (fun o => o = none)
    (fun b A t hb hm hs hj hp => addTask_ok hb hs (by rw [hm]; exact hj) hp) ts.add b2 A2 r2
    ((len c2).trans (len c1))
    (fun t ht => hr t.cell (by
      simp only [List.mem_append]; exact Or.inr (List.mem_map_of_mem ht))) hnd3
    (fun t ht => by
      have hm := List.mem_map_of_mem (f := RateTask.cell) ht
      rw [o2 t.cell.2 t.cell.1, o1 t.cell.2 t.cell.1]
      · exact hadd t ht
      · intro hm'
        rw [List.map_id] at hm'
        exact hnd123 _ (List.mem_append_left _ hm') _ hm rfl
      · intro hm'
        exact hnd123 _ (List.mem_append_right _ hm') _ hm rfl)
  refine ⟨b3, A3, ?_, c3.trans (c2.trans c1), r3, ?_, ?_, ?_⟩
  · unfold updateProcesses
    rw [e1, ok_bind, e2, ok_bind, e3]
  · intro c hc
    rw [o3, o2]
    · exact s1 c hc
    · intro hm; exact hnd12 _ hc _ hm rfl
    · intro hm; exact hnd123 _ (List.mem_append_left _ hc) _ hm rfl
  · intro t ht
    rcases List.mem_append.1 ht with ht | ht
    · have hm := List.mem_map_of_mem (f := RateTask.cell) ht
      rw [o3]
      · exact s2 t ht
      · intro hm'; exact hnd123 _ (List.mem_append_right _ hm) _ hm' rfl
    · exact s3 t ht
  · intro j s hjs
    simp only [List.mem_append, not_or] at hjs
    rw [o3 j s hjs.2, o2 j s hjs.1.2, o1 j s (by rw [List.map_id]; exact hjs.1.1)]

end Matcher
end KMC
