import Verif.Lemmas.Double
import Verif.Lemmas.Untouched
import Verif.Lemmas.MultOk

/-!
# Rates on a common grid

When all rates are multiples of one power of two, and the sums are not too large, no addition or subtraction of rates
is rounded.
-/

set_option linter.unusedSectionVars false

namespace KMC

/-- A multiple of `2 ^ e`, of at most `B` units. -/
def OnGrid (e : ℤ) (B : Nat) (x : ℚ) : Prop := ∃ k : Nat, k ≤ B ∧ x = k * 2 ^ e

namespace OnGrid
variable {e : ℤ} {B C : Nat} {x y : ℚ}

theorem zero : OnGrid e B 0 := ⟨0, Nat.zero_le _, by simp⟩

theorem mono (h : OnGrid e B x) (hBC : B ≤ C) : OnGrid e C x := by
  obtain ⟨k, hk, hx⟩ := h
  exact ⟨k, hk.trans hBC, hx⟩

theorem add (hx : OnGrid e B x) (hy : OnGrid e C y) : OnGrid e (B + C) (x + y) := by
  obtain ⟨k, hk, rfl⟩ := hx
  obtain ⟨l, hl, rfl⟩ := hy
  exact ⟨k + l, by omega, by push_cast; ring⟩

theorem isDouble (h : OnGrid e B x) (hB : B ≤ 2 ^ 53) : IsDouble x := by
  obtain ⟨k, hk, rfl⟩ := h
  have h1 : IsDouble ((k : ℤ) : ℚ) := isDouble_of_int (by
    rw [abs_of_nonneg (Int.natCast_nonneg k)]
    have : k ≤ 2 ^ 53 := hk.trans hB
    exact_mod_cast this)
  simpa using h1.scale e

theorem nonneg (h : OnGrid e B x) : 0 ≤ x := by
  obtain ⟨k, -, rfl⟩ := h
  positivity

theorem self {fl : ℚ → ℚ} (hfl : Rounding fl) (h : OnGrid e B x) (hB : B ≤ 2 ^ 53) : fl x = x :=
  hfl.self (h.isDouble hB)

theorem sum {l : List ℚ} (h : ∀ x ∈ l, OnGrid e B x) : OnGrid e (l.length * B) l.sum := by
  induction l with
  | nil => exact zero
  | cons a l ih =>
    rw [List.sum_cons, List.length_cons, Nat.succ_mul, Nat.add_comm]
    exact (h a (by simp)).add (ih fun x hx => h x (by simp [hx]))

end OnGrid

theorem length_le_of_lt {l : List Nat} {n : Nat} (hnd : l.Nodup) (h : ∀ x ∈ l, x < n) : l.length ≤ n := by
  have h1 : l ⊆ List.range n := fun x hx => List.mem_range.2 (h x hx)
  have h2 := (List.subperm_of_subset hnd h1).length_le
  simpa using h2

section process
variable {e : ℤ} {B n : Nat} {fl : ℚ → ℚ}

/-- Content within `n` sites with rates on the grid. -/
def Gridded (e : ℤ) (B n : Nat) (A : Nat → Option ℚ) : Prop := ∀ s r, A s = some r → s < n ∧ OnGrid e B r

theorem Proc.Rep.lt {p : Proc ℚ} {A : Nat → Option ℚ} (h : p.Rep A) (hA : Gridded e B n A) : ∀ s ∈ p.sites, s < n := by
  intro s hs
  obtain ⟨r, hr⟩ := Option.isSome_iff_exists.1 ((h.listed s).1 hs)
  exact (hA s r hr).1

theorem Proc.Rep.siteRates_onGrid {p : Proc ℚ} {A : Nat → Option ℚ} (h : p.Rep A) (hA : Gridded e B n A)
    (hc : p.custom = true) : ∀ r ∈ p.siteRates, OnGrid e B r := by
  intro r hr
  obtain ⟨k, hk⟩ := List.mem_iff_getElem?.1 hr
  have hlt := (List.getElem?_eq_some_iff.1 hk).1
  rw [h.consistent.rates hc] at hlt
  exact (hA _ _ (h.rates hc k _ r (List.getElem?_eq_getElem hlt) hk)).2

theorem Proc.Rep.weights_onGrid {p : Proc ℚ} {A : Nat → Option ℚ} (h : p.Rep A) (hA : Gridded e B n A)
    (hr : OnGrid e B p.rate) : ∀ w ∈ p.weights, OnGrid e B w := by
  intro w hw
  unfold Proc.weights at hw
  split at hw
  · rename_i hc
    rw [List.mem_iff_getElem] at hw
    obtain ⟨k, hk, rfl⟩ := hw
    rw [List.getElem_zipWith, h.ones _ (List.getElem_mem _), mul_one]
    exact h.siteRates_onGrid hA hc _ (List.getElem_mem _)
  · rw [List.mem_map] at hw
    obtain ⟨m, hm, rfl⟩ := hw
    rw [h.ones m hm, mul_one]
    exact hr

theorem Proc.weights_length {p : Proc ℚ} (h : p.Consistent) : p.weights.length = p.sites.length := by
  unfold Proc.weights
  split
  · rename_i hc
    rw [List.length_zipWith, h.rates hc, h.mults, Nat.min_self]
  · rw [List.length_map, h.mults]

theorem Proc.Rep.total_onGrid {p : Proc ℚ} {A : Nat → Option ℚ} (h : p.Rep A) (hA : Gridded e B n A)
    (hr : OnGrid e B p.rate) : OnGrid e (n * B) p.totalRate := by
  rw [h.consistent.total]
  refine (OnGrid.sum (h.weights_onGrid hA hr)).mono (Nat.mul_le_mul_right _ ?_)
  rw [Proc.weights_length h.consistent]
  exact length_le_of_lt h.consistent.nodup (h.lt hA)

theorem Gridded.put {A : Nat → Option ℚ} (hA : Gridded e B n A) {s : Nat} {v : Option ℚ}
    (hv : ∀ r, v = some r → s < n ∧ OnGrid e B r) : Gridded e B n (fun t => if t = s then v else A t) := by
  intro t r ht
  dsimp only at ht
  split at ht
  · rename_i h; rw [h]; exact hv r ht
  · exact hA t r ht

theorem Rounded.removeSite_exact (hfl : Rounding fl) {p : Proc ℚ} {A : Nat → Option ℚ} (h : p.Rep A)
    (hA : Gridded e B n A) (hr : OnGrid e B p.rate) (hB : n * B ≤ 2 ^ 53) (hB1 : B ≤ 2 ^ 53) {s : Nat}
    (hs : (A s).isSome) : Rounded.removeSite fl p s = p.removeSite s := by
  obtain ⟨p', h1, h2, h3⟩ := Proc.removeSite_rep h hs
  have hA' : Gridded e B n (fun t => if t = s then none else A t) := hA.put (by simp)
  have hrate : p'.rate = p.rate := by
    have := congrArg Proc.rate h2
    exact this
  have htot := (h3.total_onGrid hA' (by rw [hrate]; exact hr)).self hfl hB
  rw [h1]
  unfold Proc.removeSite at h1
  unfold Rounded.removeSite
  cases hf : p.sites.findIdx? (fun t => decide (t = s)) with
  | none => rw [hf] at h1; cases h1
  | some i =>
    rw [hf] at h1
    dsimp only at h1 ⊢
    split at h1
    · rename_i hc
      rw [if_pos hc]
      rw [bind_ok] at h1
      obtain ⟨a, ha, h1⟩ := h1
      rw [bind_ok] at h1
      obtain ⟨b, hb, h1⟩ := h1
      rw [bind_ok] at h1
      obtain ⟨c, hc', h1⟩ := h1
      rw [ha, ok_bind, hb, ok_bind, hc', ok_bind]
      cases h1
      have hb1 : b.1 ∈ p.siteRates := by
        unfold swapPop at hb
        split at hb
        · cases hb; rename_i h4 _; exact List.mem_of_getElem? h4
        · cases hb
      have hc1 : c.1 ∈ p.siteMult := by
        unfold swapPop at hc'
        split at hc'
        · cases hc'; rename_i h4 _; exact List.mem_of_getElem? h4
        · cases hc'
      have h5 : fl (b.1 * c.1) = b.1 * c.1 := by
        rw [h.ones _ hc1, mul_one]
        exact (h.siteRates_onGrid hA hc _ hb1).self hfl hB1
      rw [h5]
      dsimp only at htot
      rw [htot]
      rfl
    · rename_i hc
      rw [if_neg hc]
      rw [bind_ok] at h1
      obtain ⟨a, ha, h1⟩ := h1
      rw [bind_ok] at h1
      obtain ⟨c, hc', h1⟩ := h1
      rw [ha, ok_bind, hc', ok_bind]
      cases h1
      have hc1 : c.1 ∈ p.siteMult := by
        unfold swapPop at hc'
        split at hc'
        · cases hc'; rename_i h4 _; exact List.mem_of_getElem? h4
        · cases hc'
      have h5 : fl (c.1 * p.rate) = c.1 * p.rate := by
        rw [h.ones _ hc1, one_mul]
        exact hr.self hfl hB1
      rw [h5]
      dsimp only at htot
      rw [htot]
      rfl

theorem Rounded.addSite_exact (hfl : Rounding fl) {p : Proc ℚ} {A : Nat → Option ℚ} (h : p.Rep A)
    (hA : Gridded e B n A) (hr : OnGrid e B p.rate) (hB : n * B ≤ 2 ^ 53) (hB1 : B ≤ 2 ^ 53) {s : Nat}
    (hs : A s = none) (hsn : s < n) {rate : ℚ} (hrate : OnGrid e B rate) :
    Rounded.addSite fl p s rate 1 = p.addSite s rate 1 := by
  obtain ⟨h2, h3⟩ := Proc.addSite_rep h hs rate
  have hA' : Gridded e B n (fun t => if t = s then some rate else A t) := hA.put (by
    intro r hr'; cases hr'; exact ⟨hsn, hrate⟩)
  have hrate' : (p.addSite s rate 1).rate = p.rate := by
    have := congrArg Proc.rate h2
    exact this
  have htot := (h3.total_onGrid hA' (by rw [hrate']; exact hr)).self hfl hB
  unfold Proc.addSite at htot ⊢
  unfold Rounded.addSite
  split
  · rename_i hc
    rw [if_pos hc] at htot
    dsimp only at htot
    rw [one_mul] at htot ⊢
    rw [hrate.self hfl hB1, htot]
  · rename_i hc
    rw [if_neg hc] at htot
    dsimp only at htot
    rw [one_mul] at htot ⊢
    rw [hr.self hfl hB1, htot]

end process

namespace Matcher

/-- A loop over tasks with distinct cells, each of which writes a value into its cell, and another loop that does the
same as long as the content has a certain property. -/
theorem book_loop_same {K : Type _} [Field K] [LinearOrder K] {τ : Type _} (f g : Book K → τ → M (Book K))
    (cell : τ → Nat × Nat) (val : τ → Option K) (pre : Option K → Prop) {n m : Nat} (core : List (Proc K))
    (S : Content K → Prop)
    (hf : ∀ (b : Book K) (A : Content K) (t : τ), BookRep n b A → b.1.length = m → (cell t).1 < n →
      (cell t).2 < m → pre (A (cell t).2 (cell t).1) →
      ∃ b', f b t = .ok b' ∧ b'.1.map Proc.core = b.1.map Proc.core ∧
        BookRep n b' (A.put (cell t).2 (cell t).1 (val t))) (ts : List τ)
    (hg : ∀ (b : Book K) (A : Content K) (t : τ), t ∈ ts → BookRep n b A → b.1.map Proc.core = core → S A →
      (cell t).1 < n → (cell t).2 < b.1.length → pre (A (cell t).2 (cell t).1) → g b t = f b t)
    (hS : ∀ (A : Content K) (t : τ), t ∈ ts → (cell t).1 < n → S A → S (A.put (cell t).2 (cell t).1 (val t)))
    (hm : core.length = m) :
    ∀ (us : List τ) (b : Book K) (A : Content K), (∀ t ∈ us, t ∈ ts) → BookRep n b A → b.1.map Proc.core = core → S A →
      (us.map cell).Nodup → (∀ t ∈ us, (cell t).1 < n ∧ (cell t).2 < m) →
      (∀ t ∈ us, pre (A (cell t).2 (cell t).1)) →
      loopM g us b = loopM f us b ∧
      ∃ b' A', loopM f us b = .ok b' ∧ b'.1.map Proc.core = core ∧ BookRep n b' A' ∧ S A' ∧
        ∀ j s, (s, j) ∉ us.map cell → A' j s = A j s := by
  intro us
  induction us with
  | nil =>
    intro b A _ hb hc hs _ _ _
    exact ⟨rfl, b, A, rfl, hc, hb, hs, fun _ _ _ => rfl⟩
  | cons t us ih =>
    intro b A hin hb hc hs hnd hr hpre
    have hlen : b.1.length = m := by rw [← hm, ← hc, List.length_map]
    have ht := hr t (by simp)
    have hgt := hg b A t (hin t (by simp)) hb hc hs ht.1 (by rw [hlen]; exact ht.2) (hpre t (by simp))
    obtain ⟨b1, h1, h2, h3⟩ := hf b A t hb hlen ht.1 ht.2 (hpre t (by simp))
    rw [List.map_cons, List.nodup_cons] at hnd
    have hother : ∀ u ∈ us, cell u ≠ cell t := fun u hu he => hnd.1 (by rw [← he]; exact List.mem_map_of_mem hu)
    obtain ⟨h4, b', A', h5, h6, h7, h8, h9⟩ := ih b1 _ (fun u hu => hin u (by simp [hu])) h3 (h2.trans hc)
      (hS A t (hin t (by simp)) ht.1 hs) hnd.2
      (fun u hu => hr u (by simp [hu])) (by
        intro u hu
        rw [put_other _ _ (hother u hu)]
        exact hpre u (by simp [hu]))
    rw [loopM_cons, loopM_cons, hgt, h1, ok_bind, ok_bind]
    refine ⟨h4, b', A', h5, h6, h7, h8, ?_⟩
    intro j s hjs
    rw [List.map_cons, List.mem_cons, not_or] at hjs
    rw [h9 j s hjs.2, put_other _ _ hjs.1]

variable {e : ℤ} {B n : Nat} {fl : ℚ → ℚ}

/-- All rates of the content are on the grid, within `n` sites. -/
def AllGridded (e : ℤ) (B n : Nat) (A : Content ℚ) : Prop := ∀ j, Gridded e B n (A j)

theorem AllGridded.put {A : Content ℚ} (hA : AllGridded e B n A) {j s : Nat} {v : Option ℚ}
    (hv : ∀ r, v = some r → s < n ∧ OnGrid e B r) : AllGridded e B n (A.put j s v) := by
  intro j' s' r h
  unfold Content.put at h
  split at h
  · rename_i hc; rw [hc.2]; exact hv r h
  · exact hA j' s' r h

theorem modifyProc_congr {K : Type _} [Field K] [LinearOrder K] {procs : List (Proc K)} {j : Nat} {p : Proc K}
    (hj : procs[j]? = some p) {f g : Proc K → M (Proc K)} (h : f p = g p) : modifyProc procs j f = modifyProc procs j g := by
  unfold modifyProc
  rw [rd_of_getElem? hj, ok_bind, ok_bind, h]

theorem removeTask_exact (hfl : Rounding fl) (hB : n * B ≤ 2 ^ 53) (hB1 : B ≤ 2 ^ 53) {b : Book ℚ} {A : Content ℚ}
    (h : BookRep n b A) (hA : AllGridded e B n A) (hr : ∀ p ∈ b.1, OnGrid e B p.rate) {t : Nat × Nat}
    (hj : t.2 < b.1.length) (hp : (A t.2 t.1).isSome) : Rounded.removeTask fl b t = removeTask b t := by
  have hj' := List.getElem?_eq_getElem hj
  unfold Rounded.removeTask removeTask
  rw [modifyProc_congr (f := fun p => Rounded.removeSite fl p t.1) (g := fun p => p.removeSite t.1) hj'
    (Rounded.removeSite_exact hfl (h.rep _ _ hj') (hA _) (hr _ (List.getElem_mem _)) hB hB1 hp)]

theorem addTask_exact (hfl : Rounding fl) (hB : n * B ≤ 2 ^ 53) (hB1 : B ≤ 2 ^ 53) {b : Book ℚ} {A : Content ℚ}
    (h : BookRep n b A) (hA : AllGridded e B n A) (hr : ∀ p ∈ b.1, OnGrid e B p.rate) {t : RateTask ℚ}
    (hs : t.index < n) (hj : t.process < b.1.length) (hp : A t.process t.index = none) (ht : OnGrid e B t.rate) :
    Rounded.addTask fl b t = addTask b t := by
  have hj' := List.getElem?_eq_getElem hj
  unfold Rounded.addTask addTask
  rw [modifyProc_congr (f := fun p => .ok (Rounded.addSite fl p t.index t.rate 1))
    (g := fun p => .ok (p.addSite t.index t.rate 1)) hj' (congrArg Except.ok
    (Rounded.addSite_exact hfl (h.rep _ _ hj') (hA _) (hr _ (List.getElem_mem _)) hB hB1 hp hs ht))]

theorem updateTask_exact (hfl : Rounding fl) (hB : n * B ≤ 2 ^ 53) (hB1 : B ≤ 2 ^ 53) {b : Book ℚ} {A : Content ℚ}
    (h : BookRep n b A) (hA : AllGridded e B n A) (hr : ∀ p ∈ b.1, OnGrid e B p.rate) {t : RateTask ℚ}
    (hs : t.index < n) (hj : t.process < b.1.length) (hp : (A t.process t.index).isSome) (ht : OnGrid e B t.rate) :
    Rounded.updateTask fl b t = updateTask b t := by
  have hj' := List.getElem?_eq_getElem hj
  have hrp := hr _ (List.getElem_mem hj)
  unfold Rounded.updateTask updateTask
  rw [modifyProc_congr (f := fun p => Rounded.removeSite fl p t.index) (g := fun p => p.removeSite t.index) hj'
    (Rounded.removeSite_exact hfl (h.rep _ _ hj') (hA _) hrp hB hB1 hp)]
  obtain ⟨p', h1, h2, h3⟩ := Proc.removeSite_rep (h.rep _ _ hj') hp
  rw [modifyProc_ok hj' h1, ok_bind, ok_bind]
  have hset : (b.1.set t.process p')[t.process]? = some p' := by simp [hj]
  have hrate : p'.rate = b.1[t.process].rate := (congrArg Proc.rate h2 :)
  rw [modifyProc_congr (f := fun p => .ok (Rounded.addSite fl p t.index t.rate 1))
    (g := fun p => .ok (p.addSite t.index t.rate 1)) hset (congrArg Except.ok
    (Rounded.addSite_exact hfl h3 ((hA _).put (by simp)) (by rw [hrate]; exact hrp) hB hB1 (by simp) hs ht))]

theorem rates_of_core {a b : List (Proc ℚ)} (h : a.map Proc.core = b.map Proc.core)
    (hb : ∀ p ∈ b, OnGrid e B p.rate) : ∀ p ∈ a, OnGrid e B p.rate := by
  intro p hp
  have h1 : p.core ∈ b.map Proc.core := by rw [← h]; exact List.mem_map_of_mem hp
  obtain ⟨q, hq, hqp⟩ := List.mem_map.1 h1
  have : q.rate = p.rate := (congrArg Proc.rate hqp :)
  rw [← this]
  exact hb q hq

theorem updateProcesses_exact (hfl : Rounding fl) (hB : n * B ≤ 2 ^ 53) (hB1 : B ≤ 2 ^ 53) {b : Book ℚ}
    {A : Content ℚ} (h : BookRep n b A) (hA : AllGridded e B n A) (hrate : ∀ p ∈ b.1, OnGrid e B p.rate)
    {ts : Tasks ℚ}
    (hr : ∀ c ∈ ts.remove ++ ts.update.map RateTask.cell ++ ts.add.map RateTask.cell,
      c.1 < n ∧ c.2 < b.1.length)
    (hnd : (ts.remove ++ ts.update.map RateTask.cell ++ ts.add.map RateTask.cell).Nodup)
    (hrem : ∀ c ∈ ts.remove, (A c.2 c.1).isSome)
    (hupd : ∀ t ∈ ts.update, (A t.process t.index).isSome)
    (hadd : ∀ t ∈ ts.add, A t.process t.index = none)
    (hg : ∀ t ∈ ts.update ++ ts.add, OnGrid e B t.rate) :
    Rounded.updateProcesses fl ts b = updateProcesses ts b := by
  rw [List.nodup_append, List.nodup_append] at hnd
  obtain ⟨⟨hnd1, hnd2, hnd12⟩, hnd3, hnd123⟩ := hnd
  have hcore : (b.1.map Proc.core).length = b.1.length := List.length_map _
  obtain ⟨q1, b1, A1, e1, c1, r1, s1, o1⟩ := book_loop_same (n := n) (m := b.1.length) removeTask
    (Rounded.removeTask fl) id (fun _ => none) (fun o => o.isSome = true) (b.1.map Proc.core) (AllGridded e B n)
    (fun b A t hb hm hs hj hp => removeTask_ok hb hs (by rw [hm]; exact hj) hp) ts.remove
    (fun b' A t _ hb hc hA hs hj hp => removeTask_exact hfl hB hB1 hb hA (rates_of_core hc hrate) hj hp)
    (fun A t _ _ hA => hA.put (by simp)) hcore ts.remove b A (fun _ h => h) h rfl hA (by simpa using hnd1)
    (fun t ht => hr t (by simp only [List.mem_append]; exact Or.inl (Or.inl ht))) hrem
  obtain ⟨q2, b2, A2, e2, c2, r2, s2, o2⟩ := book_loop_same (n := n) (m := b.1.length) updateTask
    (Rounded.updateTask fl) RateTask.cell (fun t => some t.rate) (fun o => o.isSome = true) (b.1.map Proc.core)
    (AllGridded e B n)
    (fun b A t hb hm hs hj hp => updateTask_ok hb hs (by rw [hm]; exact hj) hp) ts.update
    (fun b' A t ht hb hc hA hs hj hp => updateTask_exact hfl hB hB1 hb hA (rates_of_core hc hrate) hs hj hp
      (hg t (List.mem_append_left _ ht)))
    (fun A t ht hs hA => hA.put (by
      intro r hr; cases hr; exact ⟨hs, hg t (List.mem_append_left _ ht)⟩)) hcore ts.update b1 A1 (fun _ h => h) r1 c1 s1
    hnd2
    (fun t ht => hr t.cell (by
      simp only [List.mem_append]; exact Or.inl (Or.inr (List.mem_map_of_mem ht))))
    (fun t ht => by
      rw [o1 t.cell.2 t.cell.1]
      · exact hupd t ht
      · intro hm
        rw [List.map_id] at hm
        exact hnd12 _ hm _ (List.mem_map_of_mem ht) rfl)
  obtain ⟨q3, b3, A3, e3, c3, r3, s3, o3⟩ := book_loop_same (n := n) (m := b.1.length) addTask
    (Rounded.addTask fl) RateTask.cell (fun t => some t.rate) (fun o => o = none) (b.1.map Proc.core)
    (AllGridded e B n)
    (fun b A t hb hm hs hj hp => addTask_ok hb hs (by rw [hm]; exact hj) hp) ts.add
    (fun b' A t ht hb hc hA hs hj hp => addTask_exact hfl hB hB1 hb hA (rates_of_core hc hrate) hs hj hp
      (hg t (List.mem_append_right _ ht)))
    (fun A t ht hs hA => hA.put (by
      intro r hr; cases hr; exact ⟨hs, hg t (List.mem_append_right _ ht)⟩)) hcore ts.add b2 A2 (fun _ h => h) r2 c2 s2
    hnd3
    (fun t ht => hr t.cell (by
      simp only [List.mem_append]; exact Or.inr (List.mem_map_of_mem ht)))
    (fun t ht => by
      have hm := List.mem_map_of_mem (f := RateTask.cell) ht
      rw [o2 t.cell.2 t.cell.1, o1 t.cell.2 t.cell.1]
      · exact hadd t ht
      · intro hm'
        rw [List.map_id] at hm'
        exact hnd123 _ (List.mem_append_left _ hm') _ hm rfl
      · intro hm'
        exact hnd123 _ (List.mem_append_right _ hm') _ hm rfl)
  unfold Rounded.updateProcesses updateProcesses
  rw [q1, e1, ok_bind, ok_bind, q2, e2, ok_bind, ok_bind, q3]

/-- The rates of an environment and of the processes are on the grid. -/
structure RatesOnGrid (e : ℤ) (B : Nat) (env : Env ℚ) (procs : List (Proc ℚ)) : Prop where
  own : ∀ p ∈ procs, OnGrid e B p.rate
  custom : env.useCustomRates = true → ∀ a, OnGrid e B (env.callback a)

theorem RatesOnGrid.of_rateIs {env : Env ℚ} {procs : List (Proc ℚ)} (h : RatesOnGrid e B env procs)
    {cfg : Config ℚ} {cml : List (CEntry ℚ)} {p : Proc ℚ} {i : Nat} {r : ℚ} (hp : OnGrid e B p.rate)
    (hr : RateIs env cfg cml p i r) : OnGrid e B r := by
  unfold RateIs at hr
  split at hr
  · rename_i hc
    obtain ⟨a, -, rfl⟩ := hr
    exact h.custom hc a
  · rw [hr]; exact hp

/-- When all rates are on the grid the matching is not affected by rounding. -/
theorem calculateMatching_exact (hfl : Rounding fl) {env : Env ℚ} {G : Nat → ℚ → Prop}
    {skel : List (List (CEntry ℚ))} {s : MState ℚ} {A : Content ℚ} {indices : List Nat}
    (h : CallOk env G skel s A indices) (hA : AllGridded e B skel.length A) (hrates : RatesOnGrid e B env s.procs)
    (hB : skel.length * B ≤ 2 ^ 53) (hB1 : B ≤ 2 ^ 53) :
    Rounded.calculateMatching fl env s indices = calculateMatching env s indices := by
  cases hc : calculateMatching env s indices with
  | error f =>
    have h1 := Rounded.calculateMatching_faded (fl := fl) env (s := s) (t := s) rfl indices
    rw [hc] at h1
    cases h2 : Rounded.calculateMatching fl env s indices with
    | error g => rw [h2] at h1; cases h1; rfl
    | ok s' => rw [h2] at h1; cases h1
  | ok s' =>
    obtain ⟨cfg', ts, rt, s2, A2, hp, h1, h2⟩ := calculateMatching_plan h (multOk_of_ok h hc)
    rw [← hc]
    show calculateWith (Rounded.updateProcesses fl) env s indices = calculateWith updateProcesses env s indices
    rw [hp.calls, hp.calls]
    rw [updateProcesses_exact hfl hB hB1 h.book hA hrates.own hp.range hp.nodup hp.remove hp.update hp.add]
    intro t ht
    have hcell : t.cell ∈ ts.remove ++ ts.update.map RateTask.cell ++ ts.add.map RateTask.cell := by
      simp only [List.mem_append]
      rcases List.mem_append.1 ht with ht | ht
      · exact Or.inl (Or.inr (List.mem_map_of_mem ht))
      · exact Or.inr (List.mem_map_of_mem ht)
    obtain ⟨hi, hj⟩ := hp.range _ hcell
    exact hrates.of_rateIs (hrates.own _ (List.getElem_mem hj))
      (hp.rates t ht _ _ (List.getElem?_eq_getElem hi) (List.getElem?_eq_getElem hj))

end Matcher

namespace World
variable {e : ℤ} {B : Nat} {fl : ℚ → ℚ} {W : World ℚ}
open LatticeModel Matcher

/-- The rates of a world are on the grid and the totals of its processes stay within `2 ^ 53` units. -/
structure Gridded (e : ℤ) (B : Nat) (W : World ℚ) : Prop where
  rates : RatesOnGrid e B W.env W.procs
  total : W.n * B ≤ 2 ^ 53
  one : B ≤ 2 ^ 53

theorem Gridded.procs (h : W.Gridded e B) {s : MState ℚ} {A : Content ℚ} (hp : W.PreA s A) :
    RatesOnGrid e B W.env s.procs := by
  refine ⟨fun p hps => ?_, h.rates.custom⟩
  have h1 : p.still ∈ W.procs := by rw [← hp.procs]; exact List.mem_map_of_mem hps
  exact (h.rates.own _ h1 :)

theorem Gridded.content (h : W.Gridded e B) (hok : W.Ok) {s : MState ℚ} {A : Content ℚ} (hI : W.InvA s A) :
    AllGridded e B W.n A := by
  intro j i r hA
  by_cases hij : i < W.n ∧ j < W.procs.length
  · refine ⟨hij.1, ?_⟩
    have hi : i < W.skel.length := by rw [hok.len]; exact hij.1
    have hr := (hI.right i _ (List.getElem?_eq_getElem hi)).rate j _ r (List.getElem?_eq_getElem hij.2) hA
    exact h.rates.of_rateIs (h.rates.own _ (List.getElem_mem hij.2)) hr
  · rw [hI.off i j hij] at hA
    cases hA

end World

namespace Rounded
variable {e : ℤ} {B : Nat} {fl : ℚ → ℚ} {W : World ℚ}
open LatticeModel Matcher

theorem select_set {K : Type _} [Field K] [LinearOrder K] {fl : K → K} {procs : List (Proc K)}
    {table : List (K × Nat)} {u1 u2 : K} {r : Nat × Nat × List (Proc K)}
    (h : select fl procs table u1 u2 = .ok r) :
    ∃ p p', procs[r.1]? = some p ∧ p' = { p with rateTable := p'.rateTable } ∧
      r.2.2 = procs.set r.1 p' ∧ r.2.1 ∈ p.sites := by
  unfold select at h
  rw [bind_ok] at h
  obtain ⟨pk, hpk, h⟩ := h
  rw [bind_ok] at h
  obtain ⟨site, hsite, h⟩ := h
  cases h
  unfold pickProcess at hpk
  rw [bind_ok] at hpk
  obtain ⟨i, hi, hpk⟩ := hpk
  rw [bind_ok] at hpk
  obtain ⟨p, hp, hpk⟩ := hpk
  rw [bind_ok] at hpk
  obtain ⟨p', hp', hpk⟩ := hpk
  rw [bind_ok] at hpk
  obtain ⟨procs', hw, hpk⟩ := hpk
  cases hpk
  have hrest : p' = { p with rateTable := p'.rateTable } := by
    unfold updateRateTable at hp'
    split at hp'
    · rw [bind_ok] at hp'
      obtain ⟨t, -, hp'⟩ := hp'
      cases hp'
      rfl
    · cases hp'
      rfl
  refine ⟨p, p', (rd_ok.1 hp), hrest, ?_, ?_⟩
  · exact (wr_ok.1 hw).2.symm
  · unfold pickSite at hsite
    split at hsite
    · cases hsite
    · have h1 := List.mem_of_getElem? (rd_ok.1 hsite)
      rw [hrest] at h1
      exact h1

/-- A step with rounding keeps the invariant when all rates are on the grid. -/
theorem singleStep_inv (hfl : Rounding fl) (h : W.Ok) (hg : W.Gridded e B) {s s' : Sim ℚ} (hI : W.Inv s.ms)
    {u1 u2 : ℚ} (hs : singleStep fl W.env s u1 u2 = .ok s') :
    W.Inv s'.ms ∧ s'.table = probabilityTable fl s'.ms.procs := by
  obtain ⟨A, hI⟩ := hI
  unfold singleStep at hs
  rw [bind_ok] at hs
  obtain ⟨e, hsel, hs⟩ := hs
  rw [bind_ok] at hs
  obtain ⟨ms1, hperf, hs⟩ := hs
  rw [bind_ok] at hs
  obtain ⟨ms2, hre, hs⟩ := hs
  cases hs
  obtain ⟨p, p', hp, hp', hset, hsite⟩ := select_set hsel
  obtain ⟨hI0, hp0, hst, hsites⟩ := World.select_inv hI hp hp'
  rw [hset] at hperf
  obtain ⟨sk, cfg1, cfg2, aff, hev⟩ := World.event_ok h hI0 (j := e.1) (q := p') hp0 (by rw [hsites]; exact hsite)
  rw [World.performAt_eq hev] at hperf
  cases hperf
  have hcall := World.mid_call h hI0.toPreA hev
  have hre2 : rematch fl W.env (World.mid { s.ms with procs := s.ms.procs.set e.1 p' } e.1 p' cfg2 aff) e.1 =
      calculateMatching fl W.env (World.mid { s.ms with procs := s.ms.procs.set e.1 p' } e.1 p' cfg2 aff)
        (W.again aff) := by
    unfold rematch
    have h1 : (World.mid { s.ms with procs := s.ms.procs.set e.1 p' } e.1 p' cfg2 aff).procs[e.1]? =
        some { p' with affected := aff } := by
      simp only [World.mid]
      rw [List.getElem?_set, if_pos rfl, if_pos (List.getElem?_eq_some_iff.1 hev.proc).1]
    rw [rd_of_getElem? h1, ok_bind]
    unfold World.again
    rw [h.maxRange, ← (World.mid_pre hI0.toPreA hev).procs, Interactions.maxRange_still]
  have hlen := h.len
  rw [hre2, Matcher.calculateMatching_exact hfl hcall (by rw [hlen]; exact hg.content h hI0)
    (hg.procs (World.mid_pre hI0.toPreA hev)) (by rw [hlen]; exact hg.total) hg.one] at hre
  obtain ⟨s2, A2, h1, h2⟩ := Matcher.calculateMatching_ok hcall (Matcher.multOk_of_ok hcall hre)
  rw [hre] at h1
  cases h1
  exact ⟨⟨A2, World.mid_inv h hI0 hev h2⟩, rfl⟩

theorem run_inv (hfl : Rounding fl) (h : W.Ok) (hg : W.Gridded e B) {negLog : ℚ → Option ℚ} (ds : List (Draws ℚ)) :
    ∀ {s s' : Sim ℚ}, W.Inv s.ms → s.table = probabilityTable fl s.ms.procs →
      run fl W.env negLog ds s = .ok s' → W.Inv s'.ms ∧ s'.table = probabilityTable fl s'.ms.procs := by
  induction ds with
  | nil => intro s s' h1 h2 h3; cases h3; exact ⟨h1, h2⟩
  | cons d ds ih =>
    intro s s' h1 h2 h3
    unfold run at h3
    rw [loopM_cons, bind_ok] at h3
    obtain ⟨s1, h3, h4⟩ := h3
    unfold step at h3
    rw [bind_ok] at h3
    obtain ⟨s2, h5, h3⟩ := h3
    obtain ⟨e1, -⟩ := propagateTime_ok h5
    obtain ⟨i1, i2⟩ := singleStep_inv hfl h hg (by rw [e1]; exact h1) h3
    exact ih i1 i2 h4

section
variable {env : Env ℚ} {n nT : Nat} {cfg : Config ℚ} {procs : List (Proc ℚ)}

/-- The first matching is not affected by rounding when all rates are on the grid. -/
theorem initialMatching_exact (hfl : Rounding fl) (h : WellFormed env n nT cfg procs)
    (hcu : env.useCustomRates = true → CustomRatesOk env n nT cfg procs) (hg : RatesOnGrid e B env procs)
    (hB : n * B ≤ 2 ^ 53) {cfg1 : Config ℚ} {procs1 : List (Proc ℚ)} (hp : Prepared env cfg procs cfg1 procs1) :
    (World.of env n nT (Interactions.maxRange procs) cfg1 procs1).Gridded e B ∧
      initialMatching fl env cfg procs = LatticeModel.initialMatching env cfg procs := by
  have hok := world_ok h hcu hp
  have hpre := start_pre h hp
  have hn : 0 < n := by
    rw [← h.sites]
    obtain ⟨a, b, c, d⟩ := h.lattice
    unfold LatticeMap.nSites
    positivity
  have hB1 : B ≤ 2 ^ 53 := (Nat.le_mul_of_pos_left B hn).trans hB
  have hr1 : ∀ p ∈ procs1, OnGrid e B p.rate := by
    intro p1 hp1
    obtain ⟨j, hj⟩ := List.mem_iff_getElem?.1 hp1
    obtain ⟨p, hpj, -, he⟩ := prepared_proc h hp hj
    rw [he]
    exact (hg.own p (List.mem_of_getElem? hpj) :)
  have hgr : (World.of env n nT (Interactions.maxRange procs) cfg1 procs1).Gridded e B := by
    refine ⟨⟨?_, hg.custom⟩, hB, hB1⟩
    intro p hps
    have hps : p ∈ procs1.map Proc.still := hps
    obtain ⟨q, hq, rfl⟩ := List.mem_map.1 hps
    exact (hr1 q hq :)
  refine ⟨hgr, ?_⟩
  have hcall := World.callOk hok hpre (List.nodup_range (n := n)) (fun i hi => List.mem_range.1 hi)
  have hlen := hok.len
  have hex := Matcher.calculateMatching_exact (e := e) (B := B) hfl hcall (fun j s r hA => by cases hA)
    (hgr.procs hpre) (by rw [hlen]; exact hB) hB1
  have hl := lists_of h hp.1
  have e1 : cfg.coords = cfg1.coords := by rw [hl.rest]
  unfold initialMatching LatticeModel.initialMatching
  rw [hp.1, ok_bind, ok_bind]
  dsimp only
  rw [hp.2, ok_bind, ok_bind]
  unfold startState at hex
  rw [hl.shape.elements, ← prepared_length hp, e1] at *
  exact hex
end

/-- In every state of a run with rounding the invariant holds when all rates are on the grid. -/
theorem reached_inv (hfl : Rounding fl) {env : Env ℚ} {n nT : Nat} {cfg : Config ℚ} {procs : List (Proc ℚ)}
    (h : WellFormed env n nT cfg procs)
    (hcu : env.useCustomRates = true → CustomRatesOk env n nT cfg procs) (hg : RatesOnGrid e B env procs)
    (hB : n * B ≤ 2 ^ 53) {negLog : ℚ → Option ℚ} {ds : List (Draws ℚ)} {s0 s : Sim ℚ}
    (h0 : init fl env cfg procs = .ok s0) (hrun : run fl env negLog ds s0 = .ok s) :
    ∃ W : World ℚ, W.Ok ∧ W.Gridded e B ∧ W.n = n ∧ W.procs.length = procs.length ∧ W.Inv s.ms ∧
      s.table = probabilityTable fl s.ms.procs := by
  unfold init at h0
  rw [bind_ok] at h0
  obtain ⟨ms, h1, h0⟩ := h0
  cases h0
  have h1' := h1
  unfold initialMatching at h1'
  rw [bind_ok] at h1'
  obtain ⟨cfg1, c1, h1'⟩ := h1'
  dsimp only at h1'
  rw [bind_ok] at h1'
  obtain ⟨procs1, c2, -⟩ := h1'
  obtain ⟨-, hex⟩ := initialMatching_exact hfl h hcu hg hB (cfg1 := cfg1) (procs1 := procs1) ⟨c1, c2⟩
  rw [hex] at h1
  obtain ⟨cfg2, procs2, hp, hok, hinv, -⟩ := initialMatching_inv h hcu h1
  obtain ⟨hgr, -⟩ := initialMatching_exact hfl h hcu hg hB hp
  obtain ⟨i1, i2⟩ := run_inv (W := World.of env n nT (Interactions.maxRange procs) cfg2 procs2) hfl hok hgr ds
    hinv rfl hrun
  refine ⟨_, hok, hgr, rfl, ?_, i1, i2⟩
  have : (procs2.map Proc.still).length = procs.length := by rw [List.length_map, prepared_length hp]
  exact this

end Rounded

end KMC
