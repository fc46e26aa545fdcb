import Verif.Lemmas.RateTable
import Verif.Lemmas.Mpi
import Mathlib.Data.Rat.Defs

/-!
# C34 (rate cache) and C31 (parallel work sharing)
-/

namespace KMC

section C34
variable {K : Type _}

/-- **C34** Storing never fails, whatever was stored before. -/
theorem C34_total (h : List (Nat × K)) : ∃ r, RateTable.run h = .ok r :=
  let ⟨r, hr, _⟩ := RateTable.run_inv h
  ⟨r, hr⟩

/-- **C34** The cache never holds more than 8 tables of 1024 values. -/
theorem C34_bounded (h : List (Nat × K)) (r : RateTable K) (hr : RateTable.run h = .ok r) :
    r.tables.length = 8 ∧ (∀ t ∈ r.tables, t.length ≤ 1024) ∧
      (r.tables.map List.length).sum ≤ 8 * 1024 := by
  obtain ⟨r', hr', inv⟩ := RateTable.run_inv h
  rw [hr] at hr'; cases hr'
  refine ⟨inv.nTables, inv.small, ?_⟩
  have hs : ∀ ts : List (List (Nat × K)), (∀ t ∈ ts, t.length ≤ 1024) →
      (ts.map List.length).sum ≤ ts.length * 1024 := by
    intro ts
    induction ts with
    | nil => simp
    | cons t ts ih =>
      intro h
      have h1 := h t (by simp)
      have h2 := ih fun u hu => h u (List.mem_cons_of_mem _ hu)
      simp only [List.map_cons, List.sum_cons, List.length_cons]
      omega
  have := hs r.tables inv.small
  rwa [inv.nTables] at this

/-- **C34** A lookup gives a value only if that value was stored for that key. -/
theorem C34_never_invents (h : List (Nat × K)) (r : RateTable K) (hr : RateTable.run h = .ok r)
    (key : Nat) (v : K) (hv : r.retrieve key = .ok v) : (key, v) ∈ h := by
  obtain ⟨r', hr', inv⟩ := RateTable.run_inv h
  rw [hr] at hr'; cases hr'
  obtain ⟨t, ht, hm⟩ := RateTable.mem_of_retrieve hv
  exact inv.hist t ht _ hm

/-- **C34** The value of a key announced as stored can be retrieved without an exception, and no
other. -/
theorem C34_retrieve_iff_stored (r : RateTable K) (key : Nat) :
    (∃ v, r.retrieve key = .ok v) ↔ r.stored key ≠ none := RateTable.retrieve_ok_iff

/-- **C34** A key just stored is found, also when the store made the cache switch tables. -/
theorem C34_found (h : List (Nat × K)) (key : Nat) (v : K) (r : RateTable K)
    (hr : RateTable.run (h ++ [(key, v)]) = .ok r) : ∃ w, r.retrieve key = .ok w := by
  obtain ⟨r0, hr0, inv⟩ := RateTable.run_inv h
  obtain ⟨r', h1, -, h3, -⟩ := inv.store (by omega) key v
  rw [RateTable.run_append, hr0] at hr
  have : r = r' := by
    have h1' : r0.store key v = .ok r := hr
    rw [h1] at h1'; cases h1'; rfl
  subst this
  obtain ⟨t, ht, hm, -⟩ := h3 (by omega) (by omega)
  rw [RateTable.retrieve_ok_iff]
  intro hn
  exact RateTable.stored_none.1 hn t ht v hm

/-- **C34** A value stored for a key the cache did not hold is the value then found (the matcher
computes and stores rates only for keys that are not held). -/
theorem C34_fresh (h : List (Nat × K)) (key : Nat) (v : K) (r0 r : RateTable K)
    (hr0 : RateTable.run h = .ok r0) (hfresh : r0.stored key = none)
    (hr : RateTable.run (h ++ [(key, v)]) = .ok r) : r.retrieve key = .ok v := by
  obtain ⟨w, hw⟩ := C34_found h key v r hr
  obtain ⟨t, ht, hm⟩ := RateTable.mem_of_retrieve hw
  obtain ⟨r0', hr0', inv⟩ := RateTable.run_inv h
  rw [hr0] at hr0'; cases hr0'
  have hs : r0.store key v = .ok r := by
    rw [RateTable.run_append, hr0] at hr; exact hr
  have hno := RateTable.stored_none.1 hfresh
  have hc : r0.current < r0.tables.length := by rw [inv.nTables]; exact inv.current
  -- every pair for `key` in the new cache is the one just stored
  have hkey : ∀ u ∈ r.tables, ∀ x, (key, x) ∈ u → x = v := by
    unfold RateTable.store at hs
    rw [rd_of_lt hc, ok_bind] at hs
    dsimp only at hs
    rw [wr_of_lt hc, ok_bind] at hs
    have h1 : ∀ u ∈ r0.tables.set r0.current (mapPut key v r0.tables[r0.current]), ∀ x,
        (key, x) ∈ u → x = v := by
      intro u hu x hx
      rcases List.mem_or_eq_of_mem_set hu with hu | rfl
      · exact absurd hx (hno u hu x)
      · rcases mem_mapPut hx with h | h
        · exact congrArg Prod.snd h
        · exact absurd h (hno _ (List.getElem_mem hc) x)
    split at hs
    · rw [bind_ok] at hs
      obtain ⟨tb, htb, hs⟩ := hs
      rw [wr_ok] at htb
      cases hs
      intro u hu x hx
      rw [← htb.2] at hu
      rcases List.mem_or_eq_of_mem_set hu with hu | rfl
      · exact h1 u hu x hx
      · simp at hx
    · cases hs
      exact h1
  rw [hw, hkey t ht w hm]

/-- **C34** If no key is ever stored with two different values, a lookup gives the value of the
key. -/
theorem C34_functional (h : List (Nat × K)) (f : Nat → K) (hf : ∀ e ∈ h, e.2 = f e.1)
    (r : RateTable K) (hr : RateTable.run h = .ok r) (key : Nat) (v : K)
    (hv : r.retrieve key = .ok v) : v = f key :=
  hf _ (C34_never_invents h r hr key v hv)

theorem mapPut_fresh {v : K} {k : Nat} {m : List (Nat × K)} (h : ∀ e ∈ m, e.1 ≠ k) :
    mapPut k v m = m ++ [(k, v)] := by
  induction m with
  | nil => rfl
  | cons a m ih =>
    unfold mapPut
    rw [if_neg (h a (by simp)), ih fun e he => h e (List.mem_cons_of_mem _ he)]; rfl

/-- The pairs (0, g 0), ..., (n-1, g (n-1)). -/
def firstPairs (g : Nat → K) (n : Nat) : List (Nat × K) := (List.range n).map (fun k => (k, g k))

theorem run_firstPairs (g : Nat → K) (n : Nat) (hn : n < 1024) :
    RateTable.run (firstPairs g n)
      = .ok ⟨1024, 0, [firstPairs g n, [], [], [], [], [], [], []]⟩ := by
  induction n with
  | zero => rfl
  | succ n ih =>
    have h1 : firstPairs g (n + 1) = firstPairs g n ++ [(n, g n)] := by
      simp [firstPairs, List.range_succ]
    have h2 : mapPut n (g n) (firstPairs g n) = firstPairs g (n + 1) := by
      rw [h1, mapPut_fresh]
      intro e he
      obtain ⟨k, hk, rfl⟩ := List.mem_map.1 he
      have := List.mem_range.1 hk
      simp only
      omega
    rw [h1, RateTable.run_append, ih (by omega), ok_bind]
    have h3 : (firstPairs g (n + 1)).length = n + 1 := by simp [firstPairs]
    simp only [RateTable.store, rd, List.getElem?_cons_zero, ok_bind, h2]
    rw [wr_of_lt (by simp), ok_bind, if_neg (by omega)]
    rw [← h1]; rfl

theorem run_full (g : Nat → K) :
    RateTable.run (firstPairs g 1024)
      = .ok ⟨1024, 1, [firstPairs g 1024, [], [], [], [], [], [], []]⟩ := by
  have h1 : firstPairs g 1024 = firstPairs g 1023 ++ [(1023, g 1023)] := by
    simp [firstPairs, List.range_succ (n := 1023)]
  have h2 : mapPut 1023 (g 1023) (firstPairs g 1023) = firstPairs g 1024 := by
    rw [h1, mapPut_fresh]
    intro e he
    obtain ⟨k, hk, rfl⟩ := List.mem_map.1 he
    have := List.mem_range.1 hk
    simp only
    omega
  rw [h1, RateTable.run_append, run_firstPairs g 1023 (by omega), ok_bind]
  have h3 : (firstPairs g 1024).length = 1024 := by simp [firstPairs]
  simp only [RateTable.store, rd, List.getElem?_cons_zero, ok_bind, h2]
  rw [wr_of_lt (by simp), ok_bind, if_pos h3, wr_of_lt (by simp), ok_bind, ← h1]
  rfl

/-- Without that, an old value can hide a newer one: with the cache of the code, fill the first table
starting with key 0, then store key 0 again; the lookup gives the first value. -/
theorem C34_old_value_can_hide_new :
    ∃ (h : List (Nat × ℚ)) (r : RateTable ℚ), RateTable.run (h ++ [(0, 2)]) = .ok r ∧
      r.retrieve 0 = .ok 1 := by
  refine ⟨firstPairs (fun _ => 1) 1024, ⟨1024, 1, [firstPairs (fun _ => 1) 1024, [(0, 2)], [], [], [],
    [], [], []]⟩, ?_, ?_⟩
  · rw [RateTable.run_append, run_full]; rfl
  · have h1 : firstPairs (fun _ => (1 : ℚ)) 1024 = (0, 1) :: (List.range 1023).map
        (fun k => (k + 1, 1)) := by
      rw [firstPairs, List.range_succ_eq_map, List.map_cons, List.map_map]; rfl
    rw [h1]
    rfl

/-- The hypotheses of the theorems above are met by a cache that has switched tables. -/
example : ∃ r : RateTable ℚ, RateTable.run (firstPairs (fun k => (k : ℚ)) 1024) = .ok r ∧
    r.current = 1 ∧ r.stored 0 = some 0 ∧ r.retrieve 0 = .ok 0 ∧ r.stored 1500 = none := by
  refine ⟨_, run_full _, rfl, ?_, ?_, ?_⟩
  · have h1 : firstPairs (fun k => (k : ℚ)) 1024 = (0, ((0 : Nat) : ℚ)) :: (List.range 1023).map
        (fun k => (k + 1, ((k + 1 : Nat) : ℚ))) := by
      rw [firstPairs, List.range_succ_eq_map, List.map_cons, List.map_map]; rfl
    rw [h1]; rfl
  · have h1 : firstPairs (fun k => (k : ℚ)) 1024 = (0, ((0 : Nat) : ℚ)) :: (List.range 1023).map
        (fun k => (k + 1, ((k + 1 : Nat) : ℚ))) := by
      rw [firstPairs, List.range_succ_eq_map, List.map_cons, List.map_map]; rfl
    rw [h1]; rfl
  · rw [RateTable.stored_none]
    intro t ht v hv
    simp only [List.mem_cons, List.not_mem_nil, or_false] at ht
    rcases ht with ht | ht | ht | ht | ht | ht | ht | ht <;> rw [ht] at hv
    · obtain ⟨k, hk, he⟩ := List.mem_map.1 hv
      have := List.mem_range.1 hk
      have := congrArg Prod.fst he
      simp only at this
      omega
    all_goals simp at hv

end C34

section C31

/-- **C31** Splitting any work list over any number of ranks, letting every rank do its part and
joining the parts gives what one rank alone computes, including which error is met first. -/
theorem C31_work_sharing {α β : Type _} [AddZeroClass β] (ranks : Nat) (hr : 0 < ranks)
    (f : α → M β) (xs : List α) : Mpi.parMap ranks f xs = mapMM f xs := Mpi.parMap_eq hr f xs

/-- **C31** In the chunk table, chunk `r` starts where the chunks before it end, the last one ends at
the end of the list, and the sizes are `n / ranks` or one more. -/
theorem C31_chunks (ranks : Nat) (hr : 0 < ranks) (n : Nat) :
    (Mpi.determineChunks ranks n).length = ranks ∧
    (∀ r c, (Mpi.determineChunks ranks n)[r]? = some c →
      c.1 = (((Mpi.determineChunks ranks n).take r).map Prod.snd).sum ∧
      (c.2 = n / ranks ∨ c.2 = n / ranks + 1)) ∧
    ((Mpi.determineChunks ranks n).map Prod.snd).sum = n := by
  refine ⟨Mpi.length_determineChunks ranks n, ?_, by
    simpa using (Mpi.determineChunks_tiles hr n).sum⟩
  have hstart : ∀ {s e : Nat} {cs : List (Nat × Nat)}, Mpi.Tiles s cs e → ∀ (r : Nat) (c : Nat × Nat),
      cs[r]? = some c → c.1 = s + ((cs.take r).map Prod.snd).sum := by
    intro s e cs h
    induction h with
    | nil => intro r c h; simp at h
    | cons h ih =>
      intro r c hc
      cases r with
      | zero => simp at hc; subst hc; simp
      | succ r =>
        have := ih r c (by simpa using hc)
        simp only [List.take_succ_cons, List.map_cons, List.sum_cons]
        omega
  have hsize : ∀ (take rest k i sum : Nat) (c : Nat × Nat), c ∈ Mpi.chunksLoop take rest k i sum →
      c.2 = take ∨ c.2 = take + 1 := by
    intro take rest k
    induction k with
    | zero => intro i sum c h; simp [Mpi.chunksLoop] at h
    | succ k ih =>
      intro i sum c h
      rcases List.mem_cons.1 h with rfl | h
      · simp only; split <;> simp
      · exact ih _ _ c h
  intro r c hc
  refine ⟨?_, hsize _ _ _ _ _ c (List.mem_of_getElem? hc)⟩
  simpa using hstart (Mpi.determineChunks_tiles hr n) r c hc

/-- Ten tasks on four ranks: sizes 3, 3, 2, 2. -/
example : Mpi.determineChunks 4 10 = [(0, 3), (3, 3), (6, 2), (8, 2)] := by decide

/-- The parallel evaluation of ten tasks on four ranks, and more ranks than tasks. -/
example : Mpi.parMap 4 (fun n : Nat => (.ok (n * n) : M Nat)) [1, 2, 3, 4, 5, 6, 7, 8, 9, 10]
    = .ok [1, 4, 9, 16, 25, 36, 49, 64, 81, 100] ∧
    Mpi.parMap 4 (fun n : Nat => (.ok (n * n) : M Nat)) [1, 2] = .ok [1, 4] := by decide +kernel

end C31

end KMC
