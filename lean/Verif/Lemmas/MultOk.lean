import Verif.Lemmas.Collect

/-!
# A call that ends computed all its multiplicities
-/

set_option linter.unusedSectionVars false

namespace KMC
namespace Matcher

variable {K : Type _} [Field K] [LinearOrder K]

theorem rateTask_of_sortTasks {s : MState K} : ∀ (pairs : List (Nat × Nat)) (types : List Nat) (ts : Tasks K),
    sortTasks s pairs types = .ok ts → ∀ (k : Nat) (c : Nat × Nat) (t : Nat), pairs[k]? = some c →
      types[k]? = some t → t = 2 ∨ t = 3 → ∃ r, rateTask s c = .ok r
  | [], _, _, _, k, c, t, hc, _, _ => by simp at hc
  | _ :: _, [], _, h, _, _, _, _, _, _ => by simp [sortTasks] at h
  | pair :: pairs, u :: us, ts, h, k, c, t, hc, ht, h23 => by
    unfold sortTasks at h
    have key : ∃ ts', sortTasks s pairs us = .ok ts' ∧ (u = 2 ∨ u = 3 → ∃ r, rateTask s pair = .ok r) := by
      by_cases h1 : u = 1
      · rw [if_pos h1, bind_ok] at h
        obtain ⟨r, hr, -⟩ := h
        exact ⟨r, hr, by omega⟩
      · rw [if_neg h1] at h
        by_cases h2 : u = 2
        · rw [if_pos h2, bind_ok] at h
          obtain ⟨task, htask, h⟩ := h
          rw [bind_ok] at h
          obtain ⟨r, hr, -⟩ := h
          exact ⟨r, hr, fun _ => ⟨_, htask⟩⟩
        · rw [if_neg h2] at h
          by_cases h3 : u = 3
          · rw [if_pos h3, bind_ok] at h
            obtain ⟨task, htask, h⟩ := h
            rw [bind_ok] at h
            obtain ⟨r, hr, -⟩ := h
            exact ⟨r, hr, fun _ => ⟨_, htask⟩⟩
          · rw [if_neg h3] at h
            exact ⟨ts, h, by omega⟩
    obtain ⟨ts', h4, h5⟩ := key
    cases k with
    | zero =>
      simp only [List.getElem?_cons_zero, Option.some.injEq] at hc ht
      subst hc ht
      exact h5 h23
    | succ k =>
      exact rateTask_of_sortTasks pairs us ts' h4 k c t (by simpa using hc) (by simpa using ht) h23

/-- The first part of a call computes all multiplicities. -/
theorem multOk_of_match {env : Env K} {G : Nat → K → Prop} {skel : List (List (CEntry K))}
    {s : MState K} {A : Content K} {indices : List Nat} (h : CallOk env G skel s A indices)
    {c : List (Nat × Nat) × Config K} (hc : collectPairs env.L s.procs indices s.cfg = .ok c) {ts : Tasks K}
    (hts : matchPairs env { s with cfg := c.2 } c.1 = .ok ts) : MultOk env skel s indices := by
  intro i j sk p hi hsk hp hb hm
  obtain ⟨cfg', c1, c2, c3, c4⟩ := collectPairs_ok (L := env.L) (procs := s.procs) indices s.cfg h.lists h.geo
    h.entries h.range
  rw [hc] at c1
  cases c1
  unfold matchPairs at hts
  rw [Mpi.parMap_eq h.ranks, bind_ok] at hts
  obtain ⟨types, h1, h2⟩ := hts
  have hpair : (i, j) ∈ pairsOf env.L s.procs indices := mem_pairsOf.2 ⟨hi, p, hp, hb⟩
  obtain ⟨k, hk⟩ := List.mem_iff_getElem?.1 hpair
  obtain ⟨t, ht, htt⟩ := mapMM_getElem? h1 hk
  have hne : processesFor env.L s.procs i ≠ [] := by
    intro h0
    have := mem_processesFor.2 ⟨p, hp, hb⟩
    rw [h0] at this
    simp at this
  have hml : cfg'.matchLists[i]? = some (seen s.cfg.types sk) := by
    rw [c4, if_pos ⟨hi, hne⟩, hsk]; rfl
  obtain ⟨row, r1, r2, r3⟩ := h.book.inv i (h.range _ hi)
  have r4 := r3 j (List.getElem?_eq_some_iff.1 hp).1
  unfold taskType at htt
  simp only at htt
  rw [rd_of_getElem? hp, ok_bind] at htt
  simp only at r1
  rw [rd_of_getElem? r1, ok_bind, rd_of_getElem? r4, ok_bind, rd_of_getElem? hml, ok_bind, hm, ok_bind] at htt
  have h23 : t = 2 ∨ t = 3 := by
    cases hA : (A j i).isSome with
    | true =>
      rw [hA] at htt
      rw [if_neg (by simp), if_pos (by simp)] at htt
      cases htt
      exact Or.inl rfl
    | false =>
      rw [hA] at htt
      rw [if_neg (by simp), if_neg (by simp), if_pos (by simp)] at htt
      cases htt
      exact Or.inr rfl
  obtain ⟨r, hr⟩ := rateTask_of_sortTasks _ _ _ h2 k (i, j) t hk ht h23
  unfold rateTask at hr
  simp only at hr
  rw [rd_of_getElem? hp, ok_bind, rd_of_getElem? hml, ok_bind, bind_ok] at hr
  obtain ⟨m, hm', -⟩ := hr
  exact ⟨m, hm'⟩

theorem multOk_of_ok {env : Env K} {G : Nat → K → Prop} {skel : List (List (CEntry K))}
    {s s' : MState K} {A : Content K} {indices : List Nat} (h : CallOk env G skel s A indices)
    (hok : calculateMatching env s indices = .ok s') : MultOk env skel s indices := by
  unfold calculateMatching at hok
  rw [bind_ok] at hok
  obtain ⟨c, hc, hok⟩ := hok
  dsimp only at hok
  rw [bind_ok] at hok
  obtain ⟨ts, hts, -⟩ := hok
  exact multOk_of_match h hc hts

/-! ### The only way to fail -/

/-- The result is there, or the multiplicity overflowed. -/
def OkOr {α : Type _} (x : M α) : Prop := (∃ a, x = .ok a) ∨ x = .error .overflow

theorem OkOr.bind {α β : Type _} {x : M α} {f : α → M β} (hx : OkOr x) (hf : ∀ a, x = .ok a → OkOr (f a)) :
    OkOr (x >>= f) := by
  rcases hx with ⟨a, ha⟩ | ha
  · rw [ha, ok_bind]; exact hf a ha
  · rw [ha]; exact .inr rfl

theorem okOr_ok {α : Type _} (a : α) : OkOr (.ok a : M α) := .inl ⟨a, rfl⟩

theorem mulInt32_okOr (a b : Int) : OkOr (mulInt32 a b) := by
  unfold mulInt32
  split
  · exact okOr_ok _
  · exact .inr rfl

theorem mulDown_okOr (n : Nat) : ∀ acc start : Int, OkOr (mulDown acc start n) := by
  induction n with
  | zero => intro acc start; exact okOr_ok _
  | succ n ih =>
    intro acc start
    unfold mulDown
    exact (mulInt32_okOr _ _).bind fun a _ => ih _ _

theorem multFactor_okOr (m n r : Int) : OkOr (multFactor m n r) := by
  unfold multFactor
  dsimp only
  split
  · exact (mulDown_okOr _ _ _).bind fun a _ => (mulDown_okOr _ _ _).bind fun b _ => mulInt32_okOr _ _
  · exact okOr_ok _

theorem multTypes_okOr : ∀ (t1 t2 : Bucket) (m : Int), t1.length ≤ t2.length → OkOr (multTypes m t1 t2)
  | [], _, m, _ => okOr_ok _
  | r :: rs, [], m, h => by simp at h
  | r :: rs, n :: ns, m, h => by
    unfold multTypes
    have h' : rs.length ≤ ns.length := by simpa using h
    split
    · exact (multFactor_okOr _ _ _).bind fun a _ => multTypes_okOr rs ns a h'
    · exact multTypes_okOr rs ns m h'

theorem multLoop_okOr {nT : Nat} (hT : 0 < nT) : ∀ (ps : List (PEntry K)) (cs : List (CEntry K)) (m : Int),
    (∀ p ∈ ps, p.matchTypes.length = nT) → (∀ c ∈ cs, c.matchTypes.length = nT) → ps.length ≤ cs.length →
    OkOr (multLoop m ps cs)
  | [], _, m, _, _, _ => okOr_ok _
  | p :: ps, [], m, _, _, h => by simp at h
  | p :: ps, c :: cs, m, hp, hc, h => by
    have h1 := hp p (by simp)
    have h2 := hc c (by simp)
    have ih := fun m => multLoop_okOr hT ps cs m (fun q hq => hp q (by simp [hq]))
      (fun q hq => hc q (by simp [hq])) (by simpa using h)
    unfold multLoop
    rw [rd_of_lt (by omega), ok_bind]
    split
    · exact (multTypes_okOr _ _ _ (by simp [h1, h2])).bind fun a _ => ih a
    · exact ih m

theorem sortTasks_okOr {s : MState K} : ∀ (pairs : List (Nat × Nat)) (types : List Nat),
    types.length = pairs.length → (∀ (k : Nat) (c : Nat × Nat) (t : Nat), pairs[k]? = some c →
      types[k]? = some t → t = 2 ∨ t = 3 → OkOr (rateTask s c)) → OkOr (sortTasks s pairs types)
  | [], _, _, _ => okOr_ok _
  | _ :: _, [], h, _ => by simp at h
  | pair :: pairs, u :: us, h, hr => by
    have ih := sortTasks_okOr pairs us (by simpa using h)
      (fun k c t hc ht => hr (k + 1) c t (by simpa using hc) (by simpa using ht))
    have h0 := hr 0 pair u rfl rfl
    unfold sortTasks
    split
    · exact ih.bind fun _ _ => okOr_ok _
    split
    · next h2 => exact (h0 (.inl h2)).bind fun _ _ => ih.bind fun _ _ => okOr_ok _
    split
    · next h3 => exact (h0 (.inr h3)).bind fun _ _ => ih.bind fun _ _ => okOr_ok _
    · exact ih

/-- A call only fails when a multiplicity overflows. -/
theorem calculateMatching_okOr {env : Env K} {G : Nat → K → Prop} {skel : List (List (CEntry K))}
    {s : MState K} {A : Content K} {indices : List Nat} (h : CallOk env G skel s A indices)
    (hm : ∀ (i j : Nat) (sk : List (CEntry K)) (p : Proc K), i ∈ indices → skel[i]? = some sk →
      s.procs[j]? = some p → whateverMatch p.matchList (seen s.cfg.types sk) = .ok true →
      OkOr (multiplicity p.matchList (seen s.cfg.types sk))) :
    OkOr (calculateMatching env s indices) := by
  obtain ⟨cfg', c1, c2, c3, c4⟩ := collectPairs_ok (L := env.L) (procs := s.procs) indices s.cfg h.lists h.geo
    h.entries h.range
  have hlist : ∀ c ∈ pairsOf env.L s.procs indices, ∃ sk p, c.1 ∈ indices ∧ skel[c.1]? = some sk ∧
      s.procs[c.2]? = some p ∧ env.L.basisSite c.1 ∈ p.basisSites ∧
      cfg'.matchLists[c.1]? = some (seen s.cfg.types sk) := by
    intro c hc
    obtain ⟨h1, p, h2, h3⟩ := mem_pairsOf.1 hc
    have h4 := List.getElem?_eq_getElem (h.range _ h1)
    refine ⟨_, p, h1, h4, h2, h3, ?_⟩
    have hne : processesFor env.L s.procs c.1 ≠ [] := by
      intro h0
      have := mem_processesFor.2 ⟨p, h2, h3⟩
      rw [h0] at this
      simp at this
    rw [c4, if_pos ⟨h1, hne⟩, h4]
    rfl
  have htype : ∀ c ∈ pairsOf env.L s.procs indices, ∀ sk p, skel[c.1]? = some sk → s.procs[c.2]? = some p →
      env.L.basisSite c.1 ∈ p.basisSites → cfg'.matchLists[c.1]? = some (seen s.cfg.types sk) →
      ∃ t, taskType { s with cfg := cfg' } c = .ok t ∧
      (t = 2 ∨ t = 3 → whateverMatch p.matchList (seen s.cfg.types sk) = .ok true) := by
    intro c hc sk p h1 h2 h3 h4
    obtain ⟨r, hr⟩ := h.matchable c.1 c.2 sk p h1 h2 h3
    obtain ⟨row, r1, r2, r3⟩ := h.book.inv c.1 (h.range _ (mem_pairsOf.1 hc).1)
    have r4 := r3 c.2 (List.getElem?_eq_some_iff.1 h2).1
    simp only at r1
    unfold taskType
    rw [rd_of_getElem? h2, ok_bind, rd_of_getElem? r1, ok_bind, rd_of_getElem? r4, ok_bind,
      rd_of_getElem? h4, ok_bind, hr, ok_bind]
    cases r with
    | true =>
      cases (A c.2 c.1).isSome with
      | true => exact ⟨2, rfl, fun _ => rfl⟩
      | false => exact ⟨3, rfl, fun _ => rfl⟩
    | false =>
      cases (A c.2 c.1).isSome with
      | true => exact ⟨1, rfl, by omega⟩
      | false => exact ⟨0, rfl, by omega⟩
  obtain ⟨types, ht⟩ := mapMM_isOk (f := taskType { s with cfg := cfg' }) (xs := pairsOf env.L s.procs indices) (by
    intro c hc
    obtain ⟨sk, p, h1, h2, h3, h4, h5⟩ := hlist c hc
    obtain ⟨t, ht, -⟩ := htype c hc sk p h2 h3 h4 h5
    exact ⟨t, ht⟩)
  have hmatch : OkOr (matchPairs env { s with cfg := cfg' } (pairsOf env.L s.procs indices)) := by
    unfold matchPairs
    rw [Mpi.parMap_eq h.ranks, ht, ok_bind]
    apply sortTasks_okOr _ _ (mapMM_length ht)
    intro k c t hc htk h23
    obtain ⟨sk, p, h1, h2, h3, h4, h5⟩ := hlist c (List.mem_of_getElem? hc)
    obtain ⟨t', ht', ht''⟩ := htype c (List.mem_of_getElem? hc) sk p h2 h3 h4 h5
    obtain ⟨y, hy, hy'⟩ := mapMM_getElem? ht hc
    rw [htk, Option.some.injEq] at hy
    subst hy
    rw [ht'] at hy'
    cases hy'
    unfold rateTask
    rw [rd_of_getElem? h3, ok_bind, rd_of_getElem? h5, ok_bind]
    exact (hm c.1 c.2 sk p h1 h2 h3 (ht'' h23)).bind fun _ _ => okOr_ok _
  rcases hmatch with ⟨ts, hts⟩ | herr
  · obtain ⟨s', A', h1, -⟩ := calculateMatching_ok h (multOk_of_match h c1 hts)
    exact .inl ⟨s', h1⟩
  · right
    unfold calculateMatching
    rw [c1, ok_bind]
    dsimp only
    rw [herr]
    rfl

end Matcher
end KMC
