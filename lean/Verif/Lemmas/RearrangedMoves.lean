import Verif.Lemmas.Rearranged

/-!
# Lemmas on the moves of processes that are written down in another way
-/

set_option linter.unusedSectionVars false

namespace KMC

open PyProc

section
variable {K : Type _} [Field K] [LinearOrder K] [IsStrictOrderedRing K] {n : Nat} {π ρ : Nat → Nat}
  {cs cs' : List (Coord K)} {before after before' after' : List String}

theorem PlacesApart.nodup (h : PlacesApart cs) : cs.Nodup := by
  refine h.imp ?_
  rintro a b hab rfl
  simp only [sub_self, abs_zero, add_zero] at hab
  norm_num at hab

theorem PlacesApart.get (h : PlacesApart cs) {i j : Nat} {a b : Coord K} (ha : cs[i]? = some a) (hb : cs[j]? = some b)
    (hij : i ≠ j) : 2 / 100000000 ≤ |a.x - b.x| + |a.y - b.y| + |a.z - b.z| := by
  obtain ⟨x1, rfl⟩ := List.getElem?_eq_some_iff.1 ha
  obtain ⟨y1, rfl⟩ := List.getElem?_eq_some_iff.1 hb
  rcases Nat.lt_or_gt_of_ne hij with hlt | hlt
  · exact List.pairwise_iff_getElem.1 h i j x1 y1 hlt
  · have := List.pairwise_iff_getElem.1 h j i y1 x1 hlt
    rwa [abs_sub_comm, abs_sub_comm (cs[i].y), abs_sub_comm (cs[i].z)]

theorem PlacesApart.rearranged (h : PlacesApart cs) (hr : Renaming n π ρ) (hc : Rearranged n π cs cs') : PlacesApart cs' := by
  unfold PlacesApart
  rw [List.pairwise_iff_getElem]
  intro i j hi hj hij
  have hc' := hr.rearranged hc
  rw [hc.2.1] at hi hj
  refine h.get (i := ρ i) (j := ρ j) ?_ ?_ ?_
  · rw [hc'.2.2 i hi, List.getElem?_eq_getElem]
  · rw [hc'.2.2 j hj, List.getElem?_eq_getElem]
  · intro e
    have := hr.symm.inj hi hj e
    omega

/-- The check of given moves. -/
theorem checkMoves_renamed (hr : Renaming n π ρ) (hc : Rearranged n π cs cs') (hb : Rearranged n π before before')
    (ha : Rearranged n π after after') (hd : PlacesApart cs) {ms ms' : List (Int × Coord K)} (hm : MovesRenamed n π ms ms')
    {x : List (Int × Coord K)} (h : checkMoves cs before after (some ms) = .ok x) :
    checkMoves cs' before' after' (some ms') = .ok ms' := by
  obtain ⟨-, -, h3⟩ := checkMoves_ok (by rw [hb.1, hc.1]) (by rw [ha.1, hc.1]) h
  obtain ⟨tgt, t1, t2⟩ := h3 (.inl rfl)
  have hx := (checkMoves_ok (by rw [hb.1, hc.1]) (by rw [ha.1, hc.1]) h).1 ms rfl
  subst hx
  obtain ⟨q, hq, hf⟩ := hm
  have e1 : List.Forall₂ (fun (m : Int × Coord K) j => ∃ i, pyIndex cs'.length m.1 = .ok i ∧
      Lands cs' before' after' i m.2 j) q (tgt.map π) := by
    clear hq t2 h h3
    induction hf generalizing tgt with
    | nil => cases t1; exact .nil
    | @cons m m' ms q hmm _ ih =>
      cases t1 with
      | @cons _ j _ tgt hj ht =>
        refine .cons ?_ (ih _ ht)
        obtain ⟨g1, i, g2, g3⟩ := hmm
        obtain ⟨i0, k1, c, d, e, k2, k3, k4, k5, k6⟩ := hj
        rw [hc.1, pyIndex_of g2.1 g2.2] at k1
        obtain rfl := Except.ok.inj k1
        have hj : j < n := by rw [← hc.1]; exact (List.getElem?_eq_some_iff.1 k3).1
        refine ⟨π i, by rw [hc.2.1]; exact pyIndex_of g3.1 g3.2, c, d, e, ?_, ?_, ?_, ?_, ?_⟩
        · rw [hc.2.2 i g2.1, k2]
        · rw [hc.2.2 j hj, k3]
        · rw [g1]; exact k4
        · rw [hb.2.2 i g2.1, k5]
        · rw [ha.2.2 j hj, k6]
  obtain ⟨tgt', f1, f2⟩ := List.perm_comp_forall₂ hq.symm e1
  have hsep : cs'.Pairwise (fun a b => 2 / 100000000 ≤ PyProc.taxi (a - b)) := hd.rearranged hr hc
  obtain ⟨moved, k1, k2, k3, k4⟩ := PyProc.tryMoves_of (by rw [hb.2.1, hc.2.1]) (by rw [ha.2.1, hc.2.1]) hsep f1 before'
    (by rw [hb.2.1, hc.2.1])
  have hafter : after' = moved := by
    apply List.ext_getElem?
    intro j
    by_cases hj : j ∈ tgt'
    · exact (k4 j hj).symm
    · rw [k3 j hj]
      by_cases hjn : j < n
      · have hj0 : ρ j ∉ tgt := by
          intro hmem
          apply hj
          rw [f2.mem_iff, List.mem_map]
          exact ⟨ρ j, hmem, (hr.back j hjn).2⟩
        have := t2 (ρ j) hj0
        rw [← ha.2.2 _ (hr.back j hjn).1, ← hb.2.2 _ (hr.back j hjn).1, (hr.back j hjn).2] at this
        exact this
      · rw [List.getElem?_eq_none (by rw [ha.2.1]; omega), List.getElem?_eq_none (by rw [hb.2.1]; omega)]
  show (loopM (tryMove cs' before' after') ms' before' >>= fun moved =>
    if after' ≠ moved then .error .exception else .ok ms' : M _) = _
  rw [k1, ok_bind, if_neg (by simpa using hafter)]

theorem exchange_found (hr : Renaming n π ρ) (hc : Rearranged n π cs cs') (hb : Rearranged n π before before')
    (ha : Rearranged n π after after') {ms : List (Int × Coord K)} (h : Exchange cs before after ms) :
    ∃ ms', reconstruct cs' before' after' = .ok (some ms') ∧ MovesRenamed n π ms ms' := by
  obtain ⟨i, j, c, d, e, f, hij, h1, h2, h3, h4, h5, h6, hef, hrest, rfl⟩ := h
  have hin : i < n := by rw [← hc.1]; exact (List.getElem?_eq_some_iff.1 h1).1
  have hjn : j < n := by rw [← hc.1]; exact (List.getElem?_eq_some_iff.1 h2).1
  have hne : π i ≠ π j := fun e => by have := hr.inj hin hjn e; omega
  have lb : before'.length = cs'.length := by rw [hb.2.1, hc.2.1]
  have la : after'.length = cs'.length := by rw [ha.2.1, hc.2.1]
  have b1 : before'[π i]? = some e := by rw [hb.2.2 i hin, h3]
  have b2 : before'[π j]? = some f := by rw [hb.2.2 j hjn, h4]
  have a1 : after'[π i]? = some f := by rw [ha.2.2 i hin, h5]
  have a2 : after'[π j]? = some e := by rw [ha.2.2 j hjn, h6]
  have rest : ∀ k, k ≠ π i → k ≠ π j → before'[k]? = after'[k]? := by
    intro k hki hkj
    by_cases hk : k < n
    · have := hrest (ρ k) (fun e => hki (by rw [← e, (hr.back k hk).2])) (fun e => hkj (by rw [← e, (hr.back k hk).2]))
      rw [← ha.2.2 _ (hr.back k hk).1, ← hb.2.2 _ (hr.back k hk).1, (hr.back k hk).2] at this
      exact this.symm
    · rw [List.getElem?_eq_none (by rw [hb.2.1]; omega), List.getElem?_eq_none (by rw [ha.2.1]; omega)]
  have hex : ∃ ms', reconstruct cs' before' after' = .ok (some ms') := by
    rcases Nat.lt_or_gt_of_ne hne with hlt | hlt
    · obtain ⟨ms', -, hm⟩ := reconstruct_of lb la hlt (by rw [hc.2.1]; exact (hr.there j hjn).1) (by rw [b1, a2]) (by rw [a1, b2])
        (by rw [b1, a1]; simpa using hef) rest
      exact ⟨ms', hm⟩
    · obtain ⟨ms', -, hm⟩ := reconstruct_of lb la hlt (by rw [hc.2.1]; exact (hr.there i hin).1) (by rw [b2, a1]) (by rw [a2, b1])
        (by rw [b2, a2]; simpa using Ne.symm hef) (fun k h1 h2 => rest k h2 h1)
      exact ⟨ms', hm⟩
  obtain ⟨ms', hms⟩ := hex
  refine ⟨ms', hms, ?_⟩
  obtain ⟨i', j', c', d', e', f', hij', g1, g2, g3, g4, g5, g6, hef', -, rfl⟩ := reconstruct_ok lb la hms
  have hi' : i' = π i ∨ i' = π j := by
    by_contra hn
    rw [not_or] at hn
    have := rest i' hn.1 hn.2
    rw [g3, g5] at this
    exact hef' (Option.some.inj this)
  have hj' : j' = π i ∨ j' = π j := by
    by_contra hn
    rw [not_or] at hn
    have := rest j' hn.1 hn.2
    rw [g4, g6] at this
    exact hef' (Option.some.inj this).symm
  have ci := hc.2.2 i hin
  have cj := hc.2.2 j hjn
  have ni : ∀ {k : Nat}, k < n → NamesPlace n (k : Int) k := fun hk => ⟨hk, .inl rfl⟩
  have hπi := (hr.there i hin).1
  have hπj := (hr.there j hjn).1
  refine ⟨[((π i : Int), d - c), ((π j : Int), c - d)], ?_, ?_⟩
  · rcases hi' with rfl | rfl
    · rcases hj' with rfl | rfl
      · omega
      · rw [ci, h1] at g1
        rw [cj, h2] at g2
        rw [← Option.some.inj g1, ← Option.some.inj g2]
    · rcases hj' with rfl | rfl
      · rw [cj, h2] at g1
        rw [ci, h1] at g2
        rw [← Option.some.inj g1, ← Option.some.inj g2]
        exact List.Perm.swap _ _ _
      · omega
  · exact .cons ⟨rfl, i, ni hin, ni hπi⟩ (.cons ⟨rfl, j, ni hjn, ni hπj⟩ .nil)

/-- Moves that are found from the elements, or given. -/
theorem checkMoves_other (hr : Renaming n π ρ) (hc : Rearranged n π cs cs') (hb : Rearranged n π before before')
    (ha : Rearranged n π after after') (hd : PlacesApart cs) {moves moves' : Option (List (Int × Coord K))}
    (hm : match moves, moves' with
      | none, none => True
      | some ms, some ms' => MovesRenamed n π ms ms'
      | _, _ => False)
    {x : List (Int × Coord K)} (h : checkMoves cs before after moves = .ok x) :
    ∃ x', checkMoves cs' before' after' moves' = .ok x' ∧ MovesRenamed n π x x' := by
  match moves, moves', hm with
  | some ms, some ms', hm =>
    have hx := (checkMoves_ok (by rw [hb.1, hc.1]) (by rw [ha.1, hc.1]) h).1 ms rfl
    subst hx
    exact ⟨ms', checkMoves_renamed hr hc hb ha hd hm h, hm⟩
  | none, none, _ =>
    have lb : before.length = cs.length := by rw [hb.1, hc.1]
    have la : after.length = cs.length := by rw [ha.1, hc.1]
    have lb' : before'.length = cs'.length := by rw [hb.2.1, hc.2.1]
    have la' : after'.length = cs'.length := by rw [ha.2.1, hc.2.1]
    obtain ⟨r, hr1⟩ := reconstruct_isOk (after := after) lb
    obtain ⟨r', hr2⟩ := reconstruct_isOk (after := after') lb'
    cases r with
    | some ms =>
      obtain ⟨ms', h1, h2⟩ := exchange_found hr hc hb ha (reconstruct_ok lb la hr1)
      have hs : checkMoves cs before after (some ms) = .ok x := by
        rw [← h]
        unfold checkMoves
        simp only [hr1]
      have hx := (checkMoves_ok lb la hs).1 ms rfl
      subst hx
      refine ⟨ms', ?_, h2⟩
      rw [← checkMoves_renamed hr hc hb ha hd h2 hs]
      unfold checkMoves
      simp only [h1]
    | none =>
      have hx : x = [] := by
        unfold checkMoves at h
        simp only [hr1] at h
        exact (Except.ok.inj h).symm
      subst hx
      refine ⟨[], ?_, [], List.Perm.nil, .nil⟩
      cases r' with
      | none =>
        unfold checkMoves
        simp only [hr2]
        rfl
      | some ms' =>
        exfalso
        obtain ⟨ms, h1, -⟩ := exchange_found hr.symm (hr.rearranged hc) (hr.rearranged hb) (hr.rearranged ha)
          (reconstruct_ok lb' la' hr2)
        rw [hr1] at h1
        cases h1

end
end KMC
