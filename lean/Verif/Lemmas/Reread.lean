import Verif.Props.ProcessInput
import Mathlib.Data.Prod.Lex
import Mathlib.Data.String.Basic

/-!
# Lemmas on processes that are made once more from their own data
-/

set_option linter.unusedSectionVars false

namespace KMC.PyProc

section
variable {K : Type _} [Field K] [LinearOrder K]

/-! ### Sorting -/

/-- What rows are sorted by, except their number. -/
def Row.key (r : Row K) : Lex (K × Lex (String × Lex (K × Lex (K × Lex (K × String))))) :=
  toLex (r.coord.normSq, toLex (r.before, toLex (r.coord.x, toLex (r.coord.y, toLex (r.coord.z, r.after)))))

theorem Row.key_le {a b : Row K} : a.key ≤ b.key ↔
    a.coord.normSq < b.coord.normSq ∨ a.coord.normSq = b.coord.normSq ∧
      (a.before < b.before ∨ a.before = b.before ∧
        (a.coord.x < b.coord.x ∨ a.coord.x = b.coord.x ∧
          (a.coord.y < b.coord.y ∨ a.coord.y = b.coord.y ∧
            (a.coord.z < b.coord.z ∨ a.coord.z = b.coord.z ∧ a.after ≤ b.after)))) := by
  unfold Row.key
  simp only [Prod.Lex.toLex_le_toLex]

theorem Row.key_of_le {a b : Row K} (h : Row.le a b = true) : a.key ≤ b.key := by
  rw [Row.key_le]
  unfold Row.le at h
  split_ifs at h with h1 h2 h3 h4 h5 h6 <;> simp only [decide_eq_true_eq, ne_eq, not_not] at * <;> simp [*]
  exact h.le

theorem Row.key_of_not_le {a b : Row K} (h : ¬ Row.le a b = true) : b.key ≤ a.key := by
  rw [Row.key_le]
  unfold Row.le at h
  split_ifs at h with h1 h2 h3 h4 h5 h6 <;> simp only [decide_eq_true_eq, ne_eq, not_not] at *
  · exact .inl (lt_of_le_of_ne (not_lt.1 h) (Ne.symm h1))
  · exact .inr ⟨h1.symm, .inl (lt_of_le_of_ne (not_lt.1 h) (Ne.symm h2))⟩
  · exact .inr ⟨h1.symm, .inr ⟨h2.symm, .inl (lt_of_le_of_ne (not_lt.1 h) (Ne.symm h3))⟩⟩
  · exact .inr ⟨h1.symm, .inr ⟨h2.symm, .inr ⟨h3.symm, .inl (lt_of_le_of_ne (not_lt.1 h) (Ne.symm h4))⟩⟩⟩
  · exact .inr ⟨h1.symm, .inr ⟨h2.symm, .inr ⟨h3.symm, .inr ⟨h4.symm, .inl (lt_of_le_of_ne (not_lt.1 h) (Ne.symm h5))⟩⟩⟩⟩
  · exact .inr ⟨h1.symm, .inr ⟨h2.symm, .inr ⟨h3.symm, .inr ⟨h4.symm, .inr ⟨h5.symm, not_lt.1 h⟩⟩⟩⟩⟩
  · exact .inr ⟨h1.symm, .inr ⟨h2.symm, .inr ⟨h3.symm, .inr ⟨h4.symm, .inr ⟨h5.symm, h6.symm.le⟩⟩⟩⟩⟩

theorem Row.le_of_key {a b : Row K} (h : a.key ≤ b.key) (hi : a.index ≤ b.index) : Row.le a b = true := by
  rw [Row.key_le] at h
  unfold Row.le
  split_ifs with h1 h2 h3 h4 h5 h6 <;> simp only [decide_eq_true_eq, ne_eq, not_not] at *
  · rcases h with h | h
    · exact h
    · exact absurd h.1 h1
  · rcases h with h | ⟨-, h⟩
    · exact absurd h1 h.ne
    rcases h with h | h
    · exact h
    · exact absurd h.1 h2
  · rcases h with h | ⟨-, h⟩
    · exact absurd h1 h.ne
    rcases h with h | ⟨-, h⟩
    · exact absurd h2 h.ne
    rcases h with h | h
    · exact h
    · exact absurd h.1 h3
  · rcases h with h | ⟨-, h⟩
    · exact absurd h1 h.ne
    rcases h with h | ⟨-, h⟩
    · exact absurd h2 h.ne
    rcases h with h | ⟨-, h⟩
    · exact absurd h3 h.ne
    rcases h with h | h
    · exact h
    · exact absurd h.1 h4
  · rcases h with h | ⟨-, h⟩
    · exact absurd h1 h.ne
    rcases h with h | ⟨-, h⟩
    · exact absurd h2 h.ne
    rcases h with h | ⟨-, h⟩
    · exact absurd h3 h.ne
    rcases h with h | ⟨-, h⟩
    · exact absurd h4 h.ne
    rcases h with h | h
    · exact h
    · exact absurd h.1 h5
  · rcases h with h | ⟨-, h⟩
    · exact absurd h1 h.ne
    rcases h with h | ⟨-, h⟩
    · exact absurd h2 h.ne
    rcases h with h | ⟨-, h⟩
    · exact absurd h3 h.ne
    rcases h with h | ⟨-, h⟩
    · exact absurd h4 h.ne
    rcases h with h | ⟨-, h⟩
    · exact absurd h5 h.ne
    exact lt_of_le_of_ne h h6
  · exact hi

theorem sortRows_key (l : List (Row K)) : (sortRows l).Pairwise (fun a b => a.key ≤ b.key) :=
  pairwise_insertionSort_of (R := fun a b : Row K => a.key ≤ b.key) (fun _ _ _ h1 h2 => h1.trans h2)
    (fun _ _ h => Row.key_of_le h) (fun _ _ h => Row.key_of_not_le h) l

/-- Rows from lists that were taken from rows. -/
theorem rows_of_rows (l : List (Row K)) :
    rows (l.map (·.coord)) (l.map (·.before)) (l.map (·.after)) = l.zipIdx.map fun r => { r.1 with index := r.2 } := by
  apply List.ext_getElem?
  intro i
  rw [List.getElem?_map, List.getElem?_zipIdx]
  by_cases hi : i < l.length
  · rw [List.getElem?_eq_getElem hi, Option.map_some, Option.map_some, rows_getElem?]
    simp [hi]
  · have : (rows (l.map (·.coord)) (l.map (·.before)) (l.map (·.after))).length ≤ i := by
      rw [length_rows (by simp) (by simp)]
      simpa using hi
    rw [List.getElem?_eq_none this, List.getElem?_eq_none (by omega)]
    rfl

/-- Sorted places stay as they are. -/
theorem sortRows_again (l : List (Row K)) :
    sortRows (rows ((sortRows l).map (·.coord)) ((sortRows l).map (·.before)) ((sortRows l).map (·.after))) =
      rows ((sortRows l).map (·.coord)) ((sortRows l).map (·.before)) ((sortRows l).map (·.after)) := by
  unfold sortRows
  apply List.Pairwise.insertionSort_eq
  change List.Pairwise _ (rows ((sortRows l).map (·.coord)) ((sortRows l).map (·.before)) ((sortRows l).map (·.after)))
  rw [rows_of_rows, List.pairwise_map, List.pairwise_iff_getElem]
  intro i j hi hj hij
  rw [List.length_zipIdx] at hi hj
  apply Row.le_of_key
  · have := List.pairwise_iff_getElem.1 (sortRows_key l) i j hi hj hij
    simpa [Row.key] using this
  · simpa using hij.le

theorem rows_coord {coords : List (Coord K)} {before after : List String} (hb : before.length = coords.length)
    (ha : after.length = coords.length) : (rows coords before after).map (·.coord) = coords := by
  apply List.ext_getElem?
  intro i
  rw [List.getElem?_map]
  by_cases hi : i < coords.length
  · have hi' : i < (rows coords before after).length := by rw [length_rows hb ha]; exact hi
    rw [List.getElem?_eq_getElem hi']
    exact ((rows_getElem? i _).1 (List.getElem?_eq_getElem hi')).1.symm
  · rw [List.getElem?_eq_none (by rw [length_rows hb ha]; omega), List.getElem?_eq_none (by omega)]
    rfl

theorem rows_before {coords : List (Coord K)} {before after : List String} (hb : before.length = coords.length)
    (ha : after.length = coords.length) : (rows coords before after).map (·.before) = before := by
  apply List.ext_getElem?
  intro i
  rw [List.getElem?_map]
  by_cases hi : i < coords.length
  · have hi' : i < (rows coords before after).length := by rw [length_rows hb ha]; exact hi
    rw [List.getElem?_eq_getElem hi']
    exact ((rows_getElem? i _).1 (List.getElem?_eq_getElem hi')).2.1.symm
  · rw [List.getElem?_eq_none (by rw [length_rows hb ha]; omega), List.getElem?_eq_none (by omega)]
    rfl

theorem rows_after {coords : List (Coord K)} {before after : List String} (hb : before.length = coords.length)
    (ha : after.length = coords.length) : (rows coords before after).map (·.after) = after := by
  apply List.ext_getElem?
  intro i
  rw [List.getElem?_map]
  by_cases hi : i < coords.length
  · have hi' : i < (rows coords before after).length := by rw [length_rows hb ha]; exact hi
    rw [List.getElem?_eq_getElem hi']
    exact ((rows_getElem? i _).1 (List.getElem?_eq_getElem hi')).2.2.1.symm
  · rw [List.getElem?_eq_none (by rw [length_rows hb ha]; omega), List.getElem?_eq_none (by omega)]
    rfl

theorem newIndex_rows {coords : List (Coord K)} {before after : List String} (hb : before.length = coords.length)
    (ha : after.length = coords.length) {i : Nat} (hi : i < coords.length) :
    newIndex (rows coords before after) (i : Int) = .ok i := by
  unfold newIndex
  rw [pyIndex_nat (by rw [length_rows hb ha]; exact hi), ok_bind]
  have : (rows coords before after).findIdx? (fun r => decide (r.index = i)) = some i := by
    rw [List.findIdx?_eq_some_iff_getElem]
    refine ⟨by rw [length_rows hb ha]; exact hi, ?_, ?_⟩
    · have hi' : i < (rows coords before after).length := by rw [length_rows hb ha]; exact hi
      have := ((rows_getElem? i _).1 (List.getElem?_eq_getElem hi')).2.2.2
      simpa using this
    · intro j hj
      have hj' : j < (rows coords before after).length := by rw [length_rows hb ha]; omega
      have := ((rows_getElem? j _).1 (List.getElem?_eq_getElem hj')).2.2.2
      simp only [this, decide_eq_true_eq]
      omega
  rw [this]

theorem sortMoves_rows {coords : List (Coord K)} {before after : List String} (hb : before.length = coords.length)
    (ha : after.length = coords.length) (ms : List (Nat × Coord K)) (hm : ∀ m ∈ ms, m.1 < coords.length)
    (hs : (ms.map (·.1)).Pairwise (· ≤ ·)) :
    sortMoves (rows coords before after) (ms.map fun m => ((m.1 : Int), m.2)) = .ok ms := by
  unfold sortMoves
  have : mapMM (fun m : Int × Coord K => do
      let j ← newIndex (rows coords before after) m.1
      return (j, m.2)) (ms.map fun m => ((m.1 : Int), m.2)) = .ok ms := by
    rw [mapMM_ok_iff]
    clear hs
    induction ms with
    | nil => exact .nil
    | cons m ms ih =>
      refine .cons ?_ (ih fun x hx => hm x (by simp [hx]))
      simp only [newIndex_rows hb ha (hm m (by simp)), ok_bind]
      rfl
  rw [this, ok_bind]
  rw [List.pairwise_map] at hs
  rw [List.Pairwise.insertionSort_eq hs]
  rfl

/-! ### Moves -/

omit [LinearOrder K] in
/-- Two places that exchange their types, and no other changes. -/
theorem reconstruct_of {coords : List (Coord K)} {before after : List String} (hb : before.length = coords.length)
    (ha : after.length = coords.length) {i j : Nat} (hij : i < j) (hj : j < coords.length)
    (h1 : before[i]? = after[j]?) (h2 : after[i]? = before[j]?) (h3 : before[i]? ≠ after[i]?)
    (h4 : ∀ k, k ≠ i → k ≠ j → before[k]? = after[k]?) :
    ∃ ms, ms ≠ [] ∧ reconstruct coords before after = .ok (some ms) := by
  have hd : differing before after = [i, j] := by
    apply List.Pairwise.eq_of_mem_iff (r := (· < ·))
    · exact List.pairwise_lt_range.filter _
    · simpa using hij
    · intro k
      rw [differing_mem (by omega)]
      simp only [List.mem_cons, List.not_mem_nil, or_false]
      constructor
      · intro hk
        by_contra hn
        rw [not_or] at hn
        exact hk (h4 k hn.1 hn.2)
      · rintro (rfl | rfl)
        · exact h3
        · rw [← h1, ← h2]
          exact h3.symm
  unfold reconstruct
  rw [hd]
  simp only
  rw [if_pos ⟨h1, h2⟩, pyGet_of (pyIndex_nat (by omega : i < coords.length)) (List.getElem?_eq_getElem (by omega)), ok_bind,
    pyGet_of (pyIndex_nat hj) (List.getElem?_eq_getElem hj), ok_bind]
  exact ⟨_, by simp, rfl⟩

omit [LinearOrder K] in
theorem reconstruct_isOk {coords : List (Coord K)} {before after : List String} (hb : before.length = coords.length) :
    ∃ o, reconstruct coords before after = .ok o := by
  unfold reconstruct
  split
  · rename_i i j hd
    split
    · have hi : i < coords.length := by
        rw [← hb]
        exact List.mem_range.1 (List.mem_filter.1 (show i ∈ differing before after by rw [hd]; simp)).1
      have hj : j < coords.length := by
        rw [← hb]
        exact List.mem_range.1 (List.mem_filter.1 (show j ∈ differing before after by rw [hd]; simp)).1
      rw [pyGet_of (pyIndex_nat hi) (List.getElem?_eq_getElem hi), ok_bind,
        pyGet_of (pyIndex_nat hj) (List.getElem?_eq_getElem hj), ok_bind]
      exact ⟨_, rfl⟩
    · exact ⟨_, rfl⟩
  · exact ⟨_, rfl⟩

theorem make_of {coords : List (Coord K)} {before after : List String} {moves : Option (List (Int × Coord K))}
    {basis : List Int} {rate : K} {cs : List (Coord K)} {ms : List (Int × Coord K)} {ms' : List (Nat × Coord K)}
    (h1 : centre coords = .ok cs) (hb : before.length = coords.length) (ha : after.length = coords.length)
    (hb0 : basis ≠ []) (hbn : ∀ b ∈ basis, 0 ≤ b) (hr : 0 ≤ rate)
    (hw : before.map (fun e => decide (e = "*")) = after.map (fun e => decide (e = "*"))) (hne : before ≠ after)
    (h2 : checkMoves cs before after moves = .ok ms) (h3 : sortMoves (sortRows (rows cs before after)) ms = .ok ms') :
    make coords before after moves basis rate =
      .ok { coords := (sortRows (rows cs before after)).map (·.coord),
            before := (sortRows (rows cs before after)).map (·.before),
            after := (sortRows (rows cs before after)).map (·.after),
            moves := ms', basisSites := basis.map Int.toNat, rate := rate } := by
  unfold make
  rw [h1, ok_bind, if_neg, if_neg, if_neg, if_neg, if_neg, h2, ok_bind]
  · dsimp only
    rw [h3, ok_bind]
    rfl
  · exact hne
  · simp [wildcardsFixed, hw]
  · simp [hb, ha]
  · simpa using hr
  · rw [not_or]
    refine ⟨hb0, ?_⟩
    rw [List.any_eq_true]
    rintro ⟨b, hbm, hlt⟩
    have := hbn b hbm
    simp only [decide_eq_true_eq] at hlt
    omega

omit [LinearOrder K] in
theorem centre_zero {coords : List (Coord K)} (h : coords[0]? = some 0) : centre coords = .ok coords := by
  cases coords with
  | nil => simp at h
  | cons c rest =>
    simp only [List.length_cons, Nat.zero_lt_succ, getElem?_pos, List.getElem_cons_zero, Option.some.injEq] at h
    subst h
    unfold centre
    simp only
    congr 1
    conv_rhs => rw [← List.map_id (0 :: rest)]
    apply List.map_congr_left
    intro x _
    show (⟨x.x - 0, x.y - 0, x.z - 0⟩ : Coord K) = x
    simp

variable [IsStrictOrderedRing K]

/-- No moves were given, and none are found the next time. -/
theorem reconstruct_again {coords : List (Coord K)} {before after : List String} {moves : Option (List (Int × Coord K))}
    {basis : List Int} {rate : K} {p : PyProc K} (h : make coords before after moves basis rate = .ok p)
    (hemp : p.moves = []) : reconstruct p.coords p.before p.after = .ok none := by
  have hC38 := C38_explained coords before after moves basis rate p h
  have hwild := C38_wildcards coords before after moves basis rate p h
  obtain ⟨σ, c0, -, hσ, hl1, hl2, hl3, hσ', -⟩ := C39_same_process coords before after moves basis rate p h
  obtain ⟨cs, ms, ms', h1, hb, ha, hb0, hbn, hr, hw, hne, h2, h3, hp⟩ := make_ok h
  have hb' : p.before.length = p.coords.length := by omega
  have ha' : p.after.length = p.coords.length := by omega
  have hnone : moves = none := by
    by_contra hn
    obtain ⟨tgt, t1, t2⟩ := hC38 (.inl (Option.isSome_iff_ne_none.2 hn))
    rw [hemp] at t1
    cases t1
    exact hwild.2 (List.ext_getElem? fun j => (t2 j (by simp)).symm)
  have hms0 : ms = [] := by
    obtain ⟨q, q1, q2⟩ := sortMoves_ok hb ha h3
    have : ms' = [] := by rw [hp] at hemp; exact hemp
    rw [this] at q1
    rw [List.Perm.eq_nil q1] at q2
    cases q2
    rfl
  obtain ⟨o, ho⟩ := reconstruct_isOk (coords := p.coords) (before := p.before) (after := p.after) hb'
  cases o with
  | none => exact ho
  | some l =>
    exfalso
    obtain ⟨i, j, c, d, e, f, hij, x1, x2, x3, x4, x5, x6, x7, x8, -⟩ := reconstruct_ok hb' ha' ho
    have hσi : ∀ k : Nat, k < p.coords.length → ∃ i : Nat, σ[k]? = some i ∧ i < coords.length := by
      intro k hk
      have hk' : k < σ.length := by rw [hσ.length_eq, List.length_range]; omega
      refine ⟨σ[k], List.getElem?_eq_getElem hk', ?_⟩
      exact List.mem_range.1 (hσ.mem_iff.1 (List.getElem_mem hk'))
    have hnd : σ.Nodup := hσ.nodup_iff.2 List.nodup_range
    have hsurj : ∀ n : Nat, n < coords.length → ∃ k : Nat, σ[k]? = some n := by
      intro n hn
      exact List.mem_iff_getElem?.1 (hσ.mem_iff.2 (List.mem_range.2 hn))
    obtain ⟨i', hi1, hi2⟩ := hσi i (List.getElem?_eq_some_iff.1 x1).1
    obtain ⟨j', hj1, hj2⟩ := hσi j (List.getElem?_eq_some_iff.1 x2).1
    have hcl : cs.length = coords.length := by
      obtain ⟨c, -, rfl⟩ := centre_ok h1
      simp
    have hij' : i' ≠ j' := by
      intro he
      rw [he] at hi1
      have := (List.getElem?_inj (List.getElem?_eq_some_iff.1 hi1).1 hnd).1 (hi1.trans hj1.symm)
      omega
    have hothers : ∀ k, k ≠ i' → k ≠ j' → before[k]? = after[k]? := by
      intro k hki hkj
      by_cases hk : k < coords.length
      · obtain ⟨n, hn⟩ := hsurj k hk
        obtain ⟨-, y2, y3⟩ := hσ' n k hn
        rw [← y2, ← y3]
        refine (x8 n ?_ ?_).symm
        · rintro rfl; rw [hi1] at hn; cases hn; exact hki rfl
        · rintro rfl; rw [hj1] at hn; cases hn; exact hkj rfl
      · rw [List.getElem?_eq_none (by omega), List.getElem?_eq_none (by omega)]
    obtain ⟨-, y2, y3⟩ := hσ' i i' hi1
    obtain ⟨-, z2, z3⟩ := hσ' j j' hj1
    rw [x3] at y2
    rw [x5] at y3
    rw [x4] at z2
    rw [x6] at z3
    have hsome : ∃ l, l ≠ [] ∧ reconstruct cs before after = .ok (some l) := by
      rcases Nat.lt_or_gt_of_ne hij' with hlt | hlt
      · exact reconstruct_of hb ha hlt (by omega) (by rw [← y2, ← z3]) (by rw [← y3, ← z2])
          (by rw [← y2, ← y3]; simpa using x7) hothers
      · exact reconstruct_of hb ha hlt (by omega) (by rw [← z2, ← y3]) (by rw [← z3, ← y2])
          (by rw [← z2, ← z3]; simpa using x7.symm) (fun k a b => hothers k b a)
    obtain ⟨l, hl, hrec⟩ := hsome
    rw [hnone, hms0] at h2
    unfold checkMoves at h2
    simp only [hrec, ok_bind] at h2
    obtain ⟨m, -, h2⟩ := bind_ok.1 h2
    split at h2
    · cases h2
    · cases h2; exact hl rfl

omit [LinearOrder K] [IsStrictOrderedRing K] in
/-- Whether moves are found does not depend on the coordinates. -/
theorem reconstruct_none {coords coords' : List (Coord K)} {before after : List String} (hb : before.length = coords'.length)
    (hl : coords'.length = coords.length) (h : reconstruct coords before after = .ok none) :
    reconstruct coords' before after = .ok none := by
  obtain ⟨o, ho⟩ := reconstruct_isOk (coords := coords') (before := before) (after := after) hb
  unfold reconstruct at h ho ⊢
  split at h
  · split at h
    · obtain ⟨a, -, h⟩ := bind_ok.1 h
      obtain ⟨b, -, h⟩ := bind_ok.1 h
      cases h
    · rename_i hn
      simp only [hn, if_false]
  · rfl

/-- A process that is made once more from its own data is the same. -/
theorem make_fixed {coords : List (Coord K)} {before after : List String} {moves : Option (List (Int × Coord K))}
    {basis : List Int} {rate : K} {p : PyProc K} (h : make coords before after moves basis rate = .ok p)
    (hsep : p.moves ≠ [] → p.coords.Pairwise (fun a b => 2 / 100000000 ≤ |a.x - b.x| + |a.y - b.y| + |a.z - b.z|)) :
    make p.coords p.before p.after
      (if p.moves.isEmpty then none else some (p.moves.map fun m => ((m.1 : Int), m.2)))
      (p.basisSites.map fun b : Nat => (b : Int)) p.rate = .ok p := by
  have hC38 := C38_explained coords before after moves basis rate p h
  have hwild := C38_wildcards coords before after moves basis rate p h
  obtain ⟨σ, c0, -, hσ, hl1, hl2, hl3, hσ', -, hms, -, hz, hbasis, -⟩ := C39_same_process coords before after moves basis rate p h
  obtain ⟨cs, ms, ms', h1, hb, ha, hb0, hbn, hr, hw, hne, h2, h3, hp⟩ := make_ok h
  have hb' : p.before.length = p.coords.length := by omega
  have ha' : p.after.length = p.coords.length := by omega
  have hcen := centre_zero hz
  have hw' : p.before.map (fun e => decide (e = "*")) = p.after.map (fun e => decide (e = "*")) := by
    apply List.ext_getElem?
    intro i
    rw [List.getElem?_map, List.getElem?_map]
    have hi := hwild.1 i
    by_cases hil : i < p.before.length
    · have hil' : i < p.after.length := by omega
      rw [List.getElem?_eq_getElem hil, List.getElem?_eq_getElem hil'] at hi ⊢
      simpa using hi
    · rw [List.getElem?_eq_none (by omega), List.getElem?_eq_none (by omega)]
  have hsort : sortRows (rows p.coords p.before p.after) = rows p.coords p.before p.after := by
    rw [hp]
    exact sortRows_again _
  have hrate : p.rate = rate := by rw [hp]
  -- the moves lead from place to place
  have hlt : ∀ m ∈ p.moves, m.1 < p.coords.length := by
    intro m hm
    obtain ⟨tgt, t1, -⟩ := hC38 (.inr (List.ne_nil_of_mem hm))
    obtain ⟨j, c, d, e, x, -⟩ := forall₂_left t1 m hm
    exact (List.getElem?_eq_some_iff.1 x).1
  have hcheck : checkMoves p.coords p.before p.after
      (if p.moves.isEmpty then none else some (p.moves.map fun m => ((m.1 : Int), m.2))) =
      .ok (p.moves.map fun m => ((m.1 : Int), m.2)) := by
    by_cases hemp : p.moves = []
    · -- no moves were given, and none are found
      have hrec := reconstruct_again h hemp
      rw [hemp]
      unfold checkMoves
      simp [hrec, ok_bind]
    · obtain ⟨tgt, t1, t2⟩ := hC38 (.inr hemp)
      have hemp' : p.moves.isEmpty = false := by simpa using hemp
      rw [hemp']
      simp only [Bool.false_eq_true, if_false]
      have hm' : List.Forall₂ (fun (m : Int × Coord K) j => ∃ i, pyIndex p.coords.length m.1 = .ok i ∧
          Lands p.coords p.before p.after i m.2 j) (p.moves.map fun m => ((m.1 : Int), m.2)) tgt := by
        rw [List.forall₂_map_left_iff]
        refine t1.imp ?_
        intro m j hmj
        refine ⟨m.1, pyIndex_nat ?_, hmj⟩
        obtain ⟨c, d, e, x, -⟩ := hmj
        exact (List.getElem?_eq_some_iff.1 x).1
      obtain ⟨moved, k1, k2, k3, k4⟩ := tryMoves_of hb' ha' (hsep hemp) hm' p.before hb'
      have hafter : p.after = moved := by
        apply List.ext_getElem?
        intro j
        by_cases hj : j ∈ tgt
        · exact (k4 j hj).symm
        · rw [t2 j hj, k3 j hj]
      unfold checkMoves
      simp only [ok_bind]
      rw [k1, ok_bind, if_neg (by simpa using hafter)]
      rfl
  have hsm : sortMoves (sortRows (rows p.coords p.before p.after)) (p.moves.map fun m => ((m.1 : Int), m.2)) = .ok p.moves := by
    rw [hsort]
    exact sortMoves_rows hb' ha' _ hlt hms
  rw [make_of hcen hb' ha' ?_ ?_ (hrate ▸ hr) hw' hwild.2 hcheck hsm, hsort, rows_coord hb' ha', rows_before hb' ha',
    rows_after hb' ha']
  · have : (p.basisSites.map fun b : Nat => (b : Int)).map Int.toNat = p.basisSites := by
      rw [List.map_map]
      conv_rhs => rw [← List.map_id p.basisSites]
      exact List.map_congr_left fun b _ => rfl
    rw [this]
  · rw [hbasis]; exact hb0
  · rw [hbasis]; exact hbn

end
end KMC.PyProc
