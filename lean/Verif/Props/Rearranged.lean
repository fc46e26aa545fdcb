import Verif.Lemmas.RearrangedMoves
import Verif.Model.PyEqual

/-!
# C63: a process does not depend on how it is written down, and what the comparison of processes says
-/

set_option linter.unusedSectionVars false

namespace KMC

open PyProc

section
variable {K : Type _} [Field K] [LinearOrder K] [IsStrictOrderedRing K] {n : Nat} {π ρ : Nat → Nat}
  {before after before' after' : List String}

/-- A process does not depend on how it is written down. Given are a process that was accepted, another order of its places
that keeps the first one in front, and coordinates from another origin. The elements are in the new order, and so are the
moves, whose order among themselves and whose sign of the index (negative ones count from the end) do not matter. The places
are further apart than the tolerance and no place is moved twice. Then the second form is accepted and is the same process. -/
theorem C63_same (hr : Renaming n π ρ) (h0 : π 0 = 0) (δ : Coord K) {coords coords' : List (Coord K)}
    (hc : Rearranged n π (coords.map (· + δ)) coords') (hb : Rearranged n π before before')
    (ha : Rearranged n π after after') (hd : PlacesApart coords) {moves moves' : Option (List (Int × Coord K))}
    (hm : match moves, moves' with
      | none, none => True
      | some ms, some ms' => MovesRenamed n π ms ms'
      | _, _ => False)
    {basis : List Int} {rate : K} {p : PyProc K} (h : PyProc.make coords before after moves basis rate = .ok p)
    (hp : (p.moves.map (·.1)).Nodup) : PyProc.make coords' before' after' moves' basis rate = .ok p := by
  obtain ⟨cs, ms, ms', h1, hlb, hla, hb0, hbn, hrt, hw, hne, h2, h3, rfl⟩ := PyProc.make_ok h
  obtain ⟨c0, hc0, rfl⟩ := PyProc.centre_ok h1
  have hlc : coords.length = n := by simpa using hc.1
  have hn : 0 < n := by rw [← hlc]; exact (List.getElem?_eq_some_iff.1 hc0).1
  have hfirst : coords'[0]? = some (c0 + δ) := by
    have := hc.2.2 0 hn
    rw [h0, List.getElem?_map, hc0] at this
    exact this
  have hcs : Rearranged n π (coords.map (fun x => x - c0)) (coords'.map (fun x => x - (c0 + δ))) := by
    have := hc.map (fun x => x - (c0 + δ))
    rw [List.map_map] at this
    refine cast ?_ this
    congr 1
    apply List.map_congr_left
    intro x _
    show x + δ - (c0 + δ) = x - c0
    ext <;> simp
  have hd' : PlacesApart (coords.map (fun x => x - c0)) := by
    unfold PlacesApart
    rw [List.pairwise_map]
    refine hd.imp ?_
    intro a b hab
    simpa using hab
  have hcentre : PyProc.centre coords' = .ok (coords'.map (fun x => x - (c0 + δ))) := by
    cases coords' with
    | nil => simp at hfirst
    | cons c rest =>
      simp only [List.getElem?_cons_zero, Option.some.injEq] at hfirst
      rw [hfirst]
      rfl
  obtain ⟨ms1, g1, g2⟩ := checkMoves_other hr hcs hb ha hd' hm h2
  have hlen : (sortRows (rows (coords.map (fun x => x - c0)) before after)).length = n := by
    rw [(sortRows_perm _).length_eq, length_rows hlb hla, List.length_map, hlc]
  have hidx : ∀ r ∈ sortRows (rows (coords.map (fun x => x - c0)) before after), r.index < n := by
    intro r hmem
    obtain ⟨i, hi⟩ := List.mem_iff_getElem?.1 ((sortRows_perm _).mem_iff.1 hmem)
    have e := (rows_getElem? i _).1 hi
    rw [e.2.2.2, ← hcs.1]
    exact (List.getElem?_eq_some_iff.1 e.1).1
  have hs := sortRows_renamed hr hcs hb ha hd'.nodup
  have g3 := sortMoves_renamed hr hlen hidx g2 h3 hp
  rw [← hs] at g3
  have hl' : coords'.length = n := hc.2.1
  have hwild : before'.map (fun e => decide (e = "*")) = after'.map (fun e => decide (e = "*")) := by
    apply List.ext_getElem?
    intro i
    by_cases hi : i < n
    · have e1 := congrArg (fun l : List Bool => l[ρ i]?) hw
      simp only [List.getElem?_map] at e1 ⊢
      rw [← hb.2.2 _ (hr.back i hi).1, ← ha.2.2 _ (hr.back i hi).1, (hr.back i hi).2] at e1
      exact e1
    · rw [List.getElem?_eq_none (by simpa [hb.2.1] using hi), List.getElem?_eq_none (by simpa [ha.2.1] using hi)]
  have hdiff : before' ≠ after' := by
    intro e
    apply hne
    apply List.ext_getElem?
    intro i
    by_cases hi : i < n
    · rw [← hb.2.2 i hi, ← ha.2.2 i hi, e]
    · rw [List.getElem?_eq_none (by rw [hb.1]; omega), List.getElem?_eq_none (by rw [ha.1]; omega)]
  have := make_of hcentre (by rw [hb.2.1, hl']) (by rw [ha.2.1, hl']) hb0 hbn hrt hwild hdiff g1 g3
  rw [this, hs]
  simp only [List.map_map]
  rfl

/-- The origin of the coordinates does not matter, without any condition. -/
theorem C63_shift (δ : Coord K) (coords : List (Coord K)) (before after : List String)
    (moves : Option (List (Int × Coord K))) (basis : List Int) (rate : K) :
    PyProc.make (coords.map (· + δ)) before after moves basis rate = PyProc.make coords before after moves basis rate := by
  have hc : PyProc.centre (coords.map (· + δ)) = PyProc.centre coords := by
    cases coords with
    | nil => rfl
    | cons c rest =>
      show Except.ok _ = Except.ok _
      rw [show ((c :: rest).map (· + δ)).map (fun x => x - (c + δ)) = (c :: rest).map (fun x => x - c) from ?_]
      rw [List.map_map]
      apply List.map_congr_left
      intro x _
      show x + δ - (c + δ) = x - c
      ext <;> simp
  unfold PyProc.make
  rw [hc]
  simp only [List.length_map]

theorem made_centre {coords : List (Coord K)} {moves : Option (List (Int × Coord K))} {basis : List Int} {rate : K}
    {p : PyProc K} (h : PyProc.make coords before after moves basis rate = .ok p) :
    PyProc.centre p.coords = .ok p.coords ∧ p.before.length = p.coords.length ∧ p.after.length = p.coords.length := by
  obtain ⟨_, _, -, -, l1, l2, l3, -, -, -, -, hz, -⟩ := C39_same_process coords before after moves basis rate p h
  exact ⟨centre_zero hz, by rw [l2, l1], by rw [l3, l1]⟩

omit [Field K] [LinearOrder K] [IsStrictOrderedRing K] in
theorem allSame_iff {α : Type _} [DecidableEq α] {l l' : List α} (h : l.length = l'.length) :
    PyProc.allSame l l' = true ↔ l = l' := by
  induction l generalizing l' with
  | nil => cases l' with
    | nil => simp [PyProc.allSame]
    | cons _ _ => simp at h
  | cons a l ih => cases l' with
    | nil => simp at h
    | cons b l' =>
      have := ih (l' := l') (by simpa using h)
      unfold PyProc.allSame at this ⊢
      rw [List.zip_cons_cons, List.all_cons, Bool.and_eq_true, this]
      simp

theorem allMoves_iff {l l' : List (Nat × Coord K)} (h : l.length = l'.length) :
    ((l.zip l').all fun v => PyProc.sameMove v.1 v.2) = true ↔
      List.Forall₂ (fun (m m' : Nat × Coord K) => m.1 = m'.1 ∧ (m.2 - m'.2).normSq ≤ 1 / 10000000000000000) l l' := by
  induction l generalizing l' with
  | nil => cases l' with
    | nil => simp
    | cons _ _ => simp at h
  | cons a l ih => cases l' with
    | nil => simp at h
    | cons b l' =>
      rw [List.zip_cons_cons, List.all_cons, Bool.and_eq_true, ih (by simpa using h), List.forall₂_cons]
      apply and_congr_left
      intro _
      unfold PyProc.sameMove
      split
      · rename_i hne
        simp [hne]
      · rename_i he
        push Not at he
        have he : a.1 = b.1 := he
        simp [he]

/-- What it means that two processes compare equal: the same basis sites and elements, the coordinates agree up to a sum of
squares of 1e-10, and the moves are of the same places with vectors that agree up to a length of 1e-8. The comparison of two
accepted processes never raises. The rate constants do not appear. -/
theorem C63_equal {coords coords' : List (Coord K)} {moves moves' : Option (List (Int × Coord K))} {basis basis' : List Int}
    {rate rate' : K} {p q : PyProc K} (hp : PyProc.make coords before after moves basis rate = .ok p)
    (hq : PyProc.make coords' before' after' moves' basis' rate' = .ok q) :
    ∃ b, PyProc.eqOp p q = .ok b ∧ (b = true ↔
      p.basisSites = q.basisSites ∧ p.before = q.before ∧ p.after = q.after ∧ p.coords.length = q.coords.length ∧
      ((p.coords.zip q.coords).map fun c => (c.1.x - c.2.x) ^ 2 + (c.1.y - c.2.y) ^ 2 + (c.1.z - c.2.z) ^ 2).sum ≤ 1 / 10 ^ 10 ∧
      List.Forall₂ (fun (m m' : Nat × Coord K) => m.1 = m'.1 ∧
        (m.2.x - m'.2.x) ^ 2 + (m.2.y - m'.2.y) ^ 2 + (m.2.z - m'.2.z) ^ 2 ≤ 1 / 10 ^ 16) p.moves q.moves) := by
  obtain ⟨a1, a2, a3⟩ := made_centre hp
  obtain ⟨b1, b2, b3⟩ := made_centre hq
  have hs : ((p.coords.zip q.coords).map fun c => (c.1.x - c.2.x) ^ 2 + (c.1.y - c.2.y) ^ 2 + (c.1.z - c.2.z) ^ 2).sum =
      PyProc.spread p.coords q.coords := by
    unfold PyProc.spread
    congr 1
    apply List.map_congr_left
    intro c _
    simp only [Coord.normSq, Coord.sub_x, Coord.sub_y, Coord.sub_z]
    ring
  have hm : ∀ m m' : Nat × Coord K, ((m.2.x - m'.2.x) ^ 2 + (m.2.y - m'.2.y) ^ 2 + (m.2.z - m'.2.z) ^ 2 ≤ 1 / 10 ^ 16) =
      ((m.2 - m'.2).normSq ≤ 1 / 10000000000000000) := by
    intro m m'
    have e : (m.2.x - m'.2.x) ^ 2 + (m.2.y - m'.2.y) ^ 2 + (m.2.z - m'.2.z) ^ 2 = (m.2 - m'.2).normSq := by
      simp only [Coord.normSq, Coord.sub_x, Coord.sub_y, Coord.sub_z]
      ring
    rw [e]
    norm_num
  have hten : (1 / 10 ^ 10 : K) = 1 / 10000000000 := by norm_num
  simp only [hm, hs, hten]
  unfold PyProc.eqOp
  rw [a1, ok_bind, b1, ok_bind]
  split_ifs with c1 c2 c3 c4 c5 c6 c7
  · refine ⟨false, rfl, ?_⟩
    simp only [Bool.false_eq_true, false_iff]
    rintro ⟨e, -⟩
    exact c1 (by rw [e])
  · refine ⟨false, rfl, ?_⟩
    simp only [Bool.false_eq_true, false_iff]
    rintro ⟨e, -⟩
    push Not at c1
    rw [(allSame_iff c1).2 e.symm] at c2
    cases c2
  · refine ⟨false, rfl, ?_⟩
    simp only [Bool.false_eq_true, false_iff]
    rintro ⟨-, -, -, e, -⟩
    exact c3 e.symm
  · refine ⟨false, rfl, ?_⟩
    simp only [Bool.false_eq_true, false_iff]
    rintro ⟨-, -, -, -, e, -⟩
    exact absurd e (not_le.2 c4)
  · refine ⟨false, rfl, ?_⟩
    simp only [Bool.false_eq_true, false_iff]
    rintro ⟨-, e, -⟩
    rw [(allSame_iff (by rw [e])).2 e] at c5
    cases c5
  · refine ⟨false, rfl, ?_⟩
    simp only [Bool.false_eq_true, false_iff]
    rintro ⟨-, -, e, -⟩
    rw [(allSame_iff (by rw [e])).2 e] at c6
    cases c6
  · refine ⟨false, rfl, ?_⟩
    simp only [Bool.false_eq_true, false_iff]
    rintro ⟨-, -, -, -, -, e⟩
    exact c7 e.length_eq
  · refine ⟨_, rfl, ?_⟩
    push Not at c1 c3 c4 c7
    rw [allMoves_iff c7]
    rw [Bool.not_eq_false, allSame_iff c1] at c2
    rw [Bool.not_eq_false, allSame_iff (by rw [a2, b2, c3])] at c5
    rw [Bool.not_eq_false, allSame_iff (by rw [a3, b3, c3])] at c6
    exact ⟨fun h => ⟨c2.symm, c5, c6, c3.symm, c4, h⟩, fun h => h.2.2.2.2.2⟩

/-- A process compares equal to itself. -/
theorem C63_refl {coords : List (Coord K)} {moves : Option (List (Int × Coord K))} {basis : List Int} {rate : K} {p : PyProc K}
    (hp : PyProc.make coords before after moves basis rate = .ok p) : PyProc.eqOp p p = .ok true := by
  obtain ⟨b, h1, h2⟩ := C63_equal hp hp
  rw [h1, h2.2]
  refine ⟨rfl, rfl, rfl, rfl, ?_, ?_⟩
  · have : ((p.coords.zip p.coords).map fun c => (c.1.x - c.2.x) ^ 2 + (c.1.y - c.2.y) ^ 2 + (c.1.z - c.2.z) ^ 2) =
        p.coords.map fun _ => (0 : K) := by
      rw [List.zip_eq_zipWith, List.zipWith_self, List.map_map]
      apply List.map_congr_left
      intro c _
      simp
    rw [this]
    simp
  · rw [List.forall₂_same]
    intro m _
    simp

/-- The comparison gives the same answer in both directions. -/
theorem C63_symm {coords coords' : List (Coord K)} {moves moves' : Option (List (Int × Coord K))} {basis basis' : List Int}
    {rate rate' : K} {p q : PyProc K} (hp : PyProc.make coords before after moves basis rate = .ok p)
    (hq : PyProc.make coords' before' after' moves' basis' rate' = .ok q) : PyProc.eqOp p q = PyProc.eqOp q p := by
  obtain ⟨b, h1, h2⟩ := C63_equal hp hq
  obtain ⟨c, h3, h4⟩ := C63_equal hq hp
  rw [h1, h3]
  congr 1
  rw [Bool.eq_iff_iff, h2, h4]
  have hs : ∀ l l' : List (Coord K), ((l.zip l').map fun c => (c.1.x - c.2.x) ^ 2 + (c.1.y - c.2.y) ^ 2 + (c.1.z - c.2.z) ^ 2).sum =
      ((l'.zip l).map fun c => (c.1.x - c.2.x) ^ 2 + (c.1.y - c.2.y) ^ 2 + (c.1.z - c.2.z) ^ 2).sum := by
    intro l l'
    rw [← List.zip_swap l' l, List.map_map]
    congr 1
    apply List.map_congr_left
    intro c _
    simp only [Function.comp_apply, Prod.fst_swap, Prod.snd_swap]
    ring
  have hf : ∀ l l' : List (Nat × Coord K), List.Forall₂ (fun (m m' : Nat × Coord K) => m.1 = m'.1 ∧
        (m.2.x - m'.2.x) ^ 2 + (m.2.y - m'.2.y) ^ 2 + (m.2.z - m'.2.z) ^ 2 ≤ 1 / 10 ^ 16) l l' →
      List.Forall₂ (fun (m m' : Nat × Coord K) => m.1 = m'.1 ∧
        (m.2.x - m'.2.x) ^ 2 + (m.2.y - m'.2.y) ^ 2 + (m.2.z - m'.2.z) ^ 2 ≤ 1 / 10 ^ 16) l' l := by
    intro l l' h
    refine h.flip.imp ?_
    rintro a b ⟨e1, e2⟩
    refine ⟨e1.symm, le_of_eq_of_le ?_ e2⟩
    ring
  rw [hs p.coords]
  exact ⟨fun ⟨e1, e2, e3, e4, e5, e6⟩ => ⟨e1.symm, e2.symm, e3.symm, e4.symm, e5, hf _ _ e6⟩,
    fun ⟨e1, e2, e3, e4, e5, e6⟩ => ⟨e1.symm, e2.symm, e3.symm, e4.symm, e5, hf _ _ e6⟩⟩

/-- Processes that are written down in two ways compare equal, even with different rate constants. -/
theorem C63_rate_ignored {coords : List (Coord K)} {moves : Option (List (Int × Coord K))} {basis : List Int} {rate rate' : K}
    {p q : PyProc K} (hp : PyProc.make coords before after moves basis rate = .ok p)
    (hq : PyProc.make coords before after moves basis rate' = .ok q) : PyProc.eqOp p q = .ok true := by
  have : PyProc.eqOp p q = PyProc.eqOp p p := by
    obtain ⟨cs, ms, ms', h1, -, -, -, -, -, -, -, h2, h3, rfl⟩ := PyProc.make_ok hp
    obtain ⟨ds, ns, ns', g1, -, -, -, -, -, -, -, g2, g3, rfl⟩ := PyProc.make_ok hq
    rw [h1] at g1
    obtain rfl := Except.ok.inj g1
    rw [h2] at g2
    obtain rfl := Except.ok.inj g2
    rw [h3] at g3
    obtain rfl := Except.ok.inj g3
    rfl
  rw [this]
  exact C63_refl hp

/-- The comparison with a bucket process of the same basis sites and number of places raises an IndexError. -/
theorem C63_bucket {coords coords' : List (Coord K)} {moves : Option (List (Int × Coord K))} {basis basis' : List Int}
    {minimum update : List Py} {rate rate' : K} {p : PyProc K} {b : PyBucket K}
    (hp : PyProc.make coords before after moves basis rate = .ok p)
    (hb : PyBucket.make coords' minimum update basis' rate' = .ok b) :
    PyProc.eqBucket p b = if b.basisSites = p.basisSites ∧ b.coords.length = p.coords.length then .error .indexError
      else .ok false := by
  obtain ⟨a1, -, -⟩ := made_centre hp
  obtain ⟨cs, c1, c2⟩ : ∃ cs, PyProc.centre b.coords = .ok cs ∧ cs.length = b.coords.length := by
    unfold PyBucket.make at hb
    obtain ⟨cs, h1, hb⟩ := bind_ok.1 hb
    split at hb
    · cases hb
    split at hb
    · cases hb
    obtain ⟨m, -, hb⟩ := bind_ok.1 hb
    split at hb
    · cases hb
    obtain ⟨a, -, hb⟩ := bind_ok.1 hb
    obtain rfl := Except.ok.inj hb
    obtain ⟨c, hc, rfl⟩ := PyProc.centre_ok h1
    refine ⟨coords'.map (fun x => x - c), centre_zero ?_, rfl⟩
    show (coords'.map (fun x => x - c))[0]? = _
    rw [List.getElem?_map, hc]
    simp only [Option.map_some, Option.some.injEq]
    ext <;> simp
  unfold PyProc.eqBucket
  rw [a1, ok_bind, c1, ok_bind]
  by_cases e1 : b.basisSites = p.basisSites
  · rw [if_neg (by simp [e1]), if_neg (by rw [(allSame_iff (by rw [e1])).2 e1]; simp)]
    by_cases e2 : b.coords.length = p.coords.length
    · rw [if_neg (by simp [c2, e2]), if_pos ⟨e1, e2⟩]
    · rw [if_pos (by rw [c2]; exact e2), if_neg (by simp [e2])]
      rfl
  · rw [if_neg (c := b.basisSites = p.basisSites ∧ _) (by simp [e1])]
    by_cases e0 : b.basisSites.length = p.basisSites.length
    · rw [if_neg (by simp [e0]), if_pos]
      · rfl
      · rw [Bool.eq_false_iff]
        intro h
        exact e1 ((allSame_iff e0).1 h)
    · rw [if_pos e0]
      rfl

end

/-- The comparison is not transitive: a hop to a place that is off by 0, 0.8e-5 and 1.6e-5. -/
theorem C63_not_transitive : ∃ (x y z : PyProc Rat),
    PyProc.make [⟨0, 0, 0⟩, ⟨1, 0, 0⟩] ["A", "V"] ["B", "C"] none [0] 1 = .ok x ∧
    PyProc.make [⟨0, 0, 0⟩, ⟨1 + 8 / 1000000, 0, 0⟩] ["A", "V"] ["B", "C"] none [0] 1 = .ok y ∧
    PyProc.make [⟨0, 0, 0⟩, ⟨1 + 16 / 1000000, 0, 0⟩] ["A", "V"] ["B", "C"] none [0] 1 = .ok z ∧
    PyProc.eqOp x y = .ok true ∧ PyProc.eqOp y z = .ok true ∧ PyProc.eqOp x z = .ok false := by
  refine ⟨⟨[⟨0, 0, 0⟩, ⟨1, 0, 0⟩], ["A", "V"], ["B", "C"], [], [0], 1⟩,
    ⟨[⟨0, 0, 0⟩, ⟨1 + 8 / 1000000, 0, 0⟩], ["A", "V"], ["B", "C"], [], [0], 1⟩,
    ⟨[⟨0, 0, 0⟩, ⟨1 + 16 / 1000000, 0, 0⟩], ["A", "V"], ["B", "C"], [], [0], 1⟩, ?_⟩
  decide +kernel

/-- A hop to the right, written with the vacant place first in the list of the neighbours or last, and from another origin. -/
example :
    PyProc.make [⟨(0 : Rat), 0, 0⟩, ⟨1, 0, 0⟩, ⟨0, 1, 0⟩] ["A", "V", "B"] ["V", "A", "B"] none [0] 3 =
      PyProc.make [⟨(5 : Rat), 0, 0⟩, ⟨5, 1, 0⟩, ⟨6, 0, 0⟩] ["A", "B", "V"] ["V", "B", "A"] none [0] 3 ∧
    (PyProc.make [⟨(0 : Rat), 0, 0⟩, ⟨1, 0, 0⟩, ⟨0, 1, 0⟩] ["A", "V", "B"] ["V", "A", "B"] none [0] 3).toBool = true ∧
    PyProc.make [⟨(0 : Rat), 0, 0⟩, ⟨1, 0, 0⟩, ⟨0, 1, 0⟩] ["A", "V", "B"] ["V", "A", "B"]
        (some [(0, ⟨1, 0, 0⟩), (1, ⟨-1, 0, 0⟩)]) [0] 3 =
      PyProc.make [⟨(5 : Rat), 0, 0⟩, ⟨5, 1, 0⟩, ⟨6, 0, 0⟩] ["A", "B", "V"] ["V", "B", "A"]
        (some [(-1, ⟨-1, 0, 0⟩), (0, ⟨1, 0, 0⟩)]) [0] 3 := by
  decide +kernel

end KMC
