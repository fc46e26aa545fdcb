import Verif.Model.PyProcess
import Verif.Lemmas.Construct
import Mathlib.Data.List.Perm.Basic
import Mathlib.Data.List.Forall2

/-!
# Lemmas on the constructor of `KMCProcess`
-/

set_option linter.unusedSectionVars false

namespace KMC
namespace PyProc

theorem pyIndex_ok {n : Nat} {i : Int} {j : Nat} (h : pyIndex n i = .ok j) :
    j < n ∧ (i = j ∨ i + n = j) := by
  unfold pyIndex at h
  split at h
  · split at h
    · cases h; omega
    · cases h
  · split at h
    · cases h; omega
    · cases h

theorem pyIndex_nat {n j : Nat} (h : j < n) : pyIndex n (j : Int) = .ok j := by
  unfold pyIndex
  rw [if_pos (by omega), if_pos (by omega)]
  rfl

theorem pyIndex_of {n : Nat} {i : Int} {j : Nat} (h : j < n) (hi : i = j ∨ i + n = j) : pyIndex n i = .ok j := by
  unfold pyIndex
  rcases hi with rfl | hi
  · rw [if_pos (by omega), if_pos (by omega)]
    rfl
  · rw [if_neg (by omega), if_pos (by omega), hi]
    rfl

theorem pyGet_ok {α : Type _} {l : List α} {i : Int} {x : α} (h : pyGet l i = .ok x) :
    ∃ j, pyIndex l.length i = .ok j ∧ l[j]? = some x := by
  unfold pyGet at h
  obtain ⟨j, h1, h2⟩ := bind_ok.1 h
  split at h2
  · cases h2; exact ⟨j, h1, by assumption⟩
  · cases h2

theorem pyGet_of {α : Type _} {l : List α} {i : Int} {x : α} {j : Nat} (h : pyIndex l.length i = .ok j)
    (hx : l[j]? = some x) : pyGet l i = .ok x := by
  unfold pyGet
  rw [h, ok_bind, hx]

variable {K : Type _} [Field K]

theorem centre_ok {coords cs : List (Coord K)} (h : centre coords = .ok cs) :
    ∃ c, coords[0]? = some c ∧ cs = coords.map (fun x => x - c) := by
  unfold centre at h
  split at h
  · cases h
  · cases h; exact ⟨_, rfl, rfl⟩

variable [LinearOrder K]

/-- A move of an atom from its place to the place `j`, read off the lists. -/
def Lands (coords : List (Coord K)) (before after : List String) (i : Nat) (v : Coord K) (j : Nat) : Prop :=
  ∃ c d e, coords[i]? = some c ∧ coords[j]? = some d ∧
    |d.x - (c.x + v.x)| + |d.y - (c.y + v.y)| + |d.z - (c.z + v.z)| < 1 / 100000000 ∧
    before[i]? = some e ∧ after[j]? = some e

theorem landing_some {coords : List (Coord K)} {t : Coord K} {j : Nat} (h : landing coords t = some j) :
    ∃ d, coords[j]? = some d ∧ taxi (d - t) < 1 / 100000000 := by
  unfold landing at h
  rw [List.findIdx?_eq_some_iff_getElem] at h
  obtain ⟨h1, h2, -⟩ := h
  exact ⟨coords[j], List.getElem?_eq_getElem h1, by simpa using h2⟩

theorem tryMove_ok {coords : List (Coord K)} {before after moved moved' : List String} {m : Int × Coord K}
    (hb : before.length = coords.length) (ha : after.length = coords.length)
    (h : tryMove coords before after moved m = .ok moved') :
    ∃ i j e, pyIndex coords.length m.1 = .ok i ∧ Lands coords before after i m.2 j ∧ before[i]? = some e ∧
      after[j]? = some e ∧ j < coords.length ∧ moved' = moved.set j e := by
  unfold tryMove at h
  obtain ⟨old, h1, h⟩ := bind_ok.1 h
  obtain ⟨i, i1, i2⟩ := pyGet_ok h1
  split at h
  · cases h
  · rename_i j hj
    obtain ⟨d, d1, d2⟩ := landing_some hj
    obtain ⟨e, h2, h⟩ := bind_ok.1 h
    obtain ⟨f, h3, h⟩ := bind_ok.1 h
    split at h
    · cases h
    · rename_i hef
      push Not at hef
      subst hef
      cases h
      have hjl := (List.getElem?_eq_some_iff.1 d1).1
      obtain ⟨i', a1, a2⟩ := pyGet_ok h2
      rw [hb, i1] at a1
      cases a1
      obtain ⟨j', b1, b2⟩ := pyGet_ok h3
      rw [pyIndex_nat (by rw [ha]; exact hjl)] at b1
      cases b1
      exact ⟨i, j, e, i1, ⟨old, d, e, i2, d1, d2, a2, b2⟩, a2, b2, hjl, rfl⟩

/-- What it means that the moves explain the process. -/
def Explains (coords : List (Coord K)) (before after : List String) (ms : List (Int × Coord K)) (tgt : List Nat) : Prop :=
  List.Forall₂ (fun (m : Int × Coord K) j => ∃ i, pyIndex coords.length m.1 = .ok i ∧
    Lands coords before after i m.2 j) ms tgt ∧
  ∀ j, j ∉ tgt → after[j]? = before[j]?

theorem tryMoves_ok {coords : List (Coord K)} {before after : List String}
    (hb : before.length = coords.length) (ha : after.length = coords.length) :
    ∀ (ms : List (Int × Coord K)) (moved moved' : List String),
      loopM (tryMove coords before after) ms moved = .ok moved' →
      ∃ tgt, List.Forall₂ (fun (m : Int × Coord K) j => ∃ i, pyIndex coords.length m.1 = .ok i ∧
        Lands coords before after i m.2 j) ms tgt ∧ ∀ j, j ∉ tgt → moved'[j]? = moved[j]? := by
  intro ms
  induction ms with
  | nil => intro moved moved' h; cases h; exact ⟨[], .nil, fun _ _ => rfl⟩
  | cons m ms ih =>
    intro moved moved' h
    rw [loopM_cons] at h
    obtain ⟨mid, h1, h2⟩ := bind_ok.1 h
    obtain ⟨i, j, e, a1, a2, a3, a4, a5, rfl⟩ := tryMove_ok hb ha h1
    obtain ⟨tgt, t1, t2⟩ := ih _ _ h2
    refine ⟨j :: tgt, .cons ⟨i, a1, a2⟩ t1, ?_⟩
    intro k hk
    rw [List.mem_cons, not_or] at hk
    rw [t2 k hk.2, List.getElem?_set_ne (Ne.symm hk.1)]

theorem differing_mem {before after : List String} {i : Nat} (hb : before.length = after.length) :
    i ∈ differing before after ↔ before[i]? ≠ after[i]? := by
  unfold differing
  rw [List.mem_filter, List.mem_range, decide_eq_true_eq]
  constructor
  · exact fun h => h.2
  · intro h
    refine ⟨?_, h⟩
    by_contra hlt
    apply h
    rw [List.getElem?_eq_none (by omega), List.getElem?_eq_none (by omega)]

/-- The shape of the reconstructed moves: an exchange of two places. -/
def Exchange (coords : List (Coord K)) (before after : List String) (ms : List (Int × Coord K)) : Prop :=
  ∃ (i j : Nat) (c d : Coord K) (e f : String), i < j ∧ coords[i]? = some c ∧ coords[j]? = some d ∧ before[i]? = some e ∧ before[j]? = some f ∧
    after[i]? = some f ∧ after[j]? = some e ∧ e ≠ f ∧ (∀ k, k ≠ i → k ≠ j → after[k]? = before[k]?) ∧
    ms = [((i : Int), d - c), ((j : Int), c - d)]

omit [LinearOrder K] in
theorem reconstruct_ok {coords : List (Coord K)} {before after : List String} {ms : List (Int × Coord K)}
    (hb : before.length = coords.length) (ha : after.length = coords.length)
    (h : reconstruct coords before after = .ok (some ms)) : Exchange coords before after ms := by
  unfold reconstruct at h
  split at h
  · rename_i i j hd
    split at h
    · rename_i hs
      obtain ⟨c, h1, h⟩ := bind_ok.1 h
      obtain ⟨d, h2, h⟩ := bind_ok.1 h
      cases h
      have hij : i < j := by
        have : (differing before after).Pairwise (· < ·) := List.pairwise_lt_range.filter _
        rw [hd] at this
        simpa using this
      have hmi : i ∈ differing before after := by rw [hd]; simp
      have hmj : j ∈ differing before after := by rw [hd]; simp
      have hi : i < coords.length := by
        rw [← hb]; exact List.mem_range.1 (List.mem_filter.1 hmi).1
      have hj : j < coords.length := by
        rw [← hb]; exact List.mem_range.1 (List.mem_filter.1 hmj).1
      obtain ⟨i', a1, a2⟩ := pyGet_ok h1
      rw [pyIndex_nat hi] at a1
      cases a1
      obtain ⟨j', b1, b2⟩ := pyGet_ok h2
      rw [pyIndex_nat hj] at b1
      cases b1
      have e1 : before[i]? = some (before[i]'(by omega)) := List.getElem?_eq_getElem (by omega)
      have e2 : before[j]? = some (before[j]'(by omega)) := List.getElem?_eq_getElem (by omega)
      refine ⟨i, j, c, d, _, _, hij, a2, b2, e1, e2, ?_, ?_, ?_, ?_, rfl⟩
      · rw [hs.2, e2]
      · rw [← hs.1, e1]
      · intro he
        have := (differing_mem (by omega)).1 hmi
        apply this
        rw [e1, hs.2, e2, he]
      · intro k hki hkj
        by_contra hne
        have : k ∈ differing before after := (differing_mem (by omega)).2 (Ne.symm hne)
        rw [hd] at this
        simp [hki, hkj] at this
    · cases h
  · cases h

theorem checkMoves_ok {coords : List (Coord K)} {before after : List String} {moves : Option (List (Int × Coord K))}
    {ms : List (Int × Coord K)} (hb : before.length = coords.length) (ha : after.length = coords.length)
    (h : checkMoves coords before after moves = .ok ms) :
    (∀ l, moves = some l → ms = l) ∧ (moves = none → ms = [] ∨ Exchange coords before after ms) ∧
      ((moves.isSome ∨ ms ≠ []) → ∃ tgt, Explains coords before after ms tgt) := by
  have main : ∀ l, (do
      let moved ← loopM (tryMove coords before after) l before
      if after ≠ moved then .error .exception else return l : M (List (Int × Coord K))) = .ok ms →
      l = ms ∧ ∃ tgt, Explains coords before after ms tgt := by
    intro l hl
    obtain ⟨moved, h1, h2⟩ := bind_ok.1 hl
    split at h2
    · cases h2
    · rename_i hne
      push Not at hne
      cases h2
      obtain ⟨tgt, t1, t2⟩ := tryMoves_ok hb ha _ _ _ h1
      exact ⟨rfl, tgt, t1, fun j hj => by rw [hne]; exact t2 j hj⟩
  cases moves with
  | some l =>
    obtain ⟨rfl, h2⟩ := main l h
    exact ⟨fun l' hl => (Option.some.inj hl), by simp, fun _ => h2⟩
  | none =>
    have h : (reconstruct coords before after >>= fun o => match o with
      | none => .ok []
      | some ms => do
        let moved ← loopM (tryMove coords before after) ms before
        if after ≠ moved then .error .exception else return ms : M (List (Int × Coord K))) = .ok ms := h
    obtain ⟨o, h1, h2⟩ := bind_ok.1 h
    cases o with
    | none => cases h2; exact ⟨by simp, fun _ => .inl rfl, by simp⟩
    | some l =>
      obtain ⟨rfl, h2⟩ := main l h2
      exact ⟨by simp, fun _ => .inr (reconstruct_ok hb ha h1), fun _ => h2⟩

/-! ### Sorting -/

theorem rows_getElem? {coords : List (Coord K)} {before after : List String} (i : Nat) (r : Row K) :
    (rows coords before after)[i]? = some r ↔
      coords[i]? = some r.coord ∧ before[i]? = some r.before ∧ after[i]? = some r.after ∧ r.index = i := by
  unfold rows
  rw [List.getElem?_map, Option.map_eq_some_iff]
  constructor
  · rintro ⟨q, h1, rfl⟩
    rw [List.getElem?_zipIdx, Option.map_eq_some_iff] at h1
    obtain ⟨x, h2, rfl⟩ := h1
    rw [List.getElem?_zip_eq_some, List.getElem?_zip_eq_some] at h2
    exact ⟨h2.1, h2.2.1, h2.2.2, by simp⟩
  · rintro ⟨h1, h2, h3, h4⟩
    refine ⟨((r.coord, (r.before, r.after)), i), ?_, ?_⟩
    · rw [List.getElem?_zipIdx, Option.map_eq_some_iff]
      refine ⟨(r.coord, (r.before, r.after)), ?_, by simp⟩
      rw [List.getElem?_zip_eq_some, List.getElem?_zip_eq_some]
      exact ⟨h1, h2, h3⟩
    · rw [← h4]

theorem length_rows {coords : List (Coord K)} {before after : List String}
    (hb : before.length = coords.length) (ha : after.length = coords.length) :
    (rows coords before after).length = coords.length := by
  unfold rows
  simp [hb, ha]

theorem sortRows_perm (l : List (Row K)) : (sortRows l).Perm l := List.perm_insertionSort _ _

theorem rows_index {coords : List (Coord K)} {before after : List String}
    (hb : before.length = coords.length) (ha : after.length = coords.length) :
    (rows coords before after).map (·.index) = List.range coords.length := by
  apply List.ext_getElem?
  intro i
  rw [List.getElem?_map]
  by_cases hi : i < coords.length
  · have hi' : i < (rows coords before after).length := by rw [length_rows hb ha]; exact hi
    rw [List.getElem?_eq_getElem hi', List.getElem?_range hi]
    have := (rows_getElem? i _).1 (List.getElem?_eq_getElem hi')
    rw [Option.map_some, this.2.2.2]
  · rw [List.getElem?_eq_none (by rw [length_rows hb ha]; omega), List.getElem?_eq_none (by simpa using hi)]
    rfl

/-- The order in which the places come after sorting. -/
def order (coords : List (Coord K)) (before after : List String) : List Nat :=
  (sortRows (rows coords before after)).map (·.index)

theorem order_perm {coords : List (Coord K)} {before after : List String}
    (hb : before.length = coords.length) (ha : after.length = coords.length) :
    (order coords before after).Perm (List.range coords.length) := by
  unfold order
  rw [← rows_index hb ha]
  exact (sortRows_perm _).map _

theorem sorted_getElem? {coords : List (Coord K)} {before after : List String} {k i : Nat}
    (h : (order coords before after)[k]? = some i) :
    ((sortRows (rows coords before after)).map (·.coord))[k]? = coords[i]? ∧
    ((sortRows (rows coords before after)).map (·.before))[k]? = before[i]? ∧
    ((sortRows (rows coords before after)).map (·.after))[k]? = after[i]? := by
  unfold order at h
  rw [List.getElem?_map, Option.map_eq_some_iff] at h
  obtain ⟨r, h1, rfl⟩ := h
  obtain ⟨i', hi'⟩ := List.mem_iff_getElem?.1 ((sortRows_perm _).mem_iff.1 (List.mem_of_getElem? h1))
  obtain ⟨a, b, c, d⟩ := (rows_getElem? i' r).1 hi'
  rw [d]
  simp [h1, a, b, c]

theorem newIndex_ok {coords : List (Coord K)} {before after : List String}
    (hb : before.length = coords.length) (ha : after.length = coords.length) {m : Int} {k : Nat}
    (h : newIndex (sortRows (rows coords before after)) m = .ok k) :
    ∃ i, pyIndex coords.length m = .ok i ∧ (order coords before after)[k]? = some i := by
  unfold newIndex at h
  obtain ⟨i, h1, h2⟩ := bind_ok.1 h
  rw [(sortRows_perm _).length_eq, length_rows hb ha] at h1
  split at h2
  · rename_i j hj
    cases h2
    rw [List.findIdx?_eq_some_iff_getElem] at hj
    obtain ⟨h3, h4, -⟩ := hj
    refine ⟨i, h1, ?_⟩
    unfold order
    rw [List.getElem?_map, List.getElem?_eq_getElem h3, Option.map_some]
    simpa using h4
  · cases h2

theorem newIndex_of {coords : List (Coord K)} {before after : List String}
    (hb : before.length = coords.length) (ha : after.length = coords.length) {m : Int} {i : Nat}
    (h : pyIndex coords.length m = .ok i) : ∃ k, newIndex (sortRows (rows coords before after)) m = .ok k := by
  unfold newIndex
  rw [(sortRows_perm _).length_eq, length_rows hb ha, h, ok_bind]
  have hm : i ∈ order coords before after :=
    (order_perm hb ha).mem_iff.2 (List.mem_range.2 (pyIndex_ok h).1)
  unfold order at hm
  obtain ⟨r, hr, rfl⟩ := List.mem_map.1 hm
  split
  · exact ⟨_, rfl⟩
  · rename_i hn
    rw [List.findIdx?_eq_none_iff] at hn
    simpa using hn r hr

theorem sortMoves_ok {coords : List (Coord K)} {before after : List String} {ms : List (Int × Coord K)}
    {ms' : List (Nat × Coord K)}
    (hb : before.length = coords.length) (ha : after.length = coords.length)
    (h : sortMoves (sortRows (rows coords before after)) ms = .ok ms') :
    ∃ l, l.Perm ms' ∧ List.Forall₂ (fun (m : Int × Coord K) (q : Nat × Coord K) => q.2 = m.2 ∧
      ∃ i, pyIndex coords.length m.1 = .ok i ∧ (order coords before after)[q.1]? = some i) ms l := by
  unfold sortMoves at h
  obtain ⟨l, h1, h2⟩ := bind_ok.1 h
  cases h2
  refine ⟨l, (List.perm_insertionSort _ _).symm, ?_⟩
  refine (mapMM_ok_iff.1 h1).imp ?_
  intro m q hq
  obtain ⟨k, h3, h4⟩ := bind_ok.1 hq
  cases h4
  exact ⟨rfl, newIndex_ok hb ha h3⟩

theorem sortMoves_sorted {sorted : List (Row K)} {ms : List (Int × Coord K)} {ms' : List (Nat × Coord K)}
    (h : sortMoves sorted ms = .ok ms') : (ms'.map (·.1)).Pairwise (· ≤ ·) := by
  unfold sortMoves at h
  obtain ⟨l, h1, h2⟩ := bind_ok.1 h
  cases h2
  rw [List.pairwise_map]
  have : Std.Total (fun a b : Nat × Coord K => a.1 ≤ b.1) := ⟨fun a b => Nat.le_total _ _⟩
  have : IsTrans (Nat × Coord K) (fun a b => a.1 ≤ b.1) := ⟨fun a b c => Nat.le_trans⟩
  exact List.pairwise_insertionSort _ _

/-- The steps of the constructor. -/
theorem make_ok {coords : List (Coord K)} {before after : List String} {moves : Option (List (Int × Coord K))}
    {basis : List Int} {rate : K} {p : PyProc K} (h : make coords before after moves basis rate = .ok p) :
    ∃ cs ms ms', centre coords = .ok cs ∧ before.length = cs.length ∧ after.length = cs.length ∧
      basis ≠ [] ∧ (∀ b ∈ basis, 0 ≤ b) ∧ 0 ≤ rate ∧
      before.map (fun e => decide (e = "*")) = after.map (fun e => decide (e = "*")) ∧ before ≠ after ∧
      checkMoves cs before after moves = .ok ms ∧ sortMoves (sortRows (rows cs before after)) ms = .ok ms' ∧
      p = { coords := (sortRows (rows cs before after)).map (·.coord),
            before := (sortRows (rows cs before after)).map (·.before),
            after := (sortRows (rows cs before after)).map (·.after),
            moves := ms', basisSites := basis.map Int.toNat, rate := rate } := by
  unfold make at h
  obtain ⟨cs, h1, h⟩ := bind_ok.1 h
  have hl : cs.length = coords.length := by
    obtain ⟨c, -, rfl⟩ := centre_ok h1
    simp
  split at h
  · cases h
  · rename_i hb
    push Not at hb
    split at h
    · cases h
    · rename_i hr
      split at h
      · cases h
      · rename_i hlen
        push Not at hlen
        split at h
        · cases h
        · rename_i hw
          split at h
          · cases h
          · rename_i hne
            obtain ⟨ms, h2, h⟩ := bind_ok.1 h
            obtain ⟨ms', h3, h⟩ := bind_ok.1 h
            cases h
            refine ⟨cs, ms, ms', h1, by omega, by omega, hb.1, ?_, by simpa using hr, ?_, hne, h2, h3, rfl⟩
            · intro b hbm
              have := hb.2
              rw [Ne, List.any_eq_true] at this
              push Not at this
              simpa using this b hbm
            · unfold wildcardsFixed at hw
              simpa using hw

end PyProc
end KMC
