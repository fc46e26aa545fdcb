import Verif.Lemmas.PyProcess
import Verif.Samples.Basic
import Mathlib.Algebra.Order.Field.Basic
import Mathlib.Algebra.Order.Ring.Abs
import Mathlib.Tactic.Linarith
import Mathlib.Tactic.NormNum

/-!
# Properties C38, C39: what the front end makes of a process
-/

set_option linter.unusedSectionVars false

namespace KMC
open PyProc

theorem pairwise_insertionSort_of {α : Type _} {r R : α → α → Prop} [DecidableRel r]
    (ht : ∀ a b c, R a b → R b c → R a c) (h1 : ∀ a b, r a b → R a b) (h2 : ∀ a b, ¬ r a b → R b a) (l : List α) :
    (l.insertionSort r).Pairwise R := by
  have hins : ∀ (a : α) (l : List α), l.Pairwise R → (l.orderedInsert r a).Pairwise R := by
    intro a l
    induction l with
    | nil => intro _; simp
    | cons b l ih =>
      intro hl
      rw [List.pairwise_cons] at hl
      rw [List.orderedInsert_cons]
      split
      · rename_i hab
        rw [List.pairwise_cons]
        refine ⟨?_, List.pairwise_cons.2 hl⟩
        intro x hx
        rcases List.mem_cons.1 hx with rfl | hx
        · exact h1 _ _ hab
        · exact ht _ _ _ (h1 _ _ hab) (hl.1 x hx)
      · rename_i hab
        rw [List.pairwise_cons]
        refine ⟨?_, ih hl.2⟩
        intro x hx
        rw [List.mem_orderedInsert] at hx
        rcases hx with rfl | hx
        · exact h2 _ _ hab
        · exact hl.1 x hx
  induction l with
  | nil => exact List.Pairwise.nil
  | cons a l ih =>
    rw [List.insertionSort_cons]
    exact hins a _ ih

theorem forall₂_left {α β : Type _} {R : α → β → Prop} {l : List α} {r : List β} (h : List.Forall₂ R l r) :
    ∀ a ∈ l, ∃ b, R a b := by
  induction h with
  | nil => simp
  | cons h1 _ ih =>
    intro a ha
    rcases List.mem_cons.1 ha with rfl | ha
    · exact ⟨_, h1⟩
    · exact ih a ha

section
variable {K : Type _} [Field K] [LinearOrder K]

theorem sortRows_distance (l : List (Row K)) :
    (sortRows l).Pairwise (fun a b => a.coord.normSq ≤ b.coord.normSq) := by
  unfold sortRows
  refine pairwise_insertionSort_of (R := fun a b : Row K => a.coord.normSq ≤ b.coord.normSq)
    (fun a b c h1 h2 => le_trans h1 h2) ?_ ?_ l
  · intro a b h
    unfold Row.le at h
    split at h
    · exact le_of_lt (by simpa using h)
    · rename_i hne
      push Not at hne
      exact le_of_eq hne
  · intro a b h
    unfold Row.le at h
    split at h
    · rw [decide_eq_true_eq, not_lt] at h
      exact h
    · rename_i hne
      push Not at hne
      exact le_of_eq hne.symm

variable [IsStrictOrderedRing K]

theorem Coord.normSq_nonneg (c : Coord K) : 0 ≤ c.normSq := by
  unfold Coord.normSq
  have := mul_self_nonneg c.x
  have := mul_self_nonneg c.y
  have := mul_self_nonneg c.z
  linarith

theorem Coord.eq_zero_of_normSq {c : Coord K} (h : c.normSq ≤ 0) : c = 0 := by
  unfold Coord.normSq at h
  have hx := mul_self_nonneg c.x
  have hy := mul_self_nonneg c.y
  have hz := mul_self_nonneg c.z
  have ex : c.x = 0 := mul_self_eq_zero.1 (by linarith)
  have ey : c.y = 0 := mul_self_eq_zero.1 (by linarith)
  have ez : c.z = 0 := mul_self_eq_zero.1 (by linarith)
  exact Coord.ext ex ey ez

/-! ## C39 Sorting a process does not change its meaning -/

/-- C39. An accepted process is the given one with its places in another order `σ`: every place keeps its
coordinate (relative to the first one given), its type before, its type after and its move vectors;
basis sites and rate are those given. The move vectors are in the order of their places, the places are
in the order of their distance from the first, and the first place is the origin. -/
theorem C39_same_process (coords : List (Coord K)) (before after : List String) (moves : Option (List (Int × Coord K)))
    (basis : List Int) (rate : K) (p : PyProc K) (h : PyProc.make coords before after moves basis rate = .ok p) :
    ∃ (σ : List Nat) (c0 : Coord K), coords[0]? = some c0 ∧ σ.Perm (List.range coords.length) ∧
      p.coords.length = coords.length ∧ p.before.length = coords.length ∧ p.after.length = coords.length ∧
      (∀ k i : Nat, σ[k]? = some i → p.coords[k]? = (coords[i]?).map (fun c => c - c0) ∧
        p.before[k]? = before[i]? ∧ p.after[k]? = after[i]?) ∧
      (∀ ms, moves = some ms → ∃ l, l.Perm p.moves ∧ List.Forall₂ (fun (m : Int × Coord K) (q : Nat × Coord K) => q.2 = m.2 ∧
        ∃ i : Nat, i < coords.length ∧ (m.1 = (i : Int) ∨ m.1 + (coords.length : Int) = (i : Int)) ∧ σ[q.1]? = some i) ms l) ∧
      (p.moves.map (·.1)).Pairwise (· ≤ ·) ∧
      p.coords.Pairwise (fun a b => a.normSq ≤ b.normSq) ∧ p.coords[0]? = some 0 ∧
      (p.basisSites.map (fun b : Nat => (b : Int))) = basis ∧ p.rate = rate := by
  obtain ⟨cs, ms, ms', h1, hb, ha, hb0, hbn, hr, hw, hne, h2, h3, rfl⟩ := PyProc.make_ok h
  obtain ⟨c0, hc0, rfl⟩ := PyProc.centre_ok h1
  have hl : (coords.map (fun x => x - c0)).length = coords.length := by simp
  have hlen : (sortRows (rows (coords.map (fun x => x - c0)) before after)).length = coords.length := by
    rw [(sortRows_perm _).length_eq, length_rows hb ha, hl]
  have hdist : ((sortRows (rows (coords.map (fun x => x - c0)) before after)).map (·.coord)).Pairwise
      (fun a b => a.normSq ≤ b.normSq) := by
    rw [List.pairwise_map]; exact sortRows_distance _
  refine ⟨order (coords.map (fun x => x - c0)) before after, c0, hc0, ?_, ?_, ?_, ?_, ?_, ?_,
    sortMoves_sorted h3, hdist, ?_, ?_, rfl⟩
  · rw [← hl]; exact order_perm hb ha
  · simpa using hlen
  · simpa using hlen
  · simpa using hlen
  · intro k i hk
    obtain ⟨a, b, c⟩ := sorted_getElem? hk
    refine ⟨?_, b, c⟩
    rw [← List.getElem?_map]
    exact a
  · intro ms0 hms
    have := (checkMoves_ok hb ha h2).1 ms0 hms
    subst this
    obtain ⟨l, l1, l2⟩ := sortMoves_ok hb ha h3
    refine ⟨l, l1, l2.imp ?_⟩
    rintro m q ⟨q1, i, q2, q3⟩
    rw [hl] at q2
    exact ⟨q1, i, (pyIndex_ok q2).1, (pyIndex_ok q2).2, q3⟩
  · -- the origin is among the places, and nothing is nearer
    have hmem : (0 : Coord K) ∈ (sortRows (rows (coords.map (fun x => x - c0)) before after)).map (·.coord) := by
      have h0 : 0 ∈ order (coords.map (fun x => x - c0)) before after :=
        (order_perm hb ha).mem_iff.2 (List.mem_range.2 (by
          rw [hl]; exact (List.getElem?_eq_some_iff.1 hc0).1))
      obtain ⟨k, hk⟩ := List.mem_iff_getElem?.1 h0
      have := (sorted_getElem? hk).1
      rw [List.getElem?_map (l := coords), hc0] at this
      refine List.mem_of_getElem? (i := k) (this.trans ?_)
      rw [Option.map_some]
      congr 1
      exact Coord.ext (sub_self _) (sub_self _) (sub_self _)
    cases hs : (sortRows (rows (coords.map (fun x => x - c0)) before after)).map (·.coord) with
    | nil => rw [hs] at hmem; cases hmem
    | cons c l =>
      show some c = _
      rw [hs] at hmem hdist
      rw [List.pairwise_cons] at hdist
      congr 1
      rcases List.mem_cons.1 hmem with h0 | h0
      · exact h0.symm
      · apply Coord.eq_zero_of_normSq
        refine (hdist.1 0 h0).trans ?_
        show (0:K) * 0 + 0 * 0 + 0 * 0 ≤ 0
        simp
  · rw [List.map_map]
    conv_rhs => rw [← List.map_id basis]
    refine List.map_congr_left ?_
    intro b hbm
    have := hbn b hbm
    simp [Int.toNat_of_nonneg this]

/-- Five places in disorder; one move is given with a negative index. -/
example : PyProc.make (K := ℚ) [⟨1, 0, 0⟩, ⟨3, 0, 0⟩, ⟨0, 0, 0⟩, ⟨2, 0, 0⟩] ["A", "*", "C", "B"] ["B", "*", "C", "A"]
      (some [(-1, ⟨-1, 0, 0⟩), (0, ⟨1, 0, 0⟩)]) [0] 1 =
    .ok ⟨[⟨0, 0, 0⟩, ⟨1, 0, 0⟩, ⟨-1, 0, 0⟩, ⟨2, 0, 0⟩], ["A", "B", "C", "*"], ["B", "A", "C", "*"],
      [(0, ⟨1, 0, 0⟩), (1, ⟨-1, 0, 0⟩)], [0], 1⟩ := by decide +kernel

/-! ## C38 Accepted move vectors explain the process -/

theorem PyProc.Lands.carry {cs : List (Coord K)} {before after : List String} {i j k l : Nat} {v : Coord K}
    (h : Lands cs before after i v j) (hk : (order cs before after)[k]? = some i)
    (hl : (order cs before after)[l]? = some j) :
    Lands ((sortRows (rows cs before after)).map (·.coord)) ((sortRows (rows cs before after)).map (·.before))
      ((sortRows (rows cs before after)).map (·.after)) k v l := by
  obtain ⟨c, d, e, h1, h2, h3, h4, h5⟩ := h
  obtain ⟨a1, a2, -⟩ := sorted_getElem? hk
  obtain ⟨b1, -, b3⟩ := sorted_getElem? hl
  exact ⟨c, d, e, a1.trans h1, b1.trans h2, h3, a2.trans h4, b3.trans h5⟩

/-- C38. The moves of an accepted process explain it. There is a place for each move such that the move
vector leads from the place of the moved atom to that place, the type there after the process is the
type of the moved atom before; all places that no move leads to keep their type. -/
theorem C38_explained (coords : List (Coord K)) (before after : List String) (moves : Option (List (Int × Coord K)))
    (basis : List Int) (rate : K) (p : PyProc K) (h : PyProc.make coords before after moves basis rate = .ok p)
    (hm : moves.isSome ∨ p.moves ≠ []) :
    ∃ tgt : List Nat, List.Forall₂ (fun (m : Nat × Coord K) (j : Nat) => ∃ (c d : Coord K) (e : String),
        p.coords[m.1]? = some c ∧ p.coords[j]? = some d ∧
        |d.x - (c.x + m.2.x)| + |d.y - (c.y + m.2.y)| + |d.z - (c.z + m.2.z)| < 1 / 100000000 ∧
        p.before[m.1]? = some e ∧ p.after[j]? = some e) p.moves tgt ∧
      ∀ j, j ∉ tgt → p.after[j]? = p.before[j]? := by
  obtain ⟨cs, ms, ms', h1, hb, ha, hb0, hbn, hr, hw, hne, h2, h3, rfl⟩ := PyProc.make_ok h
  obtain ⟨l, l1, l2⟩ := sortMoves_ok hb ha h3
  have hms : moves.isSome ∨ ms ≠ [] := by
    refine hm.imp id ?_
    rintro hne' rfl
    cases l2
    exact hne' (List.Perm.nil_eq l1).symm
  obtain ⟨tgt, t1, t2⟩ := (checkMoves_ok hb ha h2).2.2 hms
  -- the new number of every place
  have hinv : ∀ j, j < cs.length → ∃ k : Nat, (order cs before after)[k]? = some j := by
    intro j hj
    exact List.mem_iff_getElem?.1 ((order_perm hb ha).mem_iff.2 (List.mem_range.2 hj))
  have hlt : ∀ k j : Nat, (order cs before after)[k]? = some j → j < cs.length := by
    intro k j hk
    exact List.mem_range.1 ((order_perm hb ha).mem_iff.1 (List.mem_of_getElem? hk))
  have hnodup : (order cs before after).Nodup := (order_perm hb ha).nodup_iff.2 List.nodup_range
  -- the targets in the new numbering, in the order given
  have hex : ∃ tgt' : List Nat, List.Forall₂ (fun (q : Nat × Coord K) k =>
      Lands ((sortRows (rows cs before after)).map (·.coord)) ((sortRows (rows cs before after)).map (·.before))
      ((sortRows (rows cs before after)).map (·.after)) q.1 q.2 k) l tgt' ∧
      ∀ k j : Nat, (order cs before after)[k]? = some j → k ∉ tgt' → j ∉ tgt := by
    clear h2 h3 t2 hm hms l1 h
    induction t1 generalizing l with
    | nil => cases l2; exact ⟨[], .nil, fun _ _ _ _ => by simp⟩
    | @cons m j ms tgt hmj ht ih =>
      cases l2 with
      | @cons _ q _ l hq hl =>
        obtain ⟨tgt', i1, i2⟩ := ih l hl
        obtain ⟨i, m1, m2⟩ := hmj
        obtain ⟨q1, i', q2, q3⟩ := hq
        rw [m1] at q2
        cases q2
        have hj : j < cs.length := by
          obtain ⟨c, d, e, a1, a2, -⟩ := m2
          exact (List.getElem?_eq_some_iff.1 a2).1
        obtain ⟨k, hk⟩ := hinv j hj
        refine ⟨k :: tgt', .cons ?_ i1, ?_⟩
        · rw [q1]; exact PyProc.Lands.carry m2 q3 hk
        · intro k' j' hk' hnot
          rw [List.mem_cons, not_or] at hnot
          rw [List.mem_cons, not_or]
          refine ⟨?_, i2 k' j' hk' hnot.2⟩
          rintro rfl
          apply hnot.1
          have e1 := (List.getElem?_eq_some_iff.1 hk)
          have e2 := (List.getElem?_eq_some_iff.1 hk')
          exact (hnodup.getElem_inj_iff.1 (e1.2.trans e2.2.symm)).symm
  obtain ⟨tgt', x1, x2⟩ := hex
  obtain ⟨tgt'', y1, y2⟩ := List.perm_comp_forall₂ l1.symm x1
  refine ⟨tgt'', y1, ?_⟩
  intro k hk
  have hk' : k ∉ tgt' := fun hh => hk (y2.mem_iff.2 hh)
  by_cases hkl : k < cs.length
  · have hkl' : k < (order cs before after).length := by rw [(order_perm hb ha).length_eq]; simpa using hkl
    have hok := List.getElem?_eq_getElem hkl'
    obtain ⟨-, b2, b3⟩ := sorted_getElem? hok
    show (List.map _ _)[k]? = (List.map _ _)[k]?
    rw [b2, b3]
    exact t2 _ (x2 k _ hok hk')
  · have : (sortRows (rows cs before after)).length = cs.length := by
      rw [(sortRows_perm _).length_eq, length_rows hb ha]
    show (List.map _ _)[k]? = (List.map _ _)[k]?
    rw [List.getElem?_eq_none (by simp; omega), List.getElem?_eq_none (by simp; omega)]

/-- C38. The wildcards of an accepted process are in the same places before and after, and something
else changes. -/
theorem C38_wildcards (coords : List (Coord K)) (before after : List String) (moves : Option (List (Int × Coord K)))
    (basis : List Int) (rate : K) (p : PyProc K) (h : PyProc.make coords before after moves basis rate = .ok p) :
    (∀ k : Nat, p.before[k]? = some "*" ↔ p.after[k]? = some "*") ∧ p.before ≠ p.after := by
  obtain ⟨cs, ms, ms', h1, hb, ha, hb0, hbn, hr, hw, hne, h2, h3, rfl⟩ := PyProc.make_ok h
  have hlen : (sortRows (rows cs before after)).length = cs.length := by
    rw [(sortRows_perm _).length_eq, length_rows hb ha]
  have hwi : ∀ i : Nat, before[i]? = some "*" ↔ after[i]? = some "*" := by
    intro i
    have := congrArg (fun l => l[i]?) hw
    simp only [List.getElem?_map] at this
    cases hbi : before[i]? with
    | none =>
      rw [hbi] at this
      cases hai : after[i]? with
      | none => simp
      | some y => rw [hai] at this; cases this
    | some x =>
      rw [hbi] at this
      cases hai : after[i]? with
      | none => rw [hai] at this; cases this
      | some y =>
        rw [hai] at this
        simp only [Option.map_some, Option.some.injEq, decide_eq_decide] at this
        simpa using this
  refine ⟨?_, ?_⟩
  · intro k
    show (List.map _ _)[k]? = _ ↔ (List.map _ _)[k]? = _
    by_cases hkl : k < cs.length
    · have hkl' : k < (order cs before after).length := by rw [(order_perm hb ha).length_eq]; simpa using hkl
      obtain ⟨-, b2, b3⟩ := sorted_getElem? (List.getElem?_eq_getElem hkl')
      rw [b2, b3]
      exact hwi _
    · rw [List.getElem?_eq_none (by simp; omega), List.getElem?_eq_none (by simp; omega)]
  · intro heq
    apply hne
    apply List.ext_getElem?
    intro i
    by_cases hil : i < cs.length
    · obtain ⟨k, hk⟩ := List.mem_iff_getElem?.1 ((order_perm hb ha).mem_iff.2 (List.mem_range.2 hil))
      obtain ⟨-, b2, b3⟩ := sorted_getElem? hk
      rw [← b2, ← b3]
      exact congrArg (fun l => l[k]?) heq
    · rw [List.getElem?_eq_none (by omega), List.getElem?_eq_none (by omega)]

/-- C38. Without move vectors the front end finds them only when two places exchange their types; the
moves then lead from each of the two places to the other. Otherwise there are no moves. -/
theorem C38_reconstructed (coords : List (Coord K)) (before after : List String)
    (basis : List Int) (rate : K) (p : PyProc K) (h : PyProc.make coords before after none basis rate = .ok p) :
    p.moves = [] ∨ ∃ (k l : Nat) (c d : Coord K) (e f : String), k ≠ l ∧ p.coords[k]? = some c ∧ p.coords[l]? = some d ∧
      p.before[k]? = some e ∧ p.before[l]? = some f ∧ p.after[k]? = some f ∧ p.after[l]? = some e ∧ e ≠ f ∧
      p.moves.Perm [(k, d - c), (l, c - d)] := by
  obtain ⟨cs, ms, ms', h1, hb, ha, hb0, hbn, hr, hw, hne, h2, h3, rfl⟩ := PyProc.make_ok h
  obtain ⟨q, q1, q2⟩ := sortMoves_ok hb ha h3
  rcases (checkMoves_ok hb ha h2).2.1 rfl with rfl | hx
  · left
    cases q2
    exact (List.Perm.nil_eq q1).symm
  · right
    obtain ⟨i, j, c, d, e, f, hij, x1, x2, x3, x4, x5, x6, x7, x8, rfl⟩ := hx
    cases q2 with
    | @cons _ a _ q ha1 q2 =>
      cases q2 with
      | @cons _ b _ q hb1 q2 =>
        cases q2
        obtain ⟨a1, i', a2, a3⟩ := ha1
        obtain ⟨b1, j', b2, b3⟩ := hb1
        have hil := (List.getElem?_eq_some_iff.1 x1).1
        have hjl := (List.getElem?_eq_some_iff.1 x2).1
        rw [pyIndex_nat hil] at a2
        rw [pyIndex_nat hjl] at b2
        cases a2
        cases b2
        obtain ⟨u1, u2, u3⟩ := sorted_getElem? a3
        obtain ⟨v1, v2, v3⟩ := sorted_getElem? b3
        refine ⟨a.1, b.1, c, d, e, f, ?_, u1.trans x1, v1.trans x2, u2.trans x3, v2.trans x4, u3.trans x5,
          v3.trans x6, x7, ?_⟩
        · intro hab
          rw [hab, b3, Option.some.injEq] at a3
          omega
        · refine q1.symm.trans ?_
          dsimp only at a1 b1
          rw [← a1, ← b1]

theorem PyProc.taxi_triangle (a b t : Coord K) : taxi (a - b) ≤ taxi (a - t) + taxi (b - t) := by
  show |a.x - b.x| + |a.y - b.y| + |a.z - b.z| ≤
    |a.x - t.x| + |a.y - t.y| + |a.z - t.z| + (|b.x - t.x| + |b.y - t.y| + |b.z - t.z|)
  have hx := abs_sub (a.x - t.x) (b.x - t.x)
  have hy := abs_sub (a.y - t.y) (b.y - t.y)
  have hz := abs_sub (a.z - t.z) (b.z - t.z)
  rw [sub_sub_sub_cancel_right] at hx hy hz
  linarith

theorem PyProc.landing_of {cs : List (Coord K)} {t d : Coord K} {j : Nat}
    (hsep : cs.Pairwise (fun a b => 2 / 100000000 ≤ taxi (a - b))) (hd : cs[j]? = some d)
    (ht : taxi (d - t) < 1 / 100000000) : landing cs t = some j := by
  unfold landing
  rw [List.findIdx?_eq_some_iff_getElem]
  obtain ⟨hj, rfl⟩ := List.getElem?_eq_some_iff.1 hd
  refine ⟨hj, by simpa using ht, ?_⟩
  intro k hk
  have h1 := List.pairwise_iff_getElem.1 hsep k j (by omega) hj hk
  have h2 := taxi_triangle (cs[k]'(by omega)) cs[j] t
  have h3 : ¬ taxi ((cs[k]'(by omega)) - t) < 1 / 100000000 := by
    intro h3
    have : (2 : K) / 100000000 = 1 / 100000000 + 1 / 100000000 := by norm_num
    linarith
  simpa using h3

theorem PyProc.tryMoves_of {cs : List (Coord K)} {before after : List String}
    (hb : before.length = cs.length) (ha : after.length = cs.length)
    (hsep : cs.Pairwise (fun a b => 2 / 100000000 ≤ taxi (a - b))) {ms : List (Int × Coord K)} {tgt : List Nat}
    (h : List.Forall₂ (fun (m : Int × Coord K) j => ∃ i, pyIndex cs.length m.1 = .ok i ∧
      Lands cs before after i m.2 j) ms tgt) :
    ∀ moved : List String, moved.length = cs.length → ∃ moved', loopM (tryMove cs before after) ms moved = .ok moved' ∧
      moved'.length = cs.length ∧ (∀ j, j ∉ tgt → moved'[j]? = moved[j]?) ∧ ∀ j ∈ tgt, moved'[j]? = after[j]? := by
  induction h with
  | nil => intro moved hm; exact ⟨moved, rfl, hm, fun _ _ => rfl, by simp⟩
  | @cons m j ms tgt hmj ht ih =>
    intro moved hm
    obtain ⟨i, h1, c, d, e, h2, h3, h4, h5, h6⟩ := hmj
    have hjl := (List.getElem?_eq_some_iff.1 h3).1
    have hstep : tryMove cs before after moved m = .ok (moved.set j e) := by
      unfold tryMove
      rw [pyGet_of h1 h2, ok_bind, landing_of (t := c + m.2) hsep h3 h4]
      dsimp only
      rw [pyGet_of (by rw [hb]; exact h1) h5, ok_bind, pyGet_of (pyIndex_nat (by rw [ha]; exact hjl)) h6, ok_bind,
        if_neg (by simp)]
      rfl
    obtain ⟨moved', k1, k2, k3, k4⟩ := ih (moved.set j e) (by rw [List.length_set]; exact hm)
    refine ⟨moved', by rw [loopM_cons, hstep, ok_bind, k1], k2, ?_, ?_⟩
    · intro k hk
      rw [List.mem_cons, not_or] at hk
      rw [k3 k hk.2, List.getElem?_set_ne (Ne.symm hk.1)]
    · intro k hk
      by_cases hkt : k ∈ tgt
      · exact k4 k hkt
      · rcases List.mem_cons.1 hk with rfl | hk
        · rw [k3 k hkt, h6, List.getElem?_set_self (by omega)]
        · exact absurd hk hkt

theorem PyProc.lands_centre {coords : List (Coord K)} {before after : List String} {i j : Nat} {v c0 : Coord K}
    (h : Lands coords before after i v j) : Lands (coords.map (fun x => x - c0)) before after i v j := by
  obtain ⟨c, d, e, h1, h2, h3, h4, h5⟩ := h
  refine ⟨c - c0, d - c0, e, by rw [List.getElem?_map, h1]; rfl, by rw [List.getElem?_map, h2]; rfl, ?_, h4, h5⟩
  show |d.x - c0.x - (c.x - c0.x + v.x)| + |d.y - c0.y - (c.y - c0.y + v.y)| + |d.z - c0.z - (c.z - c0.z + v.z)| < _
  have hx : d.x - c0.x - (c.x - c0.x + v.x) = d.x - (c.x + v.x) := by ring
  have hy : d.y - c0.y - (c.y - c0.y + v.y) = d.y - (c.y + v.y) := by ring
  have hz : d.z - c0.z - (c.z - c0.z + v.z) = d.z - (c.z + v.z) := by ring
  rw [hx, hy, hz]
  exact h3

/-- C38. Nothing correct is rejected: a process on distinct places with fixed wildcards, a change, basis
sites and a rate, and moves that explain it, is accepted. -/
theorem C38_complete (coords : List (Coord K)) (before after : List String) (ms : List (Int × Coord K)) (tgt : List Nat)
    (basis : List Int) (rate : K) (hc : coords ≠ []) (hb : before.length = coords.length) (ha : after.length = coords.length)
    (hbasis : basis ≠ []) (hbasis' : ∀ b ∈ basis, 0 ≤ b) (hrate : 0 ≤ rate)
    (hwild : ∀ i : Nat, before[i]? = some "*" ↔ after[i]? = some "*") (hne : before ≠ after)
    (hsep : coords.Pairwise (fun a b => 2 / 100000000 ≤ |a.x - b.x| + |a.y - b.y| + |a.z - b.z|))
    (hmoves : List.Forall₂ (fun (m : Int × Coord K) j => ∃ i : Nat, i < coords.length ∧
      (m.1 = (i : Int) ∨ m.1 + (coords.length : Int) = (i : Int)) ∧ ∃ (c d : Coord K) (e : String),
        coords[i]? = some c ∧ coords[j]? = some d ∧
        |d.x - (c.x + m.2.x)| + |d.y - (c.y + m.2.y)| + |d.z - (c.z + m.2.z)| < 1 / 100000000 ∧
        before[i]? = some e ∧ after[j]? = some e) ms tgt)
    (hrest : ∀ j, j ∉ tgt → after[j]? = before[j]?) :
    ∃ p, PyProc.make coords before after (some ms) basis rate = .ok p := by
  cases coords with
  | nil => exact absurd rfl hc
  | cons c0 rest =>
    have hcen : PyProc.centre (c0 :: rest) = .ok ((c0 :: rest).map (fun x => x - c0)) := rfl
    generalize hcs : (c0 :: rest).map (fun x => x - c0) = cs at hcen
    have hl : cs.length = (c0 :: rest).length := by rw [← hcs]; simp
    have hsep' : cs.Pairwise (fun a b => 2 / 100000000 ≤ PyProc.taxi (a - b)) := by
      rw [← hcs, List.pairwise_map]
      refine hsep.imp ?_
      intro a b hab
      show 2 / 100000000 ≤ |a.x - c0.x - (b.x - c0.x)| + |a.y - c0.y - (b.y - c0.y)| + |a.z - c0.z - (b.z - c0.z)|
      rw [sub_sub_sub_cancel_right, sub_sub_sub_cancel_right, sub_sub_sub_cancel_right]
      exact hab
    have hm' : List.Forall₂ (fun (m : Int × Coord K) j => ∃ i, PyProc.pyIndex cs.length m.1 = .ok i ∧
        PyProc.Lands cs before after i m.2 j) ms tgt := by
      refine hmoves.imp ?_
      rintro m j ⟨i, i1, i2, hi⟩
      refine ⟨i, ?_, ?_⟩
      · rw [hl]; exact PyProc.pyIndex_of i1 i2
      · rw [← hcs]; exact PyProc.lands_centre hi
    obtain ⟨moved, k1, k2, k3, k4⟩ := PyProc.tryMoves_of (by omega) (by omega) hsep' hm' before (by omega)
    have hafter : after = moved := by
      apply List.ext_getElem?
      intro j
      by_cases hj : j ∈ tgt
      · exact (k4 j hj).symm
      · rw [hrest j hj, k3 j hj]
    have hcheck : PyProc.checkMoves cs before after (some ms) = .ok ms := by
      show (loopM (tryMove cs before after) ms before >>= fun moved =>
        if after ≠ moved then .error .exception else .ok ms : M _) = _
      rw [k1, ok_bind, if_neg (by simpa using hafter)]
    have hsort : ∃ ms', PyProc.sortMoves (PyProc.sortRows (PyProc.rows cs before after)) ms = .ok ms' := by
      unfold PyProc.sortMoves
      have : ∃ l, mapMM (fun m : Int × Coord K => do
          let j ← PyProc.newIndex (PyProc.sortRows (PyProc.rows cs before after)) m.1
          return (j, m.2)) ms = .ok l := by
        apply mapMM_isOk
        intro m hm
        obtain ⟨j, i, hi, -⟩ := forall₂_left hm' m hm
        obtain ⟨k, hk⟩ := PyProc.newIndex_of (before := before) (after := after) (by omega) (by omega) hi
        exact ⟨_, by rw [hk, ok_bind]; rfl⟩
      obtain ⟨l, hl⟩ := this
      exact ⟨_, by rw [hl, ok_bind]; rfl⟩
    obtain ⟨ms', hsort⟩ := hsort
    unfold PyProc.make
    rw [hcen, ok_bind, if_neg, if_neg, if_neg, if_neg, if_neg, hcheck, ok_bind]
    · dsimp only
      rw [hsort, ok_bind]
      exact ⟨_, rfl⟩
    · exact hne
    · have : PyProc.wildcardsFixed before after = true := by
        unfold PyProc.wildcardsFixed
        rw [decide_eq_true_eq]
        apply List.ext_getElem?
        intro i
        rw [List.getElem?_map, List.getElem?_map]
        have hi := hwild i
        by_cases hil : i < before.length
        · have hil' : i < after.length := by omega
          rw [List.getElem?_eq_getElem hil, List.getElem?_eq_getElem hil'] at hi ⊢
          simpa using hi
        · rw [List.getElem?_eq_none (by omega), List.getElem?_eq_none (by omega)]
      simp [this]
    · omega
    · simpa using hrate
    · push Not
      refine ⟨hbasis, ?_⟩
      rw [Ne, List.any_eq_true]
      push Not
      intro b hbm
      simpa using hbasis' b hbm

end

/-! ### What is accepted and what is not -/

/-- Two places exchange their types: the moves are found. -/
example : PyProc.make (K := ℚ) [⟨0, 0, 0⟩, ⟨1, 0, 0⟩] ["A", "B"] ["B", "A"] none [0] 1 =
    .ok ⟨[⟨0, 0, 0⟩, ⟨1, 0, 0⟩], ["A", "B"], ["B", "A"], [(0, ⟨1, 0, 0⟩), (1, ⟨-1, 0, 0⟩)], [0], 1⟩ := by
  decide +kernel

/-- C38. A chain of moves that does not come back to its beginning is accepted: A and B move one place on,
C disappears and A is there twice. (For what the back end makes of it see `C20_duplicated`.) -/
theorem C38_chain_accepted :
    PyProc.make (K := ℚ) [⟨0, 0, 0⟩, ⟨1, 0, 0⟩, ⟨2, 0, 0⟩] ["A", "B", "C"] ["A", "A", "B"]
      (some [(0, ⟨1, 0, 0⟩), (1, ⟨1, 0, 0⟩)]) [0] 1 =
    .ok ⟨[⟨0, 0, 0⟩, ⟨1, 0, 0⟩, ⟨2, 0, 0⟩], ["A", "B", "C"], ["A", "A", "B"],
      [(0, ⟨1, 0, 0⟩), (1, ⟨1, 0, 0⟩)], [0], 1⟩ := by decide +kernel

/-- C38. A single move onto a place from which nothing leaves is accepted: the atom that was there is
overwritten and the moved one is doubled. -/
theorem C38_copy_accepted :
    PyProc.make (K := ℚ) [⟨0, 0, 0⟩, ⟨1, 0, 0⟩] ["A", "B"] ["A", "A"] (some [(0, ⟨1, 0, 0⟩)]) [0] 1 =
    .ok ⟨[⟨0, 0, 0⟩, ⟨1, 0, 0⟩], ["A", "B"], ["A", "A"], [(0, ⟨1, 0, 0⟩)], [0], 1⟩ := by decide +kernel

/-- C38. Moves that do not lead to the elements after, that lead nowhere, or an empty list of moves are
rejected; so are moving wildcards and processes that change nothing. -/
theorem C38_rejected :
    PyProc.make (K := ℚ) [⟨0, 0, 0⟩, ⟨1, 0, 0⟩] ["A", "B"] ["B", "A"] (some [(0, ⟨1, 0, 0⟩)]) [0] 1 = .error .exception ∧
    PyProc.make (K := ℚ) [⟨0, 0, 0⟩, ⟨1, 0, 0⟩] ["A", "B"] ["B", "A"] (some [(0, ⟨2, 0, 0⟩), (1, ⟨-1, 0, 0⟩)]) [0] 1 = .error .exception ∧
    PyProc.make (K := ℚ) [⟨0, 0, 0⟩, ⟨1, 0, 0⟩] ["A", "B"] ["B", "A"] (some []) [0] 1 = .error .exception ∧
    PyProc.make (K := ℚ) [⟨0, 0, 0⟩, ⟨1, 0, 0⟩] ["A", "*"] ["*", "A"] none [0] 1 = .error .exception ∧
    PyProc.make (K := ℚ) [⟨0, 0, 0⟩, ⟨1, 0, 0⟩] ["A", "B"] ["A", "B"] none [0] 1 = .error .exception := by
  refine ⟨?_, ?_, ?_, ?_, ?_⟩ <;> decide +kernel

end KMC
