import Verif.Model.Msd
import Verif.Lemmas.Monad
import Mathlib.Algebra.Order.Field.Rat
import Mathlib.Algebra.BigOperators.Group.List.Basic
import Mathlib.Data.Rat.Floor
import Mathlib.Tactic.Ring
import Mathlib.Tactic.Linarith
import Mathlib.Tactic.FieldSimp

/-!
# C48: block averages

`C48_blocks` gives the state of the blocker after any values, `C48_partition` says that the blocks and the values left
over are the values of the bin in order, and `C48_values` gives the estimates. `C48_no_blocks` is the case of the block
size zero, which is the one that the front end always uses: there are no blocks and no estimates.
-/

namespace KMC
namespace Blocker

/-- The sum of some coordinates. -/
def total {K : Type _} [Field K] (l : List (Coord K)) : Coord K := ⟨(l.map (·.x)).sum, (l.map (·.y)).sum, (l.map (·.z)).sum⟩

/-- Consecutive blocks of `B` entries. -/
def fullBlocks {α : Type _} (B : Nat) (l : List α) : List (List α) :=
  (List.range (l.length / B)).map fun k => (l.drop (k * B)).take B

/-- The entries after the last full block. -/
def leftOver {α : Type _} (B : Nat) (l : List α) : List α := l.drop (l.length / B * B)

/-- The values of a bin, in order. -/
def ofBin {α : Type _} (i : Nat) (xs : List (Nat × α)) : List α := (xs.filter (fun x => decide (x.1 = i))).map (·.2)

section
variable {α : Type _}

theorem length_leftOver (B : Nat) (l : List α) : (leftOver B l).length = l.length % B := by
  unfold leftOver
  have := Nat.div_add_mod l.length B
  rw [List.length_drop, Nat.mul_comm]
  omega

theorem fullBlocks_length (B : Nat) (l : List α) : ∀ b ∈ fullBlocks B l, b.length = B := by
  intro b hb
  obtain ⟨k, hk, rfl⟩ := List.mem_map.1 hb
  have hk' := List.mem_range.1 hk
  have h1 : (k + 1) * B ≤ l.length / B * B := Nat.mul_le_mul_right _ hk'
  have h2 := Nat.div_mul_le_self l.length B
  rw [List.length_take, List.length_drop]
  rw [Nat.add_mul] at h1
  omega

/-- The first `k` blocks. -/
theorem flatten_blocks (B : Nat) (l : List α) (k : Nat) :
    ((List.range k).map fun k => (l.drop (k * B)).take B).flatten = l.take (k * B) := by
  induction k with
  | zero => simp
  | succ k ih =>
    rw [List.range_succ, List.map_append, List.flatten_append, ih, Nat.add_mul, Nat.one_mul, List.take_add]
    simp

/-- One more entry does not close a block, or does. -/
theorem blocks_snoc (B : Nat) (l : List α) (x : α) :
    (l.length % B + 1 ≠ B → fullBlocks B (l ++ [x]) = fullBlocks B l ∧ leftOver B (l ++ [x]) = leftOver B l ++ [x]) ∧
    (l.length % B + 1 = B → fullBlocks B (l ++ [x]) = fullBlocks B l ++ [leftOver B l ++ [x]] ∧ leftOver B (l ++ [x]) = []) := by
  have hd := Nat.div_add_mod l.length B
  have hle := Nat.div_mul_le_self l.length B
  have hblk : ∀ k, k < l.length / B → ((l ++ [x]).drop (k * B)).take B = (l.drop (k * B)).take B := by
    intro k hk
    have h1 : (k + 1) * B ≤ l.length / B * B := Nat.mul_le_mul_right _ hk
    rw [Nat.add_mul] at h1
    rw [List.drop_append_of_le_length (by omega), List.take_append_of_le_length (by rw [List.length_drop]; omega)]
  constructor
  · intro h
    have hq : (l ++ [x]).length / B = l.length / B := by
      rcases Nat.eq_zero_or_pos B with hB | hB
      · subst hB; simp
      · have := Nat.mod_lt l.length hB
        rw [List.length_append, List.length_singleton]
        refine (Nat.div_eq_of_lt_le ?_ ?_)
        · omega
        · rw [Nat.add_mul, Nat.mul_comm]; omega
    unfold fullBlocks leftOver
    rw [hq]
    refine ⟨List.map_congr_left fun k hk => hblk k (List.mem_range.1 hk), ?_⟩
    rw [List.drop_append_of_le_length hle]
  · intro h
    have hB : 0 < B := by omega
    have hq : (l ++ [x]).length / B = l.length / B + 1 := by
      rw [List.length_append, List.length_singleton]
      refine (Nat.div_eq_of_lt_le ?_ ?_)
      · rw [Nat.add_mul, Nat.mul_comm]; omega
      · rw [Nat.add_mul, Nat.add_mul, Nat.mul_comm (l.length / B)]; omega
    unfold fullBlocks leftOver
    rw [hq, List.range_succ, List.map_append]
    refine ⟨?_, ?_⟩
    · congr 1
      · exact List.map_congr_left fun k hk => hblk k (List.mem_range.1 hk)
      · show [((l ++ [x]).drop (l.length / B * B)).take B] = _
        rw [List.drop_append_of_le_length hle, List.take_of_length_le]
        rw [List.length_append, List.length_drop, List.length_singleton, Nat.mul_comm]
        omega
    · apply List.drop_of_length_le
      rw [List.length_append, List.length_singleton, Nat.add_mul, Nat.mul_comm]
      omega

end

/-- Writing one entry of a list given by a function. -/
theorem wr_range {α : Type _} {n b : Nat} {f g : Nat → α} {v : α} (hb : b < n) (hg : ∀ i, i < n → g i = if i = b then v else f i) :
    wr ((List.range n).map f) b v = .ok ((List.range n).map g) := by
  rw [wr_of_lt (by simpa using hb)]
  congr 1
  apply List.ext_getElem
  · simp
  · intro i h1 h2
    have hi : i < n := by simpa using h2
    rw [List.getElem_set]
    simp only [List.getElem_map, List.getElem_range, hg i hi]
    by_cases h : b = i
    · rw [if_pos h, if_pos h.symm]
    · rw [if_neg h, if_neg (Ne.symm h)]

theorem rd_range {α : Type _} {n b : Nat} {f : Nat → α} (hb : b < n) : rd ((List.range n).map f) b = .ok (f b) := by
  rw [rd_of_lt (by simpa using hb)]
  simp

theorem ofBin_snoc {α : Type _} (i : Nat) (xs : List (Nat × α)) (b : Nat) (v : α) :
    ofBin i (xs ++ [(b, v)]) = if i = b then ofBin i xs ++ [v] else ofBin i xs := by
  unfold ofBin
  rw [List.filter_append]
  by_cases h : i = b
  · simp [h]
  · simp [h, Ne.symm h]

variable {K : Type _} [Field K] [LinearOrder K] [FloorRing K]

omit [LinearOrder K] [FloorRing K] in
theorem total_snoc (l : List (Coord K)) (v : Coord K) : total (l ++ [v]) = total l + v := by
  have h : ∀ a b : Coord K, a + b = ⟨a.x + b.x, a.y + b.y, a.z + b.z⟩ := fun _ _ => rfl
  rw [h]
  simp [total]

omit [LinearOrder K] [FloorRing K] in
theorem total_nil : total ([] : List (Coord K)) = 0 := rfl

/-- The state of a blocker with `n` bins after the values `xs`. -/
structure Holds (B n : Nat) (b : Blocker K) (xs : List (Nat × Coord K)) : Prop where
  size : b.blocksize = B
  counts : b.counts = (List.range n).map fun i => (ofBin i xs).length % B
  block : b.block = (List.range n).map fun i => total (leftOver B (ofBin i xs))
  blocks : b.blocks = (List.range n).map fun i => (fullBlocks B (ofBin i xs)).map total

omit [LinearOrder K] [FloorRing K] in
theorem Holds.empty (B n : Nat) : Holds B n (make n B : Blocker K) [] := by
  refine ⟨rfl, ?_, ?_, ?_⟩
  · apply List.ext_getElem <;> simp [make, ofBin]
  · apply List.ext_getElem <;> simp [make, ofBin, leftOver, total_nil]
  · apply List.ext_getElem <;> simp [make, ofBin, fullBlocks]

omit [LinearOrder K] [FloorRing K] in
theorem Holds.step {B n : Nat} {b : Blocker K} {xs : List (Nat × Coord K)} (h : Holds B n b xs) {bin : Nat} (hb : bin < n)
    (v : Coord K) : ∃ b', b.registerStep bin v = .ok b' ∧ Holds B n b' (xs ++ [(bin, v)]) := by
  obtain ⟨h1, h2, h3, h4⟩ := h
  have hmod : ∀ m, (m % B + 1 = B → (m + 1) % B = 0) ∧ (m % B + 1 ≠ B → (m + 1) % B = m % B + 1) := by
    intro m
    constructor
    · intro e
      rw [Nat.add_mod]
      rcases Nat.lt_or_ge 1 B with h | h
      · rw [Nat.mod_eq_of_lt h, e, Nat.mod_self]
      · have : B = 1 := by omega
        subst this; exact Nat.mod_one _
    · intro e
      rcases Nat.eq_zero_or_pos B with hB | hB
      · subst hB; simp
      · have hlt := Nat.mod_lt m hB
        rw [Nat.add_mod]
        rcases Nat.lt_or_ge 1 B with h | h
        · rw [Nat.mod_eq_of_lt h, Nat.mod_eq_of_lt (by omega)]
        · have : B = 1 := by omega
          subst this
          simp [Nat.mod_one] at e
  unfold registerStep
  rw [h1, h2, h3, h4, rd_range hb, ok_bind, wr_range (g := fun i => if i = bin then total (leftOver B (ofBin bin xs)) + v
    else total (leftOver B (ofBin i xs))) hb (fun _ _ => rfl), ok_bind, rd_range hb, ok_bind,
    wr_range (g := fun i => if i = bin then (ofBin bin xs).length % B + 1 else (ofBin i xs).length % B) hb (fun _ _ => rfl), ok_bind]
  obtain ⟨s1, s2⟩ := blocks_snoc B (ofBin bin xs) v
  by_cases hc : (ofBin bin xs).length % B + 1 = B
  · obtain ⟨s3, s4⟩ := s2 hc
    rw [if_pos hc, rd_range hb, ok_bind,
      wr_range (g := fun i => (fullBlocks B (ofBin i (xs ++ [(bin, v)]))).map total) hb (by
        intro i _
        rw [ofBin_snoc]
        by_cases hi : i = bin
        · subst hi; rw [if_pos rfl, if_pos rfl, s3, List.map_append, List.map_singleton, total_snoc]
        · rw [if_neg hi, if_neg hi]), ok_bind,
      wr_range (g := fun i => (ofBin i (xs ++ [(bin, v)])).length % B) hb (by
        intro i _
        rw [ofBin_snoc]
        by_cases hi : i = bin
        · subst hi; rw [if_pos rfl, if_pos rfl, List.length_append]; exact (hmod _).1 hc
        · rw [if_neg hi, if_neg hi, if_neg hi]), ok_bind,
      wr_range (g := fun i => total (leftOver B (ofBin i (xs ++ [(bin, v)])))) hb (by
        intro i _
        rw [ofBin_snoc]
        by_cases hi : i = bin
        · subst hi; rw [if_pos rfl, if_pos rfl, s4]; rfl
        · rw [if_neg hi, if_neg hi, if_neg hi]), ok_bind]
    exact ⟨_, rfl, rfl, rfl, rfl, rfl⟩
  · obtain ⟨s3, s4⟩ := s1 hc
    rw [if_neg hc]
    refine ⟨_, rfl, rfl, ?_, ?_, ?_⟩
    · refine List.map_congr_left fun i _ => ?_
      rw [ofBin_snoc]
      by_cases hi : i = bin
      · subst hi; rw [if_pos rfl, if_pos rfl, List.length_append]; exact ((hmod _).2 hc).symm
      · rw [if_neg hi, if_neg hi]
    · refine List.map_congr_left fun i _ => ?_
      rw [ofBin_snoc]
      by_cases hi : i = bin
      · subst hi; rw [if_pos rfl, if_pos rfl, s4, total_snoc]
      · rw [if_neg hi, if_neg hi]
    · refine List.map_congr_left fun i _ => ?_
      rw [ofBin_snoc]
      by_cases hi : i = bin
      · subst hi; rw [if_pos rfl, s3]
      · rw [if_neg hi]

omit [LinearOrder K] [FloorRing K] in
theorem Holds.steps {B n : Nat} {b : Blocker K} {xs : List (Nat × Coord K)} (h : Holds B n b xs) (ys : List (Nat × Coord K))
    (hy : ∀ y ∈ ys, y.1 < n) :
    ∃ b', loopM (fun b (y : Nat × Coord K) => b.registerStep y.1 y.2) ys b = .ok b' ∧ Holds B n b' (xs ++ ys) := by
  induction ys generalizing b xs with
  | nil => exact ⟨b, rfl, by simpa using h⟩
  | cons y ys ih =>
    obtain ⟨b1, e1, e2⟩ := h.step (hy y (by simp)) y.2
    obtain ⟨b2, g1, g2⟩ := ih e2 (fun z hz => hy z (by simp [hz]))
    exact ⟨b2, by rw [loopM_cons]; exact bind_ok.2 ⟨b1, e1, g1⟩, by simpa using g2⟩

omit [LinearOrder K] [FloorRing K] in
/-- C48. Registering any values with bins in the range succeeds, and then every bin has the sums of its consecutive full
blocks, the sum of the values after the last full block, and their number. -/
theorem C48_blocks (n B : Nat) (xs : List (Nat × Coord K)) (hx : ∀ x ∈ xs, x.1 < n) :
    ∃ b, loopM (fun b (x : Nat × Coord K) => b.registerStep x.1 x.2) xs (make n B) = .ok b ∧
      ∀ i, i < n → b.blocks[i]? = some ((fullBlocks B (ofBin i xs)).map total) ∧
        b.block[i]? = some (total (leftOver B (ofBin i xs))) ∧ b.counts[i]? = some (leftOver B (ofBin i xs)).length := by
  obtain ⟨b, e, -, h2, h3, h4⟩ := (Holds.empty (K := K) B n).steps xs hx
  rw [List.nil_append] at h2 h3 h4
  refine ⟨b, e, fun i hi => ?_⟩
  rw [h2, h3, h4, length_leftOver]
  simp [hi]

/-- C48. The blocks have the block size, what is left over is less than a block, and together in order they are the
values. -/
theorem C48_partition {α : Type _} (B : Nat) (hB : 0 < B) (l : List α) :
    (fullBlocks B l).flatten ++ leftOver B l = l ∧ (∀ b ∈ fullBlocks B l, b.length = B) ∧ (leftOver B l).length < B := by
  refine ⟨?_, fullBlocks_length B l, ?_⟩
  · unfold fullBlocks leftOver
    rw [flatten_blocks, List.take_append_drop]
  · rw [length_leftOver]
    exact Nat.mod_lt _ hB

omit [LinearOrder K] [FloorRing K] in
/-- C48. Block size zero: whatever is registered, there are no blocks, and every estimate is the one that says so. The
front end uses this block size always. -/
theorem C48_no_blocks (n : Nat) (xs : List (Nat × Coord K)) (hx : ∀ x ∈ xs, x.1 < n) (binCounts : List Nat)
    (hist : List (Coord K)) (h1 : binCounts.length = n) (h2 : hist.length = n) :
    ∃ b, loopM (fun b (x : Nat × Coord K) => b.registerStep x.1 x.2) xs (make n 0) = .ok b ∧
      b.values binCounts hist = .ok (List.replicate n none) := by
  obtain ⟨b, e, -, -, -, h4⟩ := (Holds.empty (K := K) 0 n).steps xs hx
  refine ⟨b, e, ?_⟩
  have hb : b.blocks = List.replicate n [] := by
    rw [h4]
    apply List.ext_getElem <;> simp [fullBlocks]
  unfold values
  rw [hb, List.length_replicate, mapMM_eq_map (g := fun _ => none)]
  · congr 1
    apply List.ext_getElem <;> simp
  · intro i hi
    have hi' := List.mem_range.1 hi
    rw [rd_of_lt (h1 ▸ hi'), rd_of_lt (h2 ▸ hi'), rd_of_lt (by simpa using hi')]
    simp

omit [LinearOrder K] [FloorRing K] in
theorem variance_eq (B : Nat) (run : Coord K) (blocks : List (Coord K)) :
    variance B run blocks =
      ⟨(blocks.map fun b => (b.x / B - run.x) ^ 2).sum / blocks.length / ((blocks.length : K) - 1),
       (blocks.map fun b => (b.y / B - run.y) ^ 2).sum / blocks.length / ((blocks.length : K) - 1),
       (blocks.map fun b => (b.z / B - run.z) ^ 2).sum / blocks.length / ((blocks.length : K) - 1)⟩ := by
  have key : ∀ (l : List (Coord K)) (s : Coord K), l.foldl (fun s x =>
      s + (over x (B : K) - run).outerProdDiag (over x (B : K) - run)) s =
      ⟨s.x + (l.map fun b => (b.x / B - run.x) ^ 2).sum, s.y + (l.map fun b => (b.y / B - run.y) ^ 2).sum,
       s.z + (l.map fun b => (b.z / B - run.z) ^ 2).sum⟩ := by
    intro l
    induction l with
    | nil => intro s; simp
    | cons x l ih =>
      intro s
      rw [List.foldl_cons, ih]
      simp only [List.map_cons, List.sum_cons]
      have h1 : ∀ a b : Coord K, a + b = ⟨a.x + b.x, a.y + b.y, a.z + b.z⟩ := fun _ _ => rfl
      have h2 : ∀ a b : Coord K, a - b = ⟨a.x - b.x, a.y - b.y, a.z - b.z⟩ := fun _ _ => rfl
      simp only [h1, h2, Coord.outerProdDiag, over]
      ext <;> simp <;> ring
  unfold variance
  simp only [key]
  have h0 : ((0 : Coord K).x, (0 : Coord K).y, (0 : Coord K).z) = (0, 0, 0) := rfl
  simp only [Prod.mk.injEq] at h0
  simp only [h0.1, h0.2.1, h0.2.2, zero_add, over]

omit [LinearOrder K] [FloorRing K] in
/-- C48. With two blocks or more of a bin, the squares of its estimated standard deviations are the squared
deviations of the means of its blocks from the mean of the run, over m(m-1) for m blocks; with fewer there are none. -/
theorem C48_values (n B : Nat) (xs : List (Nat × Coord K)) (hx : ∀ x ∈ xs, x.1 < n) (binCounts : List Nat)
    (hist : List (Coord K)) (h1 : binCounts = (List.range n).map fun i => (ofBin i xs).length)
    (h2 : hist = (List.range n).map fun i => total (ofBin i xs)) :
    ∃ b vs, loopM (fun b (x : Nat × Coord K) => b.registerStep x.1 x.2) xs (make n B) = .ok b ∧
      b.values binCounts hist = .ok vs ∧
      ∀ i, i < n →
        let m := (fullBlocks B (ofBin i xs)).length
        (m ≤ 1 → vs[i]? = some none) ∧
        (1 < m → ∃ v w, vs[i]? = some (some (v, w)) ∧
          v.x = ((fullBlocks B (ofBin i xs)).map fun l =>
            ((l.map (·.x)).sum / B - ((ofBin i xs).map (·.x)).sum / (ofBin i xs).length) ^ 2).sum / m / ((m : K) - 1) ∧
          v.y = ((fullBlocks B (ofBin i xs)).map fun l =>
            ((l.map (·.y)).sum / B - ((ofBin i xs).map (·.y)).sum / (ofBin i xs).length) ^ 2).sum / m / ((m : K) - 1) ∧
          v.z = ((fullBlocks B (ofBin i xs)).map fun l =>
            ((l.map (·.z)).sum / B - ((ofBin i xs).map (·.z)).sum / (ofBin i xs).length) ^ 2).sum / m / ((m : K) - 1) ∧
          w = ⟨v.x / (2 * m - 2), v.y / (2 * m - 2), v.z / (2 * m - 2)⟩) := by
  obtain ⟨b, e, h5, -, -, h4⟩ := (Holds.empty (K := K) B n).steps xs hx
  rw [List.nil_append] at h4
  let val : Nat → Option (Coord K × Coord K) := fun i =>
    if 1 < ((fullBlocks B (ofBin i xs)).map total).length then
      some (variance B (over (total (ofBin i xs)) ((if (ofBin i xs).length ≠ 0 then (ofBin i xs).length else 1 : Nat) : K))
          ((fullBlocks B (ofBin i xs)).map total),
        over (variance B (over (total (ofBin i xs)) ((if (ofBin i xs).length ≠ 0 then (ofBin i xs).length else 1 : Nat) : K))
          ((fullBlocks B (ofBin i xs)).map total)) (2 * (((fullBlocks B (ofBin i xs)).map total).length : K) - 2))
    else none
  refine ⟨b, (List.range n).map val, e, ?_, ?_⟩
  · unfold values
    rw [h4, h5, h1, h2, List.length_map, List.length_range]
    refine mapMM_eq_map fun i hi => ?_
    have hi' := List.mem_range.1 hi
    rw [rd_range hi', ok_bind, rd_range hi', ok_bind, rd_range hi', ok_bind]
    show _ = Except.ok (val i)
    simp only [val]
    split <;> rfl
  · intro i hi m
    have hget : ((List.range n).map val)[i]? = some (val i) := by simp [hi]
    constructor
    · intro hm
      rw [hget]
      simp only [val]
      rw [if_neg (by rw [List.length_map]; omega)]
    · intro hm
      have hne : (ofBin i xs).length ≠ 0 := by
        intro h0
        have : (fullBlocks B (ofBin i xs)).length = 0 := by unfold fullBlocks; rw [h0]; simp
        omega
      refine ⟨⟨((fullBlocks B (ofBin i xs)).map fun l =>
            ((l.map (·.x)).sum / B - ((ofBin i xs).map (·.x)).sum / (ofBin i xs).length) ^ 2).sum / m / ((m : K) - 1),
          ((fullBlocks B (ofBin i xs)).map fun l =>
            ((l.map (·.y)).sum / B - ((ofBin i xs).map (·.y)).sum / (ofBin i xs).length) ^ 2).sum / m / ((m : K) - 1),
          ((fullBlocks B (ofBin i xs)).map fun l =>
            ((l.map (·.z)).sum / B - ((ofBin i xs).map (·.z)).sum / (ofBin i xs).length) ^ 2).sum / m / ((m : K) - 1)⟩,
        _, ?_, rfl, rfl, rfl, rfl⟩
      rw [hget]
      simp only [val]
      rw [if_pos (by rw [List.length_map]; exact hm)]
      rw [variance_eq, if_pos hne]
      simp only [List.map_map, List.length_map, over, total, m]
      rfl

/-- Five values in two bins with blocks of two: one block and one value left over in the first bin, one block in the
second. -/
example : (loopM (fun b (x : Nat × Coord ℚ) => b.registerStep x.1 x.2)
    [(0, ⟨1, 0, 0⟩), (1, ⟨2, 0, 0⟩), (0, ⟨3, 0, 0⟩), (0, ⟨5, 1, 0⟩), (1, ⟨4, 0, 2⟩)] (make 2 2)) =
    .ok ⟨2, [1, 0], [⟨5, 1, 0⟩, 0], [[⟨4, 0, 0⟩], [⟨6, 0, 2⟩]]⟩ := by
  decide +kernel

/-- Four values in one bin with blocks of two: the means of the blocks are 2 and 4, the mean of the run is 3, and the square of the
estimated standard deviation is (1 + 1) / 2 / 1. The second bin has no value and no estimate. -/
example : ((loopM (fun b (x : Nat × Coord ℚ) => b.registerStep x.1 x.2)
      [(0, ⟨1, 0, 0⟩), (0, ⟨3, 0, 0⟩), (0, ⟨5, 0, 0⟩), (0, ⟨3, 0, 0⟩)] (make 2 2)).bind
      fun b => b.values [4, 0] [⟨12, 0, 0⟩, 0]) = .ok [some (⟨1, 0, 0⟩, ⟨1 / 2, 0, 0⟩), none] := by
  decide +kernel

end Blocker
end KMC
