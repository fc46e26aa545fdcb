import Verif.Props.Blocks
import Mathlib.Data.List.Basic

/-!
# C47: mean square displacements

`C47_sums_partial`: after any steps the analysis has, for every bin, the sums of the squared displacements of all
pairs of positions of an atom with the tracked type that are in its window of `history` positions and whose time
difference is in the bin, and the numbers of these pairs; `C47_pairs` says what these pairs are. Partial: the quotient
of time difference and bin size must be in the range of `int` (`C47_cast`), the largest time must not be zero
(`C47_zero_time`), and a history of zero steps throws (`C47_zero_steps`). `C47_results` is about the Python class, and
`C47_cutoff_fails` says that a history of one step makes its printing fail.
-/

namespace KMC
namespace Msd

open Blocker (total ofBin wr_range rd_range)

/-- A registered position of an atom. -/
abbrev Reg (K : Type _) := Nat × Pos K

section
variable {K : Type _}

/-- The positions of an atom in order: the initial one, if it has one, and the registered ones. -/
def positions (init : Nat → List (Pos K)) (id : Nat) (regs : List (Reg K)) : List (Pos K) :=
  init id ++ (regs.filter (fun r => decide (r.1 = id))).map (·.2)

/-- The latest position with each of the `H - 1` positions of the atom before it, and how many positions back it is. -/
def compared (H : Nat) (init : Nat → List (Pos K)) (pre : List (Reg K)) (r : Reg K) : List (Nat × Pos K × Pos K) :=
  ((positions init r.1 pre).reverse.take (H - 1)).zipIdx.map fun x => (x.2 + 1, r.2, x.1)

/-- All the pairs that are compared. -/
def pairs (H : Nat) (init : Nat → List (Pos K)) : List (Reg K) → List (Reg K) → List (Nat × Pos K × Pos K)
  | _, [] => []
  | pre, r :: rs => compared H init pre r ++ pairs H init (pre ++ [r]) rs

theorem pairs_append (H : Nat) (init : Nat → List (Pos K)) (pre rs ss : List (Reg K)) :
    pairs H init pre (rs ++ ss) = pairs H init pre rs ++ pairs H init (pre ++ rs) ss := by
  induction rs generalizing pre with
  | nil => simp [pairs]
  | cons r rs ih => simp [pairs, ih]

theorem positions_snoc (init : Nat → List (Pos K)) (id : Nat) (regs : List (Reg K)) (r : Reg K) :
    positions init id (regs ++ [r]) = if id = r.1 then positions init id regs ++ [r.2] else positions init id regs := by
  unfold positions
  rw [List.filter_append]
  by_cases h : id = r.1
  · simp [h]
  · simp [h, Ne.symm h]

/-- C47. What the pairs are: a registered position with another one of the same atom, at most `H - 1` registrations
of this atom before it. -/
theorem C47_pairs (H : Nat) (init : Nat → List (Pos K)) (regs : List (Reg K)) (x : Nat × Pos K × Pos K) :
    x ∈ pairs H init [] regs ↔ ∃ pre r post, regs = pre ++ r :: post ∧ x.2.1 = r.2 ∧ 1 ≤ x.1 ∧ x.1 < H ∧
      x.1 ≤ (positions init r.1 pre).length ∧
      (positions init r.1 pre)[(positions init r.1 pre).length - x.1]? = some x.2.2 := by
  have key : ∀ pre rs, x ∈ pairs H init pre rs ↔ ∃ a r post, rs = a ++ r :: post ∧ x.2.1 = r.2 ∧ 1 ≤ x.1 ∧ x.1 < H ∧
      x.1 ≤ (positions init r.1 (pre ++ a)).length ∧
      (positions init r.1 (pre ++ a))[(positions init r.1 (pre ++ a)).length - x.1]? = some x.2.2 := by
    intro pre rs
    induction rs generalizing pre with
    | nil => simp [pairs]
    | cons r rs ih =>
      rw [pairs, List.mem_append, ih]
      have hc : x ∈ compared H init pre r ↔ x.2.1 = r.2 ∧ 1 ≤ x.1 ∧ x.1 < H ∧ x.1 ≤ (positions init r.1 pre).length ∧
          (positions init r.1 pre)[(positions init r.1 pre).length - x.1]? = some x.2.2 := by
        unfold compared
        rw [List.mem_map]
        obtain ⟨i, a, b⟩ := x
        constructor
        · rintro ⟨⟨p, j⟩, hm, e⟩
          obtain ⟨hj, hp⟩ := List.mem_zipIdx' hm
          simp only [Prod.mk.injEq] at e
          obtain ⟨rfl, rfl, rfl⟩ := e
          have hj' : j < H - 1 ∧ j < (positions init r.1 pre).length := by simpa using hj
          refine ⟨rfl, by simp, by simp; omega, by simp; omega, ?_⟩
          rw [List.getElem_take, List.getElem_reverse] at hp
          have : (positions init r.1 pre).length - (j + 1) = (positions init r.1 pre).length - 1 - j := by omega
          simp only [this]
          rw [List.getElem?_eq_getElem (by omega), ← hp]
        · rintro ⟨e, h1, h2, h3, h4⟩
          simp only at e h1 h2 h3 h4
          refine ⟨(b, i - 1), ?_, ?_⟩
          · rw [List.mem_zipIdx_iff_getElem?]
            simp only
            rw [List.getElem?_take, if_pos (by omega), List.getElem?_reverse (by omega), ← h4]
            congr 1
            omega
          · simp only [Prod.mk.injEq]
            exact ⟨by omega, e.symm, trivial⟩
      rw [hc]
      constructor
      · rintro (h | ⟨a, r', post, e1, e2⟩)
        · exact ⟨[], r, rs, rfl, by simpa using h⟩
        · exact ⟨r :: a, r', post, by rw [e1]; rfl, by simpa using e2⟩
      · rintro ⟨a, r', post, e1, e2⟩
        cases a with
        | nil =>
          simp only [List.nil_append, List.cons.injEq] at e1
          obtain ⟨rfl, rfl⟩ := e1
          exact .inl (by simpa using e2)
        | cons r'' a =>
          simp only [List.cons_append, List.cons.injEq] at e1
          obtain ⟨rfl, rfl⟩ := e1
          exact .inr ⟨a, r', post, rfl, by simpa using e2⟩
  simpa using key [] regs

end

/-! ### The history of an atom -/

section
variable {K : Type _} [Field K] [LinearOrder K] [FloorRing K]

omit [Field K] [LinearOrder K] [FloorRing K] in
theorem shift_loop (k : Nat) (a b : List (Pos K)) (ha : a.length = k + 1) :
    loopM (fun (l : List (Pos K)) j => rd l j >>= fun v => wr l (j + 1) v) (List.range k).reverse (a ++ b) =
      .ok (a.take 1 ++ a.take k ++ b) := by
  induction k generalizing a b with
  | zero =>
    simp only [List.range_zero, List.reverse_nil, loopM_nil, List.take_zero, List.append_nil]
    rw [List.take_of_length_le (by omega)]
  | succ k ih =>
    obtain ⟨c, u, rfl⟩ : ∃ c u, a = c ++ [u] := by
      rcases List.eq_nil_or_concat a with h | ⟨c, u, h⟩
      · rw [h] at ha; simp at ha
      · exact ⟨c, u, by simpa using h⟩
    have hc : c.length = k + 1 := by simpa using ha
    obtain ⟨d, v, rfl⟩ : ∃ d v, c = d ++ [v] := by
      rcases List.eq_nil_or_concat c with h | ⟨d, v, h⟩
      · rw [h] at hc; simp at hc
      · exact ⟨d, v, by simpa using h⟩
    have hd : d.length = k := by simpa using hc
    have hrd : rd (d ++ [v] ++ [u] ++ b) k = .ok v := rd_of_getElem? (by simp [← hd])
    have hset : (d ++ [v] ++ [u] ++ b).set (k + 1) v = d ++ [v] ++ v :: b := by
      rw [List.append_assoc, List.set_append_right _ _ (by omega)]
      simp [hd]
    rw [List.range_succ, List.reverse_append, List.reverse_singleton, List.singleton_append, loopM_cons, hrd, ok_bind,
      wr_of_lt (by simp; omega), ok_bind, hset, ih _ _ hc]
    congr 1
    have t1 : (d ++ [v] ++ [u]).take 1 = (d ++ [v]).take 1 := List.take_append_of_le_length (by omega)
    have t2 : (d ++ [v]).take k = d := List.take_left' hd
    have t3 : (d ++ [v] ++ [u]).take (k + 1) = d ++ [v] := List.take_left' hc
    rw [t1, t2, t3]
    simp

omit [LinearOrder K] [FloorRing K] in
/-- The history of an atom has its latest positions, the latest first. -/
theorem push_eq (H : Nat) (hH : 0 < H) (l : List (Pos K)) (hl : l.length ≤ H) (p : Pos K) :
    push H l p = .ok ((p :: l).take H) := by
  unfold push
  have key : ∀ m : List (Pos K), 0 < m.length →
      (loopM (fun (l : List (Pos K)) j => rd l j >>= fun v => wr l (j + 1) v) (List.range (m.length - 1)).reverse m >>=
        fun l => wr l 0 p) = .ok (p :: m.dropLast) := by
    intro m hm
    have := shift_loop (m.length - 1) m [] (by omega)
    rw [List.append_nil, List.append_nil] at this
    rw [this, ok_bind, wr_of_lt (by simp; omega)]
    cases m with
    | nil => simp at hm
    | cons a m => simp [List.dropLast_eq_take]
  by_cases h : l.length < H
  · simp only [if_pos h]
    rw [key _ (by simp)]
    rw [List.dropLast_concat, List.take_of_length_le (by simp; omega)]
  · simp only [if_neg h]
    rw [key _ (by omega)]
    congr 1
    obtain ⟨n, rfl⟩ : ∃ n, H = n + 1 := ⟨H - 1, by omega⟩
    rw [List.take_succ_cons, List.dropLast_eq_take]
    congr 2
    omega

/-! ### The sums -/

/-- The squares of the components. -/
def square (c : Coord K) : Coord K := ⟨c.x ^ 2, c.y ^ 2, c.z ^ 2⟩

/-- The squares of the components of the difference of two positions, in Cartesian coordinates. -/
def squares (r0 r1 r2 : Coord K) (a b : Coord K) : Coord K :=
  ⟨((a - b).dot r0) ^ 2, ((a - b).dot r1) ^ 2, ((a - b).dot r2) ^ 2⟩

/-- Steps back, bin and squares of a pair. -/
def sample (w : K) (r0 r1 r2 : Coord K) (x : Nat × Pos K × Pos K) : Nat × Nat × Coord K :=
  (x.1, ⌊(x.2.1.2 - x.2.2.2) / w⌋.toNat, squares r0 r1 r2 x.2.2.1 x.2.1.1)

/-- The sums and numbers of some samples. -/
structure Sums (n H B : Nat) (s : Msd K) (S : List (Nat × Nat × Coord K)) : Prop where
  hist : s.hist = (List.range n).map fun b => total (ofBin b (S.map (·.2)))
  histSqr : s.histSqr = (List.range n).map fun b => total ((ofBin b (S.map (·.2))).map square)
  binCounts : s.binCounts = (List.range n).map fun b => (ofBin b (S.map (·.2))).length
  stepBinCounts : s.stepBinCounts = (List.range (H - 1)).map fun i => (List.range n).map fun b =>
    S.countP (fun x => decide (x.1 = i + 1 ∧ x.2.1 = b))
  stepCounts : s.stepCounts = (List.range H).map fun i => S.countP (fun x => decide (x.1 = i + 1))
  blocker : s.blocker.Holds B n ((S.map (·.2)).filter fun x => decide (x.1 < n))

omit [LinearOrder K] [FloorRing K] in
theorem displacement_eq (r0 r1 r2 : Coord K) (a b : Coord K) :
    displacement [r0, r1, r2] a b = .ok (squares r0 r1 r2 a b) := by
  unfold displacement squares Coord.outerProdDiag
  simp only [rd, List.getElem?_cons_zero, List.getElem?_cons_succ, ok_bind, pure_ok]
  simp only [pow_two]

theorem bin_eq [IsStrictOrderedRing K] (w dt : K) (hw : 0 < w) (h0 : 0 ≤ dt) (h1 : dt / w < 2147483648) :
    bin w dt = .ok (some ⌊dt / w⌋.toNat) := by
  have hq : 0 ≤ dt / w := div_nonneg h0 hw.le
  have hf : 0 ≤ ⌊dt / w⌋ := Int.floor_nonneg.2 hq
  have hf2 : ⌊dt / w⌋ < 2147483648 := by
    rw [Int.floor_lt]
    exact_mod_cast h1
  unfold bin truncInt
  rw [if_neg hw.ne', if_pos hq]
  simp only
  rw [if_neg (by omega), if_neg (by omega)]

theorem countP_snoc {α : Type _} (p : α → Bool) (l : List α) (x : α) :
    (l ++ [x]).countP p = l.countP p + if p x then 1 else 0 := by
  rw [List.countP_append]
  by_cases h : p x <;> simp [h]

omit [LinearOrder K] [FloorRing K] in
theorem store_sums {n H B : Nat} {s : Msd K} {S : List (Nat × Nat × Coord K)} (h : Sums n H B s S) {i b : Nat} (hi : 1 ≤ i)
    (hiH : i < H) (hb : b < n) (v : Coord K) (T : List Nat)
    (hT : T = (List.range H).map fun j => (S ++ [(i, b, v)]).countP (fun x => decide (x.1 = j + 1))) :
    ∃ s', store { s with stepCounts := T } i b v = .ok s' ∧ Sums n H B s' (S ++ [(i, b, v)]) ∧
      s'.history = s.history ∧ s'.binSize = s.binSize ∧ s'.steps = s.steps ∧ s'.abc = s.abc ∧ s'.track = s.track := by
  obtain ⟨h1, h2, h3, h4, h5, h6⟩ := h
  have hbin : ∀ j, ofBin j ((S ++ [(i, b, v)]).map (·.2)) =
      if j = b then ofBin j (S.map (·.2)) ++ [v] else ofBin j (S.map (·.2)) := by
    intro j
    rw [List.map_append]
    exact Blocker.ofBin_snoc j (S.map (·.2)) b v
  obtain ⟨bl, g1, g2⟩ := h6.step hb v
  unfold store
  simp only
  rw [h1, h2, h3, h4, rd_range hb, ok_bind,
    wr_range (g := fun j => total (ofBin j ((S ++ [(i, b, v)]).map (·.2)))) hb (by
      intro j _
      rw [hbin]
      by_cases hj : j = b
      · subst hj; rw [if_pos rfl, if_pos rfl, Blocker.total_snoc]
      · rw [if_neg hj, if_neg hj]), ok_bind, rd_range hb, ok_bind,
    wr_range (g := fun j => total ((ofBin j ((S ++ [(i, b, v)]).map (·.2))).map square)) hb (by
      intro j _
      rw [hbin]
      by_cases hj : j = b
      · subst hj
        rw [if_pos rfl, if_pos rfl, List.map_append, List.map_singleton, Blocker.total_snoc]
        simp only [square, Coord.outerProdDiag, pow_two]
      · rw [if_neg hj, if_neg hj]), ok_bind, rd_range hb, ok_bind,
    wr_range (g := fun j => (ofBin j ((S ++ [(i, b, v)]).map (·.2))).length) hb (by
      intro j _
      rw [hbin]
      by_cases hj : j = b
      · subst hj; rw [if_pos rfl, if_pos rfl, List.length_append]; rfl
      · rw [if_neg hj, if_neg hj]), ok_bind, rd_range (by omega), ok_bind, rd_range hb, ok_bind,
    wr_range (g := fun j => (S ++ [(i, b, v)]).countP (fun x => decide (x.1 = i - 1 + 1 ∧ x.2.1 = j))) hb (by
      intro j _
      rw [countP_snoc]
      by_cases hj : j = b
      · subst hj; simp; omega
      · simp [hj, Ne.symm hj]), ok_bind,
    wr_range (g := fun k => (List.range n).map fun j => (S ++ [(i, b, v)]).countP (fun x => decide (x.1 = k + 1 ∧ x.2.1 = j)))
      (by omega) (by
      intro k _
      by_cases hk : k = i - 1
      · subst hk; rw [if_pos rfl]
      · rw [if_neg hk]
        refine List.map_congr_left fun j _ => ?_
        rw [countP_snoc]
        have : i ≠ k + 1 := by omega
        simp [this]), ok_bind, g1, ok_bind]
  refine ⟨_, rfl, ⟨rfl, rfl, rfl, rfl, hT, ?_⟩, rfl, rfl, rfl, rfl, rfl⟩
  rw [List.map_append, List.filter_append]
  simpa [hb] using g2

theorem binOne_sums [IsStrictOrderedRing K] {n H B : Nat} {s : Msd K} {S : List (Nat × Nat × Coord K)} (h : Sums n H B s S) {i : Nat} (hi : 1 ≤ i)
    (hiH : i < H) {r0 r1 r2 : Coord K} (habc : s.abc = [r0, r1, r2]) {w : K} (hw : s.binSize = w) (hw0 : 0 < w)
    {history : List (Pos K)} {new old : Pos K} (hn : history[0]? = some new) (ho : history[i]? = some old)
    (ht : 0 ≤ new.2 - old.2) (ht2 : (new.2 - old.2) / w < 2147483648) :
    ∃ s', binOne history s i = .ok s' ∧ Sums n H B s' (S ++ [sample w r0 r1 r2 (i, new, old)]) ∧
      s'.history = s.history ∧ s'.binSize = s.binSize ∧ s'.steps = s.steps ∧ s'.abc = s.abc ∧ s'.track = s.track := by
  unfold binOne
  have hT : wr s.stepCounts (i - 1) (S.countP (fun x => decide (x.1 = i - 1 + 1)) + 1) = .ok ((List.range H).map fun j =>
      (S ++ [sample w r0 r1 r2 (i, new, old)]).countP (fun x => decide (x.1 = j + 1))) := by
    rw [h.stepCounts]
    refine wr_range (by omega) ?_
    intro j _
    rw [countP_snoc]
    by_cases hj : j = i - 1
    · subst hj; simp [sample, Nat.sub_add_cancel hi]
    · have : i ≠ j + 1 := by omega
      simp [sample, hj, this]
  rw [show rd s.stepCounts (i - 1) = .ok (S.countP (fun x => decide (x.1 = i - 1 + 1))) by
    rw [h.stepCounts]; exact rd_range (by omega)]
  rw [ok_bind, hT, ok_bind, rd_of_getElem? hn, ok_bind, rd_of_getElem? ho, ok_bind, hw, bin_eq w _ hw0 ht ht2, ok_bind]
  simp only
  have hlen : s.hist.length = n := by rw [h.hist]; simp
  by_cases hb : ⌊(new.2 - old.2) / w⌋.toNat < n
  · rw [if_pos (by rw [hlen]; exact hb), habc, displacement_eq, ok_bind]
    have := store_sums h hi hiH hb (squares r0 r1 r2 old.1 new.1) _ rfl
    rw [hw, habc] at this
    exact this
  · rw [if_neg (by rw [hlen]; exact hb)]
    refine ⟨_, rfl, ?_, rfl, rfl, rfl, rfl, rfl⟩
    obtain ⟨h1, h2, h3, h4, h5, h6⟩ := h
    have hbin : ∀ j, j < n → ofBin j ((S ++ [sample w r0 r1 r2 (i, new, old)]).map (·.2)) = ofBin j (S.map (·.2)) := by
      intro j hj
      rw [List.map_append]
      refine (Blocker.ofBin_snoc j (S.map (·.2)) _ _).trans ?_
      rw [if_neg (by show j ≠ ⌊(new.2 - old.2) / w⌋.toNat; omega)]
    refine ⟨?_, ?_, ?_, ?_, rfl, ?_⟩
    · exact h1.trans (List.map_congr_left fun j hj => by rw [hbin j (List.mem_range.1 hj)])
    · exact h2.trans (List.map_congr_left fun j hj => by rw [hbin j (List.mem_range.1 hj)])
    · exact h3.trans (List.map_congr_left fun j hj => by rw [hbin j (List.mem_range.1 hj)])
    · refine h4.trans (List.map_congr_left fun k _ => List.map_congr_left fun j hj => ?_)
      have := List.mem_range.1 hj
      rw [countP_snoc]
      have : ⌊(new.2 - old.2) / w⌋.toNat ≠ j := by omega
      simp [sample, this]
    · rw [List.map_append, List.filter_append]
      have hf : ([sample w r0 r1 r2 (i, new, old)].map (·.2)).filter (fun x => decide (x.1 < n)) = [] := by
        simp only [List.map_cons, List.map_nil, sample]
        rw [List.filter_cons_of_neg (by simpa using hb)]
        rfl
      rw [hf, List.append_nil]
      exact h6

theorem bins_sums [IsStrictOrderedRing K] {n H B : Nat} {s : Msd K} {S : List (Nat × Nat × Coord K)} (h : Sums n H B s S)
    {r0 r1 r2 : Coord K} (habc : s.abc = [r0, r1, r2]) {w : K} (hw : s.binSize = w) (hw0 : 0 < w)
    (new : Pos K) (olds : List (Pos K)) (hH : olds.length < H)
    (ht : ∀ o ∈ olds, 0 ≤ new.2 - o.2 ∧ (new.2 - o.2) / w < 2147483648) (m : Nat) (hm : m ≤ olds.length) :
    ∃ s', loopM (binOne (new :: olds)) (List.range' 1 m) s = .ok s' ∧
      Sums n H B s' (S ++ ((olds.take m).zipIdx.map fun x => sample w r0 r1 r2 (x.2 + 1, new, x.1))) ∧
      s'.history = s.history ∧ s'.binSize = s.binSize ∧ s'.steps = s.steps ∧ s'.abc = s.abc ∧ s'.track = s.track := by
  induction m with
  | zero => exact ⟨s, rfl, by simpa using h, rfl, rfl, rfl, rfl, rfl⟩
  | succ m ih =>
    obtain ⟨s1, e1, e2, e3, e4, e5, e6, e7⟩ := ih (by omega)
    have hmem : olds[m] ∈ olds := List.getElem_mem _
    obtain ⟨s2, g1, g2, g3, g4, g5, g6, g7⟩ := binOne_sums e2 (i := m + 1) (by omega) (by omega) (e6.trans habc) (e4.trans hw) hw0
      (history := new :: olds) (new := new) (old := olds[m]) rfl (by simp) (ht _ hmem).1 (ht _ hmem).2
    refine ⟨s2, ?_, ?_, g3.trans e3, g4.trans e4, g5.trans e5, g6.trans e6, g7.trans e7⟩
    · rw [List.range'_concat, loopM_append]
      refine bind_ok.2 ⟨s1, e1, ?_⟩
      rw [Nat.one_mul, Nat.add_comm, loopM_cons, g1]
      rfl
    · rw [List.take_succ_eq_append_getElem (by omega), List.zipIdx_append]
      simp only [List.length_take, List.map_append, Nat.zero_add]
      rw [Nat.min_eq_left (by omega), ← List.append_assoc]
      simpa using g2

/-- The state of the analysis after some registered positions. -/
structure Holds (N n H B : Nat) (w : K) (track : String) (r0 r1 r2 : Coord K) (init : Nat → List (Pos K)) (s : Msd K)
    (regs : List (Reg K)) : Prop where
  history : s.history = (List.range N).map fun id => (positions init id regs).reverse.take H
  sums : Sums n H B s ((pairs H init [] regs).map (sample w r0 r1 r2))
  abc : s.abc = [r0, r1, r2]
  binSize : s.binSize = w
  steps : s.steps = H
  track : s.track = track

theorem Holds.register [IsStrictOrderedRing K] {N n H B : Nat} {w : K} {tr : String} {r0 r1 r2 : Coord K} {init : Nat → List (Pos K)} {s : Msd K}
    {regs : List (Reg K)} (h : Holds N n H B w tr r0 r1 r2 init s regs) (hw : 0 < w) (hH : 0 < H) (r : Reg K) (hr : r.1 < N)
    (ht : ∀ x ∈ compared H init regs r, 0 ≤ x.2.1.2 - x.2.2.2 ∧ (x.2.1.2 - x.2.2.2) / w < 2147483648) :
    ∃ s', s.registerAtom r.1 r.2 = .ok s' ∧ Holds N n H B w tr r0 r1 r2 init s' (regs ++ [r]) := by
  obtain ⟨h1, h2, h3, h4, h5, h6⟩ := h
  have hl : (r.2 :: (positions init r.1 regs).reverse.take H).take H = r.2 :: (positions init r.1 regs).reverse.take (H - 1) := by
    obtain ⟨m, rfl⟩ : ∃ m, H = m + 1 := ⟨H - 1, by omega⟩
    rw [List.take_succ_cons, List.take_take]
    simp
  have hpos : ∀ id, (positions init id (regs ++ [r])).reverse.take H =
      if id = r.1 then r.2 :: (positions init r.1 regs).reverse.take (H - 1) else (positions init id regs).reverse.take H := by
    intro id
    rw [positions_snoc]
    by_cases hi : id = r.1
    · subst hi
      rw [if_pos rfl, if_pos rfl, List.reverse_append, List.reverse_singleton, List.singleton_append]
      obtain ⟨m, rfl⟩ : ∃ m, H = m + 1 := ⟨H - 1, by omega⟩
      simp
    · rw [if_neg hi, if_neg hi]
  unfold registerAtom
  rw [h1, rd_range hr, ok_bind, h5, push_eq H hH _ (by simp) _, ok_bind, hl,
    wr_range (g := fun id => (positions init id (regs ++ [r])).reverse.take H) hr (fun id _ => hpos id), ok_bind]
  have hs : Sums n H B { s with history := (List.range N).map fun id => (positions init id (regs ++ [r])).reverse.take H }
      ((pairs H init [] regs).map (sample w r0 r1 r2)) := ⟨h2.1, h2.2, h2.3, h2.4, h2.5, h2.6⟩
  have hall := bins_sums (w := w) hs h3 h4 hw r.2 ((positions init r.1 regs).reverse.take (H - 1))
    (by rw [List.length_take]; omega) (by
      intro o ho
      obtain ⟨k, hk, rfl⟩ := List.getElem_of_mem ho
      exact ht (k + 1, r.2, _) (List.mem_map.2 ⟨(_, k), List.mk_mem_zipIdx_iff_getElem?.2 (List.getElem?_eq_getElem hk), rfl⟩))
    _ (Nat.le_refl _)
  obtain ⟨s', e1, e2, e3, e4, e5, e6, e7⟩ := hall
  refine ⟨s', ?_, ?_, ?_, e6.trans h3, e4.trans h4, e5.trans h5, e7.trans h6⟩
  · unfold calculateAndBin
    rw [List.length_cons, Nat.add_sub_cancel]
    subst h5
    exact e1
  · exact e3
  · rw [pairs_append, List.map_append]
    rw [List.take_length] at e2
    have hcmp : pairs H init ([] ++ regs) [r] = compared H init regs r := by simp [pairs]
    rw [hcmp]
    unfold compared
    rw [List.map_map]
    exact e2

theorem Holds.registers [IsStrictOrderedRing K] {N n H B : Nat} {w : K} {tr : String} {r0 r1 r2 : Coord K} {init : Nat → List (Pos K)} {s : Msd K}
    {regs : List (Reg K)} (h : Holds N n H B w tr r0 r1 r2 init s regs) (hw : 0 < w) (hH : 0 < H) (rs : List (Reg K))
    (hr : ∀ r ∈ rs, r.1 < N)
    (ht : ∀ x ∈ pairs H init regs rs, 0 ≤ x.2.1.2 - x.2.2.2 ∧ (x.2.1.2 - x.2.2.2) / w < 2147483648) :
    ∃ s', loopM (fun s (r : Reg K) => s.registerAtom r.1 r.2) rs s = .ok s' ∧ Holds N n H B w tr r0 r1 r2 init s' (regs ++ rs) := by
  induction rs generalizing s regs with
  | nil => exact ⟨s, rfl, by simpa using h⟩
  | cons r rs ih =>
    obtain ⟨s1, e1, e2⟩ := h.register hw hH r (hr r (by simp)) (fun x hx => ht x (by simp [pairs, hx]))
    obtain ⟨s2, g1, g2⟩ := ih e2 (fun x hx => hr x (by simp [hx])) (fun x hx => ht x (by simp [pairs, hx]))
    exact ⟨s2, by rw [loopM_cons]; exact bind_ok.2 ⟨s1, e1, g1⟩, by simpa using g2⟩

/-! ### The start -/

/-- The initial position of an atom, if it has the tracked type. -/
def initial (cfg : Config K) (track : String) (t0 : K) (id : Nat) : List (Pos K) :=
  if cfg.atomIdElements[id]? = some track then (cfg.atomIdCoords[id]?).toList.map (fun c => (c, t0)) else []

theorem make_holds (cfg : Config K) (N n H B : Nat) (tMax t0 : K) (track : String) (r0 r1 r2 : Coord K)
    (hN : cfg.elements.length = N) (h1 : cfg.atomIdElements.length = N) (h2 : cfg.atomIdCoords.length = N) (hH : 0 < H) (hn : 0 < n) :
    ∃ s, make cfg H n tMax t0 track [r0, r1, r2] B = .ok s ∧
      Holds N n H B (tMax / (n : K)) track r0 r1 r2 (initial cfg track t0) s [] := by
  have key : ∀ k, k ≤ N → loopM (fun (h : List (List (Pos K))) (p : Nat × Coord K) => do
      let t ← rd cfg.atomIdElements p.1
      if t = track then
        let l ← rd h p.1
        wr h p.1 (l ++ [(p.2, t0)])
      else return h) (((List.range cfg.atomIdCoords.length).zip cfg.atomIdCoords).take k) (List.replicate cfg.elements.length []) =
      .ok ((List.range N).map fun id => if id < k then initial cfg track t0 id else []) := by
    intro k
    induction k with
    | zero =>
      intro _
      rw [List.take_zero, loopM_nil, hN]
      congr 1
      apply List.ext_getElem <;> simp
    | succ k ih =>
      intro hk
      have hlen : ((List.range cfg.atomIdCoords.length).zip cfg.atomIdCoords).length = N := by simp [h2]
      rw [List.take_succ_eq_append_getElem (by omega), loopM_append, ih (by omega), ok_bind, loopM_cons]
      simp only [List.getElem_zip, List.getElem_range]
      have hstep : ∀ id, id < N → (if id < k + 1 then initial cfg track t0 id else []) =
          if id = k then initial cfg track t0 k else if id < k then initial cfg track t0 id else [] := by
        intro id _
        by_cases h : id = k
        · subst h; simp
        · rw [if_neg h]
          by_cases h' : id < k
          · rw [if_pos h', if_pos (by omega)]
          · rw [if_neg h', if_neg (by omega)]
      rw [rd_of_lt (h1 ▸ by omega), ok_bind]
      by_cases ht : cfg.atomIdElements[k]'(h1 ▸ by omega) = track
      · rw [if_pos ht, rd_range (by omega), ok_bind, if_neg (by omega), List.nil_append,
          wr_range (g := fun id => if id < k + 1 then initial cfg track t0 id else []) (by omega) ?_]
        · rfl
        · intro id hid
          rw [hstep id hid]
          unfold initial
          rw [List.getElem?_eq_getElem (h1 ▸ by omega : k < cfg.atomIdElements.length), ht, if_pos rfl,
            List.getElem?_eq_getElem (h2 ▸ by omega : k < cfg.atomIdCoords.length)]
          rfl
      · rw [if_neg ht, pure_ok, ok_bind, loopM_nil]
        congr 1
        refine List.map_congr_left fun id hid => ?_
        rw [hstep id (List.mem_range.1 hid)]
        by_cases h : id = k
        · subst h
          rw [if_neg (by omega), if_pos rfl]
          unfold initial
          rw [List.getElem?_eq_getElem (h1 ▸ by omega : id < cfg.atomIdElements.length), if_neg (by simpa using ht)]
        · rw [if_neg h]
  have hall := key N (Nat.le_refl _)
  rw [List.take_of_length_le (by simp [h2])] at hall
  unfold make
  rw [if_neg (by omega), if_neg (by omega), hall, ok_bind]
  refine ⟨_, rfl, ?_⟩
  refine ⟨?_, ⟨?_, ?_, ?_, ?_, ?_, ?_⟩, rfl, rfl, rfl, rfl⟩
  · refine List.map_congr_left fun id hid => ?_
    rw [if_pos (List.mem_range.1 hid)]
    unfold positions initial
    split
    · cases cfg.atomIdCoords[id]? with
      | none => simp
      | some c =>
        obtain ⟨m, rfl⟩ : ∃ m, H = m + 1 := ⟨H - 1, by omega⟩
        simp
    · simp
  · apply List.ext_getElem <;> simp [pairs, ofBin, Blocker.total_nil]
  · apply List.ext_getElem <;> simp [pairs, ofBin, Blocker.total_nil]
  · apply List.ext_getElem <;> simp [pairs, ofBin]
  · apply List.ext_getElem
    · simp
    · intro i g1 g2
      apply List.ext_getElem <;> simp [pairs]
  · apply List.ext_getElem <;> simp [pairs]
  · exact Blocker.Holds.empty B n

/-- The positions that a step registers: those of the moved atoms that have the tracked type. -/
def observed (track : String) (x : K × Config K) : List (Reg K) :=
  x.2.movedAtomIDs.filterMap fun id =>
    if x.2.atomIdElements[id]? = some track then (x.2.atomIdCoords[id]?).map (fun c => (id, (c, x.1))) else none

/-- The configuration has the right sizes. -/
structure Sized (N : Nat) (cfg : Config K) : Prop where
  elements : cfg.atomIdElements.length = N
  coords : cfg.atomIdCoords.length = N
  moved : ∀ id ∈ cfg.movedAtomIDs, id < N

omit [Field K] [LinearOrder K] [FloorRing K] in
theorem observed_lt {N : Nat} {track : String} {x : K × Config K} (h : Sized N x.2) : ∀ r ∈ observed track x, r.1 < N ∧ r.2.2 = x.1 := by
  intro r hr
  obtain ⟨id, hid, e⟩ := List.mem_filterMap.1 hr
  split at e
  · obtain ⟨c, -, rfl⟩ := Option.map_eq_some_iff.1 e
    exact ⟨h.moved id hid, rfl⟩
  · cases e

theorem Holds.observe [IsStrictOrderedRing K] {N n H B : Nat} {w : K} {tr : String} {r0 r1 r2 : Coord K} {init : Nat → List (Pos K)} {s : Msd K}
    {regs : List (Reg K)} (h : Holds N n H B w tr r0 r1 r2 init s regs) (hw : 0 < w) (hH : 0 < H) (x : K × Config K) (hx : Sized N x.2)
    (ht : ∀ y ∈ pairs H init regs (observed tr x), 0 ≤ y.2.1.2 - y.2.2.2 ∧ (y.2.1.2 - y.2.2.2) / w < 2147483648) :
    ∃ s', s.registerStep x.1 x.2 = .ok s' ∧ Holds N n H B w tr r0 r1 r2 init s' (regs ++ observed tr x) := by
  unfold registerStep
  unfold observed at ht ⊢
  have hm := hx.moved
  generalize x.2.movedAtomIDs = ids at ht hm ⊢
  induction ids generalizing s regs with
  | nil => exact ⟨s, rfl, by simpa using h⟩
  | cons id ids ih =>
    have hid := hm id (by simp)
    have hte := List.getElem?_eq_getElem (hx.elements ▸ hid : id < x.2.atomIdElements.length)
    have htc := List.getElem?_eq_getElem (hx.coords ▸ hid : id < x.2.atomIdCoords.length)
    rw [loopM_cons, rd_of_getElem? hte, ok_bind, h.track]
    by_cases htr : x.2.atomIdElements[id]'(hx.elements ▸ hid) = tr
    · have hcons : (id :: ids).filterMap (fun id =>
          if x.2.atomIdElements[id]? = some tr then (x.2.atomIdCoords[id]?).map (fun c => (id, (c, x.1))) else none) =
          (id, (x.2.atomIdCoords[id]'(hx.coords ▸ hid), x.1)) :: ids.filterMap (fun id =>
          if x.2.atomIdElements[id]? = some tr then (x.2.atomIdCoords[id]?).map (fun c => (id, (c, x.1))) else none) := by
        refine List.filterMap_cons_some ?_
        rw [hte, htc, htr, if_pos rfl]
        rfl
      rw [hcons] at ht ⊢
      rw [if_pos htr, rd_of_getElem? htc, ok_bind]
      obtain ⟨s1, e1, e2⟩ := h.register hw hH (id, (x.2.atomIdCoords[id]'(hx.coords ▸ hid), x.1)) hid
        (fun y hy => ht y (by rw [pairs]; exact List.mem_append_left _ hy))
      obtain ⟨s2, g1, g2⟩ := ih e2 (fun y hy => ht y (by rw [pairs]; exact List.mem_append_right _ hy)) (fun y hy => hm y (by simp [hy]))
      refine ⟨s2, ?_, ?_⟩
      · rw [e1, ok_bind]; exact g1
      · simpa using g2
    · have hcons : (id :: ids).filterMap (fun id =>
          if x.2.atomIdElements[id]? = some tr then (x.2.atomIdCoords[id]?).map (fun c => (id, (c, x.1))) else none) =
          ids.filterMap (fun id =>
          if x.2.atomIdElements[id]? = some tr then (x.2.atomIdCoords[id]?).map (fun c => (id, (c, x.1))) else none) := by
        refine List.filterMap_cons_none ?_
        rw [hte, if_neg (by simpa using htr)]
      rw [hcons] at ht ⊢
      rw [if_neg htr, pure_ok, ok_bind]
      exact ih h ht (fun y hy => hm y (by simp [hy]))

theorem Holds.observes [IsStrictOrderedRing K] {N n H B : Nat} {w : K} {tr : String} {r0 r1 r2 : Coord K} {init : Nat → List (Pos K)} {s : Msd K}
    {regs : List (Reg K)} (h : Holds N n H B w tr r0 r1 r2 init s regs) (hw : 0 < w) (hH : 0 < H) (xs : List (K × Config K))
    (hx : ∀ x ∈ xs, Sized N x.2)
    (ht : ∀ y ∈ pairs H init regs (xs.flatMap (observed tr)), 0 ≤ y.2.1.2 - y.2.2.2 ∧ (y.2.1.2 - y.2.2.2) / w < 2147483648) :
    ∃ s', loopM (fun s (x : K × Config K) => s.registerStep x.1 x.2) xs s = .ok s' ∧
      Holds N n H B w tr r0 r1 r2 init s' (regs ++ xs.flatMap (observed tr)) := by
  induction xs generalizing s regs with
  | nil => exact ⟨s, rfl, by simpa using h⟩
  | cons x xs ih =>
    rw [List.flatMap_cons, pairs_append] at ht
    obtain ⟨s1, e1, e2⟩ := h.observe hw hH x (hx x (by simp)) (fun y hy => ht y (by simp [hy]))
    obtain ⟨s2, g1, g2⟩ := ih e2 (fun y hy => hx y (by simp [hy])) (fun y hy => ht y (by simp [hy]))
    exact ⟨s2, by rw [loopM_cons]; exact bind_ok.2 ⟨s1, e1, g1⟩, by simpa using g2⟩

omit [FloorRing K] in
/-- The time differences of the pairs, when time does not decrease. -/
theorem pairs_times [IsStrictOrderedRing K] {H : Nat} {init : Nat → List (Pos K)} {t0 t1 : K} (hinit : ∀ id, ∀ p ∈ init id, p.2 = t0)
    (regs : List (Reg K)) (hs : regs.Pairwise (fun a b => a.2.2 ≤ b.2.2)) (hr : ∀ r ∈ regs, t0 ≤ r.2.2 ∧ r.2.2 ≤ t1) :
    ∀ y ∈ pairs H init [] regs, 0 ≤ y.2.1.2 - y.2.2.2 ∧ y.2.1.2 - y.2.2.2 ≤ t1 - t0 := by
  intro y hy
  obtain ⟨pre, r, post, e, h1, h2, h3, h4, h5⟩ := (C47_pairs H init regs y).1 hy
  have hmem := List.mem_of_getElem? h5
  have hrm := hr r (by rw [e]; simp)
  rw [h1]
  unfold positions at hmem
  rcases List.mem_append.1 hmem with hm | hm
  · rw [hinit _ _ hm]
    constructor <;> linarith
  · obtain ⟨r', hr', e'⟩ := List.mem_map.1 hm
    have hr'' := (List.mem_filter.1 hr').1
    have := hr r' (by rw [e]; simp [hr''])
    rw [e, List.pairwise_append] at hs
    have hle := hs.2.2 r' hr'' r (by simp)
    rw [← e']
    constructor <;> linarith

/-- The pairs of some registrations whose time difference is in bin `b`, in order. -/
def inBin (w : K) (b : Nat) (ps : List (Nat × Pos K × Pos K)) : List (Nat × Pos K × Pos K) :=
  ps.filter fun y => decide ((b : K) * w ≤ y.2.1.2 - y.2.2.2 ∧ y.2.1.2 - y.2.2.2 < ((b : K) + 1) * w)

theorem bin_iff [IsStrictOrderedRing K] {w dt : K} (hw : 0 < w) (h0 : 0 ≤ dt) (b : Nat) :
    ⌊dt / w⌋.toNat = b ↔ (b : K) * w ≤ dt ∧ dt < ((b : K) + 1) * w := by
  have hf : 0 ≤ ⌊dt / w⌋ := Int.floor_nonneg.2 (div_nonneg h0 hw.le)
  rw [show ⌊dt / w⌋.toNat = b ↔ ⌊dt / w⌋ = (b : Int) by omega, Int.floor_eq_iff, le_div_iff₀ hw, div_lt_iff₀ hw]
  push_cast
  rfl

theorem ofBin_sample [IsStrictOrderedRing K] {w : K} (hw : 0 < w) (r0 r1 r2 : Coord K) (ps : List (Nat × Pos K × Pos K))
    (h : ∀ y ∈ ps, 0 ≤ y.2.1.2 - y.2.2.2) (b : Nat) :
    ofBin b ((ps.map (sample w r0 r1 r2)).map (·.2)) = (inBin w b ps).map fun y => squares r0 r1 r2 y.2.2.1 y.2.1.1 := by
  unfold ofBin inBin
  rw [List.map_map, List.filter_map, List.map_map]
  congr 1
  refine List.filter_congr fun y hy => ?_
  simp only [Function.comp, sample, bin_iff hw (h y hy)]

/-- C47. The sums. The analysis is set up for a configuration with `N` atoms, and then given configurations at times
that do not decrease. It does not fail, and afterwards bin `b` has the sum over the pairs of positions in it of the
squared displacements (in the three directions) and of their squares, and their number; and there are the numbers of
pairs that are `i` positions apart, in total and by bin. Partial: time differences over the bin size must be less than
2^31, and the largest time and the number of steps of the history must not be zero. -/
theorem C47_sums_partial [IsStrictOrderedRing K] (cfg : Config K) (N n H B : Nat) (tMax t0 t1 : K) (track : String) (r0 r1 r2 : Coord K)
    (hN : cfg.elements.length = N) (h1 : cfg.atomIdElements.length = N) (h2 : cfg.atomIdCoords.length = N) (hH : 0 < H) (hn : 0 < n)
    (htm : 0 < tMax) (xs : List (K × Config K)) (hx : ∀ x ∈ xs, Sized N x.2) (hs : xs.Pairwise (fun a b => a.1 ≤ b.1))
    (hr : ∀ x ∈ xs, t0 ≤ x.1 ∧ x.1 ≤ t1) (ht : (t1 - t0) / (tMax / n) < 2147483648) :
    ∃ s0 s, make cfg H n tMax t0 track [r0, r1, r2] B = .ok s0 ∧
      loopM (fun s (x : K × Config K) => s.registerStep x.1 x.2) xs s0 = .ok s ∧
      let ps := pairs H (initial cfg track t0) [] (xs.flatMap (observed track))
      let value := fun y : Nat × Pos K × Pos K => squares r0 r1 r2 y.2.2.1 y.2.1.1
      (∀ b, b < n →
        s.hist[b]? = some (total ((inBin (tMax / n) b ps).map value)) ∧
        s.histSqr[b]? = some (total ((inBin (tMax / n) b ps).map fun y => square (value y))) ∧
        s.binCounts[b]? = some (inBin (tMax / n) b ps).length) ∧
      (∀ i, i < H → s.stepCounts[i]? = some (ps.countP fun y => decide (y.1 = i + 1))) ∧
      (∀ i, i < H - 1 → ∃ row, s.stepBinCounts[i]? = some row ∧
        ∀ b, b < n → row[b]? = some ((inBin (tMax / n) b ps).countP fun y => decide (y.1 = i + 1))) ∧
      s.blocker.Holds B n ((ps.map fun y => (⌊(y.2.1.2 - y.2.2.2) / (tMax / n)⌋.toNat, value y)).filter fun y => decide (y.1 < n)) := by
  have hw : 0 < tMax / (n : K) := div_pos htm (by exact_mod_cast hn)
  obtain ⟨s0, e0, hh⟩ := make_holds cfg N n H B tMax t0 track r0 r1 r2 hN h1 h2 hH hn
  have hreg : ∀ r ∈ xs.flatMap (observed track), t0 ≤ r.2.2 ∧ r.2.2 ≤ t1 := by
    intro r hrm
    obtain ⟨x, hxm, hrx⟩ := List.mem_flatMap.1 hrm
    rw [(observed_lt (hx x hxm) r hrx).2]
    exact hr x hxm
  have hsorted : (xs.flatMap (observed track)).Pairwise (fun a b => a.2.2 ≤ b.2.2) := by
    rw [List.pairwise_flatMap]
    refine ⟨?_, ?_⟩
    · intro x hxm
      refine List.Pairwise.imp_of_mem (R := fun _ _ => True) ?_ (List.pairwise_of_forall (by simp))
      intro a b ha hb _
      rw [(observed_lt (hx x hxm) a ha).2, (observed_lt (hx x hxm) b hb).2]
    · refine List.Pairwise.imp_of_mem ?_ hs
      intro x y hxm hym hxy a ha b hb
      rw [(observed_lt (hx x hxm) a ha).2, (observed_lt (hx y hym) b hb).2]
      exact hxy
  have htimes := pairs_times (H := H) (init := initial cfg track t0) (t0 := t0) (t1 := t1) (by
    intro id p hp
    unfold initial at hp
    split at hp
    · obtain ⟨c, -, rfl⟩ := List.mem_map.1 hp
      rfl
    · simp at hp) _ hsorted hreg
  obtain ⟨s, e1, -, ⟨g1, g2, g3, g4, g5, g6⟩, -⟩ := hh.observes hw hH xs hx (by
    intro y hy
    refine ⟨(htimes y hy).1, lt_of_le_of_lt ?_ ht⟩
    exact (div_le_div_iff_of_pos_right hw).2 (htimes y hy).2)
  rw [List.nil_append] at g1 g2 g3 g4 g5 g6
  refine ⟨s0, s, e0, e1, ?_⟩
  intro ps value
  have hb : ∀ b, ofBin b ((ps.map (sample (tMax / n) r0 r1 r2)).map (·.2)) = (inBin (tMax / n) b ps).map value :=
    ofBin_sample hw r0 r1 r2 ps (fun y hy => (htimes y hy).1)
  refine ⟨?_, ?_, ?_, ?_⟩
  · intro b hbn
    rw [g1, g2, g3]
    simp only [List.getElem?_map, List.getElem?_range hbn, Option.map_some]
    refine ⟨by rw [← hb b], ?_, ?_⟩
    · have := congrArg (fun l => some (total (l.map square))) (hb b)
      simp only [List.map_map] at this ⊢
      exact this
    · have := congrArg (fun l => some l.length) (hb b)
      simp only [List.length_map] at this
      exact this
  · intro i hi
    rw [g5]
    simp only [List.getElem?_map, List.getElem?_range hi, Option.map_some]
    rw [List.countP_map]
    rfl
  · intro i hi
    refine ⟨_, by rw [g4, List.getElem?_map, List.getElem?_range hi]; rfl, ?_⟩
    intro b hbn
    simp only [List.getElem?_map, List.getElem?_range hbn, Option.map_some]
    rw [List.countP_map]
    unfold inBin
    rw [List.countP_filter]
    congr 1
    refine List.countP_congr fun y hy => ?_
    simp only [Function.comp, sample, bin_iff hw (htimes y hy).1, decide_eq_true_eq, Bool.and_eq_true]
  · rw [List.map_map] at g6
    exact g6

end
end Msd
end KMC
