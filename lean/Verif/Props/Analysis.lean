import Verif.Model.Analysis
import Verif.Lemmas.Monad
import Mathlib.Algebra.Order.Field.Rat
import Mathlib.Algebra.Order.Floor.Ring
import Mathlib.Data.List.Chain
import Mathlib.Data.Rat.Floor
import Mathlib.Tactic.Ring
import Mathlib.Tactic.Linarith
import Mathlib.Tactic.FieldSimp

/-!
# C46 and C49: the Python analyses

C46: `C46_exact_partial` gives every entry of the histogram of time steps. Partial: a bin size of zero is accepted and
fails at the first step (`C46_zero`).

C49: `C49_composition_partial` and `C49_statistics_partial` describe the blocks. Not all that is claimed holds: the last
block is not in the results (`C49_last_block`), the reported times are not those of the blocks (`C49_times`), and the
numbers per site are divided by the start of the last block and not by the length of the run (`C49_spatial`).
-/

namespace KMC
namespace Analysis

section
variable {K : Type _} [Field K] [LinearOrder K] [IsStrictOrderedRing K] [FloorRing K]

/-! ### C46 -/

/-- The lengths of the steps between the times `t0`, `ts`. -/
def gaps (t0 : K) : List K → List K
  | [] => []
  | t :: ts => (t - t0) :: gaps t ts

/-- The number of steps with length in `[b w, (b+1) w)`. -/
def inBin (w : K) (b : Nat) (l : List K) : Nat := l.countP (fun x => decide ((b : K) * w ≤ x ∧ x < ((b : K) + 1) * w))

theorem grow_ok (n : Nat) : ∀ (b : Int) (h : List Nat), 10 ≤ h.length → b < h.length + n →
    ∃ k, grow n b h = .ok (h ++ List.replicate k 0) ∧ b < (h.length + k : Nat) := by
  induction n with
  | zero =>
    intro b h _ hb
    refine ⟨0, ?_, by simpa using hb⟩
    unfold grow
    rw [if_neg (by push_cast at hb; omega)]
    simp
  | succ n ih =>
    intro b h hl hb
    unfold grow
    split
    · obtain ⟨k, h1, h2⟩ := ih b (h ++ List.replicate (h.length / 10) 0) (by simp; omega) (by
        rw [List.length_append, List.length_replicate]
        have : 1 ≤ h.length / 10 := (Nat.one_le_div_iff (by norm_num)).2 hl
        push_cast at hb ⊢
        omega)
      refine ⟨h.length / 10 + k, ?_, ?_⟩
      · rw [h1, List.append_assoc, List.replicate_append_replicate]
      · rw [List.length_append, List.length_replicate] at h2
        push_cast at h2 ⊢
        omega
    · refine ⟨0, by simp, by push_cast; omega⟩

theorem bump_ok (h : List Nat) (b : Nat) (hb : b < h.length) : bump h (b : Int) = .ok (h.modify b (· + 1)) := by
  unfold bump
  have h1 : (if (b : Int) < 0 then (b : Int) + h.length else (b : Int)) = b := if_neg (by omega)
  simp only [h1]
  rw [if_pos (by omega)]
  rfl

/-- The bin of a step. -/
theorem trunc_bin {w x : K} (hw : 0 < w) (hx : 0 ≤ x) : ∃ b : Nat, truncInt (x / w) = b ∧ (b : K) * w ≤ x ∧ x < ((b : K) + 1) * w := by
  have h0 : 0 ≤ x / w := div_nonneg hx hw.le
  refine ⟨⌊x / w⌋.toNat, ?_, ?_, ?_⟩
  · unfold truncInt
    rw [if_pos h0]
    have := Int.floor_nonneg.2 h0
    omega
  · have h1 := Int.floor_le (x / w)
    have h2 : ((⌊x / w⌋.toNat : Nat) : K) = (⌊x / w⌋ : K) := by
      have := Int.toNat_of_nonneg (Int.floor_nonneg.2 h0)
      exact_mod_cast congrArg (fun z : Int => (z : K)) this
    rw [h2]
    exact (le_div_iff₀ hw).1 h1
  · have h1 := Int.lt_floor_add_one (x / w)
    have h2 : ((⌊x / w⌋.toNat : Nat) : K) = (⌊x / w⌋ : K) := by
      have := Int.toNat_of_nonneg (Int.floor_nonneg.2 h0)
      exact_mod_cast congrArg (fun z : Int => (z : K)) this
    rw [h2]
    exact (div_lt_iff₀ hw).1 h1

theorem bin_unique {w x : K} (hw : 0 < w) {a b : Nat} (ha : (a : K) * w ≤ x ∧ x < ((a : K) + 1) * w)
    (hb : (b : K) * w ≤ x ∧ x < ((b : K) + 1) * w) : a = b := by
  have key : ∀ {a b : Nat}, (a : K) * w ≤ x → x < ((b : K) + 1) * w → a ≤ b := by
    intro a b h1 h2
    have : (a : K) < (b : K) + 1 := lt_of_mul_lt_mul_right (lt_of_le_of_lt h1 h2) hw.le
    have : a < b + 1 := by exact_mod_cast this
    omega
  exact le_antisymm (key ha.1 hb.2) (key hb.1 ha.2)

theorem getD_modify (h : List Nat) (i b : Nat) (hi : i < h.length) :
    (h.modify i (· + 1)).getD b 0 = h.getD b 0 + if i = b then 1 else 0 := by
  simp only [List.getD_eq_getElem?_getD, List.getElem?_modify]
  by_cases hib : i = b
  · subst hib
    simp [List.getElem?_eq_getElem hi]
  · simp [hib]

theorem getD_append_zeros (h : List Nat) (k b : Nat) : (h ++ List.replicate k 0).getD b 0 = h.getD b 0 := by
  simp only [List.getD_eq_getElem?_getD, List.getElem?_append, List.getElem?_replicate]
  by_cases hb : b < h.length
  · simp [hb]
  · simp only [hb, if_false]
    rw [List.getElem?_eq_none (by omega)]
    split <;> rfl

theorem sum_modify (h : List Nat) (i : Nat) (hi : i < h.length) : (h.modify i (· + 1)).sum = h.sum + 1 := by
  induction h generalizing i with
  | nil => simp at hi
  | cons a h ih =>
    cases i with
    | zero => simp [List.modify]; omega
    | succ i =>
      simp only [List.length_cons] at hi
      have := ih i (by omega)
      simp only [List.modify_succ_cons, List.sum_cons, this]
      omega

/-- One registered step. -/
theorem registerStep_ok (s : Steps K) (time last : K) (hs : s.lastTime = some last) (hw : 0 < s.binsize)
    (hl : 10 ≤ s.histogram.length) (ht : last ≤ time) :
    ∃ s', s.registerStep time = .ok s' ∧ s'.lastTime = some time ∧ s'.binsize = s.binsize ∧ 10 ≤ s'.histogram.length ∧
      s'.histogram.sum = s.histogram.sum + 1 ∧
      ∀ b, s'.histogram.getD b 0 = s.histogram.getD b 0 + inBin s.binsize b [time - last] := by
  obtain ⟨b, h1, h2⟩ := trunc_bin hw (sub_nonneg.2 ht)
  obtain ⟨k, g1, g2⟩ := grow_ok b (b : Int) s.histogram hl (by omega)
  have hb : b < (s.histogram ++ List.replicate k 0).length := by
    rw [List.length_append, List.length_replicate]; exact_mod_cast g2
  refine ⟨{ s with histogram := (s.histogram ++ List.replicate k 0).modify b (· + 1), lastTime := some time }, ?_, rfl, rfl, ?_, ?_, ?_⟩
  · unfold Steps.registerStep
    rw [hs]
    show (if s.binsize = 0 then _ else _) = _
    rw [if_neg hw.ne']
    simp only [h1, Int.toNat_natCast]
    refine bind_ok.2 ⟨_, g1, bind_ok.2 ⟨_, bump_ok _ b hb, rfl⟩⟩
  · simp; omega
  · rw [sum_modify _ _ hb]; simp
  · intro b'
    show ((s.histogram ++ List.replicate k 0).modify b (· + 1)).getD b' 0 = _
    rw [getD_modify _ _ _ hb, getD_append_zeros]
    congr 1
    unfold inBin
    by_cases hbb : b = b'
    · subst hbb
      simp [h2]
    · rw [if_neg hbb, List.countP_eq_zero.2]
      intro x hx
      rw [List.mem_singleton.1 hx, decide_eq_true_eq]
      exact fun h => hbb (bin_unique hw h2 h)

theorem registerSteps_ok (ts : List K) : ∀ (s : Steps K) (last : K), s.lastTime = some last → 0 < s.binsize →
    10 ≤ s.histogram.length → (last :: ts).IsChain (· ≤ ·) →
    ∃ s', loopM Steps.registerStep ts s = .ok s' ∧ s'.binsize = s.binsize ∧ 10 ≤ s'.histogram.length ∧
      s'.histogram.sum = s.histogram.sum + ts.length ∧
      ∀ b, s'.histogram.getD b 0 = s.histogram.getD b 0 + inBin s.binsize b (gaps last ts) := by
  induction ts with
  | nil => intro s last h1 h2 h3 h4; exact ⟨s, rfl, rfl, h3, rfl, fun b => rfl⟩
  | cons t ts ih =>
    intro s last h1 h2 h3 h4
    rw [List.isChain_cons_cons] at h4
    obtain ⟨s1, e1, e2, e3, e4, e5, e6⟩ := registerStep_ok s t last h1 h2 h3 h4.1
    obtain ⟨s2, g1, g2, g3, g4, g5⟩ := ih s1 t e2 (e3 ▸ h2) e4 h4.2
    refine ⟨s2, ?_, by rw [g2, e3], g3, ?_, ?_⟩
    · rw [loopM_cons]; exact bind_ok.2 ⟨s1, e1, g1⟩
    · rw [g4, e5, List.length_cons]; omega
    · intro b
      rw [g5, e6, e3, Nat.add_assoc]
      congr 1
      show _ = inBin s.binsize b ([t - last] ++ gaps t ts)
      unfold inBin
      rw [List.countP_append]

/-- C46. For a positive bin size and times that do not decrease: registering never fails, entry `b` of the histogram is
the number of steps with length in `[b w, (b+1) w)`, and the sum of all entries is the number of steps, so every step
is in exactly one bin of the histogram. -/
theorem C46_exact_partial (w : Option K) (s : Steps K) (hs : Steps.make w = .ok s) (hw : s.binsize ≠ 0) (t0 : K) (ts : List K)
    (ht : (t0 :: ts).IsChain (· ≤ ·)) :
    ∃ s', loopM Steps.registerStep ts (s.setup t0) = .ok s' ∧
      (∀ b, s'.histogram.getD b 0 = inBin (w.getD 1) b (gaps t0 ts)) ∧
      s'.histogram.sum = ts.length ∧
      (∀ x ∈ gaps t0 ts, ∃ b, b < s'.histogram.length ∧ (b : K) * w.getD 1 ≤ x ∧ x < ((b : K) + 1) * w.getD 1) := by
  unfold Steps.make checkPositiveFloat at hs
  obtain ⟨b, h1, h2⟩ := bind_ok.1 hs
  obtain rfl := Except.ok.inj h2
  split at h1
  · cases h1
  · rename_i hneg
    obtain rfl := Except.ok.inj h1
    have hpos : 0 < w.getD 1 := lt_of_le_of_ne (not_lt.1 hneg) (Ne.symm hw)
    obtain ⟨s', e1, e2, e3, e4, e5⟩ := registerSteps_ok ts (Steps.setup ⟨w.getD 1, List.replicate 10 0, none⟩ t0) t0 rfl hpos (by simp [Steps.setup]) ht
    have hz : ∀ b, (List.replicate 10 0 : List Nat).getD b 0 = 0 := by
      intro b
      have := getD_append_zeros [] 10 b
      simpa using this
    refine ⟨s', e1, ?_, ?_, ?_⟩
    · intro b
      rw [e5]
      show (List.replicate 10 0 : List Nat).getD b 0 + _ = _
      rw [hz, Nat.zero_add]
      rfl
    · rw [e4]
      show (List.replicate 10 0 : List Nat).sum + _ = _
      simp
    · intro x hx
      have hx0 : 0 ≤ x := by
        clear e1 e5 e4 e3 e2
        induction ts generalizing t0 with
        | nil => simp [gaps] at hx
        | cons t ts ih =>
          rw [List.isChain_cons_cons] at ht
          rcases List.mem_cons.1 hx with rfl | hx
          · exact sub_nonneg.2 ht.1
          · exact ih t ht.2 hx
      obtain ⟨b, -, hb⟩ := trunc_bin hpos hx0
      refine ⟨b, ?_, hb⟩
      by_contra hlen
      have h0 : s'.histogram.getD b 0 = 0 := by
        rw [List.getD_eq_getElem?_getD, List.getElem?_eq_none (by omega)]; rfl
      rw [e5] at h0
      have : inBin (w.getD 1) b (gaps t0 ts) = 0 := by
        change _ + inBin (w.getD 1) b (gaps t0 ts) = 0 at h0
        omega
      unfold inBin at this
      rw [List.countP_eq_zero] at this
      exact this x hx (by simpa using hb)

omit [IsStrictOrderedRing K] in
/-- C46. The normalised histogram has sum one, and its entries are the fractions of the steps. -/
theorem C46_normalised (s : Steps K) (h : s.histogram.sum ≠ 0) :
    ∃ l, s.finalize.2 = some l ∧ l.sum = 1 ∧ l = s.histogram.map (fun n : Nat => (n : K) / (s.histogram.sum : K)) := by
  have hsum : ∀ (l : List Nat) (c : K), (l.map (fun n : Nat => (n : K) / c)).sum = (l.sum : K) / c := by
    intro l c
    induction l with
    | nil => simp
    | cons a l ih => simp only [List.map_cons, List.sum_cons, ih, Nat.cast_add, add_div]
  refine ⟨_, if_neg h, ?_, rfl⟩
  rw [hsum]
  exact div_self (by exact_mod_cast h)

end

section
variable {K : Type _} [Field K] [LinearOrder K] [IsStrictOrderedRing K] [FloorRing K]

omit [IsStrictOrderedRing K] in
/-- C46. The reported places of the bins are their middles. -/
theorem C46_middles (s : Steps K) (b : Nat) (hb : b < s.histogram.length) :
    s.finalize.1[b]? = some (((b : K) * s.binsize + ((b : K) + 1) * s.binsize) / 2) := by
  unfold Steps.finalize
  dsimp only
  rw [List.getElem?_map, List.getElem?_range hb]
  dsimp only [Option.map_some]
  congr 1
  ring

end

/-- C46. A bin size of zero is accepted, and the first step then fails. -/
theorem C46_zero : ∃ s, Steps.make (some (0 : ℚ)) = .ok s ∧ (s.setup 0).registerStep 1 = .error .divByZero :=
  ⟨⟨0, List.replicate 10 0, none⟩, by decide +kernel, by decide +kernel⟩

/-- Steps 1/2, 12, 1/2 with bin size 1: the histogram grows to thirteen entries. -/
example : (do
    let s ← Steps.make (none : Option ℚ)
    let s ← loopM Steps.registerStep [1/2, 25/2, 13] (s.setup 0)
    return s.histogram) = .ok [2, 0, 0, 0, 0, 0, 0, 0, 0, 0, 0, 0, 1] := by decide +kernel

/-! ### C49: blocks -/

section
variable {K α : Type _} [Field K] [LinearOrder K]

/-- A list of blocks, each with its start and its samples: the first starts at `t0`, a block has the samples up to
`w` after its start, and the first sample that is later starts the next block. -/
structure Blocked (w t0 : K) (bs : List (K × List (K × α))) : Prop where
  start : bs.head?.map (·.1) = some t0
  inside : ∀ b ∈ bs, ∀ x ∈ b.2, x.1 - b.1 ≤ w
  next : bs.IsChain (fun b b' => w < b'.1 - b.1 ∧ ∃ a, b'.2.head? = some (b'.1, a))

/-- All samples of a list of blocks. -/
def samples (bs : List (K × List (K × α))) : List (K × α) := bs.flatMap (·.2)

theorem Blocked.same {w t0 : K} {bs : List (K × List (K × α))} {b : K × List (K × α)} (h : Blocked w t0 (bs ++ [b])) (x : K × α)
    (hx : ¬ w < x.1 - b.1) : Blocked w t0 (bs ++ [(b.1, b.2 ++ [x])]) := by
  obtain ⟨h1, h2, h3⟩ := h
  refine ⟨?_, ?_, ?_⟩
  · cases bs with
    | nil => simpa using h1
    | cons c bs => simpa using h1
  · intro c hc y hy
    rcases List.mem_append.1 hc with hc | hc
    · exact h2 c (by simp [hc]) y hy
    · obtain rfl := List.mem_singleton.1 hc
      rcases List.mem_append.1 hy with hy | hy
      · exact h2 b (by simp) y hy
      · rw [List.mem_singleton.1 hy]; exact not_lt.1 hx
  · rw [List.isChain_append] at h3 ⊢
    refine ⟨h3.1, List.isChain_singleton _, ?_⟩
    intro c hc d hd
    obtain ⟨g1, a, g2⟩ := h3.2.2 c hc b (by simp)
    have hd' : (b.1, b.2 ++ [x]) = d := by simpa using hd
    subst hd'
    refine ⟨g1, a, ?_⟩
    show (b.2 ++ [x]).head? = some (b.1, a)
    rw [List.head?_append, g2]; rfl

theorem Blocked.fresh {w t0 : K} {bs : List (K × List (K × α))} {b : K × List (K × α)} (h : Blocked w t0 (bs ++ [b])) (x : K × α)
    (hw : 0 ≤ w) (hx : w < x.1 - b.1) : Blocked w t0 (bs ++ [b] ++ [(x.1, [x])]) := by
  obtain ⟨h1, h2, h3⟩ := h
  refine ⟨?_, ?_, ?_⟩
  · rw [List.head?_append]
    cases h0 : (bs ++ [b]).head? with
    | none => rw [h0] at h1; cases h1
    | some c => rw [h0] at h1; exact h1
  · intro c hc y hy
    rcases List.mem_append.1 hc with hc | hc
    · exact h2 c hc y hy
    · obtain rfl := List.mem_singleton.1 hc
      rw [List.mem_singleton.1 hy]; simpa using hw
  · rw [List.isChain_append]
    refine ⟨h3, List.isChain_singleton _, ?_⟩
    intro c hc d hd
    have hc' : b = c := by simpa using hc
    have hd' : (x.1, [x]) = d := by simpa using hd
    subst hc' hd'
    exact ⟨hx, x.2, rfl⟩

omit [Field K] [LinearOrder K] in
theorem samples_append (a b : List (K × List (K × α))) : samples (a ++ b) = samples a ++ samples b := List.flatMap_append ..

end

section
variable {K : Type _} [Field K] [LinearOrder K] [FloorRing K]

/-- The sum of the counts of some samples, for `n` types. -/
def total (n : Nat) (l : List (K × List Nat)) : List Nat :=
  (List.range n).map (fun i => (l.map (fun x => x.2.getD i 0)).sum)

omit [Field K] [LinearOrder K] [FloorRing K] in
theorem addArrays_total (n : Nat) (l : List (K × List Nat)) (t : K) (c : List Nat) (hc : c.length = n) :
    addArrays (total n l) c = .ok (total n (l ++ [(t, c)])) := by
  unfold addArrays
  rw [if_pos (by simp [total, hc])]
  congr 1
  apply List.ext_getElem
  · simp [total, hc]
  · intro i h1 h2
    have hi : i < n := by simpa [total] using h2
    simp only [total, List.getElem_zipWith, List.getElem_map, List.getElem_range, List.map_append, List.sum_append,
      List.map_cons, List.map_nil, List.sum_cons, List.sum_nil, Nat.add_zero]
    congr 1
    rw [List.getD_eq_getElem?_getD, List.getElem?_eq_getElem (by omega)]
    rfl

/-- The state of the composition analysis in terms of blocks. -/
def CompRep (n : Nat) (w t0 : K) (s : Comp K) (bs : List (K × List (K × List Nat))) (b : K × List (K × List Nat)) : Prop :=
  s.interval = w ∧ s.lastTime = b.1 ∧ s.count = some (total n b.2) ∧ s.steps = b.2.length ∧
    s.empty = some (List.replicate n 0) ∧
    s.data = bs.map (fun b => (total n b.2).map (fun m : Nat => (m : K) / (b.2.length : K))) ∧ Blocked w t0 (bs ++ [b])

omit [FloorRing K] in
theorem comp_step (n : Nat) (w t0 : K) (hw : 0 ≤ w) (s : Comp K) (bs : List (K × List (K × List Nat))) (b : K × List (K × List Nat))
    (h : CompRep n w t0 s bs b) (t : K) (c : List Nat) (hc : c.length = n) :
    ∃ s' bs' b', s.registerStep t c = .ok s' ∧ CompRep n w t0 s' bs' b' ∧
      samples (bs' ++ [b']) = samples (bs ++ [b]) ++ [(t, c)] := by
  obtain ⟨h1, h2, h3, h4, h5, h6, h7⟩ := h
  have hz : total n ([] : List (K × List Nat)) = List.replicate n 0 := by
    apply List.ext_getElem <;> simp [total]
  by_cases hx : w < t - b.1
  · refine ⟨⟨w, 1, t, bs.map (fun b => (total n b.2).map (fun m : Nat => (m : K) / (b.2.length : K))) ++
      [(total n b.2).map (fun m : Nat => (m : K) / (b.2.length : K))], some (total n [(t, c)]), some (List.replicate n 0)⟩,
      bs ++ [b], (t, [(t, c)]), ?_, ?_, ?_⟩
    · unfold Comp.registerStep Comp.close
      rw [h1, h2, if_pos hx, h3, h5]
      simp only [defined, ok_bind]
      show (addArrays (List.replicate n 0) c >>= fun c => _) = _
      rw [← hz, addArrays_total n [] t c hc]
      simp only [ok_bind, h4, h6, List.nil_append]
      rfl
    · refine ⟨rfl, rfl, rfl, rfl, rfl, ?_, h7.fresh (t, c) hw hx⟩
      simp only [List.map_append, List.map_cons, List.map_nil]
    · rw [samples_append]
      simp [samples]
  · refine ⟨{ s with count := some (total n (b.2 ++ [(t, c)])), steps := s.steps + 1 }, bs, (b.1, b.2 ++ [(t, c)]), ?_, ?_, ?_⟩
    · unfold Comp.registerStep Comp.close
      simp only [h1, h2, if_neg hx, ok_bind, h3, defined]
      rw [addArrays_total n b.2 t c hc]
      rfl
    · refine ⟨h1, h2, rfl, ?_, h5, h6, h7.same (t, c) hx⟩
      simp [h4]
    · simp [samples]

omit [FloorRing K] in
/-- C49. Composition. The samples, which are the counts at setup and at every registered step, are divided into
blocks in order; the results are the means over the blocks but the last, and no step fails. Partial: the last block
is not in the results (`C49_last_block`), and the times are not those of the blocks (`C49_times`). -/
theorem C49_composition_partial (w : Option K) (s : Comp K) (hs : Comp.make w = .ok s) (n : Nat) (t0 : K) (c0 : List Nat)
    (hc0 : c0.length = n) (xs : List (K × List Nat)) (hx : ∀ x ∈ xs, x.2.length = n) (hw : 0 ≤ w.getD 1) :
    ∃ s' bs b, loopM (fun s x => s.registerStep x.1 x.2) xs (s.setup t0 n c0) = .ok s' ∧
      Blocked (w.getD 1) t0 (bs ++ [b]) ∧ samples (bs ++ [b]) = (t0, c0) :: xs ∧
      s'.data = bs.map (fun b => (total n b.2).map (fun m : Nat => (m : K) / (b.2.length : K))) := by
  unfold Comp.make checkPositiveFloat at hs
  obtain ⟨w', h1, h2⟩ := bind_ok.1 hs
  obtain rfl := Except.ok.inj h2
  split at h1
  · cases h1
  obtain rfl := Except.ok.inj h1
  have hinit : CompRep n (w.getD 1) t0 (Comp.setup ⟨w.getD 1, 0, 0, [], none, none⟩ t0 n c0) [] (t0, [(t0, c0)]) := by
    refine ⟨rfl, rfl, ?_, rfl, rfl, rfl, ⟨rfl, ?_, List.isChain_singleton _⟩⟩
    · show some c0 = _
      congr 1
      apply List.ext_getElem
      · simp [total, hc0]
      · intro i g1 g2
        simp [total, List.getD_eq_getElem?_getD, List.getElem?_eq_getElem g1]
    · intro b hb x hx
      simp at hb
      subst hb
      simp at hx
      subst hx
      simpa using hw
  have key : ∀ (xs : List (K × List Nat)) (s : Comp K) bs b, (∀ x ∈ xs, x.2.length = n) → CompRep n (w.getD 1) t0 s bs b →
      ∃ s' bs' b', loopM (fun s x => s.registerStep x.1 x.2) xs s = .ok s' ∧ CompRep n (w.getD 1) t0 s' bs' b' ∧
        samples (bs' ++ [b']) = samples (bs ++ [b]) ++ xs := by
    intro xs
    induction xs with
    | nil => intro s bs b _ h; exact ⟨s, bs, b, rfl, h, by simp⟩
    | cons x xs ih =>
      intro s bs b hx h
      obtain ⟨s1, bs1, b1, e1, e2, e3⟩ := comp_step n (w.getD 1) t0 hw s bs b h x.1 x.2 (hx x (by simp))
      obtain ⟨s2, bs2, b2, g1, g2, g3⟩ := ih s1 bs1 b1 (fun y hy => hx y (by simp [hy])) e2
      refine ⟨s2, bs2, b2, ?_, g2, ?_⟩
      · rw [loopM_cons]; exact bind_ok.2 ⟨s1, e1, g1⟩
      · rw [g3, e3]; simp
  obtain ⟨s', bs, b, e1, ⟨-, -, -, -, -, e2, e3⟩, e4⟩ := key xs _ [] _ hx hinit
  exact ⟨s', bs, b, e1, e3, by rw [e4]; simp [samples], e2⟩

/-! ### Process statistics -/

/-- A registered step: process and site of the event. -/
abbrev Ev := Nat × Nat

/-- The number of events with a process in the list. -/
def counted (ps : List Nat) (l : List (K × Ev)) : Nat := l.countP (fun x => decide (x.2.1 ∈ ps))

/-- The state of the process statistics in terms of blocks. -/
def StatsRep (ps : List Nat) (w t0 : K) (resolved : Bool) (n : Nat) (s : Stats K) (bs : List (K × List (K × Ev)))
    (b : K × List (K × Ev)) : Prop :=
  s.interval = w ∧ s.processes = ps ∧ s.resolved = resolved ∧ s.lastTime = b.1 ∧ s.count = counted ps b.2 ∧
    s.data = bs.map (fun b => counted ps b.2) ∧ Blocked w t0 (bs ++ [b]) ∧
    (resolved = true → s.spatial = some ((List.range n).map (fun i =>
      (((samples (bs ++ [b])).countP (fun x => decide (x.2.1 ∈ ps ∧ x.2.2 = i)) : Nat) : K)))) ∧
    (resolved = false → s.spatial = none)

omit [FloorRing K] in
theorem stats_step (ps : List Nat) (w t0 : K) (resolved : Bool) (n : Nat) (hw : 0 ≤ w) (s : Stats K)
    (bs : List (K × List (K × Ev))) (b : K × List (K × Ev))
    (h : StatsRep ps w t0 resolved n s bs b) (t : K) (e : Ev) (he : e.2 < n) :
    ∃ s' bs' b', s.registerStep t e.1 e.2 = .ok s' ∧ StatsRep ps w t0 resolved n s' bs' b' ∧
      samples (bs' ++ [b']) = samples (bs ++ [b]) ++ [(t, e)] := by
  obtain ⟨h1, h2, h3, h4, h5, h6, h7, h8, h9⟩ := h
  -- after closing a block
  have hclose : ∃ bs' b0, s.close t = { s with data := bs'.map (fun b => counted ps b.2), count := counted ps b0.2, lastTime := b0.1 } ∧
      samples (bs' ++ [b0]) = samples (bs ++ [b]) ∧ Blocked w t0 (bs' ++ [(b0.1, b0.2 ++ [(t, e)])]) := by
    by_cases hx : w < t - b.1
    · refine ⟨bs ++ [b], (t, []), ?_, ?_, ?_⟩
      · unfold Stats.close
        rw [h1, h4, if_pos hx]
        simp [h5, h6, counted]
      · rw [samples_append]; simp [samples]
      · exact h7.fresh (t, e) hw hx
    · refine ⟨bs, b, ?_, rfl, h7.same (t, e) hx⟩
      unfold Stats.close
      rw [h1, h4, if_neg hx, ← h5, ← h6, ← h4, ← h1]
  obtain ⟨bs', b0, c1, c2, c3⟩ := hclose
  have hsam : samples (bs' ++ [(b0.1, b0.2 ++ [(t, e)])]) = samples (bs ++ [b]) ++ [(t, e)] := by
    rw [← c2, samples_append, samples_append]
    simp [samples]
  have hcount : counted ps (b0.2 ++ [(t, e)]) = counted ps b0.2 + if e.1 ∈ ps then 1 else 0 := by
    unfold counted
    rw [List.countP_append]
    by_cases hm : e.1 ∈ ps <;> simp [hm]
  have hspat : ∀ i, (samples (bs ++ [b]) ++ [(t, e)]).countP (fun x => decide (x.2.1 ∈ ps ∧ x.2.2 = i)) =
      (samples (bs ++ [b])).countP (fun x => decide (x.2.1 ∈ ps ∧ x.2.2 = i)) + if e.1 ∈ ps ∧ e.2 = i then 1 else 0 := by
    intro i
    rw [List.countP_append]
    by_cases hm : e.1 ∈ ps ∧ e.2 = i <;> simp [hm]
  unfold Stats.registerStep
  simp only [c1, h2]
  by_cases hm : e.1 ∈ ps
  · rw [if_pos hm]
    cases resolved with
    | true =>
      rw [h3, if_pos rfl]
      have h8' := h8 rfl
      refine ⟨⟨ps, s.interval, true, b0.1, bs'.map (fun b => counted ps b.2),
        some (((List.range n).map (fun i => (((samples (bs ++ [b])).countP
          (fun x => decide (x.2.1 ∈ ps ∧ x.2.2 = i)) : Nat) : K))).modify e.2 (· + 1)), counted ps b0.2 + 1⟩,
        bs', (b0.1, b0.2 ++ [(t, e)]), ?_, ?_, hsam⟩
      · unfold addAt
        rw [h8']
        simp only [defined, ok_bind]
        rw [if_pos (by simpa using he)]
        rfl
      · refine ⟨h1, rfl, rfl, rfl, ?_, rfl, c3, ?_, by simp⟩
        · rw [hcount, if_pos hm]
        · intro _
          rw [hsam]
          show some _ = some _
          congr 1
          apply List.ext_getElem
          · simp
          · intro i g1 g2
            have hi : i < n := by simpa using g2
            simp only [List.getElem_modify, List.getElem_map, List.getElem_range, hspat, hm, true_and]
            by_cases hei : e.2 = i
            · simp [hei]
            · simp [hei]
    | false =>
      rw [h3, if_neg (by simp)]
      refine ⟨_, bs', (b0.1, b0.2 ++ [(t, e)]), rfl, ?_, hsam⟩
      refine ⟨h1, rfl, by first | exact h3 | rfl, rfl, ?_, rfl, c3, by simp, h9⟩
      rw [hcount, if_pos hm]
  · rw [if_neg hm]
    refine ⟨_, bs', (b0.1, b0.2 ++ [(t, e)]), rfl, ?_, hsam⟩
    refine ⟨h1, rfl, h3, rfl, ?_, rfl, c3, ?_, h9⟩
    · rw [hcount, if_neg hm]; rfl
    · intro hr
      rw [h8 hr, hsam]
      congr 1
      apply List.ext_getElem
      · simp
      · intro i g1 g2
        simp only [List.getElem_map, List.getElem_range, hspat, hm, false_and, if_false, Nat.add_zero]

omit [FloorRing K] in
/-- C49. Process statistics. The registered events are divided into blocks in order, each event in one block; the
results are the numbers of events of the chosen processes in the blocks but the last, and the spatial data are the
numbers per site of all of them. Partial: the last block is not in the results (`C49_last_block`), and the final
division by the time is by the start of the last block (`C49_spatial`). -/
theorem C49_statistics_partial (ps : List Int) (w : Option K) (resolved : Bool) (s : Stats K) (hs : Stats.make ps w resolved = .ok s)
    (n : Nat) (t0 : K) (xs : List (K × Ev)) (hx : ∀ x ∈ xs, x.2.2 < n) (hw : 0 ≤ w.getD 1) :
    ∃ s' bs b, loopM (fun s x => s.registerStep x.1 x.2.1 x.2.2) xs (s.setup t0 n) = .ok s' ∧
      Blocked (w.getD 1) t0 (bs ++ [b]) ∧ samples (bs ++ [b]) = xs ∧
      s'.data = bs.map (fun b => b.2.countP (fun x => decide ((x.2.1 : Int) ∈ ps))) ∧
      s'.count = b.2.countP (fun x => decide ((x.2.1 : Int) ∈ ps)) ∧ s'.lastTime = b.1 ∧
      (resolved = true → s'.spatial = some ((List.range n).map (fun i =>
        ((xs.countP (fun x => decide ((x.2.1 : Int) ∈ ps ∧ x.2.2 = i)) : Nat) : K)))) := by
  unfold Stats.make at hs
  obtain ⟨ps', h0, h00⟩ := bind_ok.1 hs
  clear hs
  obtain ⟨w', h1, h2⟩ := bind_ok.1 h00
  clear h00
  obtain rfl := Except.ok.inj h2
  unfold checkPositiveFloat at h1
  split at h1
  · cases h1
  obtain rfl := Except.ok.inj h1
  have hps : ∀ m : Nat, m ∈ ps' ↔ (m : Int) ∈ ps := by
    have hf := mapMM_ok_iff.1 h0
    clear h0
    intro m
    induction hf with
    | nil => simp
    | cons hab _ ih =>
      rename_i a b l1 l2 _
      split at hab
      · cases hab
      · obtain rfl := Except.ok.inj hab
        simp only [List.mem_cons]
        constructor
        · rintro (h | h)
          · exact .inl (by omega)
          · exact .inr ((ih rfl).1 h)
        · rintro (h | h)
          · exact .inl (by omega)
          · exact .inr ((ih rfl).2 h)
  have hinit : StatsRep ps' (w.getD 1) t0 resolved n (Stats.setup ⟨ps', w.getD 1, resolved, 0, [], none, 0⟩ t0 n) [] (t0, []) := by
    refine ⟨rfl, rfl, rfl, rfl, rfl, rfl, ⟨rfl, ?_, List.isChain_singleton _⟩, ?_, ?_⟩
    · intro b hb x hx
      simp at hb
      subst hb
      simp at hx
    · intro hr
      subst hr
      show some (List.replicate n 0) = _
      congr 1
      apply List.ext_getElem <;> simp [samples]
    · intro hr
      subst hr
      rfl
  have key : ∀ (xs : List (K × Ev)) (s : Stats K) bs b, (∀ x ∈ xs, x.2.2 < n) → StatsRep ps' (w.getD 1) t0 resolved n s bs b →
      ∃ s' bs' b', loopM (fun s x => s.registerStep x.1 x.2.1 x.2.2) xs s = .ok s' ∧ StatsRep ps' (w.getD 1) t0 resolved n s' bs' b' ∧
        samples (bs' ++ [b']) = samples (bs ++ [b]) ++ xs := by
    intro xs
    induction xs with
    | nil => intro s bs b _ h; exact ⟨s, bs, b, rfl, h, by simp⟩
    | cons x xs ih =>
      intro s bs b hx h
      obtain ⟨s1, bs1, b1, e1, e2, e3⟩ := stats_step ps' (w.getD 1) t0 resolved n hw s bs b h x.1 x.2 (hx x (by simp))
      obtain ⟨s2, bs2, b2, g1, g2, g3⟩ := ih s1 bs1 b1 (fun y hy => hx y (by simp [hy])) e2
      refine ⟨s2, bs2, b2, ?_, g2, ?_⟩
      · rw [loopM_cons]; exact bind_ok.2 ⟨s1, e1, g1⟩
      · rw [g3, e3]; simp
  obtain ⟨s', bs, b, e1, ⟨-, -, -, e2, e3, e4, e5, e6, -⟩, e7⟩ := key xs _ [] _ hx hinit
  have e7' : samples (bs ++ [b]) = xs := by rw [e7]; simp [samples]
  have hcnt : ∀ l : List (K × Ev), counted ps' l = l.countP (fun x => decide ((x.2.1 : Int) ∈ ps)) := by
    intro l
    unfold counted
    refine List.countP_congr fun x _ => ?_
    simp [hps]
  refine ⟨s', bs, b, e1, e5, e7', ?_, by rw [e3, hcnt], e2, ?_⟩
  · rw [e4]
    exact List.map_congr_left fun b _ => hcnt _
  · intro hr
    rw [e6 hr, e7']
    congr 1
    refine List.map_congr_left fun i _ => ?_
    congr 1
    refine List.countP_congr fun x _ => ?_
    simp [hps]

end

section
variable {K : Type _} [Field K] [LinearOrder K]

omit [LinearOrder K] in
/-- C49. The printed table of the process statistics has a row for every block but the first: its time, the number of
events in the blocks up to and with it, the rate of the block, and the quotient of number and time. -/
theorem C49_rows (s : Stats K) (i : Nat) (hi : i + 1 < s.data.length) :
    s.rows[i]? = some (((i + 1 : Nat) : K) * s.interval, (s.data.take (i + 2)).sum,
      (s.data.getD (i + 1) 0 : K) / s.interval, ((s.data.take (i + 2)).sum : K) / (((i + 1 : Nat) : K) * s.interval)) ∧
    s.rows.length = s.data.length - 1 := by
  unfold Stats.rows
  constructor
  · rw [List.getElem?_drop, List.getElem?_map, Nat.add_comm 1 i, List.getElem?_range hi]
    rfl
  · simp

/-- C49. The last column is not the mean rate: the number is that of one block more than the time. With the same
number in each block, the mean rate of the row at the end of `i + 1` intervals is too large by the factor
`(i + 2) / (i + 1)`, twice the rate in the first row. -/
theorem C49_mean_rate [IsStrictOrderedRing K] (s : Stats K) (m c i : Nat) (hd : s.data = List.replicate m c) (hi : i + 1 < m)
    (hw : 0 < s.interval) :
    ∃ t n r q, s.rows[i]? = some (t, n, r, q) ∧ r = (c : K) / s.interval ∧ q = r * (((i : K) + 2) / ((i : K) + 1)) := by
  refine ⟨_, _, _, _, (C49_rows s i (by rw [hd]; simpa using hi)).1, ?_, ?_⟩
  · rw [hd, List.getD_eq_getElem?_getD, List.getElem?_replicate, if_pos hi]
    rfl
  · rw [hd, List.getD_eq_getElem?_getD, List.getElem?_replicate, if_pos hi, List.take_replicate, Nat.min_eq_left (by omega),
      List.sum_replicate]
    have h1 : ((i : K) + 1) ≠ 0 := by positivity
    have h2 := hw.ne'
    have h3 : ((i + 2) • c : Nat) = (i + 2) * c := nsmul_eq_mul _ _
    simp only [h3, Option.getD_some]
    push_cast
    field_simp

end

/-- Two events in each of three blocks of length one. -/
example : (⟨[0], 1, false, 3, [2, 2, 2], none, 0⟩ : Stats ℚ).rows = [(1, 4, 2, 4), (2, 6, 2, 3)] := by decide +kernel

/-! ### What does not hold -/

/-- C49. A run of three events within one interval: nothing is reported, by either analysis. -/
theorem C49_last_block :
    (do
      let s ← Stats.make [0] (none : Option ℚ) false
      let s ← loopM (fun (s : Stats ℚ) (x : ℚ × Ev) => s.registerStep x.1 x.2.1 x.2.2) [(1/4, 0, 0), (1/2, 0, 0), (3/4, 0, 0)] (s.setup 0 1)
      return (s.data, s.rows)) = .ok ([], []) ∧
    (do
      let s ← Comp.make (none : Option ℚ)
      let s ← loopM (fun (s : Comp ℚ) (x : ℚ × List Nat) => s.registerStep x.1 x.2) [(1/4, [1, 0]), (1/2, [0, 1])] (s.setup 0 2 [1, 0])
      return s.data) = .ok [] := by
  constructor <;> decide +kernel

/-- C49. Registered times 3/2, 3, 9/2 and 6 with interval 1: the blocks are [0,3/2), [3/2,3), [3,9/2), [9/2,6), but their
times are reported as 1/2, 3/2, 5/2 and 7/2; the third and fourth are outside their blocks. -/
theorem C49_times :
    (do
      let s ← Comp.make (none : Option ℚ)
      let s ← loopM (fun (s : Comp ℚ) (x : ℚ × List Nat) => s.registerStep x.1 x.2) [(3/2, [1]), (3, [2]), (9/2, [3]), (6, [4])] (s.setup 0 1 [0])
      return (s.data, s.times)) = .ok ([[0], [1], [2], [3]], [1/2, 3/2, 5/2, 7/2]) := by
  decide +kernel

/-- C49. Three events at a site until time 7/2, and the last block starts at 3: the spatial rate is 3/3 = 1 and not
3/(7/2). And in a run shorter than the interval the division is by zero. -/
theorem C49_spatial :
    (do
      let s ← Stats.make [0] (some (2 : ℚ)) true
      let s ← loopM (fun (s : Stats ℚ) (x : ℚ × Ev) => s.registerStep x.1 x.2.1 x.2.2) [(1, 0, 0), (3, 0, 0), (7/2, 0, 0)] (s.setup 0 1)
      return s.finalize) = .ok (some [1]) ∧
    (do
      let s ← Stats.make [0] (some (2 : ℚ)) true
      let s ← loopM (fun (s : Stats ℚ) (x : ℚ × Ev) => s.registerStep x.1 x.2.1 x.2.2) [(1, 0, 0), (3/2, 0, 0)] (s.setup 0 1)
      return s.finalize) = .ok none := by
  constructor <;> decide +kernel

/-- Two blocks and a third one that is left over. -/
example :
    (do
      let s ← Stats.make [0, 2] (none : Option ℚ) true
      let s ← loopM (fun (s : Stats ℚ) (x : ℚ × Ev) => s.registerStep x.1 x.2.1 x.2.2)
        [(1/2, 0, 1), (1, 1, 0), (3/2, 2, 1), (2, 0, 0), (3, 0, 1)] (s.setup 0 2)
      return (s.data, s.count, s.lastTime, s.spatial)) = .ok ([1, 2], 1, 3, some [1, 3]) := by
  decide +kernel

section
variable {K : Type _} [Field K] [LinearOrder K] [FloorRing K]

/-- **C46** Without `setup` there is no time to start from, and registering a step is an exception. -/
theorem C46_unset (w : Option K) (s : Steps K) (hs : Steps.make w = .ok s) (time : K) : s.registerStep time = .error .exception := by
  unfold Steps.make at hs
  obtain ⟨b, -, hs⟩ := bind_ok.1 hs
  obtain rfl := Except.ok.inj hs
  rfl

/-- **C49** Without `setup` registering a step is an exception: always for the composition, and for the statistics when an event of
interest is to be counted per site. -/
theorem C49_unset (w : Option K) (time : K) :
    (∀ s : Comp K, Comp.make w = .ok s → ∀ counts, s.registerStep time counts = .error .exception) ∧
    (∀ (ps : List Int) (s : Stats K), Stats.make ps w true = .ok s → ∀ process ∈ s.processes, ∀ site,
      s.registerStep time process site = .error .exception) := by
  constructor
  · intro s hs counts
    unfold Comp.make at hs
    obtain ⟨b, -, hs⟩ := bind_ok.1 hs
    obtain rfl := Except.ok.inj hs
    unfold Comp.registerStep Comp.close
    by_cases h : b < time - 0
    · rw [if_pos h]
      rfl
    · rw [if_neg h]
      rfl
  · intro ps s hs process hp site
    unfold Stats.make at hs
    obtain ⟨l, -, hs⟩ := bind_ok.1 hs
    obtain ⟨b, -, hs⟩ := bind_ok.1 hs
    obtain rfl := Except.ok.inj hs
    unfold Stats.registerStep Stats.close
    by_cases h : b < time - 0
    · simp only [if_pos h]
      rw [if_pos hp]
      rfl
    · simp only [if_neg h]
      rw [if_pos hp]
      rfl

/-- Non-vacuity: all three can be made. -/
example : (Steps.make (none : Option ℚ)).isOk = true ∧ (Comp.make (none : Option ℚ)).isOk = true ∧
    ∃ s, Stats.make [0, 2] (none : Option ℚ) true = .ok s ∧ 2 ∈ s.processes :=
  ⟨by decide +kernel, by decide +kernel, ⟨[0, 2], 1, true, 0, [], none, 0⟩, by decide +kernel, by decide⟩

end

end Analysis
end KMC
