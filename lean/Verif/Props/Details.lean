import Verif.Lemmas.Lattice2
import Verif.Props.Run
import Verif.Props.Analysis
import Verif.Model.Msd
import Verif.Model.PyTypes

/-!
# Single functions

Properties of functions that other theorems use only in part.
-/

set_option linter.unusedSectionVars false

namespace KMC

/-! ## C04 Moves between sites -/

theorem wrapCell_unique {per : Bool} {rep c d : Nat} {i m : Int} (hc : c < rep) (hd : d < rep) (hi : |i| ≤ rep)
    (hm : per = false → m = 0) (h : (d : Int) = c + i + m * rep) : LatticeMap.wrapCell per rep (c + i) = d := by
  unfold LatticeMap.wrapCell
  cases per with
  | false => simp only [Bool.false_eq_true, if_false]; rw [h, hm rfl]; ring
  | true =>
    rw [abs_le] at hi
    have key : ∀ w k : Int, 0 ≤ w → w < rep → (d : Int) = w + k * rep → w = d := by
      intro w k h0 h1 h2
      have hk : k = 0 := by
        by_contra hk
        rcases lt_or_gt_of_ne hk with hk | hk
        · have : k * rep ≤ -1 * rep := mul_le_mul_of_nonneg_right (by omega) (by omega)
          omega
        · have : 1 * (rep : Int) ≤ k * rep := mul_le_mul_of_nonneg_right (by omega) (by omega)
          omega
      rw [h2, hk]; ring
    simp only [if_true]
    split
    · exact key _ (m - 1) (by omega) (by omega) (by rw [h]; ring)
    · split
      · exact key _ (m + 1) (by omega) (by omega) (by rw [h]; ring)
      · exact key _ m (by omega) (by omega) h

/-- C04: a move by whole cells, none of them longer than the lattice, and to another basis site leads to the site that is there,
through the boundary exactly when the axis is periodic. -/
theorem C04_move {L : LatticeMap} (hL : L.WF) {s t : Nat} (hs : s < L.nSites) (ht : t < L.nSites) {i j k a b c : Int}
    (hi : |i| ≤ L.repA) (hj : |j| ≤ L.repB) (hk : |k| ≤ L.repC) (ha : L.perA = false → a = 0) (hb : L.perB = false → b = 0)
    (hc : L.perC = false → c = 0) (h1 : ((L.addr t).a : Int) = (L.addr s).a + i + a * L.repA)
    (h2 : ((L.addr t).b : Int) = (L.addr s).b + j + b * L.repB) (h3 : ((L.addr t).c : Int) = (L.addr s).c + k + c * L.repC) :
    L.indexFromMoveInfo s i j k ((L.addr t).l - (L.addr s).l) = .ok t := by
  obtain ⟨s1, s2, s3, s4⟩ := LatticeMap.addr_valid L hL s hs
  obtain ⟨t1, t2, t3, t4⟩ := LatticeMap.addr_valid L hL t ht
  unfold LatticeMap.indexFromMoveInfo
  rw [LatticeMap.indexToCell_nat L hL]
  dsimp only
  have e1 : LatticeMap.wrapCell L.perA L.repA ((L.cellA s : Int) + i) = ((L.addr t).a : Int) := wrapCell_unique s1 t1 hi ha h1
  have e2 : LatticeMap.wrapCell L.perB L.repB ((L.cellB s : Int) + j) = ((L.addr t).b : Int) := wrapCell_unique s2 t2 hj hb h2
  have e3 : LatticeMap.wrapCell L.perC L.repC ((L.cellC s : Int) + k) = ((L.addr t).c : Int) := wrapCell_unique s3 t3 hk hc h3
  have e4 : ((L.addr t).l : Int) - (L.addr s).l + (L.basisSite s : Int) = (L.addr t).l := by
    show ((L.addr t).l : Int) - (L.basisSite s : Int) + (L.basisSite s : Int) = (L.addr t).l
    ring
  rw [e1, e2, e3, e4, if_pos ⟨by omega, by exact_mod_cast t4⟩]
  have := LatticeMap.siteNo_addr L t
  unfold LatticeMap.siteNo at this
  congr 1
  exact_mod_cast this

/-- C04: moves to basis sites that do not exist read past the indices of the cell. -/
theorem C04_move_basis {L : LatticeMap} (s : Nat) (i j k b : Int) (hb : b + L.basisSite s < 0 ∨ L.nBasis ≤ b + L.basisSite s) :
    L.indexFromMoveInfo s i j k b = .error .outOfBounds := by
  unfold LatticeMap.indexFromMoveInfo
  exact if_neg (by omega)

/-- From site 13 of a 3 x 3 x 3 lattice with two sites per cell, back through the boundary of the first axis, on through that of the second,
and to the other basis site. -/
example : (⟨2, 3, 3, 3, true, true, true⟩ : LatticeMap).indexFromMoveInfo 13 (-1) 1 0 (-1) = .ok 36 ∧
    (⟨2, 3, 3, 3, true, true, true⟩ : LatticeMap).addr 13 = ⟨0, 2, 0, 1⟩ ∧
    (⟨2, 3, 3, 3, true, true, true⟩ : LatticeMap).addr 36 = ⟨2, 0, 0, 0⟩ := by decide +kernel

/-! ## C06 Single particles -/

theorem isSingleLoop_iff (i : Nat) : ∀ (j : Nat) (a : Bucket), Bucket.isSingleLoop i j a = true ↔
    ∀ (k : Nat) (x : Int), a[k]? = some x → x = if i = j + k then 1 else 0
  | _, [] => by simp [Bucket.isSingleLoop]
  | j, a :: as => by
    unfold Bucket.isSingleLoop
    have shift : (∀ (k : Nat) (x : Int), (a :: as)[k]? = some x → x = if i = j + k then 1 else 0) ↔
        (a = if i = j then 1 else 0) ∧ ∀ (k : Nat) (x : Int), as[k]? = some x → x = if i = j + 1 + k then 1 else 0 := by
      constructor
      · intro h
        refine ⟨h 0 a rfl, fun k x hx => ?_⟩
        have := h (k + 1) x hx
        rw [this]
        congr 1
        exact propext ⟨fun h => by omega, fun h => by omega⟩
      · rintro ⟨h0, h⟩ k x hx
        cases k with
        | zero => rw [← Option.some.inj hx]; exact h0
        | succ k =>
          rw [h k x hx]
          congr 1
          exact propext ⟨fun h => by omega, fun h => by omega⟩
    rw [shift, ← isSingleLoop_iff i (j + 1) as]
    by_cases hij : i = j
    · by_cases ha : a = 1
      · simp [hij, ha]
      · simp [hij, ha]
    · by_cases ha : a = 0
      · simp [hij, ha]
      · simp [hij, ha]

/-- C06: a bucket equals the type `i` exactly when it holds one particle, of that type. -/
theorem C06_single (a : Bucket) (i : Nat) :
    (a.isSingle i = .ok true ↔ i < a.length ∧ ∀ (k : Nat) (x : Int), a[k]? = some x → x = if k = i then 1 else 0) ∧
    (a.isSingle i = .error .exception ↔ a.length ≤ i) := by
  unfold Bucket.isSingle
  constructor
  · split
    · rename_i h
      constructor
      · intro h; cases h
      · rintro ⟨h1, -⟩; omega
    · rename_i h
      rw [show (Except.ok (Bucket.isSingleLoop i 0 a) : M Bool) = Except.ok true ↔ Bucket.isSingleLoop i 0 a = true from
        ⟨Except.ok.inj, congrArg _⟩, isSingleLoop_iff]
      simp only [Nat.zero_add, eq_comm (a := i)]
      exact ⟨fun hh => ⟨by omega, hh⟩, fun hh => hh.2⟩
  · split
    · rename_i h
      simp [h]
    · rename_i h
      simp [h]

example : Bucket.isSingle [0, 1, 0] 1 = .ok true ∧ Bucket.isSingle [0, 2, 0] 1 = .ok false ∧ Bucket.isSingle [1, 1, 0] 1 = .ok false := by
  decide

/-! ## C24 Listed sites -/

section
variable {K : Type} [Field K] [LinearOrder K] [IsStrictOrderedRing K]
variable {env : Env K} {n nT : Nat} {negLog : K → Option K} {cfg : Config K} {procs : List (Proc K)} {s : Sim K}

/-- C24: a site is listed for a process exactly when the process can happen there. -/
theorem C24_listed (h : GoodRun env n nT negLog cfg procs s) {j : Nat} {p : Proc K} (hp : s.ms.procs[j]? = some p) (site : Nat) :
    p.isListed site = true ↔ site < n ∧ env.L.basisSite site ∈ p.basisSites ∧
      ∃ ml, Surroundings env procs s.ms.cfg site = .ok ml ∧ whateverMatch p.matchList ml = .ok true := by
  rw [← C24_available h hp site]
  unfold Proc.isListed
  exact decide_eq_true_iff

end

/-! ## C17 Short match lists -/

section
variable {K : Type _} [Field K] [LinearOrder K]

/-- C17: a process that has more points than the match list of the site has entries is never performed: the program would read
past the end of the list. -/
theorem C17_short_list : ∀ (ps : List (PEntry K)) (cs : List (CEntry K)) (st st' : Config K × List Nat), cs.length < ps.length →
    Config.performLoop ps cs st ≠ .ok st'
  | [], _, _, _, h => by simp at h
  | _ :: _, [], _, _, _ => by intro h; cases h
  | p :: ps, c :: cs, st, st', h => by
    intro hh
    unfold Config.performLoop at hh
    obtain ⟨st1, -, h2⟩ := bind_ok.1 hh
    exact C17_short_list ps cs st1 st' (by simpa using h) h2

end

/-! ## C36 Pairs of types -/

/-- C36: a site given by a single type, or by a single pair of a number and a type, means the same as the list with only that
entry; several entries are all kept, in their order. -/
theorem C36_pairs (s : String) (t l : List Py) :
    Short.pairsOf (.str s) = Short.pairsOf (.lst [.str s]) ∧ Short.pairsOf (.tup t) = Short.pairsOf (.lst [.tup t]) ∧
    Short.pairsOf (.lst [.str s]) = [.tup [.int 1, .str s]] ∧ Short.pairsOf (.lst [.tup t]) = [.tup t] ∧
    (∀ x, Short.pairsOf (.lst (x :: l)) = Short.pairsOf (.lst [x]) ++ Short.pairsOf (.lst l)) := by
  refine ⟨rfl, rfl, rfl, rfl, fun x => ?_⟩
  unfold Short.pairsOf
  rw [← List.filterMap_append]
  rfl

/-- C36: an empty pair in the list of a site is an index error, and so is a pair with a number only, whatever comes after. A pair with
only a type is let through here; it is an index error when it is compared with a later entry, and an exception when it is expanded. -/
theorem C36_short_pair (names : List String) (n : Int) (s : String) (rest : List Py) :
    BucketInput.normalise (.lst (names.map .str ++ .tup [] :: rest)) = .error .indexError ∧
    BucketInput.normalise (.lst (names.map .str ++ .tup [.int n] :: rest)) = .error .indexError ∧
    BucketInput.normaliseElement (.tup [.str s]) = .ok [.str s] ∧
    (∀ t more, BucketInput.addSame ([.str s] :: t :: more) 0 ([.str s], []) 0 = .error .indexError) ∧
    BucketInput.expandPair [.str s] = .error .exception := by
  have key : mapMM BucketInput.normaliseElement (names.map Py.str) = .ok (names.map fun t => [.int 1, .str t]) := by
    induction names with
    | nil => rfl
    | cons t names ih =>
      rw [List.map_cons, mapMM_cons, ih]
      rfl
  refine ⟨?_, ?_, rfl, fun t more => rfl, rfl⟩
  · unfold BucketInput.normalise
    dsimp only
    rw [mapMM_append, key, ok_bind, mapMM_cons]
    rfl
  · unfold BucketInput.normalise
    dsimp only
    rw [mapMM_append, key, ok_bind, mapMM_cons]
    rfl

/-! ## C46 Steps back in time -/

/-- C46: a negative bin, from a step back in time, is counted from the end of the histogram, and fails below its beginning. -/
theorem C46_negative (h : List Nat) (b : Nat) (hb : 0 < b) :
    (b ≤ h.length → Analysis.bump h (-b) = .ok (h.modify (h.length - b) (· + 1))) ∧
    (h.length < b → Analysis.bump h (-b) = .error .indexError) := by
  unfold Analysis.bump
  have hneg : (-(b : Int)) < 0 := by omega
  rw [if_pos hneg]
  constructor
  · intro hl
    dsimp only
    rw [if_pos (by omega)]
    congr 2
    omega
  · intro hl
    dsimp only
    rw [if_neg (by omega)]

example : Analysis.bump [0, 0, 0] (-1) = .ok [0, 0, 1] := by decide

/-! ## C47 Times of the bins -/

section
variable {K : Type _} [Field K] [LinearOrder K] [IsStrictOrderedRing K] [FloorRing K]

/-- C47: the times reported for the bins are their middles. -/
theorem C47_times (m : MsdInput K) (b : Nat) (hb : b < m.nBins) :
    m.times[b]? = some (((b : K) * (m.tMax / m.nBins) + ((b : K) + 1) * (m.tMax / m.nBins)) / 2) := by
  unfold MsdInput.times
  rw [List.getElem?_map, List.getElem?_range hb]
  dsimp only [Option.map_some]
  congr 1
  ring

end
end KMC
