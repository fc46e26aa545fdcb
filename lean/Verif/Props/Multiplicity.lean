import Verif.Model.MatchList
import Verif.Lemmas.Monad
import Mathlib.Data.Nat.Choose.Factorization
import Mathlib.Data.Finset.Powerset
import Mathlib.Algebra.BigOperators.Group.List.Basic
import Mathlib.Tactic.Ring
import Mathlib.Tactic.Linarith

/-!
# C14: the multiplicity counts the ways
-/

namespace KMC

/-! ### Specification -/

/-- The number of ways of choosing `r` particles among `n`: the number of `r`-element subsets of a set
with `n` elements. -/
def waysToChoose (n r : Nat) : Nat := (Finset.powersetCard r (Finset.range n)).card

/-- One site: for every type choose the required particles among those present. -/
def siteWays : List Int → List Int → Nat
  | r :: rs, n :: ns => waysToChoose n.toNat r.toNat * siteWays rs ns
  | _, _ => 1

/-- A pattern over a list of sites. Entries whose slot 0 is not zero are wildcards and choose nothing.
Slot 0 belongs to the wildcard, the types start at slot 1. -/
def patternWays {K : Type _} : List (PEntry K) → List (CEntry K) → Nat
  | p :: ps, c :: cs =>
    (if p.matchTypes[0]? = some 0 then siteWays p.matchTypes.tail c.matchTypes.tail else 1)
      * patternWays ps cs
  | _, _ => 1

/-- What is known at a matching site: for every type the required number is not negative and not
above the present one. -/
def Enough : List Int → List Int → Prop
  | r :: rs, n :: ns => 0 ≤ r ∧ r ≤ n ∧ Enough rs ns
  | [], _ => True
  | _ :: _, [] => False

/-- `Enough` at every entry that is not a wildcard. -/
def PatternFits {K : Type _} : List (PEntry K) → List (CEntry K) → Prop
  | p :: ps, c :: cs => p.matchTypes ≠ [] ∧
    (p.matchTypes[0]? = some 0 → Enough p.matchTypes.tail c.matchTypes.tail) ∧ PatternFits ps cs
  | [], _ => True
  | _ :: _, [] => False

/-! ### Proof -/

theorem mulInt32_ok {a b c : Int} (h : mulInt32 a b = .ok c) : c = a * b := by
  unfold mulInt32 at h
  split at h
  · cases h; rfl
  · cases h

theorem mulInt32_of_le {a b : Nat} (h : a * b ≤ 2147483647) :
    mulInt32 (a : Int) (b : Int) = .ok ((a * b : Nat) : Int) := by
  have h' : (a : Int) * b ≤ 2147483647 := by exact_mod_cast h
  have h0 : (0 : Int) ≤ (a : Int) * b := by positivity
  unfold mulInt32
  rw [if_pos ⟨by linarith, h'⟩]
  push_cast; rfl

theorem mulDown_ok {acc s k : Nat} (hk : k ≤ s) {v : Int} (h : mulDown acc s k = .ok v) :
    v = ((acc * s.descFactorial k : Nat) : Int) := by
  induction k generalizing acc s with
  | zero => simp [mulDown] at h; simp [← h]
  | succ k ih =>
    unfold mulDown at h
    rw [bind_ok] at h
    obtain ⟨a, ha, h⟩ := h
    have ha' := mulInt32_ok ha
    obtain ⟨s', rfl⟩ : ∃ s', s = s' + 1 := ⟨s - 1, by omega⟩
    have e1 : a = ((acc * (s' + 1) : Nat) : Int) := by rw [ha']; push_cast; rfl
    have e2 : ((s' + 1 : Nat) : Int) - 1 = (s' : Nat) := by push_cast; ring
    rw [e1, e2] at h
    rw [ih (by omega) h, Nat.succ_descFactorial_succ]
    push_cast; ring

theorem mulDown_total {acc s k : Nat} (hk : k ≤ s) (h : acc * s.descFactorial k ≤ 2147483647) :
    ∃ v, mulDown acc s k = .ok v := by
  induction k generalizing acc s with
  | zero => exact ⟨_, rfl⟩
  | succ k ih =>
    obtain ⟨s', rfl⟩ : ∃ s', s = s' + 1 := ⟨s - 1, by omega⟩
    rw [Nat.succ_descFactorial_succ] at h
    have hpos : 0 < s'.descFactorial k := Nat.descFactorial_pos.2 (by omega)
    have h1 : acc * (s' + 1) ≤ 2147483647 := by
      calc acc * (s' + 1) ≤ acc * (s' + 1) * s'.descFactorial k := Nat.le_mul_of_pos_right _ hpos
        _ = acc * ((s' + 1) * s'.descFactorial k) := by ring
        _ ≤ _ := h
    unfold mulDown
    rw [mulInt32_of_le h1, ok_bind]
    have e2 : ((s' + 1 : Nat) : Int) - 1 = (s' : Nat) := by push_cast; ring
    rw [e2]
    exact ih (by omega) (by calc _ = acc * ((s' + 1) * s'.descFactorial k) := by ring
      _ ≤ _ := h)

theorem waysToChoose_eq (n r : Nat) : waysToChoose n r = n.choose r := by
  unfold waysToChoose
  rw [Finset.card_powersetCard, Finset.card_range]

/-- The factor of one type, in natural numbers. -/
theorem multFactor_eq (m n r : Nat) (hr : 0 < r) (hrn : r ≤ n) :
    multFactor (m : Int) n r =
      if min r (n - r) = 0 then .ok (m : Int)
      else (do
        let a ← mulDown n ((n - 1 : Nat) : Int) (min r (n - r) - 1)
        let b ← mulDown ((min r (n - r) : Nat) : Int) ((min r (n - r) - 1 : Nat) : Int)
          (min r (n - r) - 1)
        mulInt32 m (a.tdiv b)) := by
  unfold multFactor
  have e1 : (n : Int) - r = ((n - r : Nat) : Int) := by omega
  have e2 : min (r : Int) ((n - r : Nat) : Int) = ((min r (n - r) : Nat) : Int) := by push_cast; rfl
  have e3 : max (r : Int) ((n - r : Nat) : Int) = ((max r (n - r) : Nat) : Int) := by push_cast; rfl
  rw [e1]
  dsimp only
  rw [e2, e3]
  by_cases h0 : min r (n - r) = 0
  · rw [if_pos h0, if_neg (by rw [h0]; simp)]
  · rw [if_neg h0, if_pos (by exact_mod_cast h0)]
    have e4 : (n : Int) - 1 = ((n - 1 : Nat) : Int) := by omega
    have e5 : (((n - 1 : Nat) : Int) - ((max r (n - r) : Nat) : Int)).toNat = min r (n - r) - 1 := by
      omega
    have e6 : ((min r (n - r) : Nat) : Int) - 1 = ((min r (n - r) - 1 : Nat) : Int) := by omega
    rw [e4, e5, e6]
    congr 1

theorem desc_eq {n k : Nat} (hn : 0 < n) (hk : 0 < k) :
    n * (n - 1).descFactorial (k - 1) = n.descFactorial k := by
  obtain ⟨n', rfl⟩ : ∃ n', n = n' + 1 := ⟨n - 1, by omega⟩
  obtain ⟨k', rfl⟩ : ∃ k', k = k' + 1 := ⟨k - 1, by omega⟩
  rw [Nat.succ_descFactorial_succ]
  rfl

theorem choose_min {n r : Nat} (h : r ≤ n) : n.choose (min r (n - r)) = n.choose r := by
  rcases le_total r (n - r) with h' | h'
  · rw [min_eq_left h']
  · rw [min_eq_right h', Nat.choose_symm h]

theorem tdiv_choose (n k : Nat) :
    ((n.descFactorial k : Nat) : Int).tdiv ((k.descFactorial k : Nat) : Int) = ((n.choose k : Nat) : Int) := by
  rw [Nat.descFactorial_self, Nat.choose_eq_descFactorial_div_factorial]
  rfl

theorem multFactor_ok {m n r : Nat} (hr : 0 < r) (hrn : r ≤ n) {v : Int}
    (h : multFactor (m : Int) n r = .ok v) : v = ((m * n.choose r : Nat) : Int) := by
  rw [multFactor_eq m n r hr hrn] at h
  rw [← choose_min hrn]
  split at h
  · next h0 => cases h; simp [h0]
  · next h0 =>
    rw [bind_ok] at h
    obtain ⟨a, ha, h⟩ := h
    rw [bind_ok] at h
    obtain ⟨b, hb, h⟩ := h
    have ha' := mulDown_ok (by omega) ha
    have hb' := mulDown_ok le_rfl hb
    rw [desc_eq (by omega) (by omega)] at ha' hb'
    rw [mulInt32_ok h, ha', hb', tdiv_choose]
    push_cast; rfl

theorem multFactor_total {m n r : Nat} (hr : 0 < r) (hrn : r ≤ n)
    (h1 : n.descFactorial (min r (n - r)) ≤ 2147483647) (h2 : m * n.choose r ≤ 2147483647) :
    multFactor (m : Int) n r = .ok ((m * n.choose r : Nat) : Int) := by
  rw [multFactor_eq m n r hr hrn]
  split
  · next h0 => rw [← choose_min hrn, h0]; simp
  · next h0 =>
    have hd : (min r (n - r)).descFactorial (min r (n - r)) ≤ 2147483647 := by
      refine le_trans ?_ h1
      exact Nat.descFactorial_le _ (by omega)
    obtain ⟨a, ha⟩ := mulDown_total (acc := n) (s := n - 1) (k := min r (n - r) - 1) (by omega)
      (by rw [desc_eq (by omega) (by omega)]; exact h1)
    obtain ⟨b, hb⟩ := mulDown_total (acc := min r (n - r)) (s := min r (n - r) - 1)
      (k := min r (n - r) - 1) le_rfl (by rw [desc_eq (by omega) (by omega)]; exact hd)
    have ha' := mulDown_ok (by omega) ha
    have hb' := mulDown_ok le_rfl hb
    rw [desc_eq (by omega) (by omega)] at ha' hb'
    rw [ha, ok_bind, hb, ok_bind, ha', hb', tdiv_choose, choose_min hrn]
    exact mulInt32_of_le h2

theorem multTypes_ok (rs ns : List Int) (hf : Enough rs ns) (m : Nat) (v : Int)
    (h : multTypes (m : Int) rs ns = .ok v) : v = ((m * siteWays rs ns : Nat) : Int) := by
  induction rs generalizing ns m with
  | nil => simp [multTypes] at h; simp [siteWays, ← h]
  | cons r rs ih =>
    cases ns with
    | nil => exact hf.elim
    | cons n ns =>
      obtain ⟨h0, hrn, hf⟩ := hf
      unfold multTypes at h
      simp only [siteWays, waysToChoose_eq]
      split at h
      · next hr =>
        dsimp only at h
        rw [bind_ok] at h
        obtain ⟨m', hm', h⟩ := h
        obtain ⟨r', rfl⟩ := Int.eq_ofNat_of_zero_le h0
        obtain ⟨n', rfl⟩ := Int.eq_ofNat_of_zero_le (h0.trans hrn)
        rw [multFactor_ok (by exact_mod_cast hr) (by exact_mod_cast hrn) hm'] at h
        rw [ih ns hf _ h]
        simp only [Int.toNat_natCast]
        push_cast; ring
      · next hr =>
        rw [ih ns hf m h]
        have : r.toNat = 0 := by omega
        simp [this]

theorem multLoop_ok {K : Type _} (ps : List (PEntry K)) (cs : List (CEntry K)) (hf : PatternFits ps cs)
    (m : Nat) (v : Int) (h : multLoop (m : Int) ps cs = .ok v) :
    v = ((m * patternWays ps cs : Nat) : Int) := by
  induction ps generalizing cs m with
  | nil => simp [multLoop] at h; simp [patternWays, ← h]
  | cons p ps ih =>
    cases cs with
    | nil => exact hf.elim
    | cons c cs =>
      obtain ⟨-, hE, hf⟩ := hf
      unfold multLoop at h
      rw [bind_ok] at h
      obtain ⟨t0, ht0, h⟩ := h
      rw [rd_ok] at ht0
      simp only [patternWays, ht0, Option.some.injEq]
      split at h
      · next h00 =>
        subst h00
        rw [bind_ok] at h
        obtain ⟨m', hm', h⟩ := h
        rw [multTypes_ok _ _ (hE ht0) m m' hm'] at h
        rw [ih cs hf _ h]
        simp [Nat.mul_assoc]
      · next h00 =>
        rw [ih cs hf m h]
        simp [h00]

/-! ### The property -/

/-- **C14** Whenever the multiplicity is computed without overflowing a 32 bit integer, it is the
number of ways of choosing the required particles. -/
theorem C14_multiplicity_partial {K : Type _} (ps : List (PEntry K)) (cs : List (CEntry K))
    (hf : PatternFits ps cs) (v : Int) (h : multiplicity ps cs = .ok v) :
    v = (patternWays ps cs : Int) := by
  have := multLoop_ok ps cs hf 1 v h
  simpa using this

/-- The falling products formed on the way fit in a 32 bit integer. -/
def FitsInt32 {K : Type _} (ps : List (PEntry K)) (cs : List (CEntry K)) : Prop :=
  ∀ (i : Nat) (p : PEntry K) (c : CEntry K), ps[i]? = some p → cs[i]? = some c →
    ∀ (j : Nat) (r n : Int), p.matchTypes.tail[j]? = some r → c.matchTypes.tail[j]? = some n →
      n.toNat.descFactorial (min r.toNat (n.toNat - r.toNat)) ≤ 2147483647

theorem siteWays_pos (rs ns : List Int) (hf : Enough rs ns) : 0 < siteWays rs ns := by
  induction rs generalizing ns with
  | nil => simp [siteWays]
  | cons r rs ih =>
    cases ns with
    | nil => exact hf.elim
    | cons n ns =>
      obtain ⟨h0, hrn, hf⟩ := hf
      simp only [siteWays, waysToChoose_eq]
      exact Nat.mul_pos (Nat.choose_pos (by omega)) (ih ns hf)

theorem patternWays_pos {K : Type _} (ps : List (PEntry K)) (cs : List (CEntry K))
    (hf : PatternFits ps cs) : 0 < patternWays ps cs := by
  induction ps generalizing cs with
  | nil => simp [patternWays]
  | cons p ps ih =>
    cases cs with
    | nil => exact hf.elim
    | cons c cs =>
      obtain ⟨-, hE, hf⟩ := hf
      unfold patternWays
      refine Nat.mul_pos ?_ (ih cs hf)
      split
      · next h => exact siteWays_pos _ _ (hE h)
      · exact Nat.one_pos

theorem multTypes_total (rs ns : List Int) (hf : Enough rs ns)
    (h32 : ∀ (j : Nat) (r n : Int), rs[j]? = some r → ns[j]? = some n →
      n.toNat.descFactorial (min r.toNat (n.toNat - r.toNat)) ≤ 2147483647)
    (m : Nat) (hw : m * siteWays rs ns ≤ 2147483647) :
    multTypes (m : Int) rs ns = .ok ((m * siteWays rs ns : Nat) : Int) := by
  induction rs generalizing ns m with
  | nil => simp [multTypes, siteWays]
  | cons r rs ih =>
    cases ns with
    | nil => exact hf.elim
    | cons n ns =>
      obtain ⟨h0, hrn, hf⟩ := hf
      have ih' := ih ns hf (fun j r n hr hn => h32 (j + 1) r n (by simpa using hr) (by simpa using hn))
      have hpos := siteWays_pos rs ns hf
      unfold multTypes
      simp only [siteWays, waysToChoose_eq] at hw ⊢
      split
      · next hr =>
        obtain ⟨r', rfl⟩ := Int.eq_ofNat_of_zero_le h0
        obtain ⟨n', rfl⟩ := Int.eq_ofNat_of_zero_le (h0.trans hrn)
        simp only [Int.toNat_natCast] at hw ⊢
        have hw1 : m * n'.choose r' ≤ 2147483647 := by
          calc m * n'.choose r' ≤ m * n'.choose r' * siteWays rs ns := Nat.le_mul_of_pos_right _ hpos
            _ = m * (n'.choose r' * siteWays rs ns) := by ring
            _ ≤ _ := hw
        have h := h32 0 r' n' rfl rfl
        simp only [Int.toNat_natCast] at h
        rw [multFactor_total (by exact_mod_cast hr) (by exact_mod_cast hrn) h hw1, ok_bind,
          ih' (m * n'.choose r') (by rw [Nat.mul_assoc]; exact hw), Nat.mul_assoc]
      · next hr =>
        have : r.toNat = 0 := by omega
        simp only [this, Nat.choose_zero_right, one_mul] at hw ⊢
        exact ih' m hw

theorem multLoop_total {K : Type _} (ps : List (PEntry K)) (cs : List (CEntry K))
    (hf : PatternFits ps cs) (h32 : FitsInt32 ps cs) (m : Nat)
    (hw : m * patternWays ps cs ≤ 2147483647) :
    multLoop (m : Int) ps cs = .ok ((m * patternWays ps cs : Nat) : Int) := by
  induction ps generalizing cs m with
  | nil => simp [multLoop, patternWays]
  | cons p ps ih =>
    cases cs with
    | nil => exact hf.elim
    | cons c cs =>
      obtain ⟨hne, hE, hf⟩ := hf
      have ih' := ih cs hf (fun i p c hp hc => h32 (i + 1) p c (by simpa using hp) (by simpa using hc))
      have hpos := patternWays_pos ps cs hf
      have hlen : 0 < p.matchTypes.length := List.length_pos_iff.2 hne
      unfold multLoop
      rw [rd_of_lt hlen, ok_bind]
      simp only [patternWays, List.getElem?_eq_getElem hlen, Option.some.injEq] at hw ⊢
      split
      · next h0 =>
        rw [if_pos h0] at hw
        have hw1 : m * siteWays p.matchTypes.tail c.matchTypes.tail ≤ 2147483647 := by
          calc _ ≤ m * siteWays p.matchTypes.tail c.matchTypes.tail * patternWays ps cs :=
                Nat.le_mul_of_pos_right _ hpos
            _ = m * (siteWays p.matchTypes.tail c.matchTypes.tail * patternWays ps cs) := by ring
            _ ≤ _ := hw
        rw [multTypes_total _ _ (hE (by rw [List.getElem?_eq_getElem hlen, h0]))
          (h32 0 p c rfl rfl) m hw1, ok_bind, ih' _ (by rw [Nat.mul_assoc]; exact hw), Nat.mul_assoc]
      · next h0 =>
        rw [if_neg h0, one_mul] at hw
        rw [one_mul]
        exact ih' m hw

/-- **C14** The multiplicity is computed, and is the number of ways, whenever that number and the
falling products `n (n-1) ...` on the way to it are below 2^31. -/
theorem C14_multiplicity_total_partial {K : Type _} (ps : List (PEntry K)) (cs : List (CEntry K))
    (hf : PatternFits ps cs) (h32 : FitsInt32 ps cs) (hw : patternWays ps cs ≤ 2147483647) :
    multiplicity ps cs = .ok (patternWays ps cs : Int) := by
  have := multLoop_total ps cs hf h32 1 (by simpa using hw)
  simpa [multiplicity] using this

/-- **C14** is false without the bound: 10 of 20 particles can be chosen in 184756 ways, a small
number, but the falling product on the way overflows. -/
theorem C14_overflow :
    ∃ (ps : List (PEntry ℚ)) (cs : List (CEntry ℚ)), PatternFits ps cs ∧
      patternWays ps cs = 184756 ∧ multiplicity ps cs = .error .overflow := by
  refine ⟨[⟨false, 0, ⟨0, 0, 0⟩, ⟨0, 0, 0⟩, [0, 10], [0, 0]⟩], [⟨0, 0, ⟨0, 0, 0⟩, [0, 20]⟩], ?_, ?_, ?_⟩
  · simp [PatternFits, Enough]
  · have : waysToChoose 20 10 = 184756 := by
      rw [waysToChoose_eq, Nat.choose_eq_descFactorial_div_factorial]
      decide +kernel
    have e : siteWays [10] [20] = 184756 := by
      rw [siteWays, siteWays, show Int.toNat 20 = 20 from rfl, show Int.toNat 10 = 10 from rfl, this, Nat.mul_one]
      exact fun _ _ _ _ h => by simp at h
    rw [patternWays, patternWays]
    · dsimp only
      simp only [List.getElem?_cons_zero, if_true, List.tail_cons, e, Nat.mul_one]
    · exact fun _ _ _ _ h => by simp at h
  · decide +kernel

/-- A pattern of two sites: two of four A and one of three B at the first, one of two A at the
second, a wildcard in between: 6 * 3 * 2 ways. -/
example : ∃ (ps : List (PEntry ℚ)) (cs : List (CEntry ℚ)), PatternFits ps cs ∧ FitsInt32 ps cs ∧
    patternWays ps cs = 36 ∧ multiplicity ps cs = .ok 36 := by
  refine ⟨[⟨false, 0, ⟨0, 0, 0⟩, ⟨0, 0, 0⟩, [0, 2, 1], [0, 0, 0]⟩,
    ⟨false, 1, ⟨-1, 0, 0⟩, ⟨0, 0, 0⟩, [1, 0, 0], [0, 0, 0]⟩,
    ⟨false, 1, ⟨1, 0, 0⟩, ⟨0, 0, 0⟩, [0, 1, 0], [0, 0, 0]⟩],
    [⟨0, 0, ⟨0, 0, 0⟩, [0, 4, 3]⟩, ⟨1, 1, ⟨-1, 0, 0⟩, [0, 0, 9]⟩, ⟨2, 1, ⟨1, 0, 0⟩, [0, 2, 7]⟩], ?_⟩
  have hf : PatternFits (K := ℚ) [⟨false, 0, ⟨0, 0, 0⟩, ⟨0, 0, 0⟩, [0, 2, 1], [0, 0, 0]⟩,
    ⟨false, 1, ⟨-1, 0, 0⟩, ⟨0, 0, 0⟩, [1, 0, 0], [0, 0, 0]⟩,
    ⟨false, 1, ⟨1, 0, 0⟩, ⟨0, 0, 0⟩, [0, 1, 0], [0, 0, 0]⟩]
    [⟨0, 0, ⟨0, 0, 0⟩, [0, 4, 3]⟩, ⟨1, 1, ⟨-1, 0, 0⟩, [0, 0, 9]⟩, ⟨2, 1, ⟨1, 0, 0⟩, [0, 2, 7]⟩] := by
    simp [PatternFits, Enough]
  refine ⟨hf, ?_, ?_, ?_⟩
  · intro i p c hp hc j r n hr hn
    have hi : i < 3 := (List.getElem?_eq_some_iff.1 hp).1
    have : i = 0 ∨ i = 1 ∨ i = 2 := by omega
    rcases this with rfl | rfl | rfl <;>
      simp only [List.getElem?_cons_zero, List.getElem?_cons_succ, Option.some.injEq] at hp hc <;>
      subst hp hc <;> simp only [List.tail_cons] at hr hn <;>
      (have hj : j < 2 := (List.getElem?_eq_some_iff.1 hr).1
       have : j = 0 ∨ j = 1 := by omega
       rcases this with rfl | rfl <;>
        simp only [List.getElem?_cons_zero, List.getElem?_cons_succ, Option.some.injEq] at hr hn <;>
        subst hr hn <;> decide)
  · decide +kernel
  · decide +kernel

end KMC
