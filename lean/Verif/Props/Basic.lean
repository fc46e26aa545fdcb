import Verif.Lemmas.Coord

/-!
# Properties C06 and C07: order laws of coordinates and type buckets
-/

namespace KMC

/-! ## C06 Coordinates are totally ordered -/

section
variable {K : Type _} [LinearOrder K]

/-- C06. `==` is equality of the three components and `!=` its negation. -/
theorem C06_equality (a b : Coord K) :
    (Coord.eqOp a b = true ↔ a.x = b.x ∧ a.y = b.y ∧ a.z = b.z) ∧
    (Coord.neOp a b = true ↔ ¬ (a.x = b.x ∧ a.y = b.y ∧ a.z = b.z)) := by
  have h : Coord.eqOp a b = true ↔ a.x = b.x ∧ a.y = b.y ∧ a.z = b.z := by
    unfold Coord.eqOp Coord.lt
    rcases lt_trichotomy a.x b.x with hx | hx | hx
    · simp [hx, hx.ne]
    · rcases lt_trichotomy a.y b.y with hy | hy | hy
      · simp [hx, hy, hy.ne]
      · rcases lt_trichotomy a.z b.z with hz | hz | hz
        · simp [hx, hy, hz, hz.ne]
        · simp [hx, hy, hz]
        · simp [hx, hy, hz, hz.ne']
      · simp [hx, hy, hy.ne', not_lt.2 hy.le]
    · simp [hx, hx.ne', not_lt.2 hx.le]
  refine ⟨h, ?_⟩
  unfold Coord.neOp
  rw [← h]
  cases Coord.eqOp a b <;> simp

omit [LinearOrder K] in
/-- C06. The components by number: 0, 1 and 2 are x, y and z. Other numbers are taken as the nearest one of these. -/
theorem C06_components (a : Coord K) :
    a.get 0 = a.x ∧ a.get 1 = a.y ∧ a.get 2 = a.z ∧ (∀ i : Int, a.get i = a.get (max 0 (min 2 i))) := by
  refine ⟨rfl, rfl, rfl, fun i => ?_⟩
  unfold Coord.get
  rcases lt_or_ge i 0 with h | h
  · rw [min_eq_right (by omega), max_eq_left (by omega), if_pos (by omega), if_pos (by omega)]
  · rcases lt_or_ge i 2 with h2 | h2
    · rw [min_eq_right (by omega), max_eq_right (by omega)]
    · rw [min_eq_left (by omega), if_neg (by omega), if_neg (by omega), max_eq_right (by omega), if_neg (by omega),
        if_neg (by omega)]

/-- C06. The order is the lexicographic one on (x, y, z). -/
theorem C06_lexicographic (a b : Coord K) :
    Coord.lt a b = true ↔
      a.x < b.x ∨ (a.x = b.x ∧ (a.y < b.y ∨ (a.y = b.y ∧ a.z < b.z))) := by
  unfold Coord.lt
  rcases lt_trichotomy a.x b.x with hx | hx | hx
  · simp [hx]
  · rcases lt_trichotomy a.y b.y with hy | hy | hy
    · simp [hx, hy]
    · simp [hx, hy]
    · simp [hx, hy, not_lt.2 hy.le, hy.ne']
  · simp [hx, not_lt.2 hx.le, hx.ne']

/-- C06. `<` is a strict total order: irreflexive, transitive, and exactly one of
`a < b`, `a == b`, `b < a` holds. -/
theorem C06_strict_total_order :
    (∀ a : Coord K, Coord.lt a a = false) ∧
    (∀ a b c : Coord K, Coord.lt a b = true → Coord.lt b c = true → Coord.lt a c = true) ∧
    (∀ a b : Coord K,
      (Coord.lt a b = true ∧ Coord.eqOp a b = false ∧ Coord.lt b a = false) ∨
      (Coord.lt a b = false ∧ Coord.eqOp a b = true ∧ Coord.lt b a = false) ∨
      (Coord.lt a b = false ∧ Coord.eqOp a b = false ∧ Coord.lt b a = true)) := by
  refine ⟨fun a => by simp [Coord.lt], ?_, ?_⟩
  · intro a b c h1 h2
    rw [C06_lexicographic] at *
    rcases h1 with h1 | ⟨e1, h1⟩ <;> rcases h2 with h2 | ⟨e2, h2⟩
    · exact Or.inl (h1.trans h2)
    · exact Or.inl (e2 ▸ h1)
    · exact Or.inl (e1 ▸ h2)
    · refine Or.inr ⟨e1.trans e2, ?_⟩
      rcases h1 with h1 | ⟨f1, h1⟩ <;> rcases h2 with h2 | ⟨f2, h2⟩
      · exact Or.inl (h1.trans h2)
      · exact Or.inl (f2 ▸ h1)
      · exact Or.inl (f1 ▸ h2)
      · exact Or.inr ⟨f1.trans f2, h1.trans h2⟩
  · intro a b
    have asymm : Coord.lt a b = true → Coord.lt b a = true → False := by
      rw [C06_lexicographic, C06_lexicographic]
      rintro (h1 | ⟨e1, h1⟩) (h2 | ⟨e2, h2⟩)
      · exact lt_asymm h1 h2
      · exact h1.ne e2.symm
      · exact h2.ne e1.symm
      · rcases h1 with h1 | ⟨f1, h1⟩ <;> rcases h2 with h2 | ⟨f2, h2⟩
        · exact lt_asymm h1 h2
        · exact h1.ne f2.symm
        · exact h2.ne f1.symm
        · exact lt_asymm h1 h2
    unfold Coord.eqOp
    cases h1 : Coord.lt a b <;> cases h2 : Coord.lt b a <;> simp
    exact asymm h1 h2

end

example : Coord.lt (⟨1, 2, 3⟩ : Coord ℚ) ⟨1, 3, 0⟩ = true ∧ Coord.lt (⟨1, 3, 0⟩ : Coord ℚ) ⟨2, 0, 0⟩ = true ∧
    Coord.eqOp (⟨1, 2, 3⟩ : Coord ℚ) ⟨1, 2, 3⟩ = true := by decide +kernel

/-! ## C07 Bucket comparison laws -/

/-- C07. Matching means: no type is required more often than present. Different sizes are an error. -/
theorem C07_match (a b : Bucket) :
    (a.length ≠ b.length → Bucket.matches? a b = .error .exception) ∧
    (a.length = b.length → ∃ r, Bucket.matches? a b = .ok r ∧
      (r = true ↔ ∀ (i : Nat) (x y : Int), a[i]? = some x → b[i]? = some y → x ≤ y)) := by
  unfold Bucket.matches?
  refine ⟨fun h => by simp [h], fun h => ⟨Bucket.matchLoop a b, by simp [h], Bucket.matchLoop_iff a b⟩⟩

/-- C07. Matching is reflexive and transitive. -/
theorem C07_match_preorder :
    (∀ a : Bucket, Bucket.matches? a a = .ok true) ∧
    (∀ a b c : Bucket, Bucket.matches? a b = .ok true → Bucket.matches? b c = .ok true →
      Bucket.matches? a c = .ok true) := by
  have key : ∀ a b : Bucket, Bucket.matches? a b = .ok true ↔ a.length = b.length ∧
      ∀ (i : Nat) (x y : Int), a[i]? = some x → b[i]? = some y → x ≤ y := by
    intro a b
    by_cases h : a.length = b.length
    · obtain ⟨r, hr, hr'⟩ := (C07_match a b).2 h
      rw [hr, ← hr']
      simp [h]
    · rw [(C07_match a b).1 h]; simp [h]
  constructor
  · intro a; rw [key]
    refine ⟨rfl, fun i x y hx hy => ?_⟩
    rw [hx] at hy; simp at hy; omega
  · intro a b c
    rw [key, key, key]
    rintro ⟨l1, h1⟩ ⟨l2, h2⟩
    refine ⟨l1.trans l2, fun i x z hx hz => ?_⟩
    have hi : i < b.length := by
      rw [← l1]; exact (List.getElem?_eq_some_iff.1 hx).1
    have hb : b[i]? = some b[i] := List.getElem?_eq_getElem hi
    exact (h1 i x _ hx hb).trans (h2 i _ z hb hz)

/-- C07. Adding non-negative amounts to a site never breaks a match, and addition is slot by slot. -/
theorem C07_add_monotone (a b d : Bucket) (hd : ∀ v ∈ d, 0 ≤ v) (hl : d.length = b.length)
    (h : Bucket.matches? a b = .ok true) :
    ∃ s, Bucket.add b d = .ok s ∧ Bucket.matches? a s = .ok true ∧
      ∀ (i : Nat) (x y : Int), b[i]? = some x → d[i]? = some y → s[i]? = some (x + y) := by
  refine ⟨Bucket.addLoop b d, by simp [Bucket.add, hl], ?_, fun i x y hx hy =>
    Bucket.getElem?_addLoop b d i x y hx hy⟩
  by_cases hab : a.length = b.length
  · have hs : a.length = (Bucket.addLoop b d).length := by
      rw [Bucket.length_addLoop b d hl.symm, hab]
    obtain ⟨r, hr, hr'⟩ := (C07_match a b).2 hab
    obtain ⟨r2, hr2, hr2'⟩ := (C07_match a _).2 hs
    rw [hr] at h
    simp only [Except.ok.injEq] at h
    rw [hr2, hr2'.2]
    intro i x z hx hz
    have hi : i < b.length := by rw [← hab]; exact (List.getElem?_eq_some_iff.1 hx).1
    have hb : b[i]? = some b[i] := List.getElem?_eq_getElem hi
    have hdi : d[i]? = some (d[i]'(by omega)) := List.getElem?_eq_getElem (by omega)
    rw [Bucket.getElem?_addLoop b d i _ _ hb hdi] at hz
    have h1 := (hr'.1 h) i x _ hx hb
    have h2 := hd (d[i]'(by omega)) (List.getElem_mem _)
    simp at hz
    omega
  · rw [(C07_match a b).1 hab] at h; simp at h

/-- C07. On buckets of equal size the lexicographic comparison is a total order whose equality is
identity of the buckets, `lessThan` is its strict part, and different sizes are always an error. -/
theorem C07_total_order :
    (∀ a b : Bucket, a.length ≠ b.length →
      Bucket.greaterOrEqual a b = .error .exception ∧ Bucket.lessThan a b = .error .exception ∧
      Bucket.add a b = .error .exception ∧ Bucket.identical a b = false) ∧
    (∀ a : Bucket, Bucket.greaterOrEqual a a = .ok true) ∧
    (∀ a b : Bucket, a.length = b.length →
      Bucket.greaterOrEqual a b = .ok true ∨ Bucket.greaterOrEqual b a = .ok true) ∧
    (∀ a b : Bucket, Bucket.greaterOrEqual a b = .ok true → Bucket.greaterOrEqual b a = .ok true →
      Bucket.identical a b = true) ∧
    (∀ a b c : Bucket, Bucket.greaterOrEqual a b = .ok true → Bucket.greaterOrEqual b c = .ok true →
      Bucket.greaterOrEqual a c = .ok true) ∧
    (∀ a b : Bucket, a.length = b.length →
      (Bucket.lessThan a b = .ok true ↔ Bucket.greaterOrEqual a b = .ok false)) ∧
    (∀ a b : Bucket, Bucket.identical a b = true ↔ a = b) := by
  have ge : ∀ a b : Bucket, Bucket.greaterOrEqual a b = .ok true ↔
      a.length = b.length ∧ Bucket.geLoop a b = true := by
    intro a b
    unfold Bucket.greaterOrEqual
    by_cases h : a.length = b.length <;> simp [h]
  refine ⟨?_, ?_, ?_, ?_, ?_, ?_, Bucket.identical_iff⟩
  · intro a b h
    simp [Bucket.greaterOrEqual, Bucket.lessThan, Bucket.add, Bucket.identical, h]
  · intro a; rw [ge]; exact ⟨rfl, Bucket.geLoop_refl a⟩
  · intro a b h
    rw [ge, ge]
    rcases Bucket.geLoop_total a b with h' | h'
    · exact Or.inl ⟨h, h'⟩
    · exact Or.inr ⟨h.symm, h'⟩
  · intro a b
    rw [ge, ge, Bucket.identical_iff]
    rintro ⟨l, h1⟩ ⟨_, h2⟩
    exact Bucket.geLoop_antisymm a b l h1 h2
  · intro a b c
    rw [ge, ge, ge]
    rintro ⟨l1, h1⟩ ⟨l2, h2⟩
    exact ⟨l1.trans l2, Bucket.geLoop_trans a b c l1 l2 h1 h2⟩
  · intro a b h
    unfold Bucket.lessThan Bucket.greaterOrEqual
    simp [h]

/-- C07. The lexicographic comparison really is lexicographic: at the first slot where two buckets
differ, the larger value decides. -/
theorem C07_lexicographic (pre a b : List Int) (x y : Int) (hxy : x ≠ y) (hl : a.length = b.length) :
    Bucket.greaterOrEqual (pre ++ x :: a) (pre ++ y :: b) = .ok (decide (y < x)) := by
  unfold Bucket.greaterOrEqual
  simp only [List.length_append, List.length_cons, hl, ne_eq, not_true_eq_false, if_false,
    Except.ok.injEq]
  induction pre with
  | nil =>
    simp only [List.nil_append, Bucket.geLoop]
    rcases lt_or_gt_of_ne hxy with h | h
    · simp [h, h.le]
    · simp [h, h.le]
  | cons p ps ih => simpa [Bucket.geLoop] using ih

example : Bucket.matches? [0, 1, 0] [0, 2, 3] = .ok true ∧ Bucket.matches? [0, 3, 0] [0, 2, 3] = .ok false ∧
    Bucket.add [0, 2, 3] [0, 0, 1] = .ok [0, 2, 4] ∧ Bucket.matches? [0, 1] [0, 2, 3] = .error .exception ∧
    Bucket.greaterOrEqual [0, 2, 3] [0, 1, 7] = .ok true := by decide

end KMC
