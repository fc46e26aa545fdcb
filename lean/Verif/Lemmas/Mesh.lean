import Verif.Lemmas.Euclid
import Verif.Lemmas.Approx
import Verif.Lemmas.Translation
import Verif.Lemmas.Prepare
import Verif.Spec.Mesh

/-!
# Coordinates that are multiples of `1 / q`
-/

set_option linter.unusedSectionVars false

namespace KMC

open Spec LatticeMap

variable {q : Nat}

theorem Mesh.sub {x y : ℝ} (hx : Mesh q x) (hy : Mesh q y) : Mesh q (x - y) := by
  obtain ⟨n, hn⟩ := hx
  obtain ⟨m, hm⟩ := hy
  exact ⟨n - m, by push_cast; rw [sub_mul, hn, hm]⟩

theorem Mesh.add {x y : ℝ} (hx : Mesh q x) (hy : Mesh q y) : Mesh q (x + y) := by
  obtain ⟨n, hn⟩ := hx
  obtain ⟨m, hm⟩ := hy
  exact ⟨n + m, by push_cast; rw [add_mul, hn, hm]⟩

theorem Mesh.nat (n : Nat) : Mesh q (n : ℝ) := ⟨n * q, by push_cast; ring⟩

theorem Mesh.wrapAxis {x : ℝ} (hx : Mesh q x) (per : Bool) (rep : Nat) : Mesh q (wrapAxis per rep x) := by
  unfold KMC.wrapAxis wrapComp
  dsimp only
  split_ifs
  · exact hx.sub (Mesh.nat rep)
  · exact hx.add (Mesh.nat rep)
  · exact hx
  · exact hx

theorem Mesh.zero_or (hq : 0 < q) {x : ℝ} (hx : Mesh q x) : x = 0 ∨ 1 / (q : ℝ) ≤ |x| := by
  have hQ : (0 : ℝ) < q := by exact_mod_cast hq
  obtain ⟨n, hn⟩ := hx
  by_cases h0 : n = 0
  · left
    rw [h0, Int.cast_zero, mul_eq_zero] at hn
    exact hn.resolve_right hQ.ne'
  · right
    rw [div_le_iff₀ hQ]
    have h1 : (1 : ℝ) ≤ |(n : ℝ)| := by exact_mod_cast Int.one_le_abs h0
    rw [← hn, abs_mul, abs_of_pos hQ] at h1
    exact h1

theorem Coord.Mesh.sub {c d : Coord ℝ} (hc : c.Mesh q) (hd : d.Mesh q) : (c - d).Mesh q :=
  ⟨hc.x.sub hd.x, hc.y.sub hd.y, hc.z.sub hd.z⟩

theorem Coord.Mesh.add {c d : Coord ℝ} (hc : c.Mesh q) (hd : d.Mesh q) : (c + d).Mesh q :=
  ⟨hc.x.add hd.x, hc.y.add hd.y, hc.z.add hd.z⟩

theorem Coord.Mesh.wrap {c : Coord ℝ} (hc : c.Mesh q) (L : LatticeMap) : (L.wrap c).Mesh q := by
  rw [PyLattice.wrap_eq]
  exact ⟨hc.x.wrapAxis _ _, hc.y.wrapAxis _ _, hc.z.wrapAxis _ _⟩

theorem le_euclid (c : Coord ℝ) : |c.x| ≤ euclid c ∧ |c.y| ≤ euclid c ∧ |c.z| ≤ euclid c := by
  unfold euclid
  refine ⟨?_, ?_, ?_⟩ <;> apply Real.abs_le_sqrt
  · nlinarith [sq_nonneg c.y, sq_nonneg c.z]
  · nlinarith [sq_nonneg c.x, sq_nonneg c.z]
  · nlinarith [sq_nonneg c.x, sq_nonneg c.y]

/-- The length of a multiple of `1 / q` is zero or at least `1 / q`. -/
theorem Coord.Mesh.euclid_zero_or (hq : 0 < q) {c : Coord ℝ} (hc : c.Mesh q) : euclid c = 0 ∨ 1 / (q : ℝ) ≤ euclid c := by
  obtain ⟨hx, hy, hz⟩ := le_euclid c
  rcases hc.x.zero_or hq with h1 | h1
  · rcases hc.y.zero_or hq with h2 | h2
    · rcases hc.z.zero_or hq with h3 | h3
      · left
        unfold euclid
        rw [h1, h2, h3]
        simp
      · exact .inr (le_trans h3 hz)
    · exact .inr (le_trans h2 hy)
  · exact .inr (le_trans h1 hx)

/-- Two lengths up to `2 M` are equal or differ by at least `1 / (4 M q²)`. -/
theorem lengths_apart (hq : 0 < q) {M : ℝ} {c d : Coord ℝ} (hc : c.Mesh q) (hd : d.Mesh q) (hcM : c.Bounded M)
    (hdM : d.Bounded M) : euclid c - euclid d = 0 ∨ 1 ≤ |euclid c - euclid d| * (4 * M * q ^ 2) := by
  have hQ : (0 : ℝ) < q := by exact_mod_cast hq
  obtain ⟨a1, h1⟩ := hc.x
  obtain ⟨a2, h2⟩ := hc.y
  obtain ⟨a3, h3⟩ := hc.z
  obtain ⟨b1, g1⟩ := hd.x
  obtain ⟨b2, g2⟩ := hd.y
  obtain ⟨b3, g3⟩ := hd.z
  have ec : euclid c ^ 2 = c.x ^ 2 + c.y ^ 2 + c.z ^ 2 := Real.sq_sqrt (by positivity)
  have ed : euclid d ^ 2 = d.x ^ 2 + d.y ^ 2 + d.z ^ 2 := Real.sq_sqrt (by positivity)
  have nc : 0 ≤ euclid c := Real.sqrt_nonneg _
  have nd : 0 ≤ euclid d := Real.sqrt_nonneg _
  have lc := euclid_le hcM
  have ld := euclid_le hdM
  have key : (euclid c - euclid d) * (euclid c + euclid d) * q ^ 2
      = ((a1 ^ 2 + a2 ^ 2 + a3 ^ 2 - (b1 ^ 2 + b2 ^ 2 + b3 ^ 2) : Int) : ℝ) := by
    have : (euclid c - euclid d) * (euclid c + euclid d) * q ^ 2 = (euclid c ^ 2 - euclid d ^ 2) * q ^ 2 := by ring
    rw [this, ec, ed]
    push_cast
    rw [← h1, ← h2, ← h3, ← g1, ← g2, ← g3]
    ring
  by_cases h0 : a1 ^ 2 + a2 ^ 2 + a3 ^ 2 - (b1 ^ 2 + b2 ^ 2 + b3 ^ 2) = 0
  · left
    rw [h0, Int.cast_zero, mul_eq_zero] at key
    have hk := key.resolve_right (by positivity)
    rcases mul_eq_zero.1 hk with hk | hk
    · exact hk
    · have : euclid c = 0 := by linarith
      have : euclid d = 0 := by linarith
      linarith
  · right
    have h4 : (1 : ℝ) ≤ |((a1 ^ 2 + a2 ^ 2 + a3 ^ 2 - (b1 ^ 2 + b2 ^ 2 + b3 ^ 2) : Int) : ℝ)| := by
      exact_mod_cast Int.one_le_abs h0
    rw [← key, abs_mul, abs_mul, abs_of_nonneg (add_nonneg nc nd), abs_of_pos (by positivity : (0 : ℝ) < (q : ℝ) ^ 2)] at h4
    have h5 : |euclid c - euclid d| * (euclid c + euclid d) ≤ |euclid c - euclid d| * (4 * M) :=
      mul_le_mul_of_nonneg_left (by linarith) (abs_nonneg _)
    have h6 := mul_le_mul_of_nonneg_right h5 (by positivity : (0 : ℝ) ≤ (q : ℝ) ^ 2)
    calc (1 : ℝ) ≤ _ := h4
      _ ≤ _ := h6
      _ = _ := by ring

/-- One axis: a site within `r` cells, where the axis has at least `2 r + 3` cells if it is periodic. -/
theorem axis_room {per : Bool} {rep r c d : Nat} {a b : ℝ} (h : NearOnAxis per rep r c d) (hc : c < rep) (hd : d < rep)
    (ha : 0 ≤ a ∧ a < 1) (hb : 0 ≤ b ∧ b < 1) (hr : per = true → 2 * r + 3 ≤ rep) :
    |wrapAxis per rep (a + d - (b + c))| ≤ r + 1 ∧
      (per = true → 1 / 2 ≤ |a + d - (b + c) - rep / 2| ∧ 1 / 2 ≤ |a + d - (b + c) + rep / 2|) := by
  unfold NearOnAxis at h
  cases per
  · simp only [Bool.false_eq_true, if_false] at h
    refine ⟨?_, by simp⟩
    have h1 : |(d : ℝ) - c| ≤ r := by exact_mod_cast h
    unfold wrapAxis
    simp only [Bool.false_eq_true, if_false]
    rw [abs_le] at h1 ⊢
    constructor <;> linarith [h1.1, h1.2]
  · simp only [if_true] at h
    obtain ⟨m, hm⟩ := h
    have hr' := hr rfl
    have hR : 2 * (r : ℝ) + 3 ≤ rep := by exact_mod_cast hr'
    have hm' : m = 0 ∨ m = 1 ∨ m = -1 := by
      rw [abs_le] at hm
      have h1 : m < 2 := by
        by_contra hh
        have : 2 * (rep : Int) ≤ m * rep := mul_le_mul_of_nonneg_right (by omega) (by positivity)
        omega
      have h2 : -2 < m := by
        by_contra hh
        have : m * (rep : Int) ≤ -2 * rep := mul_le_mul_of_nonneg_right (by omega) (by positivity)
        omega
      omega
    have h1 : |(d : ℝ) - c + m * rep| ≤ r := by exact_mod_cast hm
    rw [abs_le] at h1
    unfold wrapAxis wrapComp
    simp only [if_true, one_mul]
    rcases hm' with rfl | rfl | rfl
    · simp only [Int.cast_zero, zero_mul, add_zero] at h1
      refine ⟨?_, fun _ => ⟨?_, ?_⟩⟩
      · rw [if_neg (by linarith), if_neg (by linarith), abs_le]
        constructor <;> linarith
      · rw [abs_of_neg (by linarith)]
        linarith
      · rw [abs_of_pos (by linarith)]
        linarith
    · simp only [Int.cast_one, one_mul] at h1
      refine ⟨?_, fun _ => ⟨?_, ?_⟩⟩
      · rw [if_neg (by linarith), if_pos (by linarith), abs_le]
        constructor <;> linarith
      · rw [abs_of_neg (by linarith)]
        linarith
      · rw [abs_of_neg (by linarith)]
        linarith
    · simp only [Int.cast_neg, Int.cast_one, neg_mul, one_mul] at h1
      refine ⟨?_, fun _ => ⟨?_, ?_⟩⟩
      · rw [if_pos (by linarith), abs_le]
        constructor <;> linarith
      · rw [abs_of_pos (by linarith)]
        linarith
      · rw [abs_of_pos (by linarith)]
        linarith

/-- One axis: two sites with the same relative component have the same component. -/
theorem axis_apart (hq : 0 < q) {δ : ℝ} (hδ : 2 * δ * q < 1) {per : Bool} {rep c d e : Nat} {a b f : ℝ} (hc : c < rep) (hd : d < rep)
    (he : e < rep) (ha : 0 ≤ a ∧ a < 1) (hb : 0 ≤ b ∧ b < 1) (hf : 0 ≤ f ∧ f < 1) (ma : Mesh q a) (mb : Mesh q b) (mf : Mesh q f) :
    SetApart δ (a + d) (f + e) (wrapAxis per rep (a + d - (b + c))) (wrapAxis per rep (f + e - (b + c))) := by
  have hQ : (0 : ℝ) < q := by exact_mod_cast hq
  have c1 : (c : ℝ) + 1 ≤ rep := by exact_mod_cast hc
  have d1 : (d : ℝ) + 1 ≤ rep := by exact_mod_cast hd
  have e1 : (e : ℝ) + 1 ≤ rep := by exact_mod_cast he
  have c0 : (0 : ℝ) ≤ c := by positivity
  have d0 : (0 : ℝ) ≤ d := by positivity
  have e0 : (0 : ℝ) ≤ e := by positivity
  have m1 := ((ma.add (Mesh.nat d)).sub (mb.add (Mesh.nat c))).wrapAxis per rep
  have m2 := ((mf.add (Mesh.nat e)).sub (mb.add (Mesh.nat c))).wrapAxis per rep
  rcases (m1.sub m2).zero_or hq with h | h
  · left
    have h := sub_eq_zero.1 h
    unfold wrapAxis at h
    cases per
    · simp only [Bool.false_eq_true, if_false] at h
      linarith
    · simp only [if_true] at h
      have := wrapComp_inj (by omega) ⟨by linarith, by linarith⟩ ⟨by linarith, by linarith⟩
        (by rw [abs_lt]; constructor <;> linarith) h
      linarith
  · right
    refine lt_of_lt_of_le ?_ h
    rw [lt_div_iff₀ hQ]
    exact hδ

theorem truncInt_of_bounds {y : ℝ} {k : Int} (hk : 0 ≤ k) (h1 : (k : ℝ) ≤ y) (h2 : y < k + 1) : truncInt y = k := by
  unfold truncInt
  have : (0 : ℝ) ≤ k := by exact_mod_cast hk
  rw [if_pos (by linarith)]
  exact Int.floor_eq_iff.2 ⟨h1, h2⟩

/-- The number of cells a point needs does not change, if whole numbers are stored exactly. -/
theorem range_same {fl R : ℝ → ℝ} {u B x : ℝ} (hq : 0 < q) (hfl : Within fl u) (hB : 1 ≤ B) (hμ : 400 * u * B < 1 / 1000000)
    (hT : (1 / 100000 + 400 * u * B) * q < 1) (hx : Mesh q x) (hb : |x| ≤ B) (hR : |R x - x| ≤ 5 * u * B)
    (hw : ∀ n : Nat, x = n → R x = x) : InDouble.axisRange fl (R x) = axisRange x := by
  have hQ : (0 : ℝ) < q := by exact_mod_cast hq
  have hu := hfl.nonneg
  have huB : 0 ≤ u * B := mul_nonneg hu (by linarith)
  have huB1 : u ≤ u * B := le_mul_of_one_le_right hu hB
  have hstep : 1 / 100000 + 400 * u * B < 1 / (q : ℝ) := by rwa [lt_div_iff₀ hQ]
  rw [abs_le] at hR
  unfold InDouble.axisRange axisRange
  -- the parts of `|x|`
  have hk0 : 0 ≤ ⌊|x|⌋ := Int.floor_nonneg.2 (abs_nonneg _)
  have hk1 := Int.floor_le |x|
  have hk2 := Int.lt_floor_add_one |x|
  have hmx : Mesh q |x| := by
    obtain ⟨n, hn⟩ := hx
    exact ⟨|n|, by rw [Int.cast_abs, ← hn, abs_mul, abs_of_pos hQ]⟩
  have hkm : Mesh q (⌊|x|⌋ : ℝ) := ⟨⌊|x|⌋ * q, by push_cast; ring⟩
  have hkm1 : Mesh q ((⌊|x|⌋ : ℝ) + 1) := hkm.add (by simpa using Mesh.nat (q := q) 1)
  generalize ⌊|x|⌋ = k at *
  have hup : 1 / (q : ℝ) ≤ k + 1 - |x| := by
    rcases (hkm1.sub hmx).zero_or hq with h | h
    · linarith
    · rwa [abs_of_pos (by linarith)] at h
  rcases (hmx.sub hkm).zero_or hq with hf | hf
  · -- a whole number
    by_cases hneg : x < 0
    · have hxk : x = -k := by
        rw [abs_of_neg hneg] at hf
        linarith
      have hkp : 1 ≤ k := by
        by_contra hh
        have : k = 0 := by omega
        rw [this] at hxk
        simp at hxk
        linarith
      have hkp' : (1 : ℝ) ≤ k := by exact_mod_cast hkp
      rw [if_pos hneg, if_pos (by linarith)]
      have e1 := hfl.mul_le (x := 99999 / 100000) (B := 1) (by rw [abs_of_pos (by norm_num)]; norm_num)
      rw [abs_le] at e1
      have e2 := hfl.mul_le (x := -1 * R x + fl (99999 / 100000)) (B := 3 * B) (by
        rw [abs_le] at hb ⊢
        constructor <;> linarith)
      rw [abs_le] at e2
      congr 1
      rw [truncInt_of_bounds (k := k) hk0 (by linarith) (by linarith), truncInt_of_bounds (k := k) hk0 (by linarith) (by linarith)]
    · have hx0 : 0 ≤ x := not_lt.1 hneg
      have hxk : x = k := by
        rw [abs_of_nonneg hx0] at hf
        linarith
      obtain ⟨n, rfl⟩ := Int.eq_ofNat_of_zero_le hk0
      rw [hw n (by rw [hxk]; simp), if_neg hneg, if_neg hneg]
  · -- not a whole number
    rw [abs_of_nonneg (by linarith)] at hf
    by_cases hneg : x < 0
    · rw [abs_of_neg hneg] at *
      have hkr : (0 : ℝ) ≤ k := by exact_mod_cast hk0
      rw [if_pos hneg, if_pos (by linarith)]
      have e1 := hfl.mul_le (x := 99999 / 100000) (B := 1) (by rw [abs_of_pos (by norm_num)]; norm_num)
      rw [abs_le] at e1
      have e2 := hfl.mul_le (x := -1 * R x + fl (99999 / 100000)) (B := 3 * B) (by
        rw [abs_le]
        constructor <;> linarith)
      rw [abs_le] at e2
      congr 1
      rw [truncInt_of_bounds (k := k + 1) (by omega) (by push_cast; linarith) (by push_cast; linarith),
        truncInt_of_bounds (k := k + 1) (by omega) (by push_cast; linarith) (by push_cast; linarith)]
    · have hx0 : 0 ≤ x := not_lt.1 hneg
      rw [abs_of_nonneg hx0] at *
      have hkr : (0 : ℝ) ≤ k := by exact_mod_cast hk0
      rw [if_neg hneg, if_neg (by linarith)]
      congr 1
      rw [truncInt_of_bounds (k := k) hk0 (by linarith) (by linarith), truncInt_of_bounds (k := k) hk0 (by linarith) (by linarith)]

/-- A component that needs at most `r` cells is at most `r + 1`. -/
theorem bound_of_axisRange {x : ℝ} {r : Nat} (h : axisRange x ≤ r) : |x| ≤ r + 1 := by
  unfold axisRange truncInt at h
  by_cases hneg : x < 0
  · rw [if_pos hneg, if_pos (by linarith)] at h
    rw [abs_of_neg hneg]
    have h1 := Int.lt_floor_add_one (-1 * x + 99999 / 100000)
    have h2 : ⌊-1 * x + 99999 / 100000⌋ ≤ (r : Int) := by omega
    have h3 : ((⌊-1 * x + 99999 / 100000⌋ : Int) : ℝ) ≤ r := by exact_mod_cast h2
    linarith
  · have hx0 : 0 ≤ x := not_lt.1 hneg
    rw [if_neg hneg, if_pos hx0] at h
    rw [abs_of_nonneg hx0]
    have h1 := Int.lt_floor_add_one x
    have h2 : ⌊x⌋ ≤ (r : Int) := by omega
    have h3 : ((⌊x⌋ : Int) : ℝ) ≤ r := by exact_mod_cast h2
    linarith

/-- The points of a process that has been made. -/
theorem mkProcess_points {dist : Coord ℝ → ℝ} {g : Ingredients ℝ} {p : Proc ℝ}
    (h : mkProcess dist g.first g.second g.info g.rate g.basisSites g.moves g.number = .ok p) :
    ∃ o, g.first.coords[0]? = some o ∧ (∀ e ∈ p.matchList, e.coord ∈ g.first.coords ∧ e.distance = dist (e.coord - o)) ∧
      ∀ r, 1 ≤ r → (∀ c ∈ g.first.coords, axisRange c.x ≤ r ∧ axisRange c.y ≤ r ∧ axisRange c.z ≤ r) → p.range ≤ r := by
  unfold mkProcess at h
  obtain ⟨us, hu, h⟩ := bind_ok.1 h
  obtain ⟨o, ho, h⟩ := bind_ok.1 h
  obtain ⟨entries, he, h⟩ := bind_ok.1 h
  obtain ⟨wm, hm, h⟩ := bind_ok.1 h
  have h : p = _ := (Except.ok.inj h).symm
  have hent : ∀ e ∈ entries, e.coord ∈ g.first.coords ∧ e.distance = dist (e.coord - o) := by
    intro e hem
    obtain ⟨i, hi⟩ := List.mem_iff_getElem?.1 hem
    obtain ⟨i', -, h6⟩ := mapMM_getElem?' he hi
    unfold entryOf at h6
    obtain ⟨c, q1, h6⟩ := bind_ok.1 h6
    obtain ⟨t, q2, h6⟩ := bind_ok.1 h6
    obtain ⟨w, q3, h6⟩ := bind_ok.1 h6
    have h6 : e = _ := (Except.ok.inj h6).symm
    rw [h6]
    exact ⟨List.mem_of_getElem? (rd_ok.1 q1), rfl⟩
  refine ⟨o, rd_ok.1 ho, ?_, ?_⟩
  · intro e hem
    rw [h] at hem
    obtain ⟨i, hi⟩ := List.mem_iff_getElem?.1 ((perm_sortP wm).mem_iff.1 hem)
    obtain ⟨e0, h1, h2, -⟩ := (setMove_loop _ _ _ hm).2.2 i e hi
    have := hent e0 (List.mem_of_getElem? h1)
    rw [h2]
    exact this
  · intro r hr hc
    rw [h]
    show entries.foldl (fun r e => growRange r e.coord) 1 ≤ r
    have key : ∀ (l : List (PEntry ℝ)) (n : Nat), (∀ e ∈ l, e.coord ∈ g.first.coords) → n ≤ r →
        l.foldl (fun r e => growRange r e.coord) n ≤ r := by
      intro l
      induction l with
      | nil => exact fun n _ hn => hn
      | cons e l ih =>
        intro n hl hn
        refine ih _ (fun e' h' => hl e' (List.mem_cons_of_mem _ h')) ?_
        obtain ⟨c1, c2, c3⟩ := hc _ (hl e List.mem_cons_self)
        unfold growRange
        exact max_le c3 (max_le c2 (max_le c1 hn))
    exact key _ _ (fun e h => (hent e h).1) hr

theorem mapMM_mem {α β : Type} {f : α → M β} : ∀ {l : List α} {m : List β}, mapMM f l = .ok m → ∀ b ∈ m, ∃ a ∈ l, f a = .ok b := by
  intro l m h b hb
  obtain ⟨i, hi⟩ := List.mem_iff_getElem?.1 hb
  obtain ⟨a, h1, h2⟩ := mapMM_getElem?' h hi
  exact ⟨a, List.mem_of_getElem? h1, h2⟩

theorem maxRange_le {procs : List (Proc ℝ)} {r : Nat} (hr : 1 ≤ r) (h : ∀ p ∈ procs, p.range ≤ r) : Interactions.maxRange procs ≤ r := by
  unfold Interactions.maxRange
  have key : ∀ (l : List (Proc ℝ)) (n : Nat), (∀ p ∈ l, p.range ≤ r) → n ≤ r → l.foldl (fun m p => max m p.range) n ≤ r := by
    intro l
    induction l with
    | nil => exact fun n _ hn => hn
    | cons p l ih =>
      intro n hl hn
      exact ih _ (fun e' h' => hl e' (List.mem_cons_of_mem _ h')) (max_le hn (hl p List.mem_cons_self))
  exact key _ _ h hr

theorem ClearOf.zero {μ : ℝ} (h : μ < 1 / 100000) : ClearOf μ 0 := .inl (by rw [abs_zero]; linarith)

variable {r : Nat} {B u μ δ : ℝ} {P : PyLattice ℝ} {gs : List (Ingredients ℝ)}

/-- Lengths are clear of the tolerance. -/
theorem OnMesh.lengths (hq : 0 < q) (hμ : μ < 1 / 1000000) (hD : (1 / 100000 + μ) * (4 * (r + 1) * q ^ 2) < 1) {c d : Coord ℝ}
    (hc : c.Mesh q) (hd : d.Mesh q) (bc : c.Bounded ((r : ℝ) + 1)) (bd : d.Bounded ((r : ℝ) + 1)) : ClearOf μ (euclid c - euclid d) := by
  have hQ : (0 : ℝ) < q := by exact_mod_cast hq
  rcases lengths_apart hq hc hd bc bd with h | h
  · rw [h]
    exact .zero (by linarith)
  · right
    have hpos : (0 : ℝ) < 4 * (r + 1) * q ^ 2 := by positivity
    exact lt_of_mul_lt_mul_right (lt_of_lt_of_le hD h) hpos.le

theorem OnMesh.step (hq : 0 < q) (hμ0 : 0 ≤ μ) (hD : (1 / 100000 + μ) * (4 * (r + 1) * q ^ 2) < 1) : (1 / 100000 + μ) * q < 1 := by
  have h1 : (1 : ℝ) ≤ q := by exact_mod_cast hq
  have h0 : (0 : ℝ) ≤ r := by positivity
  refine lt_of_le_of_lt (mul_le_mul_of_nonneg_left ?_ (by linarith)) hD
  nlinarith

theorem OnMesh.component (hq : 0 < q) (hμ : μ < 1 / 1000000) (hT : (1 / 100000 + μ) * q < 1) {x : ℝ} (hx : Mesh q x) : ClearOf μ x := by
  have hQ : (0 : ℝ) < q := by exact_mod_cast hq
  rcases hx.zero_or hq with h | h
  · rw [h]
    exact .zero (by linarith)
  · right
    exact lt_of_lt_of_le ((lt_div_iff₀ hQ).2 hT) h

/-- A lattice and processes on a mesh leave room. -/
theorem OnMesh.robust (h : OnMesh q r B P gs) (hP : P.map.WF) (hb : P.BasisOk) (hδ : 0 ≤ δ) (hδμ : 2 * δ ≤ μ) (hμ : μ < 1 / 1000000)
    (hD : (1 / 100000 + μ) * (4 * (r + 1) * q ^ 2) < 1) {procs : List (Proc ℝ)}
    (hp : mapMM (fun g : Ingredients ℝ => mkProcess euclid g.first g.second g.info g.rate g.basisSites g.moves g.number) gs = .ok procs) :
    Robust δ μ B P.map euclid P.sites (Interactions.maxRange procs) procs := by
  have hq := h.q_pos
  have hT := OnMesh.step hq (by linarith) hD
  have hQ : (0 : ℝ) < q := by exact_mod_cast hq
  have hr : Interactions.maxRange procs ≤ r := by
    refine maxRange_le h.r_pos fun p hpm => ?_
    obtain ⟨g, hg, hgp⟩ := mapMM_mem hp p hpm
    obtain ⟨o, -, -, h3⟩ := mkProcess_points hgp
    exact h3 r h.r_pos fun c hc => (h.points g hg c hc).2
  generalize hrr : Interactions.maxRange procs = r' at hr
  have hrR : (r' : ℝ) ≤ r := by exact_mod_cast hr
  -- the sites
  have site : ∀ (n : Nat) (c : Coord ℝ), P.sites[n]? = some c → n < P.map.nSites ∧ ∃ b ∈ P.basis,
      c = ⟨b.x + (P.map.cellA n : ℝ), b.y + (P.map.cellB n : ℝ), b.z + (P.map.cellC n : ℝ)⟩ := by
    intro n c hc
    have hn : n < P.map.nSites := by rw [← P.length_sites]; exact (List.getElem?_eq_some_iff.1 hc).1
    obtain ⟨b, h1, h2⟩ := P.sites_getElem? hP hn
    rw [hc, Option.some.injEq] at h2
    exact ⟨hn, b, List.mem_of_getElem? h1, h2⟩
  have mesh : ∀ (n : Nat) (c : Coord ℝ), P.sites[n]? = some c → c.Mesh q := by
    intro n c hc
    obtain ⟨-, b, hbm, rfl⟩ := site n c hc
    have := h.basis b hbm
    exact ⟨this.x.add (Mesh.nat _), this.y.add (Mesh.nat _), this.z.add (Mesh.nat _)⟩
  have near : ∀ (i a : Nat) (ci ca : Coord ℝ), P.sites[i]? = some ci → P.sites[a]? = some ca → a ∈ P.map.neighbourIndices i r' →
      (P.map.wrap (ca - ci)).Bounded ((r : ℝ) + 1) ∧ (OffHalf δ P.map.perA P.map.repA (ca.x - ci.x) ∧
        OffHalf δ P.map.perB P.map.repB (ca.y - ci.y) ∧ OffHalf δ P.map.perC P.map.repC (ca.z - ci.z)) := by
    intro i a ci ca hi ha hia
    obtain ⟨hin, b, hbm, rfl⟩ := site i ci hi
    obtain ⟨han, d, hdm, rfl⟩ := site a ca ha
    obtain ⟨-, n1, n2, n3⟩ := (mem_neighbourIndices P.map hP i a r' hin).1 hia
    have vi := P.map.addr_valid hP i hin
    have va := P.map.addr_valid hP a han
    obtain ⟨bx, bv, bz⟩ := hb b hbm
    obtain ⟨dx, dy, dz⟩ := hb d hdm
    obtain ⟨r1, r2, r3⟩ := h.room
    obtain ⟨x1, x2⟩ := axis_room n1 vi.1 va.1 dx bx (fun hh => by have := r1 hh; show _ ≤ P.repA; omega)
    obtain ⟨y1, y2⟩ := axis_room n2 vi.2.1 va.2.1 dy bv (fun hh => by have := r2 hh; show _ ≤ P.repB; omega)
    obtain ⟨z1, z2⟩ := axis_room n3 vi.2.2.1 va.2.2.1 dz bz (fun hh => by have := r3 hh; show _ ≤ P.repC; omega)
    have off : ∀ (per : Bool) (rep : Nat) (t : ℝ), (per = true → 1 / 2 ≤ |t - rep / 2| ∧ 1 / 2 ≤ |t + rep / 2|) → OffHalf δ per rep t := by
      intro per rep t ht hper
      obtain ⟨t1, t2⟩ := ht hper
      constructor <;> linarith
    rw [PyLattice.wrap_eq]
    exact ⟨⟨le_trans x1 (by linarith), le_trans y1 (by linarith), le_trans z1 (by linarith)⟩, off _ _ _ x2, off _ _ _ y2, off _ _ _ z2⟩
  refine ⟨?_, h.cells, ?_, ?_, ?_, ?_⟩
  · intro c hc
    obtain ⟨n, hn⟩ := List.mem_iff_getElem?.1 hc
    obtain ⟨hnl, b, hbm, rfl⟩ := site n c hn
    have v := P.map.addr_valid hP n hnl
    obtain ⟨bx, bv, bz⟩ := hb b hbm
    obtain ⟨c1, c2, c3⟩ := h.cells
    have key : ∀ (t : ℝ) (m rep : Nat), 0 ≤ t ∧ t < 1 → m < rep → (rep : ℝ) ≤ B → |t + (m : ℝ)| ≤ B := by
      intro t m rep ht hm hrep
      have : (m : ℝ) + 1 ≤ rep := by exact_mod_cast hm
      have m0 : (0 : ℝ) ≤ m := by positivity
      rw [abs_of_nonneg (by linarith)]
      linarith
    exact ⟨key _ _ _ bx v.1 c1, key _ _ _ bv v.2.1 c2, key _ _ _ bz v.2.2.1 c3⟩
  · intro i a ci ca hi ha hia
    exact (near i a ci ca hi ha hia).2
  · intro i a b ci ca cb hi ha hb' hia hib
    exact OnMesh.lengths hq hμ hD (((mesh b cb hb').sub (mesh i ci hi)).wrap _) (((mesh a ca ha).sub (mesh i ci hi)).wrap _)
      (near i b ci cb hi hb' hib).1 (near i a ci ca hi ha hia).1
  · intro i a b ci ca cb hi ha hb' _ _
    obtain ⟨hin, bi, hbi, rfl⟩ := site i ci hi
    obtain ⟨han, ba, hba, rfl⟩ := site a ca ha
    obtain ⟨hbn, bb, hbb, rfl⟩ := site b cb hb'
    have vi := P.map.addr_valid hP i hin
    have va := P.map.addr_valid hP a han
    have vb := P.map.addr_valid hP b hbn
    obtain ⟨x1, x2, x3⟩ := hb bi hbi
    obtain ⟨y1, y2, y3⟩ := hb ba hba
    obtain ⟨z1, z2, z3⟩ := hb bb hbb
    have hδq : 2 * δ * q < 1 := by nlinarith
    rw [PyLattice.wrap_eq, PyLattice.wrap_eq]
    exact ⟨axis_apart hq hδq vi.1 va.1 vb.1 y1 x1 z1 (h.basis _ hba).x (h.basis _ hbi).x (h.basis _ hbb).x,
      axis_apart hq hδq vi.2.1 va.2.1 vb.2.1 y2 x2 z2 (h.basis _ hba).y (h.basis _ hbi).y (h.basis _ hbb).y,
      axis_apart hq hδq vi.2.2.1 va.2.2.1 vb.2.2.1 y3 x3 z3 (h.basis _ hba).z (h.basis _ hbi).z (h.basis _ hbb).z⟩
  · intro p hpm e he i a ci ca hi ha hia
    obtain ⟨g, hg, hgp⟩ := mapMM_mem hp p hpm
    obtain ⟨o, ho, h2, -⟩ := mkProcess_points hgp
    obtain ⟨hec, hed⟩ := h2 e he
    obtain ⟨em, e1, e2, e3⟩ := h.points g hg _ hec
    have ho0 : e.coord - o = e.coord := by
      rw [h.first g hg o ho]
      show Coord.mk _ _ _ = _
      simp
    rw [ho0] at hed
    have hw := ((mesh a ca ha).sub (mesh i ci hi)).wrap P.map
    have hbd := (near i a ci ca hi ha hia).1
    refine ⟨?_, ?_⟩
    · rw [hed]
      exact OnMesh.lengths hq hμ hD hw em hbd ⟨bound_of_axisRange e1, bound_of_axisRange e2, bound_of_axisRange e3⟩
    · have := hw.sub em
      exact ⟨OnMesh.component hq hμ hT this.x, OnMesh.component hq hμ hT this.y, OnMesh.component hq hμ hT this.z⟩

/-- So do the points of the processes. -/
theorem OnMesh.robustPoints {fl : ℝ → ℝ} {R : Coord (ℝ → ℝ)} (h : OnMesh q r B P gs) (hfl : Within fl u) (hB : 1 ≤ B)
    (hμ : 400 * u * B < 1 / 1000000) (hD : (1 / 100000 + 400 * u * B) * (4 * (r + 1) * q ^ 2) < 1) {g : Ingredients ℝ} (hg : g ∈ gs)
    (hR : Converts (5 * u * B) B R) (hw : ∀ n : Nat, n ≤ r → R.x n = n ∧ R.y n = n ∧ R.z n = n) :
    RobustPoints fl R (40 * u * B) (400 * u * B) B euclid g := by
  have hq := h.q_pos
  have huB : 0 ≤ u * B := mul_nonneg hfl.nonneg (by linarith)
  have hT := OnMesh.step hq (by linarith : 0 ≤ 400 * u * B) hD
  have hQ : (0 : ℝ) < q := by exact_mod_cast hq
  have hstep : 1 / 100000 + 400 * u * B < 1 / (q : ℝ) := by rwa [lt_div_iff₀ hQ]
  have bnd : ∀ c ∈ g.first.coords, c.Bounded ((r : ℝ) + 1) := fun c hc => by
    obtain ⟨-, e1, e2, e3⟩ := h.points g hg c hc
    exact ⟨bound_of_axisRange e1, bound_of_axisRange e2, bound_of_axisRange e3⟩
  have bndB : ∀ c ∈ g.first.coords, c.Bounded B := fun c hc =>
    ⟨le_trans (bnd c hc).x h.reach, le_trans (bnd c hc).y h.reach, le_trans (bnd c hc).z h.reach⟩
  refine ⟨bndB, fun m hm => (h.moves g hg m hm).2, ?_, ?_, ?_, ?_⟩
  · intro o a b ho ha hb
    have h0 := h.first g hg o ho
    have e : ∀ c : Coord ℝ, c - o = c := by
      intro c
      rw [h0]
      show Coord.mk _ _ _ = _
      simp
    rw [e, e]
    exact OnMesh.lengths hq hμ hD (h.points g hg b hb).1 (h.points g hg a ha).1 (bnd b hb) (bnd a ha)
  · intro a ha b hb
    have key : ∀ x y : ℝ, Mesh q x → Mesh q y → SetApart (40 * u * B) x y x y := by
      intro x y hx hy
      rcases (hx.sub hy).zero_or hq with h1 | h1
      · exact .inl (by linarith)
      · exact .inr (by linarith)
    have ma := (h.points g hg a ha).1
    have mb := (h.points g hg b hb).1
    exact ⟨key _ _ ma.x mb.x, key _ _ ma.y mb.y, key _ _ ma.z mb.z⟩
  · intro c hc
    obtain ⟨m, e1, e2, e3⟩ := h.points g hg c hc
    have whole : ∀ (x : ℝ) (n : Nat), axisRange x ≤ r → x = n → n ≤ r := by
      intro x n hx hn
      rw [hn] at hx
      unfold axisRange truncInt at hx
      have hn0 : ¬ ((n : ℝ) < 0) := by simp
      rw [if_neg hn0, if_pos (by positivity), Int.floor_natCast] at hx
      simpa using hx
    refine ⟨range_same hq hfl hB hμ hT m.x (bndB c hc).x (hR.x _ (bndB c hc).x) ?_,
      range_same hq hfl hB hμ hT m.y (bndB c hc).y (hR.y _ (bndB c hc).y) ?_,
      range_same hq hfl hB hμ hT m.z (bndB c hc).z (hR.z _ (bndB c hc).z) ?_⟩
    · intro n hn
      rw [hn]
      exact (hw n (whole _ n e1 hn)).1
    · intro n hn
      rw [hn]
      exact (hw n (whole _ n e2 hn)).2.1
    · intro n hn
      rw [hn]
      exact (hw n (whole _ n e3 hn)).2.2
  · intro m hm a ha b hb
    have hmesh := (h.points g hg b hb).1.sub ((h.points g hg a ha).1.add (h.moves g hg m hm).1)
    rcases hmesh.euclid_zero_or hq with h1 | h1
    · left
      linarith
    · right
      linarith

end KMC
