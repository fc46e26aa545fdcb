import Verif.Props.Coordinates
import Verif.Lemmas.Mesh
import Verif.Model.RoundedFront
import Verif.Samples.Check

/-!
# Property C61 for lattices and processes as the front end stores them

The front end adds whole numbers to the points of the basis, and subtracts the first point of a process from all its points. The
sums and differences are rounded. The theorems here are about what is stored, and give conditions for `Robust` that can be
checked by hand.
-/

set_option linter.unusedSectionVars false

namespace KMC

open LatticeModel Spec

section
variable {K : Type} [Field K] [LinearOrder K] [IsStrictOrderedRing K] [FloorRing K] {fl : K → K} {u B : K}

/-- The stored version of a site's coordinate: the part in the cell is rounded, and the sum is. -/
def siteStore (fl : K → K) : Coord (K → K) :=
  let f : K → K := fun x => fl (fl (x - ⌊x⌋) + ⌊x⌋)
  ⟨f, f, f⟩

/-- The stored version of a component of a process point, when `c` is the component of the first point. -/
def centreStore (fl : K → K) (c : K) (x : K) : K := fl (fl (x + c) - fl c)

/-- C61: the sites that are stored are the exact ones, stored in this way. -/
theorem C61_sites {P : PyLattice K} (hb : P.BasisOk) : InDouble.sites fl P = P.sites.map (siteStore fl).conv := by
  unfold InDouble.sites PyLattice.sites
  simp only [List.map_flatMap, List.map_map]
  refine List.flatMap_congr fun i _ => List.flatMap_congr fun j _ => List.flatMap_congr fun k _ => List.map_congr_left fun b hbm => ?_
  obtain ⟨hx, hy, hz⟩ := hb b hbm
  have key : ∀ (a : K) (n : Nat), 0 ≤ a ∧ a < 1 → fl (fl a + n) = fl (fl (a + n - ⌊a + n⌋) + ⌊a + n⌋) := by
    intro a n ha
    have h1 : ⌊a + (n : K)⌋ = n := by
      rw [Int.floor_add_natCast, Int.floor_eq_zero_iff.2 ha, zero_add]
    rw [h1]
    simp
  show Coord.mk _ _ _ = Coord.mk _ _ _
  have ex := key b.x i hx
  have ey := key b.y j hy
  have ez := key b.z k hz
  congr 1

/-- C61: the error of the sites that are stored. -/
theorem C61_sites_error (h : Within fl u) (hB : 1 ≤ B) : Converts (5 * u * B) B (siteStore fl) := by
  have hu := h.nonneg
  have huB : u ≤ u * B := le_mul_of_one_le_right hu hB
  have key : ∀ v : K, |v| ≤ B → |fl (fl (v - ⌊v⌋) + ⌊v⌋) - v| ≤ 5 * u * B := by
    intro v hv
    have h1 := Int.floor_le v
    have h2 := Int.lt_floor_add_one v
    have e1 := h.mul_le (x := v - ⌊v⌋) (B := 1) (by rw [abs_le]; constructor <;> linarith)
    have hus := h.small
    have e2 := h.mul_le (x := fl (v - ⌊v⌋) + ⌊v⌋) (B := 2 * B) (by
      rw [abs_le] at e1 hv ⊢
      constructor <;> linarith)
    rw [abs_le] at e1 e2 ⊢
    constructor <;> linarith
  exact ⟨key, key, key⟩

/-- C61: the points of a process that are stored are the exact ones, stored in this way. -/
theorem C61_centre {c : Coord K} {coords l : List (Coord K)} (h : PyProc.centre (c :: coords) = .ok l) :
    InDouble.centre fl (c :: coords) = .ok (l.map (Coord.conv ⟨centreStore fl c.x, centreStore fl c.y, centreStore fl c.z⟩)) := by
  unfold PyProc.centre at h
  rw [← Except.ok.inj h]
  rw [List.map_map]
  refine congrArg Except.ok ?_
  refine List.map_congr_left fun x _ => ?_
  show Coord.mk _ _ _ = Coord.mk _ _ _
  unfold centreStore
  congr 1
  · show _ = fl (fl (x.x - c.x + c.x) - fl c.x)
    rw [sub_add_cancel]
    rfl
  · show _ = fl (fl (x.y - c.y + c.y) - fl c.y)
    rw [sub_add_cancel]
    rfl
  · show _ = fl (fl (x.z - c.z + c.z) - fl c.z)
    rw [sub_add_cancel]
    rfl

/-- C61: the error of the points that are stored. -/
theorem C61_centre_error (h : Within fl u) {c : Coord K} (hc : c.Bounded B) :
    Converts (5 * u * B) B ⟨centreStore fl c.x, centreStore fl c.y, centreStore fl c.z⟩ := by
  have hB : 0 ≤ B := le_trans (abs_nonneg _) hc.x
  have hu := h.nonneg
  have huB : 0 ≤ u * B := mul_nonneg hu hB
  have hus : u * B ≤ 1 / 8 * B := mul_le_mul_of_nonneg_right h.small hB
  have key : ∀ a : K, |a| ≤ B → ∀ v : K, |v| ≤ B → |centreStore fl a v - v| ≤ 5 * u * B := by
    intro a ha v hv
    unfold centreStore
    have e1 := h.mul_le ha
    have e2 := h.mul_le (x := v + a) (B := 2 * B) (by
      rw [abs_le] at ha hv ⊢
      constructor <;> linarith)
    have e3 := h.mul_le (x := fl (v + a) - fl a) (B := 2 * B) (by
      rw [abs_le] at ha hv e1 e2 ⊢
      constructor <;> linarith)
    rw [abs_le] at e1 e2 e3 ⊢
    constructor <;> linarith
  exact ⟨key _ hc.x, key _ hc.y, key _ hc.z⟩

/-- C61: an exact move vector from `a` to `b` of at most `B`, and the one calculated from the stored points. -/
theorem C61_move_error (h : Within fl u) {R : Coord (K → K)} (hR : Converts (5 * u * B) B R) {a b : Coord K} (ha : a.Bounded B)
    (hb : b.Bounded B) (hm : (b - a).Bounded B) : (b - a).Close (13 * u * B) (InDouble.sub fl (R.conv b) (R.conv a)) := by
  have hB : 0 ≤ B := le_trans (abs_nonneg _) ha.x
  have hu := h.nonneg
  have huB : 0 ≤ u * B := mul_nonneg hu hB
  have hus : u * B ≤ 1 / 8 * B := mul_le_mul_of_nonneg_right h.small hB
  have key : ∀ x y x' y' : K, |y - x| ≤ B → |x' - x| ≤ 5 * u * B → |y' - y| ≤ 5 * u * B → |fl (y' - x') - (y - x)| ≤ 13 * u * B := by
    intro x y x' y' hd hx hy
    have e1 := h.mul_le (x := y' - x') (B := 3 * B) (by
      rw [abs_le] at hd hx hy ⊢
      constructor <;> linarith)
    rw [abs_le] at hx hy e1 ⊢
    constructor <;> linarith
  exact ⟨key _ _ _ _ hm.x (hR.x _ ha.x) (hR.x _ hb.x), key _ _ _ _ hm.y (hR.y _ ha.y) (hR.y _ hb.y),
    key _ _ _ _ hm.z (hR.z _ ha.z) (hR.z _ hb.z)⟩

end
/-- C61: a condition that can be checked by hand. Let all coordinates be multiples of `1 / q` (tenths, thirds, ...), let the processes
reach at most `r` cells and let periodic axes have at least `2 r + 3` cells. Let `4 (r + 1) q²` be less than 100000, with a margin:
then different lengths differ by more than the tolerance. If whole numbers are stored exactly, the run from the stored sites, points
and moves in rounded arithmetic is the run in exact arithmetic. Missing are finer meshes
(coordinates such as 0.333 have `q = 1000`), and custom rates. -/
theorem C61_mesh_partial {fl : ℝ → ℝ} {u B : ℝ} {q r : Nat} {L : PyLattice ℝ} {env : Env ℝ} {negLog : ℝ → Option ℝ}
    {els : List (List String)} {pt : List (String × Nat)} {gs : List (Ingredients ℝ)} {P Q : Ingredients ℝ → Coord (ℝ → ℝ)}
    (hfl : Within fl u) (h : OnMesh q r B L gs) (hL : L.map.WF) (hb : L.BasisOk)
    (hμ : 400 * u * B < 1 / 1000000) (hD : (1 / 100000 + 400 * u * B) * (4 * (r + 1) * q ^ 2) < 1)
    (hP : ∀ g ∈ gs, Converts (5 * u * B) B (P g)) (hQ : ∀ g ∈ gs, Converts (13 * u * B) B (Q g))
    (hw : ∀ g ∈ gs, ∀ n : Nat, n ≤ r → (P g).x n = n ∧ (P g).y n = n ∧ (P g).z n = n)
    (hd : env.dist = euclid) (he : env.L = L.map) (hels : els.length = L.map.nSites) (hc : env.useCustomRates = false)
    (ds : List (Draws ℝ)) :
    InDouble.sites fl L = L.sites.map (siteStore fl).conv ∧
    (runAsComputed fl (InDouble.norm fl Real.sqrt) (siteStore fl) P Q env negLog L.sites els pt gs ds).map Sim.bare =
      (runWithExactPlaces fl env negLog L.sites els pt gs ds).map Sim.bare := by
  have hB : 1 ≤ B := by
    have := h.reach
    have : (0 : ℝ) ≤ r := by positivity
    linarith
  have huB : 0 ≤ u * B := mul_nonneg hfl.nonneg (by linarith)
  refine ⟨C61_sites hb, ?_⟩
  refine C61_euclidean_partial hfl (C61_sites_error hfl hB) hP hQ hB hd (he ▸ hL) (by rw [he, L.length_sites])
    (by rw [hels, L.length_sites]) hc (fun g hg => h.robustPoints hfl hB hμ hD hg (hP g hg) (hw g hg)) (fun procs hp => ?_) ds
  rw [he]
  exact h.robust hL hb (by linarith) (by linarith) hμ hD hp

/-! ### An example -/

namespace Sample

/-- Five cells in a ring with a site at 1/3. -/
noncomputable def thirds : PyLattice ℝ := ⟨[⟨1 / 3, 0, 0⟩], 5, 1, 1, true, false, false⟩

/-- An atom hops to the right. -/
noncomputable def hopThirds : Ingredients ℝ :=
  let c : Config ℝ := ⟨[⟨0, 0, 0⟩, ⟨1, 0, 0⟩], [["A"], ["B"]], [[0, 1, 0], [0, 0, 1]], ["*", "A", "B"], [("*", 0), ("A", 1), ("B", 2)],
    [0, 1], ["A", "B"], [⟨0, 0, 0⟩, ⟨1, 0, 0⟩], [[], []], [], [], 0, 0, 0⟩
  ⟨c, { c with elements := [["B"], ["A"]], types := [[0, 0, 1], [0, 1, 0]] }, [], 1, [0], [(0, ⟨1, 0, 0⟩), (1, ⟨-1, 0, 0⟩)], 0⟩

theorem thirds_onMesh : OnMesh 3 1 6 thirds [hopThirds] where
  q_pos := by norm_num
  r_pos := le_refl _
  basis := by
    intro b hb
    rw [List.mem_singleton.1 hb]
    exact ⟨⟨1, by norm_num⟩, ⟨0, by norm_num⟩, ⟨0, by norm_num⟩⟩
  room := ⟨fun _ => by show 2 * 1 + 3 ≤ 5; norm_num, (by intro h; cases h), by intro h; cases h⟩
  cells := by
    show ((5 : Nat) : ℝ) ≤ 6 ∧ ((1 : Nat) : ℝ) ≤ 6 ∧ ((1 : Nat) : ℝ) ≤ 6
    norm_num
  reach := by norm_num
  points := by
    have h0 : axisRange (0 : ℝ) ≤ 1 := by
      unfold axisRange truncInt
      simp
    have h1 : axisRange (1 : ℝ) ≤ 1 := by
      have hn : ¬ ((1 : ℝ) < 0) := by norm_num
      unfold axisRange truncInt
      rw [if_neg hn]
      simp
    intro g hg c hc
    rw [List.mem_singleton.1 hg] at hc
    have hc : c ∈ [(⟨0, 0, 0⟩ : Coord ℝ), ⟨1, 0, 0⟩] := hc
    rcases List.mem_cons.1 hc with rfl | hc
    · exact ⟨⟨⟨0, by norm_num⟩, ⟨0, by norm_num⟩, ⟨0, by norm_num⟩⟩, h0, h0, h0⟩
    · rw [List.mem_singleton.1 hc]
      exact ⟨⟨⟨3, by norm_num⟩, ⟨0, by norm_num⟩, ⟨0, by norm_num⟩⟩, h1, h0, h0⟩
  first := by
    intro g hg o ho
    rw [List.mem_singleton.1 hg] at ho
    exact (Option.some.inj ho).symm
  moves := by
    intro g hg m hm
    rw [List.mem_singleton.1 hg] at hm
    have hm : m ∈ [(0, (⟨1, 0, 0⟩ : Coord ℝ)), (1, ⟨-1, 0, 0⟩)] := hm
    rcases List.mem_cons.1 hm with rfl | hm
    · exact ⟨⟨⟨3, by norm_num⟩, ⟨0, by norm_num⟩, ⟨0, by norm_num⟩⟩, ⟨by norm_num, by norm_num, by norm_num⟩⟩
    · rw [List.mem_singleton.1 hm]
      exact ⟨⟨⟨-3, by norm_num⟩, ⟨0, by norm_num⟩, ⟨0, by norm_num⟩⟩, ⟨by norm_num, by norm_num, by norm_num⟩⟩

/-- Rounding that is always off by the largest error. -/
noncomputable def worst (x : ℝ) : ℝ := x * (1 + 1 / 2 ^ 53)

theorem worst_within : Within worst (1 / 2 ^ 53) := by
  refine ⟨by norm_num, by norm_num, fun x => ?_⟩
  unfold worst
  have : x * (1 + 1 / 2 ^ 53) - x = 1 / 2 ^ 53 * x := by ring
  rw [this, abs_mul, abs_of_pos (by norm_num)]

end Sample

/-- All conditions hold for hops between sites at 1/3, with an arithmetic that is always off. -/
example (env : Env ℝ) (hd : env.dist = euclid) (he : env.L = Sample.thirds.map) (hc : env.useCustomRates = false)
    (negLog : ℝ → Option ℝ) (els : List (List String)) (hels : els.length = 5) (pt : List (String × Nat)) (ds : List (Draws ℝ)) :
    InDouble.sites Sample.worst Sample.thirds ≠ Sample.thirds.sites ∧
    (runAsComputed Sample.worst (InDouble.norm Sample.worst Real.sqrt) (siteStore Sample.worst) (fun _ => ⟨id, id, id⟩)
        (fun _ => ⟨id, id, id⟩) env negLog Sample.thirds.sites els pt [Sample.hopThirds] ds).map Sim.bare =
      (runWithExactPlaces Sample.worst env negLog Sample.thirds.sites els pt [Sample.hopThirds] ds).map Sim.bare := by
  have hid : ∀ k : ℝ, 0 ≤ k → Converts k 6 (⟨id, id, id⟩ : Coord (ℝ → ℝ)) := fun k hk =>
    ⟨fun v _ => by simpa using hk, fun v _ => by simpa using hk, fun v _ => by simpa using hk⟩
  refine ⟨fun h => ?_, (C61_mesh_partial Sample.worst_within Sample.thirds_onMesh (by decide) ?_ ?_ ?_ (fun _ _ => hid _ (by norm_num))
    (fun _ _ => hid _ (by norm_num)) (fun _ _ _ _ => ⟨rfl, rfl, rfl⟩) hd he hels hc ds).2⟩
  · have h0 := congrArg (fun l => (l[0]?).map Coord.x) h
    have h1 : some (Sample.worst (Sample.worst (1 / 3) + ((0 : Nat) : ℝ))) = some (1 / 3 + ((0 : Nat) : ℝ)) := h0
    have h2 := Option.some.inj h1
    unfold Sample.worst at h2
    norm_num at h2
  · intro b hb
    rw [List.mem_singleton.1 hb]
    norm_num
  · norm_num
  · norm_num

end KMC
