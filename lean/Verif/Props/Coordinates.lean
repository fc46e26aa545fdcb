import Verif.Lemmas.ApproxProcess
import Verif.Lemmas.Euclid
import Verif.Lemmas.Double
import Verif.Samples.Check

/-!
# Property C61: coordinates in double precision

`Model/RoundedGeometry` has the calculations with coordinates and distances in rounded arithmetic, as the program does them. The
theorems here compare it with exact coordinates: as long as the geometry leaves room for the errors, nothing else changes, and
three witnesses show what happens when it does not.
-/

set_option linter.unusedSectionVars false

namespace KMC

open LatticeModel

variable {K : Type} [Field K] [LinearOrder K] [IsStrictOrderedRing K] [FloorRing K]

/-- A model is made and run: the geometry is exact, rates and times are rounded. -/
def runWithExactPlaces (fl : K → K) (env : Env K) (negLog : K → Option K) (coords : List (Coord K)) (els : List (List String))
    (pt : List (String × Nat)) (gs : List (Ingredients K)) (ds : List (Draws K)) : M (Sim K) := do
  let cfg ← Config.mk' coords els pt
  let procs ← mapMM (fun g => mkProcess env.dist g.first g.second g.info g.rate g.basisSites g.moves g.number) gs
  let s ← Rounded.init fl env cfg procs
  Rounded.run fl env negLog ds s

/-- The same in rounded arithmetic throughout, with the computed length `len`, from stored coordinates: `R` is how those of the sites
are stored, `P g` how those of the process `g` are and `Q g` how its move vectors are. -/
def runAsComputed (fl : K → K) (len : Coord K → K) (R : Coord (K → K)) (P Q : Ingredients K → Coord (K → K)) (env : Env K)
    (negLog : K → Option K) (coords : List (Coord K)) (els : List (List String)) (pt : List (String × Nat)) (gs : List (Ingredients K))
    (ds : List (Draws K)) : M (Sim K) := do
  let cfg ← Config.mk' (coords.map R.conv) els pt
  let procs ← mapMM (fun g => InDouble.mkProcess fl len (g.first.conv (P g)) g.second g.info g.rate g.basisSites
    (g.moves.map fun m => (m.1, (Q g).conv m.2)) g.number) gs
  let s ← InDouble.init fl { env with dist := len } cfg procs
  InDouble.run fl { env with dist := len } negLog ds s

variable {fl : K → K} {u B ε μ : K} {len : Coord K → K} {R : Coord (K → K)}
  {P Q : Ingredients K → Coord (K → K)} {env : Env K} {negLog : K → Option K} {coords : List (Coord K)}
  {els : List (List String)} {pt : List (String × Nat)} {gs : List (Ingredients K)}

theorem mk'_both (R : Coord (K → K)) (coords : List (Coord K)) (els : List (List String)) (pt : List (String × Nat)) :
    Both (fun c d : Config K => c.bare = d.bare ∧ d.coords = coords.map R.conv ∧ c.coords = coords ∧
        c.matchLists.length = els.length ∧ c.types.length = els.length)
      (Config.mk' coords els pt) (Config.mk' (coords.map R.conv) els pt) := by
  unfold Config.mk'
  rw [List.length_map]
  cases mapMM (fun i => do let e ← rd els i; rd e 0) (List.range coords.length) with
  | error e => exact .inl ⟨e, rfl, rfl⟩
  | ok first =>
    rw [ok_bind, ok_bind]
    cases loopM (fun (a : List String) (p : Nat × String) => wr a p.1 p.2) ((List.range coords.length).zip first)
        (List.replicate els.length "") with
    | error e => exact .inl ⟨e, rfl, rfl⟩
    | ok aie =>
      rw [ok_bind, ok_bind]
      cases Config.typeNamesOf pt with
      | error e => exact .inl ⟨e, rfl, rfl⟩
      | ok names =>
        rw [ok_bind, ok_bind]
        cases ht : mapMM (Config.bucketOf pt names.length) els with
        | error e => exact .inl ⟨e, rfl, rfl⟩
        | ok types =>
          refine .inr ⟨_, _, rfl, rfl, ?_, rfl, rfl, ?_, mapMM_length ht⟩
          · simp [Config.bare, Function.comp_def]
          · simp

/-- C61: the errors of the coordinates and distances do not change anything else. Let every operation have a relative error of at
most `u`, let no coordinate be larger than `B`, let coordinates be stored with an error of at most `5 u B`, move
vectors with one of at most `13 u B`, and let the computed
lengths be within `ε` of the exact ones. If the geometry leaves room for errors of `40 u B` in relative coordinates and of
`2 ε + 4 u / 100000` around the tolerance (`Robust`, `RobustPoints`, which are about exact coordinates, apart from the number of
cells), the run with computed coordinates and the run with exact coordinates fail alike or reach
states that agree in everything but coordinates and distances: types, identities, lists, rates, times, events. Models with custom
rates are not included, since custom rates are functions of the coordinates. -/
theorem C61_same_partial (hfl : Within fl u) (hR : Converts (5 * u * B) B R) (hP : ∀ g ∈ gs, Converts (5 * u * B) B (P g))
    (hQ : ∀ g ∈ gs, Converts (13 * u * B) B (Q g)) (hL : env.L.WF) (hn : coords.length = env.L.nSites) (he : els.length = coords.length)
    (hc : env.useCustomRates = false)
    (hg : ∀ g ∈ gs, RobustPoints fl (P g) (40 * u * B) μ B env.dist g)
    (hr : ∀ procs, mapMM (fun g : Ingredients K => mkProcess env.dist g.first g.second g.info g.rate g.basisSites g.moves g.number) gs
        = .ok procs → Robust (40 * u * B) μ B env.L env.dist coords (Interactions.maxRange procs) procs)
    (hlen : LengthClose (40 * u * B) ε (3 * B) env.dist len) (hε : 40 * u * B ≤ ε) (hμ : 2 * ε + 4 * u * (1 / 100000) ≤ μ)
    (ds : List (Draws K)) :
    (runAsComputed fl len R P Q env negLog coords els pt gs ds).map Sim.bare =
      (runWithExactPlaces fl env negLog coords els pt gs ds).map Sim.bare := by
  have key : Both (AlikeSim fl) (runWithExactPlaces fl env negLog coords els pt gs ds)
      (runAsComputed fl len R P Q env negLog coords els pt gs ds) := by
    unfold runWithExactPlaces runAsComputed
    refine (mk'_both R coords els pt).bind fun c d ⟨h1, h2, h3, h4, h5⟩ => ?_
    have hps : Both (List.Forall₂ (ProcTwins fl ε))
        (mapMM (fun g : Ingredients K => mkProcess env.dist g.first g.second g.info g.rate g.basisSites g.moves g.number) gs)
        (mapMM (fun g : Ingredients K => InDouble.mkProcess fl len (g.first.conv (P g)) g.second g.info g.rate g.basisSites
          (g.moves.map fun m => (m.1, (Q g).conv m.2)) g.number) gs) := by
      refine Both.mapMM₂ (R := fun g g' => g = g' ∧ g ∈ gs) (List.forall₂_same.2 fun g hg => ⟨rfl, hg⟩) ?_
      rintro g g' ⟨rfl, hgm⟩
      exact mkProcess_both hfl (hP g hgm) (hQ g hgm) (hg g hgm) hlen hε hμ
    rcases hps with ⟨e, h6, h7⟩ | ⟨ps, qs, h6, h7, h8⟩
    · exact .inl ⟨e, by rw [h6]; rfl, by rw [h7]; rfl⟩
    · rw [h6, h7, ok_bind, ok_bind]
      have hRob := hr ps h6
      have hbare : ps.map Proc.bare = qs.map Proc.bare :=
        List.forall₂_eq_eq_eq ▸ (List.forall₂_map_left_iff.2 (List.forall₂_map_right_iff.2 (h8.imp fun _ _ h => h.bare)))
      have hclose : PointsClose ε ps qs := by
        intro j p q k e e' hj hj' hk hk'
        rcases forall₂_get? h8 j with ⟨h9, -⟩ | ⟨a, b, h9, h10, h11⟩
        · rw [hj] at h9
          simp at h9
        · rw [hj] at h9
          rw [hj'] at h10
          obtain rfl := Option.some.inj h9
          obtain rfl := Option.some.inj h10
          exact h11.points k e e' hk hk'
      have hsee := hRob.seesAlike hfl hR hL hn hlen hε hμ hclose
      rw [← h2, ← h3] at hsee
      refine Both.bind (R := AlikeSim fl) ?_ fun s t hst => ?_
      · exact init_both (env := env) (env' := { env with dist := len }) hc hc rfl rfl rfl h1 hbare hsee (n := els.length) h4 h5
          (by rw [h3, he])
      · exact run_both (env := env) (env' := { env with dist := len }) hc hc rfl rfl hst ds
  rcases key with ⟨e, h1, h2⟩ | ⟨a, b, h1, h2, h3⟩
  · rw [h1, h2]
  · rw [h1, h2]
    exact congrArg Except.ok h3.bare.symm

/-- C61: `double`s have a relative error of at most `1 / 2 ^ 53`. -/
theorem C61_double {fl : ℚ → ℚ} (h : Rounding fl) : Within fl (1 / 2 ^ 53) := by
  refine ⟨by norm_num, by norm_num, fun x => ?_⟩
  have := h.error x
  rw [div_mul_eq_mul_div, one_mul]
  exact this

/-- C61: coordinates that are stored by rounding them. -/
theorem C61_rounded (h : Within fl u) {k : K} (hk : 1 ≤ k) (hB : 0 ≤ B) : Converts (k * u * B) B ⟨fl, fl, fl⟩ := by
  have : 0 ≤ u * B := mul_nonneg h.nonneg hB
  have key : ∀ v, |v| ≤ B → |fl v - v| ≤ k * u * B := fun v hv => le_trans (h.mul_le hv) (by nlinarith)
  exact ⟨key, key, key⟩

/-- C61: the computed length of a computed relative coordinate, with its six further roundings, is within `164 u B` of the exact
Euclidean length. -/
theorem C61_length {fl : ℝ → ℝ} {u B : ℝ} (h : Within fl u) :
    LengthClose (40 * u * B) (164 * u * B) (3 * B) euclid (InDouble.norm fl Real.sqrt) :=
  length_close h

/-- C61: the first theorem with Euclidean lengths: a margin of `400 u B` is enough, about `5 * 10 ^ -14` times the number of cells. -/
theorem C61_euclidean_partial {fl : ℝ → ℝ} {u B : ℝ} {env : Env ℝ} {negLog : ℝ → Option ℝ} {coords : List (Coord ℝ)}
    {gs : List (Ingredients ℝ)} {R : Coord (ℝ → ℝ)} {P Q : Ingredients ℝ → Coord (ℝ → ℝ)} (hfl : Within fl u)
    (hR : Converts (5 * u * B) B R) (hP : ∀ g ∈ gs, Converts (5 * u * B) B (P g))
    (hQ : ∀ g ∈ gs, Converts (13 * u * B) B (Q g)) (hB : 1 ≤ B) (hd : env.dist = euclid) (hL : env.L.WF)
    (hn : coords.length = env.L.nSites) (he : els.length = coords.length) (hc : env.useCustomRates = false)
    (hg : ∀ g ∈ gs, RobustPoints fl (P g) (40 * u * B) (400 * u * B) B euclid g)
    (hr : ∀ procs, mapMM (fun g : Ingredients ℝ => mkProcess euclid g.first g.second g.info g.rate g.basisSites g.moves g.number) gs
        = .ok procs → Robust (40 * u * B) (400 * u * B) B env.L euclid coords (Interactions.maxRange procs) procs)
    (ds : List (Draws ℝ)) :
    (runAsComputed fl (InDouble.norm fl Real.sqrt) R P Q env negLog coords els pt gs ds).map Sim.bare =
      (runWithExactPlaces fl env negLog coords els pt gs ds).map Sim.bare := by
  have huB : 0 ≤ u * B := mul_nonneg hfl.nonneg (by linarith)
  have hu : u ≤ u * B := le_mul_of_one_le_right hfl.nonneg hB
  rw [← hd] at hg hr
  refine C61_same_partial hfl hR hP hQ hL hn he hc hg hr (hd ▸ C61_length hfl) (by linarith) ?_ ds
  linarith

/-! ### An example with room -/

namespace Sample

/-- The double next to 0.3. -/
def b03 : ℚ := 5404319552844595 / 2 ^ 54

/-- Sites at 0.3 in five cells. -/
def fiveSites : List (Coord ℚ) := (List.range 5).map fun (i : Nat) => ⟨i + b03, 0, 0⟩

def fiveRing : Env ℚ := Sample.env (chain 5 true [b03])

/-- Stored as `double`s. -/
def rnd : Coord (ℚ → ℚ) := ⟨toDouble, toDouble, toDouble⟩

/-- A hop to the right. -/
def hopRight : M (Ingredients ℚ) := do
  let a ← line [0, 1] ["A", "B"]
  let b ← line [0, 1] ["B", "A"]
  return ⟨a, b, [], 2, [0], [(0, ⟨1, 0, 0⟩), (1, ⟨-1, 0, 0⟩)], 0⟩

theorem dist1_close {δ B : ℚ} : LengthClose δ (3 * δ) B dist1 dist1 := by
  intro c c' _ h
  have e : ∀ a b : ℚ, |b - a| ≤ δ → |a| - δ ≤ |b| ∧ |b| ≤ |a| + δ := by
    intro a b hab
    have h1 := abs_abs_sub_abs_le b a
    have h2 := abs_le.1 (le_trans h1 hab)
    constructor <;> linarith [h2.1, h2.2]
  unfold dist1
  have hx := e _ _ h.x
  have hy := e _ _ h.y
  have hz := e _ _ h.z
  rw [abs_le]
  constructor <;> linarith [hx.1, hx.2, hy.1, hy.2, hz.1, hz.2]

theorem fiveSites_get {i : Nat} {c : Coord ℚ} (h : fiveSites[i]? = some c) : i ∈ List.range 5 ∧ c = ⟨i + b03, 0, 0⟩ := by
  unfold fiveSites at h
  rw [List.getElem?_map, Option.map_eq_some_iff] at h
  obtain ⟨j, h1, h2⟩ := h
  obtain ⟨h3, h4⟩ := List.getElem?_eq_some_iff.1 h1
  rw [List.length_range] at h3
  rw [List.getElem_range] at h4
  subst h4
  exact ⟨List.mem_range.2 h3, h2.symm⟩

instance (δ : ℚ) (p : Bool) (r : Nat) (d : ℚ) : Decidable (OffHalf δ p r d) := by unfold OffHalf; infer_instance
instance (δ x y d e : ℚ) : Decidable (SetApart δ x y d e) := by unfold SetApart; infer_instance
instance (μ x : ℚ) : Decidable (ClearOf μ x) := by unfold ClearOf; infer_instance
instance (μ : ℚ) (c : Coord ℚ) : Decidable (c.Clear μ) :=
  decidable_of_iff (ClearOf μ c.x ∧ ClearOf μ c.y ∧ ClearOf μ c.z) ⟨fun h => ⟨h.1, h.2.1, h.2.2⟩, fun h => ⟨h.x, h.y, h.z⟩⟩
instance (B : ℚ) (c : Coord ℚ) : Decidable (c.Bounded B) :=
  decidable_of_iff (|c.x| ≤ B ∧ |c.y| ≤ B ∧ |c.z| ≤ B) ⟨fun h => ⟨h.1, h.2.1, h.2.2⟩, fun h => ⟨h.x, h.y, h.z⟩⟩

/-- The error of relative coordinates, and the margin. -/
def d5 : ℚ := 40 * (1 / 2 ^ 53) * 6
def m5 : ℚ := 2 * (3 * d5) + 4 * (1 / 2 ^ 53) * (1 / 100000)

theorem five_robust (r : Nat) (procs : List (Proc ℚ))
    (hp : ∀ p ∈ procs, ∀ e ∈ p.matchList, (e.distance, e.coord) ∈ [((0 : ℚ), (⟨0, 0, 0⟩ : Coord ℚ)), (1, ⟨1, 0, 0⟩)]) :
    Robust d5 m5 6 fiveRing.L dist1 fiveSites r procs where
  size := by decide +kernel
  cells := by decide +kernel
  half := by
    intro i a ci ca hi ha _
    obtain ⟨h1, rfl⟩ := fiveSites_get hi
    obtain ⟨h2, rfl⟩ := fiveSites_get ha
    have key : ∀ i ∈ List.range 5, ∀ a ∈ List.range 5, OffHalf d5 true 5 ((a : ℚ) + b03 - (i + b03)) := by decide +kernel
    exact ⟨key i h1 a h2, ⟨(by intro h; cases h), (by intro h; cases h)⟩⟩
  distances := by
    intro i a b ci ca cb hi ha hb _ _
    obtain ⟨h1, rfl⟩ := fiveSites_get hi
    obtain ⟨h2, rfl⟩ := fiveSites_get ha
    obtain ⟨h3, rfl⟩ := fiveSites_get hb
    have key : ∀ i ∈ List.range 5, ∀ a ∈ List.range 5, ∀ b ∈ List.range 5,
        ClearOf m5 (dist1 (fiveRing.L.wrap ((⟨b + b03, 0, 0⟩ : Coord ℚ) - ⟨i + b03, 0, 0⟩)) -
          dist1 (fiveRing.L.wrap ((⟨a + b03, 0, 0⟩ : Coord ℚ) - ⟨i + b03, 0, 0⟩))) := by decide +kernel
    exact key i h1 a h2 b h3
  apart := by
    intro i a b ci ca cb hi ha hb _ _
    obtain ⟨h1, rfl⟩ := fiveSites_get hi
    obtain ⟨h2, rfl⟩ := fiveSites_get ha
    obtain ⟨h3, rfl⟩ := fiveSites_get hb
    have key : ∀ i ∈ List.range 5, ∀ a ∈ List.range 5, ∀ b ∈ List.range 5,
        SetApart d5 (a + b03) (b + b03) (fiveRing.L.wrap ((⟨a + b03, 0, 0⟩ : Coord ℚ) - ⟨i + b03, 0, 0⟩)).x
          (fiveRing.L.wrap ((⟨b + b03, 0, 0⟩ : Coord ℚ) - ⟨i + b03, 0, 0⟩)).x := by decide +kernel
    exact ⟨key i h1 a h2 b h3, .inl rfl, .inl rfl⟩
  points := by
    intro p hpm e he i a ci ca hi ha _
    obtain ⟨h1, rfl⟩ := fiveSites_get hi
    obtain ⟨h2, rfl⟩ := fiveSites_get ha
    have key : ∀ t ∈ [((0 : ℚ), (⟨0, 0, 0⟩ : Coord ℚ)), (1, ⟨1, 0, 0⟩)], ∀ i ∈ List.range 5, ∀ a ∈ List.range 5,
        ClearOf m5 (dist1 (fiveRing.L.wrap ((⟨a + b03, 0, 0⟩ : Coord ℚ) - ⟨i + b03, 0, 0⟩)) - t.1) ∧
          (fiveRing.L.wrap ((⟨a + b03, 0, 0⟩ : Coord ℚ) - (⟨i + b03, 0, 0⟩ : Coord ℚ)) - t.2 : Coord ℚ).Clear m5 := by decide +kernel
    exact key _ (hp p hpm e he) i h1 a h2

instance (g : Ingredients ℚ) : Decidable (RobustPoints toDouble ⟨toDouble, toDouble, toDouble⟩ d5 m5 6 dist1 g) :=
  decidable_of_iff ((∀ c ∈ g.first.coords, c.Bounded 6) ∧ (∀ m ∈ g.moves, m.2.Bounded 6) ∧
      (∀ o ∈ g.first.coords[0]?, ∀ a ∈ g.first.coords, ∀ b ∈ g.first.coords, ClearOf m5 (dist1 (b - o) - dist1 (a - o))) ∧
      (∀ a ∈ g.first.coords, ∀ b ∈ g.first.coords,
        SetApart d5 a.x b.x a.x b.x ∧ SetApart d5 a.y b.y a.y b.y ∧ SetApart d5 a.z b.z a.z b.z) ∧
      (∀ c ∈ g.first.coords, InDouble.axisRange toDouble (toDouble c.x) = axisRange c.x ∧
        InDouble.axisRange toDouble (toDouble c.y) = axisRange c.y ∧ InDouble.axisRange toDouble (toDouble c.z) = axisRange c.z) ∧
      (∀ m ∈ g.moves, ∀ a ∈ g.first.coords, ∀ b ∈ g.first.coords,
        dist1 (b - (a + m.2)) < 1 / 1000000 - m5 ∨ 1 / 1000000 + m5 < dist1 (b - (a + m.2))))
    ⟨fun h => ⟨h.1, h.2.1, fun o a b ho ha hb => h.2.2.1 o (Option.mem_def.2 ho) a ha b hb, h.2.2.2.1, h.2.2.2.2.1, h.2.2.2.2.2⟩,
     fun h => ⟨h.size, h.moveSize, fun o ho a ha b hb => h.distances o a b (Option.mem_def.1 ho) ha hb, h.apart, h.ranges, h.targets⟩⟩

/-- The check on the hop. -/
def hopCheck : M Bool := do
  let g ← hopRight
  let p ← mkProcess dist1 g.first g.second g.info g.rate g.basisSites g.moves g.number
  return decide (RobustPoints toDouble ⟨toDouble, toDouble, toDouble⟩ d5 m5 6 dist1 g) &&
    p.matchList.all fun e => decide ((e.distance, e.coord) ∈ [((0 : ℚ), (⟨0, 0, 0⟩ : Coord ℚ)), (1, ⟨1, 0, 0⟩)])

end Sample

/-- Hops on a ring of five cells with sites at 0.3, in `double`s: all conditions hold, the coordinates are rounded, and an event
happens. -/
example : ∃ g, Sample.hopRight = .ok g ∧
    (∀ ds, (runAsComputed toDouble Sample.dist1 Sample.rnd (fun _ => Sample.rnd) (fun _ => Sample.rnd) Sample.fiveRing Sample.lg
        Sample.fiveSites [["A"], ["B"], ["B"], ["B"], ["B"]]
        Sample.types [g] ds).map Sim.bare =
      (runWithExactPlaces toDouble Sample.fiveRing Sample.lg Sample.fiveSites [["A"], ["B"], ["B"], ["B"], ["B"]] Sample.types
        [g] ds).map Sim.bare) ∧
    (∃ s, runAsComputed toDouble Sample.dist1 Sample.rnd (fun _ => Sample.rnd) (fun _ => Sample.rnd) Sample.fiveRing Sample.lg
        Sample.fiveSites [["A"], ["B"], ["B"], ["B"], ["B"]]
        Sample.types [g] [⟨[1 / 2], 1 / 2, 1 / 2⟩] = .ok s ∧ s.ms.cfg.elements = [["B"], ["A"], ["B"], ["B"], ["B"]]) ∧
    Sample.fiveSites.map (Coord.conv ⟨toDouble, toDouble, toDouble⟩) ≠ Sample.fiveSites := by
  have hc : Sample.hopCheck = .ok true := by decide +kernel
  unfold Sample.hopCheck at hc
  obtain ⟨g, h1, hc⟩ := bind_ok.1 hc
  obtain ⟨p, h2, hc⟩ := bind_ok.1 hc
  have hc := Except.ok.inj hc
  rw [Bool.and_eq_true, decide_eq_true_eq] at hc
  refine ⟨g, h1, fun ds => ?_, ?_, by decide +kernel⟩
  · refine C61_same_partial (u := 1 / 2 ^ 53) (B := 6) (μ := Sample.m5) (ε := 3 * Sample.d5) (C61_double toDouble_rounding)
      (C61_rounded (C61_double toDouble_rounding) (by norm_num) (by norm_num)) (fun _ _ => C61_rounded (C61_double toDouble_rounding) (by norm_num) (by norm_num))
      (fun _ _ => C61_rounded (C61_double toDouble_rounding) (by norm_num) (by norm_num)) (by decide +kernel) (by decide +kernel) (by decide +kernel) rfl ?_ ?_ ?_ ?_ ?_ ds
    · intro g' hg'
      rw [List.mem_singleton.1 hg']
      exact hc.1
    · intro procs hp
      refine Sample.five_robust _ procs ?_
      rw [mapMM_cons] at hp
      have h2' : mkProcess Sample.fiveRing.dist g.first g.second g.info g.rate g.basisSites g.moves g.number = .ok p := h2
      rw [h2', ok_bind] at hp
      have hp : Except.ok [p] = Except.ok procs := hp
      rw [← Except.ok.inj hp]
      intro q hq e he
      rw [List.mem_singleton.1 hq] at he
      exact of_decide_eq_true (List.all_eq_true.1 hc.2 e he)
    · unfold Sample.d5
      exact Sample.dist1_close
    · decide +kernel
    · decide +kernel
  · have hrun : (do
        let g ← Sample.hopRight
        let s ← runAsComputed toDouble Sample.dist1 Sample.rnd (fun _ => Sample.rnd) (fun _ => Sample.rnd) Sample.fiveRing Sample.lg
          Sample.fiveSites [["A"], ["B"], ["B"], ["B"], ["B"]]
          Sample.types [g] [⟨[1 / 2], 1 / 2, 1 / 2⟩]
        return s.ms.cfg.elements : M (List (List String))) = .ok [["B"], ["A"], ["B"], ["B"], ["B"]] := by decide +kernel
    rw [h1, ok_bind] at hrun
    obtain ⟨s, h3, h4⟩ := bind_ok.1 hrun
    exact ⟨s, h3, Except.ok.inj h4⟩

/-! ### Where there is no room -/

/-- Four cells in a ring, one site in each at 0.3, as the program stores it. -/
def threeTenths (i : Nat) : Coord ℚ := ⟨toDouble (i + toDouble (3 / 10)), 0, 0⟩

/-- C61: half the box. Four cells in a ring, one site per cell at 0.3. In exact arithmetic the site two cells away is at -2 from
everywhere. The computed difference 2.3 - 0.3 is less than 2, so that it is not wrapped: from the first two sites it is at
1.9999999999999998 and from the other two at -1.9999999999999998. A process with a point at -2 finds it from two of the four
sites only, and one with a point at 2 from the other two, while in exact arithmetic the first finds it everywhere and the second
nowhere. -/
theorem C61_half_box :
    (∀ i ∈ [0, 1, 2, 3], ∀ b : ℚ, Config.relCoord ⟨1, 4, 1, 1, true, false, false⟩ ⟨((i + 2) % 4 : Nat) + b, 0, 0⟩ ⟨(i : Nat) + b, 0, 0⟩
      = ⟨-2, 0, 0⟩) ∧
    ([0, 1, 2, 3].map fun i => InDouble.relCoord toDouble ⟨1, 4, 1, 1, true, false, false⟩ (threeTenths ((i + 2) % 4)) (threeTenths i)) =
      [⟨2 - 1 / 2 ^ 52, 0, 0⟩, ⟨2 - 1 / 2 ^ 52, 0, 0⟩, ⟨-2 + 1 / 2 ^ 52, 0, 0⟩, ⟨-2 + 1 / 2 ^ 52, 0, 0⟩] ∧
    ([0, 1, 2, 3].map fun i => InDouble.ptSame toDouble 2 ⟨-2, 0, 0⟩ 2
        (InDouble.relCoord toDouble ⟨1, 4, 1, 1, true, false, false⟩ (threeTenths ((i + 2) % 4)) (threeTenths i))) =
      [false, false, true, true] ∧
    ([0, 1, 2, 3].map fun i => InDouble.ptSame toDouble 2 ⟨2, 0, 0⟩ 2
        (InDouble.relCoord toDouble ⟨1, 4, 1, 1, true, false, false⟩ (threeTenths ((i + 2) % 4)) (threeTenths i))) =
      [true, true, false, false] := by
  refine ⟨?_, by decide +kernel, by decide +kernel, by decide +kernel⟩
  intro i hi b
  have e : ∀ x y : ℚ, x + b - (y + b) = x - y := by intros; ring
  simp only [List.mem_cons, List.not_mem_nil, or_false] at hi
  rcases hi with rfl | rfl | rfl | rfl
  all_goals
    show (⟨_, _, _⟩ : Coord ℚ) = _
    ext
    · show (if _ then _ else _ : ℚ) = _
      norm_num [LatticeMap.wrapComp]
    · show (0 : ℚ) - 0 = 0; norm_num
    · show (0 : ℚ) - 0 = 0; norm_num

/-- C61: the number of cells. A process given with points at 0.3 and 2.3 is centred on its first point by the front end. The
computed difference is 1.9999999999999998, one cell is taken to be enough to cover it, and the site two cells away is never looked
at. Without rounding two cells are covered. -/
theorem C61_range :
    toDouble (toDouble (23 / 10) - toDouble (3 / 10)) = 2 - 1 / 2 ^ 52 ∧
    InDouble.axisRange toDouble (toDouble (toDouble (23 / 10) - toDouble (3 / 10))) = 1 ∧ axisRange (23 / 10 - 3 / 10 : ℚ) = 2 := by
  decide +kernel

/-- C61: points at the same distance are ordered by their components without any tolerance. Two points with the same first
component, one written 0.3 and the other calculated as 0.1 + 0.2, come in the other order than the sites they stand for, although
either is the same point as its site, so that the process does not match. -/
theorem C61_order :
    ptLt 2 ⟨3 / 10, 1, 0⟩ 2 ⟨1 / 10 + 2 / 10, -1, (0 : ℚ)⟩ = false ∧
    InDouble.ptLt toDouble 2 ⟨toDouble (3 / 10), 1, 0⟩ 2 ⟨toDouble (toDouble (1 / 10) + toDouble (2 / 10)), -1, 0⟩ = true ∧
    InDouble.ptLt toDouble 2 ⟨toDouble (3 / 10), 1, 0⟩ 2 ⟨toDouble (3 / 10), -1, 0⟩ = false ∧
    InDouble.ptSame toDouble 2 ⟨toDouble (toDouble (1 / 10) + toDouble (2 / 10)), -1, 0⟩ 2 ⟨toDouble (3 / 10), -1, 0⟩ = true := by
  decide +kernel

end KMC
