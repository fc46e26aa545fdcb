import Verif.Samples.Check
import Verif.Lemmas.Init

/-!
# Concrete runs
-/

namespace KMC.Sample

open LatticeModel

/-- Construct the model and run it. -/
def go (env : Env ℚ) (P : PyLattice ℚ) (els : List (List String)) (procs : M (List (Proc ℚ))) (ds : List (Draws ℚ)) :
    M (Sim ℚ) := do
  let c ← config P els
  let ps ← procs
  let s ← LatticeModel.init env c ps
  LatticeModel.run env lg ds s

/-- The check of `CustomGeometry` on a sample. -/
def geometryCheck (env : Env ℚ) (P : PyLattice ℚ) (els : List (List String)) (procs : M (List (Proc ℚ))) : M Bool := do
  let c ← config P els
  let ps ← procs
  let r ← prepare env c ps
  return insideCheck env.L r.1 r.2 && decide (ps.map (·.number) = List.range ps.length)

theorem geometryCheck_ok {env : Env ℚ} {P : PyLattice ℚ} {els : List (List String)} {procs : M (List (Proc ℚ))}
    (h : geometryCheck env P els procs = .ok true) {cfg : Config ℚ} {ps : List (Proc ℚ)} (hc : config P els = .ok cfg)
    (hp : procs = .ok ps) : CustomGeometry env cfg ps := by
  unfold geometryCheck at h
  rw [hc, ok_bind, hp, ok_bind] at h
  obtain ⟨r, h1, h2⟩ := bind_ok.1 h
  have h2 := Except.ok.inj h2
  rw [Bool.and_eq_true, decide_eq_true_eq] at h2
  apply customGeometry_of h2.2
  rw [h1]
  exact congrArg Except.ok h2.1

theorem reached_of_go {env : Env ℚ} {P : PyLattice ℚ} {els : List (List String)} {procs : M (List (Proc ℚ))}
    {ds : List (Draws ℚ)} {s : Sim ℚ} (h : go env P els procs ds = .ok s) {cfg : Config ℚ} {ps : List (Proc ℚ)}
    (hc : config P els = .ok cfg) (hp : procs = .ok ps) : Reached env lg cfg ps s := by
  unfold go at h
  rw [hc, ok_bind, hp, ok_bind] at h
  obtain ⟨s0, h1, h2⟩ := bind_ok.1 h
  exact ⟨s0, ds, h1, h2⟩

theorem exists_of_map {α β : Type _} {x : M α} {f : α → β} {b : β} (h : x.map f = .ok b) : ∃ a, x = .ok a ∧ f a = b := by
  cases x with
  | error e => cases h
  | ok a => exact ⟨a, rfl, Except.ok.inj h⟩

/-! ### One atom hopping on a ring -/

def ring : PyLattice ℚ := chain 4 true

def ringElements : List (List String) := [["A"], ["B"], ["B"], ["B"]]

/-- Hops to the right with rate 2 and to the left with rate 1. -/
def hops : M (List (Proc ℚ)) := do
  let p ← process [0, 1] ["A", "B"] ["B", "A"] 2 [0] [(0, 1), (1, -1)] 0
  let q ← process [0, -1] ["A", "B"] ["B", "A"] 1 [0] [(0, -1), (1, 1)] 1
  return [p, q]

/-- After two hops to the right. -/
theorem ring_run : ∃ cfg procs s, config ring ringElements = .ok cfg ∧ hops = .ok procs ∧
    GoodRun (env ring) 4 4 lg cfg procs s ∧ PositiveRates (env ring) procs ∧
    s.ms.cfg.elements = [["B"], ["B"], ["A"], ["B"]] ∧ s.ms.procs.map (·.sites) = [[2], [2]] ∧
    s.ms.procs.map (·.totalRate) = [2, 1] := by
  obtain ⟨cfg, procs, h1, h2, h3⟩ := goodCheck_ok (env := env ring) (P := ring) (els := ringElements) (procs := hops)
    (by decide +kernel)
  obtain ⟨s, hs, hf⟩ := exists_of_map (x := go (env ring) ring ringElements hops [half, half])
    (f := fun s => (s.ms.cfg.elements, s.ms.procs.map (·.sites), s.ms.procs.map (·.totalRate)))
    (b := ([["B"], ["B"], ["A"], ["B"]], [[2], [2]], [2, 1])) (by decide +kernel)
  have hpos : ∀ p ∈ procs, 0 < p.rate := by
    have : hops.map (fun ps => ps.all (fun p => decide (0 < p.rate))) = .ok true := by decide +kernel
    rw [h2] at this
    have := Except.ok.inj this
    rw [List.all_eq_true] at this
    exact fun p hp => by simpa using this p hp
  have hn : ring.sites.length = 4 := by decide +kernel
  rw [hn] at h3
  simp only [Prod.mk.injEq] at hf
  exact ⟨cfg, procs, s, h1, h2, ⟨h3, fun h => (by cases h), reached_of_go hs h1 h2⟩, ⟨hpos, fun h => (by cases h)⟩, hf⟩

/-! ### The same with custom rates, stored under the number of the process -/

/-- The calculator adds one to the rate constant; the key is the number of the process. -/
def byNumber (P : PyLattice ℚ) : Env ℚ :=
  { env P with
    useCustomRates := true
    hash := fun d => (d.headD 0).toNat
    callback := fun a => match a with
      | .plain _ _ _ r _ _ => if r < 0 then 1 else r + 1
      | .buckets _ _ _ _ r _ _ => if r < 0 then 1 else r + 1 }

def customHops (cache : Bool) : M (List (Proc ℚ)) := do
  let p ← customProcess [0, 1] ["A", "B"] ["B", "A"] 2 [0] 1 [(0, 1), (1, -1)] 0 cache
  let q ← customProcess [0, -1] ["A", "B"] ["B", "A"] 1 [0] 1 [(0, -1), (1, 1)] 1 cache
  return [p, q]

theorem byNumber_question {P : PyLattice ℚ} {n nT : Nat} {cfg : Config ℚ} {procs : List (Proc ℚ)} {p : Proc ℚ} {k : Nat}
    {a : RateArgs ℚ} (h : Question (byNumber P) n nT cfg procs p k a) :
    k = p.number ∧ (byNumber P).callback a = if p.rate < 0 then 1 else p.rate + 1 := by
  obtain ⟨c, i, ml, -, -, -, -, -, -, -, ha, hk⟩ := h
  constructor
  · unfold Matcher.rateKey Matcher.keyData at hk
    obtain ⟨d, hd, hk⟩ := bind_ok.1 hk
    obtain ⟨cml, -, hd⟩ := bind_ok.1 hd
    have hd := Except.ok.inj hd
    have hk := Except.ok.inj hk
    rw [← hk, ← hd]
    simp [byNumber]
  · unfold Matcher.rateArgs at ha
    obtain ⟨cml, -, ha⟩ := bind_ok.1 ha
    obtain ⟨x1, -, ha⟩ := bind_ok.1 ha
    obtain ⟨x2, -, ha⟩ := bind_ok.1 ha
    obtain ⟨x3, -, ha⟩ := bind_ok.1 ha
    obtain ⟨x4, -, ha⟩ := bind_ok.1 ha
    obtain ⟨x5, -, ha⟩ := bind_ok.1 ha
    split at ha
    · have ha := Except.ok.inj ha
      rw [← ha]
      rfl
    · have ha := Except.ok.inj ha
      rw [← ha]
      rfl

theorem byNumber_keys {P : PyLattice ℚ} {n nT : Nat} {cfg : Config ℚ} {procs : List (Proc ℚ)}
    (hin : WellFormed (byNumber P) n nT cfg procs) (hg : CustomGeometry (byNumber P) cfg procs) :
    CustomRatesOk (byNumber P) n nT cfg procs := by
  refine ⟨hg, ?_⟩
  intro cfg1 procs1 hprep p hp p' hp' _ k a a' h h'
  obtain ⟨h1, h2⟩ := byNumber_question h
  obtain ⟨h1', h2'⟩ := byNumber_question h'
  obtain ⟨j, hj⟩ := List.mem_iff_getElem?.1 hp
  obtain ⟨j', hj'⟩ := List.mem_iff_getElem?.1 hp'
  obtain ⟨q, a1, -, a3⟩ := prepared_proc hin hprep hj
  obtain ⟨q', b1, -, b3⟩ := prepared_proc hin hprep hj'
  have n1 := hg.number j q a1
  have n2 := hg.number j' q' b1
  have e1 : p.number = q.number := by rw [a3]; rfl
  have e2 : p'.number = q'.number := by rw [b3]; rfl
  have : j = j' := by rw [← n1, ← n2, ← e1, ← e2, ← h1, ← h1']
  subst this
  rw [hj, Option.some.injEq] at hj'
  subst hj'
  rw [h2, h2']

theorem customRing_run (cache : Bool) : ∃ cfg procs s, config ring ringElements = .ok cfg ∧ customHops cache = .ok procs ∧
    GoodRun (byNumber ring) 4 4 lg cfg procs s ∧ PositiveRates (byNumber ring) procs ∧
    (∀ p ∈ procs, p.cacheRate = cache ∧ p.custom = true) ∧ CustomGeometry (byNumber ring) cfg procs ∧
    s.ms.cfg.elements = [["B"], ["B"], ["A"], ["B"]] ∧ s.ms.procs.map (·.sites) = [[2], [2]] ∧
    s.ms.procs.map (·.siteRates) = [[3], [2]] := by
  obtain ⟨cfg, procs, h1, h2, h3⟩ := goodCheck_ok (env := byNumber ring) (P := ring) (els := ringElements)
    (procs := customHops cache) (by cases cache <;> decide +kernel)
  obtain ⟨s, hs, hf⟩ := exists_of_map (x := go (byNumber ring) ring ringElements (customHops cache) [half, half])
    (f := fun s => (s.ms.cfg.elements, s.ms.procs.map (·.sites), s.ms.procs.map (·.siteRates)))
    (b := ([["B"], ["B"], ["A"], ["B"]], [[2], [2]], [[3], [2]])) (by cases cache <;> decide +kernel)
  have hpos : ∀ p ∈ procs, 0 < p.rate ∧ p.cacheRate = cache ∧ p.custom = true := by
    have : (customHops cache).map (fun ps => ps.all (fun p => decide (0 < p.rate ∧ p.cacheRate = cache ∧ p.custom = true))) =
        .ok true := by cases cache <;> decide +kernel
    rw [h2] at this
    have := Except.ok.inj this
    rw [List.all_eq_true] at this
    exact fun p hp => by simpa using this p hp
  have hg : CustomGeometry (byNumber ring) cfg procs :=
    geometryCheck_ok (P := ring) (els := ringElements) (procs := customHops cache) (by cases cache <;> decide +kernel) h1 h2
  have hn : ring.sites.length = 4 := by decide +kernel
  rw [hn] at h3
  simp only [Prod.mk.injEq] at hf
  refine ⟨cfg, procs, s, h1, h2, ⟨h3, fun _ => byNumber_keys h3 hg, reached_of_go hs h1 h2⟩,
    ⟨fun p hp => (hpos p hp).1, fun _ a => ?_⟩, fun p hp => (hpos p hp).2, hg, hf⟩
  have : ∀ r : ℚ, 0 < if r < 0 then 1 else r + 1 := by
    intro r
    split
    · exact one_pos
    · next h => linarith [not_lt.1 h]
  cases a with
  | plain => exact this _
  | buckets => exact this _

/-! ### A calculator that looks at the geometry -/

/-- The calculator looks at the place of the first neighbour; the key tells all types apart. -/
def byGeometry (P : PyLattice ℚ) : Env ℚ :=
  { env P with
    useCustomRates := true
    hash := fun d => d.foldl (fun a v => 10 * a + v.toNat) 1
    callback := fun a => match a with
      | .plain g _ _ _ _ _ => match g[1]? with
        | some c => if c.x < 0 then 1 else 2
        | none => 1
      | .buckets .. => 1 }

/-- A chain with two positions in the cell. -/
def pairs : PyLattice ℚ := chain 3 true [0, 4 / 10]

def allA : List (List String) := List.replicate 6 ["A"]

/-- A turns into B at either position. -/
def flips (cache : Bool) : M (List (Proc ℚ)) := do
  let p ← customProcess [0] ["A"] ["B"] 2 [0, 1] (6 / 10) [] 0 cache
  return [p]

/-- A chain whose second position is a little further off than the process says. -/
def shifted : PyLattice ℚ := chain 3 true [0, 400001 / 1000000]

def flipPair : M (List (Proc ℚ)) := do
  let p ← customProcess [0, 4 / 10] ["A", "A"] ["B", "A"] 2 [0] (4 / 10) [] 0 false
  return [p]

/-- A chain with neighbours at distances 0.3 and 0.300005 on the two sides. -/
def uneven : PyLattice ℚ := chain 3 true [0, 3 / 10, 699995 / 1000000]

def nineA : List (List String) := List.replicate 9 ["A"]

/-- A turns into B with a look at the sites within 0.3; another process looks further. -/
def lookAround : M (List (Proc ℚ)) := do
  let p ← customProcess [0] ["A"] ["B"] 2 [0] (3 / 10) [] 0 false
  let q ← customProcess [0, 1] ["A", "C"] ["A", "B"] 2 [0] 1 [] 1 false
  return [p, q]

end KMC.Sample
