import Verif.Lemmas.Construct
import Verif.Samples.Basic
import Verif.Spec.Run

/-!
# Executable checks of well-formedness, for concrete models
-/

set_option linter.unusedSectionVars false

namespace KMC

section
variable {K : Type _} [Field K] [LinearOrder K]

instance (c d : Coord K) : Decidable (Apart c d) := by unfold Apart; infer_instance

/-- An executable form of `Proc.WellFormed`. -/
def Proc.check (nT : Nat) (p : Proc K) : Bool :=
  p.matchList.all (fun e => decide (e.matchTypes.length = nT)) &&
  p.matchList.all (fun e => decide (e.updateTypes.length = nT)) &&
  p.matchList.all (fun e => decide (e.updateTypes[0]? = some 0)) &&
  p.matchList.all (fun e => !decide e.Changes || (e.matchTypes.zip e.updateTypes).all (fun q => decide (0 ≤ q.1 + q.2))) &&
  p.matchList.all (fun e => !decide e.Changes || (e.matchTypes.zip e.updateTypes).any (fun q => decide (0 < q.1 + q.2))) &&
  decide (p.matchList.Pairwise (fun e f => (e.Changes ∨ e.hasMove = true) →
    (f.Changes ∨ f.hasMove = true) → Apart e.coord f.coord)) &&
  p.matchList.all (fun e => !decide (e.Changes ∨ e.hasMove = true) || decide (e.matchTypes[0]? ≠ some 1)) &&
  decide ((p.matchList.filter (fun e => decide e.Changes)).length ≤ p.affected.length) &&
  p.affected.all (fun a => decide (a = 0)) &&
  p.idMoves.all (fun mv => (p.matchList[mv.1]?.any (·.hasMove)) && (p.matchList[mv.2]?.any (·.hasMove)))

theorem Proc.check_ok {nT : Nat} {p : Proc K} (h : p.check nT = true) : p.WellFormed nT := by
  unfold Proc.check at h
  simp only [Bool.and_eq_true] at h
  obtain ⟨⟨⟨⟨⟨⟨⟨⟨⟨h1, h2⟩, h3⟩, h4⟩, h5⟩, h6⟩, h7⟩, h8⟩, h9⟩, h10⟩ := h
  simp only [List.all_eq_true, Bool.or_eq_true, Bool.not_eq_true', decide_eq_false_iff_not, decide_eq_true_eq,
    Bool.and_eq_true] at h1 h2 h3 h4 h5 h6 h7 h8 h9 h10
  refine ⟨h1, h2, h3, ?_, ?_, h6, ?_, h8, h9, ?_⟩
  · intro e he hc i x u hx hu
    rcases h4 e he with h | h
    · exact absurd hc h
    · exact h (x, u) (List.mem_iff_getElem?.2 ⟨i, by rw [List.getElem?_zip_eq_some]; exact ⟨hx, hu⟩⟩)
  · intro e he hc
    rcases h5 e he with h | h
    · exact absurd hc h
    · rw [List.any_eq_true] at h
      obtain ⟨q, hq, hq'⟩ := h
      obtain ⟨i, hi⟩ := List.mem_iff_getElem?.1 hq
      rw [List.getElem?_zip_eq_some] at hi
      exact ⟨i, q.1, q.2, hi.1, hi.2, by simpa using hq'⟩
  · intro e he hc
    rcases h7 e he with h | h
    · exact absurd hc h
    · exact h
  · intro mv hmv
    obtain ⟨a, b⟩ := h10 mv hmv
    cases he : p.matchList[mv.1]? with
    | none => rw [he] at a; cases a
    | some e =>
      cases hf : p.matchList[mv.2]? with
      | none => rw [hf] at b; cases b
      | some f =>
        rw [he] at a; rw [hf] at b
        exact ⟨e, f, rfl, rfl, a, b⟩

/-- An executable form of `CustomGeometry.inside`. -/
def insideCheck (L : LatticeMap) (cfg1 : Config K) (procs1 : List (Proc K)) : Bool :=
  (List.range cfg1.matchLists.length).all fun i => procs1.all fun p =>
    match cfg1.matchLists[i]? with
    | none => true
    | some ml =>
      !(decide (L.basisSite i ∈ p.basisSites) && decide (p.matchList.length ≤ ml.length) &&
        (p.matchList.zip ml).all (fun q => decide (q.1.matchTypes[0]? = some 1) || samePoint q.1 q.2)) ||
      (decide (0 < (ml.takeWhile (fun c => decide (c.distance ≤ p.cutoff))).length) &&
       decide (p.matchList.length ≤ (ml.takeWhile (fun c => decide (c.distance ≤ p.cutoff))).length))

/-- The preparation as one computation. -/
def prepare (env : Env K) (cfg : Config K) (procs : List (Proc K)) : M (Config K × List (Proc K)) := do
  let cfg1 ← cfg.initMatchLists env.dist env.L (Interactions.maxRange procs)
  let procs1 ← Interactions.updateProcessMatchLists env.implicitWildcards cfg1 env.L
    (Interactions.clearMatching procs)
  return (cfg1, procs1)

theorem prepare_of {env : Env K} {cfg cfg1 : Config K} {procs procs1 : List (Proc K)}
    (h : Prepared env cfg procs cfg1 procs1) : prepare env cfg procs = .ok (cfg1, procs1) := by
  unfold prepare
  rw [h.1, ok_bind, h.2, ok_bind]
  rfl

theorem customGeometry_of {env : Env K} {cfg : Config K} {procs : List (Proc K)}
    (hnum : procs.map (·.number) = List.range procs.length)
    (h : (prepare env cfg procs).map (fun r => insideCheck env.L r.1 r.2) = .ok true) :
    CustomGeometry env cfg procs := by
  refine ⟨?_, ?_⟩
  · intro j p hj
    have h1 : (procs.map (·.number))[j]? = some p.number := by rw [List.getElem?_map, hj]; rfl
    have hjl := (List.getElem?_eq_some_iff.1 hj).1
    rw [hnum, List.getElem?_range hjl, Option.some.injEq] at h1
    exact h1.symm
  · intro cfg1 procs1 hp i ml p hml hpm hb hlen hfit
    rw [prepare_of hp] at h
    have h : insideCheck env.L cfg1 procs1 = true := Except.ok.inj h
    unfold insideCheck at h
    rw [List.all_eq_true] at h
    have h1 := h i (List.mem_range.2 (List.getElem?_eq_some_iff.1 hml).1)
    rw [List.all_eq_true] at h1
    have h2 := h1 p hpm
    rw [hml] at h2
    simp only [Bool.or_eq_true, Bool.not_eq_true', Bool.and_eq_true, decide_eq_true_eq] at h2
    rcases h2 with h2 | h2
    · exfalso
      rw [← Bool.not_eq_true] at h2
      apply h2
      simp only [Bool.and_eq_true, decide_eq_true_eq]
      refine ⟨⟨hb, hlen⟩, ?_⟩
      rw [List.all_eq_true]
      rintro ⟨e, c⟩ hq
      obtain ⟨k, hk⟩ := List.mem_iff_getElem?.1 hq
      rw [List.getElem?_zip_eq_some] at hk
      simp only [Bool.or_eq_true, decide_eq_true_eq]
      exact hfit k e c hk.1 hk.2
    · exact h2

end

namespace Sample

theorem types_numbering : Numbering types := by decide

/-- The random numbers `1/2`. -/
def half : LatticeModel.Draws ℚ := ⟨[1/2], 1/2, 1/2⟩

/-- Any function will do for the logarithm. -/
def lg (u : ℚ) : Option ℚ := if u = 0 then none else some (1 - u)

/-- An executable check that the input is fine and the run goes through. -/
def goodCheck (env : Env ℚ) (P : PyLattice ℚ) (els : List (List String)) (procs : M (List (Proc ℚ))) : Bool :=
  decide (0 < env.nRanks) && decide (env.L.WF) && decide (env.L.nSites = P.sites.length) &&
  decide (els.length = P.sites.length) && els.all (fun l => !l.isEmpty) &&
  els.all (fun l => l.all (fun e => decide (e ∈ types.map Prod.fst))) &&
  match procs with
  | .ok ps => ps.all (fun p => p.check 4)
  | .error _ => false

theorem goodCheck_occupation {env : Env ℚ} {P : PyLattice ℚ} {els : List (List String)} {procs : M (List (Proc ℚ))}
    (h : goodCheck env P els procs = true) : Occupation types P.sites.length els := by
  unfold goodCheck at h
  simp only [Bool.and_eq_true, decide_eq_true_eq] at h
  obtain ⟨⟨⟨⟨⟨⟨h1, h2⟩, h3⟩, h4⟩, h5⟩, h6⟩, h7⟩ := h
  rw [List.all_eq_true] at h5 h6
  exact ⟨h4, fun l hl => by simpa using h5 l hl, fun l hl e he => by
    have := h6 l hl
    rw [List.all_eq_true] at this
    simpa using this e he⟩

theorem goodCheck_ok {env : Env ℚ} {P : PyLattice ℚ} {els : List (List String)} {procs : M (List (Proc ℚ))}
    (h : goodCheck env P els procs = true) :
    ∃ cfg ps, config P els = .ok cfg ∧ procs = .ok ps ∧ WellFormed env P.sites.length 4 cfg ps := by
  unfold goodCheck at h
  simp only [Bool.and_eq_true, decide_eq_true_eq] at h
  obtain ⟨⟨⟨⟨⟨⟨h1, h2⟩, h3⟩, h4⟩, h5⟩, h6⟩, h7⟩ := h
  rw [List.all_eq_true] at h5 h6
  obtain ⟨cfg, c1, c2, -⟩ := Config.mk'_ok types_numbering (coords := P.sites) (elements := els) (n := P.sites.length) rfl
    ⟨h4, fun l hl => by simpa using h5 l hl, fun l hl e he => by
      have := h6 l hl
      rw [List.all_eq_true] at this
      simpa using this e he⟩
  cases procs with
  | error e => cases h7
  | ok ps =>
    rw [List.all_eq_true] at h7
    exact ⟨cfg, ps, c1, rfl, h1, by decide, h2, h3, c2, fun p hp => Proc.check_ok (h7 p hp)⟩

end Sample
end KMC
