import Verif.Lemmas.Init
import Verif.Spec.Run

/-!
# The invariant along a run
-/

set_option linter.unusedSectionVars false

namespace KMC

variable {K : Type _} [Field K] [LinearOrder K] [IsStrictOrderedRing K]
variable {env : Env K} {n nT : Nat} {negLog : K → Option K} {cfg : Config K} {procs : List (Proc K)}

open LatticeModel

theorem propagateTime_ok {s s' : Sim K} {us : List K} (h : propagateTime negLog s us = .ok s') :
    s'.ms = s.ms ∧ s'.table = s.table := by
  unfold propagateTime at h
  rw [bind_ok] at h
  obtain ⟨r, -, h⟩ := h
  rw [bind_ok] at h
  obtain ⟨dt, -, h⟩ := h
  cases h
  exact ⟨rfl, rfl⟩

/-- What is known about a state of a run in the world `W`. -/
structure AtRun (W : World K) (s : Sim K) : Prop where
  inv : W.Inv s.ms
  table : s.table = Interactions.probabilityTable s.ms.procs

/-- Every step is an event followed by matching. -/
theorem step_ok {W : World K} (hW : W.Ok) {s s' : Sim K} (hs : AtRun W s) {d : Draws K}
    (h : step W.env negLog s d = .ok s') : AtRun W s' ∧ ∃ s1 ms0 j site q sk cfg1 cfg2 aff,
      s1.ms = s.ms ∧ s1.table = s.table ∧ W.StepOf s1 s' ms0 j site q sk cfg1 cfg2 aff := by
  unfold step at h
  rw [bind_ok] at h
  obtain ⟨s1, h1, h2⟩ := h
  obtain ⟨e1, e2⟩ := propagateTime_ok h1
  obtain ⟨ms0, j, site, q, sk, cfg1, cfg2, aff, hst⟩ := World.singleStep_ok hW (by rw [e1]; exact hs.inv) h2
  exact ⟨⟨hst.inv', hst.table⟩, s1, ms0, j, site, q, sk, cfg1, cfg2, aff, e1, e2, hst⟩

/-- A property of configurations that does not depend on the match lists and is kept by every event. -/
structure Kept (W : World K) (P : Config K → Prop) : Prop where
  same : ∀ c c', Matcher.SameBut c c' → P c → P c'
  event : ∀ ms j site q sk cfg1 cfg2 aff, W.Inv ms → W.Event ms j site q sk cfg1 cfg2 aff → P ms.cfg → P cfg2

theorem Kept.step {W : World K} {P : Config K → Prop} (hP : Kept W P) {s s' : Sim K} {ms0 : MState K}
    {j site : Nat} {q : Proc K} {sk : List (CEntry K)} {cfg1 cfg2 : Config K} {aff : List Nat}
    (hst : W.StepOf s s' ms0 j site q sk cfg1 cfg2 aff) (h : P s.ms.cfg) : P s'.ms.cfg := by
  rw [← hst.cfg] at h
  exact hP.same _ _ hst.same (hP.event _ _ _ _ _ _ _ _ hst.inv hst.event h)

theorem run_ok {W : World K} (hW : W.Ok) (ds : List (Draws K)) {s s' : Sim K} (hs : AtRun W s)
    (h : run W.env negLog ds s = .ok s') :
    AtRun W s' ∧ ∀ P : Config K → Prop, Kept W P → P s.ms.cfg → P s'.ms.cfg := by
  induction ds generalizing s with
  | nil => cases h; exact ⟨hs, fun _ _ h => h⟩
  | cons d ds ih =>
    unfold run at h
    rw [loopM_cons, bind_ok] at h
    obtain ⟨s1, h1, h2⟩ := h
    obtain ⟨a1, s2, ms0, j, site, q, sk, cfg1, cfg2, aff, e1, e2, hst⟩ := step_ok hW hs h1
    obtain ⟨a2, a3⟩ := ih a1 h2
    refine ⟨a2, fun P hP hp => a3 P hP (hP.step hst ?_)⟩
    rw [e1]
    exact hp

/-- A reached state is the end of a sequence of events from the prepared input. -/
theorem GoodRun.inv {s : Sim K} (h : GoodRun env n nT negLog cfg procs s) :
    ∃ cfg1 procs1, Prepared env cfg procs cfg1 procs1 ∧
      (World.of env n nT (Interactions.maxRange procs) cfg1 procs1).Ok ∧
      AtRun (World.of env n nT (Interactions.maxRange procs) cfg1 procs1) s ∧
      ∀ P : Config K → Prop, Kept (World.of env n nT (Interactions.maxRange procs) cfg1 procs1) P →
        P cfg1 → P s.ms.cfg := by
  obtain ⟨h1, h2, s0, ds, h3, h4⟩ := h
  unfold init at h3
  rw [bind_ok] at h3
  obtain ⟨ms, h5, h3⟩ := h3
  cases h3
  obtain ⟨cfg1, procs1, hp, hok, hinv, hsame⟩ := initialMatching_inv h1 h2 h5
  obtain ⟨a, b⟩ := run_ok hok ds (s := { ms := ms, table := Interactions.probabilityTable ms.procs, time := 0 })
    ⟨hinv, rfl⟩ h4
  exact ⟨cfg1, procs1, hp, hok, a, fun P hP hc => b P hP (hP.same _ _ hsame hc)⟩

/-- In a matched list of the right sizes the multiplicity is there or overflows. -/
theorem World.Ok.mult {W : World K} (h : W.Ok) {s : MState K} {A : Matcher.Content K} (hp : W.PreA s A) {i j : Nat}
    {sk : List (CEntry K)} {p : Proc K} (hsk : W.skel[i]? = some sk) (hj : s.procs[j]? = some p)
    (hm : whateverMatch p.matchList (seen s.cfg.types sk) = .ok true) :
    Matcher.OkOr (multiplicity p.matchList (seen s.cfg.types sk)) := by
  unfold multiplicity
  refine Matcher.multLoop_okOr h.typed _ _ _ (h.proc _ (List.mem_of_getElem? (hp.proc hj))).sized
    (h.sized hp.good hsk) ?_
  unfold whateverMatch at hm
  split at hm
  · cases hm
  · omega

/-- A step only fails in the selection or by overflow of a multiplicity. -/
theorem World.singleStep_okOr {W : World K} (h : W.Ok) {s : Sim K} (hI : W.Inv s.ms) {u1 u2 : K}
    {r : Nat × Nat × List (Proc K)} (hsel : select s.ms.procs s.table u1 u2 = .ok r) :
    Matcher.OkOr (singleStep W.env s u1 u2) := by
  obtain ⟨A, hI⟩ := hI
  obtain ⟨p, p', hp, hp', hset, hsite⟩ := select_ok hsel
  obtain ⟨hI0, hp0, hst, hsites⟩ := select_inv hI hp hp'
  obtain ⟨sk, cfg1, cfg2, aff, hev⟩ := event_ok h hI0 (j := r.1) (q := p') hp0 (by rw [hsites]; exact hsite)
  have hcall := mid_call h hI0.toPreA hev
  unfold singleStep
  rw [hsel, ok_bind, hset, performAt_eq hev, ok_bind, rematch_eq h hI0.toPreA hev]
  refine (Matcher.calculateMatching_okOr hcall ?_).bind fun a _ => Matcher.okOr_ok _
  intro i j sk p hi hsk hj hm
  exact h.mult (mid_pre hI0.toPreA hev) hsk hj hm

/-- The first matching only fails by overflow of a multiplicity. -/
theorem initialMatching_okOr (h : WellFormed env n nT cfg procs)
    (hcu : env.useCustomRates = true → CustomRatesOk env n nT cfg procs) {cfg1 : Config K} {procs1 : List (Proc K)}
    (hp : Prepared env cfg procs cfg1 procs1) : Matcher.OkOr (initialMatching env cfg procs) := by
  have hok := world_ok h hcu hp
  have hpre := start_pre h hp
  have hcall := World.callOk hok hpre (List.nodup_range (n := n)) (fun i hi => List.mem_range.1 hi)
  have hc := Matcher.calculateMatching_okOr hcall (fun i j sk p _ hsk hj hm => hok.mult hpre hsk hj hm)
  have hl := lists_of h hp.1
  have e1 : cfg.coords = cfg1.coords := by rw [hl.rest]
  unfold LatticeModel.initialMatching
  rw [hp.1, ok_bind]
  dsimp only
  rw [hp.2, ok_bind]
  unfold startState at hc
  rw [hl.shape.elements, ← prepared_length hp, e1]
  exact hc

/-- One more step. -/
theorem GoodRun.step {s s' : Sim K} (h : GoodRun env n nT negLog cfg procs s) {d : Draws K}
    (hs : LatticeModel.step env negLog s d = .ok s') : GoodRun env n nT negLog cfg procs s' := by
  obtain ⟨h1, h2, s0, ds, h3, h4⟩ := h
  refine ⟨h1, h2, s0, ds ++ [d], h3, ?_⟩
  unfold run at h4 ⊢
  rw [loopM_append, h4, ok_bind, loopM_cons, hs, ok_bind]
  rfl

end KMC
