import Verif.Lemmas.Scratch
import Verif.Props.Select
import Verif.Props.Environment
import Verif.Samples.Runs

/-!
# C24, C25, C26, C31, C32, C33: what holds in every state of every run

All theorems here are about every state that is reached (`Reached`) from a well formed input
(`WellFormed`, Spec/Model.lean) by the constructor and any number of steps with any random numbers.
-/

set_option linter.unusedSectionVars false

namespace KMC

variable {K : Type _} [Field K] [LinearOrder K] [IsStrictOrderedRing K]
variable {env : Env K} {n nT : Nat} {negLog : K → Option K} {cfg : Config K} {procs : List (Proc K)} {s : Sim K}

open LatticeModel

/-! ### C24 -/

/-- The present surroundings of a site, computed anew from the configuration. -/
def Surroundings (env : Env K) (procs : List (Proc K)) (c : Config K) (i : Nat) : M (List (CEntry K)) :=
  c.configMatchList env.dist env.L i (env.L.neighbourIndices i (Interactions.maxRange procs))

/-- **C24** In every state of every run a site is listed as available for a process exactly when it is
a site of the lattice, on a basis position of the process, and the pattern of the process matches the
surroundings of the site as they are now. -/
theorem C24_available (h : GoodRun env n nT negLog cfg procs s) {j : Nat} {p : Proc K}
    (hp : s.ms.procs[j]? = some p) (site : Nat) :
    site ∈ p.sites ↔ site < n ∧ env.L.basisSite site ∈ p.basisSites ∧
      ∃ ml, Surroundings env procs s.ms.cfg site = .ok ml ∧ whateverMatch p.matchList ml = .ok true := by
  obtain ⟨cfg1, procs1, hprep, hok, ⟨⟨A, hI⟩, -⟩, -⟩ := h.inv
  have hl := lists_of h.input hprep.1
  have hc : s.ms.cfg.coords = cfg.coords := by
    have : s.ms.cfg.coords = cfg1.coords := hI.coords
    rw [this, hl.rest]
  rw [(hI.book.rep j p hp).listed site]
  by_cases hin : site < n
  · obtain ⟨sk, hsk⟩ : ∃ sk, cfg1.matchLists[site]? = some sk :=
      ⟨_, List.getElem?_eq_getElem (by rw [hl.shape.matchLists]; exact hin)⟩
    have h1 := (hI.right site sk hsk).avail j p.still (hI.proc hp)
    have h2 := hl.matchList h.input.lattice h.input.sites hI.good.shape hc hsk
    rw [h1]
    unfold Surroundings
    rw [h2]
    constructor
    · rintro ⟨a, b⟩; exact ⟨hin, a, _, rfl, b⟩
    · rintro ⟨-, a, ml, b, c⟩
      cases b
      exact ⟨a, c⟩
  · rw [hI.off site j (fun hc => hin hc.1)]
    constructor
    · intro hc; cases hc
    · rintro ⟨hc, -⟩; exact absurd hc hin

/-- Non-vacuity: after two hops on a ring of four sites. -/
example : ∃ (cfg : Config ℚ) (procs : List (Proc ℚ)) (s : Sim ℚ), GoodRun (Sample.env Sample.ring) 4 4 Sample.lg cfg procs s ∧
    s.ms.procs.map (·.sites) = [[2], [2]] := by
  obtain ⟨cfg, procs, s, -, -, h, -, -, h', -⟩ := Sample.ring_run
  exact ⟨cfg, procs, s, h, h'⟩

/-- **C24** A process as it is used in the run has the number, rate constant, basis positions and range
of the input process at the same place of the list. -/
theorem C24_same_processes (h : GoodRun env n nT negLog cfg procs s) :
    s.ms.procs.length = procs.length ∧
    ∀ (j : Nat) (p0 p : Proc K), procs[j]? = some p0 → s.ms.procs[j]? = some p →
      p.number = p0.number ∧ p.rate = p0.rate ∧ p.basisSites = p0.basisSites ∧ p.range = p0.range ∧
      p.custom = p0.custom ∧ p.cutoff = p0.cutoff := by
  obtain ⟨cfg1, procs1, hprep, hok, ⟨⟨A, hI⟩, -⟩, -⟩ := h.inv
  have hpr : s.ms.procs.map Proc.still = procs1.map Proc.still := hI.procs
  refine ⟨?_, ?_⟩
  · rw [← prepared_length hprep]
    simpa using congrArg List.length hpr
  · intro j p0 p h0 hp
    have h1 : (procs1.map Proc.still)[j]? = some p.still := by rw [← hpr, List.getElem?_map, hp]; rfl
    rw [List.getElem?_map, Option.map_eq_some_iff] at h1
    obtain ⟨p1, h1, h2⟩ := h1
    obtain ⟨p0', h3, -, h4⟩ := prepared_proc h.input hprep h1
    rw [h0, Option.some.injEq] at h3
    subst h3
    have e : ∀ {β : Type _} (f : Proc K → β), f p.still = f p1.still := fun f => by rw [h2]
    have e1 : p.number = p1.number := e (·.number)
    have e2 : p.rate = p1.rate := e (·.rate)
    have e3 : p.basisSites = p1.basisSites := e (·.basisSites)
    have e4 : p.range = p1.range := e (·.range)
    have e5 : p.custom = p1.custom := e (·.custom)
    have e6 : p.cutoff = p1.cutoff := e (·.cutoff)
    rw [e1, e2, e3, e4, e5, e6, h4]
    exact ⟨rfl, rfl, rfl, rfl, rfl, rfl⟩

/-- **C24** Incremental re-matching equals full matching: if the configuration of any state of any run
is handed to the constructor of a new model with the same processes, then every process has there the
same pattern, the same available sites with the same rates (in some order) and the same total rate. -/
theorem C24_from_scratch (h : GoodRun env n nT negLog cfg procs s) {ms : MState K}
    (hs : initialMatching env s.ms.cfg procs = .ok ms) :
    ms.procs.length = s.ms.procs.length ∧
    ∀ (j : Nat) (p p' : Proc K), s.ms.procs[j]? = some p → ms.procs[j]? = some p' →
      p'.matchList = p.matchList ∧ p'.idMoves = p.idMoves ∧
      (p.sites.zip p.weights).Perm (p'.sites.zip p'.weights) ∧ p.totalRate = p'.totalRate := by
  obtain ⟨cfg1, procs1, hprep, hok, ⟨⟨A, hI⟩, -⟩, -⟩ := h.inv
  have hl := lists_of h.input hprep.1
  have hg : s.ms.cfg.Good n nT := hI.good
  have hco : s.ms.cfg.coords = cfg.coords := by
    have : s.ms.cfg.coords = cfg1.coords := hI.coords
    rw [this, hl.rest]
  have hna : s.ms.cfg.typeNames = cfg.typeNames := by
    have : s.ms.cfg.typeNames = cfg1.typeNames := hI.names
    rw [this, hl.rest]
  have hin' : WellFormed env n nT s.ms.cfg procs :=
    ⟨h.input.ranks, h.input.typed, h.input.lattice, h.input.sites, hg, h.input.processes⟩
  obtain ⟨c1, procs2, hprep', hok', ⟨A', hI'⟩, hsame⟩ := initialMatching_inv hin'
    (fun hc => (h.custom hc).frame h.input hg hco hna hprep) hs
  obtain ⟨rfl, hlists⟩ := prepared_frame h.input hg hco hprep hprep'
  have hl' := lists_of hin' hprep'.1
  have hpr : s.ms.procs.map Proc.still = procs2.map Proc.still := hI.procs
  have hpr' : ms.procs.map Proc.still = procs2.map Proc.still := hI'.procs
  have hty : ms.cfg.types = s.ms.cfg.types := by rw [hsame.types, hl'.rest]
  have hel : ms.cfg.elements = s.ms.cfg.elements := by rw [hsame, hl'.rest]
  have hco' : ms.cfg.coords = s.ms.cfg.coords := by rw [hsame, hl'.rest]
  have hna' : ms.cfg.typeNames = s.ms.cfg.typeNames := by rw [hsame, hl'.rest]
  refine ⟨by simpa using congrArg List.length (hpr'.trans hpr.symm), ?_⟩
  intro j p p' hp hp'
  have hst : p'.still = p.still := by
    have h1 : (s.ms.procs.map Proc.still)[j]? = some p.still := by rw [List.getElem?_map, hp]; rfl
    have h2 : (ms.procs.map Proc.still)[j]? = some p'.still := by rw [List.getElem?_map, hp']; rfl
    rw [hpr] at h1
    rw [hpr', h1, Option.some.injEq] at h2
    exact h2.symm
  have e : ∀ {β : Type _} (f : Proc K → β), f p'.still = f p.still := fun f => by rw [hst]
  have e1 : p'.matchList = p.matchList := e (·.matchList)
  have e2 : p'.idMoves = p.idMoves := e (·.idMoves)
  have e3 : p'.custom = p.custom := e (·.custom)
  have e4 : p'.rate = p.rate := e (·.rate)
  refine ⟨e1, e2, ?_⟩
  apply (hI.book.rep j p hp).pairs (hI'.book.rep j p' hp') ?_ e3 e4
  intro i
  by_cases hin : i < n
  · obtain ⟨sk, hsk⟩ : ∃ sk, cfg1.matchLists[i]? = some sk :=
      ⟨_, List.getElem?_eq_getElem (by rw [hl.shape.matchLists]; exact hin)⟩
    have hsk' : c1.matchLists[i]? = some (seen s.ms.cfg.types sk) := by
      rw [hlists, List.getElem?_map, hsk]; rfl
    have hseen : seen ms.cfg.types (seen s.ms.cfg.types sk) = seen s.ms.cfg.types sk := by
      rw [hty]
      unfold seen
      rw [List.map_map]
      rfl
    have h1 := (hI.right i sk hsk).avail j p.still (hI.proc hp)
    have h2 := (hI'.right i _ hsk').avail j p'.still (hI'.proc hp')
    rw [hseen, hst] at h2
    replace h2 := h2.trans h1.symm
    have r1 := (hI.right i sk hsk).rate j p.still
    have r2 := (hI'.right i _ hsk').rate j p'.still
    rw [hseen, hst] at r2
    cases ha : A j i with
    | none =>
      rw [ha] at h2
      cases ha' : A' j i with
      | none => rfl
      | some r => rw [ha'] at h2; simp at h2
    | some r =>
      rw [ha] at h2
      cases ha' : A' j i with
      | none => rw [ha'] at h2; simp at h2
      | some r' =>
        have q1 := r1 r (hI.proc hp) ha
        have q2 := r2 r' (by rw [← hst]; exact hI'.proc hp') ha'
        unfold Matcher.RateIs at q1 q2
        have hargs : Matcher.rateArgsOn ms.cfg (seen s.ms.cfg.types sk) p.still i =
            Matcher.rateArgsOn s.ms.cfg (seen s.ms.cfg.types sk) p.still i :=
          Matcher.rateArgsOn_local hco' hna' (fun e _ => by rw [hel]) (fun e _ => by rw [hty]) _ _
        have q1' : if env.useCustomRates = true then
          ∃ a, Matcher.rateArgsOn s.ms.cfg (seen s.ms.cfg.types sk) p.still i = Except.ok a ∧ env.callback a = r
          else r = p.still.rate := q1
        have q2' : if env.useCustomRates = true then
          ∃ a, Matcher.rateArgsOn ms.cfg (seen s.ms.cfg.types sk) p.still i = Except.ok a ∧ env.callback a = r'
          else r' = p.still.rate := q2
        rw [hargs] at q2'
        split at q1'
        · next hcu =>
          rw [if_pos hcu] at q2'
          obtain ⟨a, b1, b2⟩ := q1'
          obtain ⟨a', b3, b4⟩ := q2'
          rw [b1] at b3
          cases b3
          rw [← b2, ← b4]
        · next hcu =>
          rw [if_neg hcu] at q2'
          rw [q1', q2']
  · rw [hI.off i j (fun hc => hin hc.1), hI'.off i j (fun hc => hin hc.1)]

/-- Non-vacuity: the configuration after two hops on a ring can be handed to the constructor. -/
example : (do
    let s ← Sample.go (Sample.env Sample.ring) Sample.ring Sample.ringElements Sample.hops [Sample.half, Sample.half]
    let procs ← Sample.hops
    let ms ← initialMatching (Sample.env Sample.ring) s.ms.cfg procs
    return ms.procs.map (fun p => (p.sites, p.totalRate)) : M (List (List Nat × ℚ))) = .ok [([2], 2), ([2], 1)] := by decide +kernel

/-! ### C25 -/

theorem totalRate_table (ps : List (Proc K)) (hne : ps ≠ []) :
    Interactions.totalRate (Interactions.probabilityTable ps) = .ok (sumRates ps) := by
  have key : ∀ (ps : List (Proc K)) (a : K), ps ≠ [] →
      ∃ e, (Interactions.probabilityLoop a ps).getLast? = some e ∧ e.1 = a + sumRates ps := by
    intro ps
    induction ps with
    | nil => intro a h; exact absurd rfl h
    | cons p ps ih =>
      intro a _
      unfold Interactions.probabilityLoop
      by_cases hps : ps = []
      · subst hps
        refine ⟨(p.totalRate + a, p.sites.length), rfl, ?_⟩
        simp [sumRates, add_comm]
      · obtain ⟨e, h1, h2⟩ := ih (a + p.totalRate) hps
        refine ⟨e, ?_, ?_⟩
        · rw [List.getLast?_cons, h1]; rfl
        · rw [h2]
          simp [sumRates, add_assoc]
  obtain ⟨e, h1, h2⟩ := key ps 0 hne
  unfold Interactions.totalRate Interactions.probabilityTable
  rw [h1, zero_add] at *
  simp only [h2]

/-- **C25** In every state of every run each process lists each of its available sites once, its total
rate is the sum of the rates of the listed sites, and the running table used for the selection is the
table of these totals. -/
theorem C25_totals (h : GoodRun env n nT negLog cfg procs s) :
    (∀ p ∈ s.ms.procs, p.sites.Nodup ∧ p.siteMult.length = p.sites.length ∧
      (p.custom = true → p.siteRates.length = p.sites.length) ∧ p.totalRate = p.weights.sum) ∧
    Interactions.totalAvailableSites s.ms.procs = (s.ms.procs.map (·.sites.length)).sum ∧
    s.table = Interactions.probabilityTable s.ms.procs ∧
    (s.ms.procs ≠ [] → Interactions.totalRate s.table = .ok (s.ms.procs.map (·.weights.sum)).sum) := by
  obtain ⟨cfg1, procs1, hprep, hok, ⟨⟨A, hI⟩, htab⟩, -⟩ := h.inv
  have hcons : ∀ p ∈ s.ms.procs, p.Consistent := by
    intro p hp
    obtain ⟨j, hj⟩ := List.mem_iff_getElem?.1 hp
    exact (hI.book.rep j p hj).consistent
  refine ⟨fun p hp => ?_, ?_, htab, ?_⟩
  · obtain ⟨a, b, c, d⟩ := hcons p hp
    exact ⟨a, b, c, d⟩
  · unfold Interactions.totalAvailableSites
    rw [List.sum_eq_foldl, List.foldl_map]
  · intro hne
    rw [htab, totalRate_table _ hne]
    unfold sumRates
    rw [List.map_congr_left (fun p hp => (hcons p hp).total)]

/-- Non-vacuity: the totals after two hops on a ring. -/
example : ∃ (cfg : Config ℚ) (procs : List (Proc ℚ)) (s : Sim ℚ), GoodRun (Sample.env Sample.ring) 4 4 Sample.lg cfg procs s ∧
    s.ms.procs.map (·.totalRate) = [2, 1] := by
  obtain ⟨cfg, procs, s, -, -, h, -, -, -, h'⟩ := Sample.ring_run
  exact ⟨cfg, procs, s, h, h'⟩

/-! ### C26 -/

/-- With positive rates the listed rates are positive in every state of every run. -/
theorem weights_pos (h : GoodRun env n nT negLog cfg procs s) (hr : PositiveRates env procs) :
    ∀ p ∈ s.ms.procs, ∀ w ∈ p.weights, 0 < w := by
  intro p hp w hw
  obtain ⟨cfg1, procs1, hprep, hok, ⟨⟨A, hI⟩, -⟩, -⟩ := h.inv
  obtain ⟨j, hj⟩ := List.mem_iff_getElem?.1 hp
  have hrep := hI.book.rep j p hj
  obtain ⟨hlen, hsame⟩ := C24_same_processes h
  have hj0 : j < procs.length := by rw [← hlen]; exact (List.getElem?_eq_some_iff.1 hj).1
  obtain ⟨-, hrate, -⟩ := hsame j _ p (List.getElem?_eq_getElem hj0) hj
  have hp0 : 0 < p.rate := by rw [hrate]; exact hr.constant _ (List.getElem_mem hj0)
  rw [hrep.weights, List.mem_map] at hw
  obtain ⟨i, hi, rfl⟩ := hw
  split
  · have hA := (hrep.listed i).1 hi
    obtain ⟨r, hA⟩ := Option.isSome_iff_exists.1 hA
    rw [hA, Option.getD_some]
    have hin : i < n := by
      by_contra hc
      rw [hI.off i j (fun h => hc h.1)] at hA
      cases hA
    have hl := lists_of h.input hprep.1
    obtain ⟨sk, hsk⟩ : ∃ sk, cfg1.matchLists[i]? = some sk :=
      ⟨_, List.getElem?_eq_getElem (by rw [hl.shape.matchLists]; exact hin)⟩
    have := (hI.right i sk hsk).rate j _ r (hI.proc hj) hA
    unfold Matcher.RateIs at this
    have this : if env.useCustomRates = true then
          ∃ a, Matcher.rateArgsOn s.ms.cfg (seen s.ms.cfg.types sk) p.still i = Except.ok a ∧ env.callback a = r
          else r = p.rate := this
    split at this
    · next hc =>
      obtain ⟨a, -, h2⟩ := this
      rw [← h2]
      exact hr.custom hc a
    · rw [this]; exact hp0
  · exact hp0

/-- While some site is available the total rate is positive. -/
theorem sumRates_pos (h : GoodRun env n nT negLog cfg procs s) (hr : PositiveRates env procs)
    (ha : Interactions.totalAvailableSites s.ms.procs ≠ 0) :
    Selectable s.ms.procs ∧ 0 < sumRates s.ms.procs := by
  obtain ⟨hc, ht, -, -⟩ := C25_totals h
  have hw := weights_pos h hr
  refine ⟨⟨fun p hp => ⟨(hc p hp).1, (hc p hp).2.1, (hc p hp).2.2.1, (hc p hp).2.2.2⟩,
    fun p hp w hpw => (hw p hp w hpw).le⟩, ?_⟩
  rw [ht] at ha
  unfold sumRates
  have hne : ∃ p ∈ s.ms.procs, p.sites ≠ [] := by
    by_contra hcon
    push Not at hcon
    apply ha
    apply List.sum_eq_zero
    intro x hx
    obtain ⟨p, hp, rfl⟩ := List.mem_map.1 hx
    rw [hcon p hp]
    rfl
  obtain ⟨p, hp, hps⟩ := hne
  have hnn : ∀ t ∈ s.ms.procs.map (·.totalRate), 0 ≤ t := by
    intro t ht
    obtain ⟨q, hq, rfl⟩ := List.mem_map.1 ht
    rw [(hc q hq).2.2.2]
    exact List.sum_nonneg (fun w hqw => (hw q hq w hqw).le)
  have hpp : 0 < p.totalRate := by
    rw [(hc p hp).2.2.2]
    apply List.sum_pos _ (hw p hp)
    rw [← List.length_pos_iff, Proc.Consistent.length_weights ⟨(hc p hp).1, (hc p hp).2.1, (hc p hp).2.2.1, (hc p hp).2.2.2⟩,
      List.length_pos_iff]
    exact hps
  exact lt_of_lt_of_le hpp (List.single_le_sum hnn _ (List.mem_map_of_mem hp))

/-- **C26** From a well formed input with positive rates, in every state of every run with an available
site, a single step with random numbers in (0,1) ends properly or overflows the 32 bit integers of the
multiplicity: it never removes a site that is not listed, never reads or writes outside a table and
never compares buckets of different sizes.

Missing for the full property: the overflow, which does happen for large buckets (C14), and the
condition `inside` of `CustomGeometry`, which the front end does not check (`C26_cutoff_overrun`); hence
`_partial`. -/
theorem C26_single_step_partial (h : GoodRun env n nT negLog cfg procs s) (hr : PositiveRates env procs)
    (ha : Interactions.totalAvailableSites s.ms.procs ≠ 0) (u1 u2 : K) (h1 : 0 < u1) (h1' : u1 < 1)
    (h2 : 0 ≤ u2) (h2' : u2 < 1) :
    (∃ s', singleStep env s u1 u2 = .ok s') ∨ singleStep env s u1 u2 = .error .overflow := by
  obtain ⟨hsel, hpos⟩ := sumRates_pos h hr ha
  obtain ⟨i, p, k, site, procs', he, -⟩ := C27_only_possible_events_partial s.ms.procs hsel hpos u1 u2 h1.le h1' h2 h2'
    (.inl h1)
  obtain ⟨cfg1, procs1, hprep, hok, ⟨hI, htab⟩, -⟩ := h.inv
  rw [← htab] at he
  exact World.singleStep_okOr hok hI he

/-- **C26** The constructor ends properly or overflows, when the insertion of wildcards goes through. -/
theorem C26_init_partial (h : WellFormed env n nT cfg procs)
    (hcu : env.useCustomRates = true → CustomRatesOk env n nT cfg procs)
    (hp : ∃ cfg1 procs1, Prepared env cfg procs cfg1 procs1) :
    (∃ s, LatticeModel.init env cfg procs = .ok s) ∨ LatticeModel.init env cfg procs = .error .overflow := by
  obtain ⟨cfg1, procs1, hp⟩ := hp
  unfold LatticeModel.init
  exact (initialMatching_okOr h hcu hp).bind fun _ _ => Matcher.okOr_ok _

theorem drawStep_or (r : K) (us : List K) :
    (∃ dt, drawStep negLog r us = .ok dt) ∨ drawStep negLog r us = .error .diverges := by
  induction us with
  | nil => exact .inr rfl
  | cons u us ih =>
    unfold drawStep
    split
    · exact .inl ⟨_, rfl⟩
    · exact ih

/-- The random numbers used for the selection are in (0,1). -/
def Draws.Inside (d : Draws K) : Prop := 0 < d.process ∧ d.process < 1 ∧ 0 < d.site ∧ d.site < 1

/-- A run ends properly, or overflows, or waits for ever for a finite time step (C30), or comes to a
state without available sites, in which the front end stops. -/
inductive Outcome (env : Env K) (negLog : K → Option K) (ds : List (Draws K)) (s0 : Sim K) : Prop
  | ok (s : Sim K) (h : run env negLog ds s0 = .ok s)
  | overflow (h : run env negLog ds s0 = .error .overflow)
  | diverges (h : run env negLog ds s0 = .error .diverges)
  | stuck (ds1 ds2 : List (Draws K)) (d : Draws K) (s1 : Sim K) (e : ds = ds1 ++ d :: ds2)
      (h : run env negLog ds1 s0 = .ok s1) (h0 : Interactions.totalAvailableSites s1.ms.procs = 0)

/-- **C26** Every run from a well formed input with positive rates, with any random numbers in (0,1), has
one of the outcomes listed. -/
theorem C26_run_partial (h : GoodRun env n nT negLog cfg procs s) (hr : PositiveRates env procs)
    (ds : List (Draws K)) (hd : ∀ d ∈ ds, Draws.Inside d) : Outcome env negLog ds s := by
  induction ds generalizing s with
  | nil => exact .ok s rfl
  | cons d ds ih =>
    by_cases ha : Interactions.totalAvailableSites s.ms.procs = 0
    · exact .stuck [] ds d s rfl rfl ha
    obtain ⟨hd1, hd2, hd3, hd4⟩ := hd d (by simp)
    have hne : s.ms.procs ≠ [] := by
      intro h0; rw [h0] at ha; exact ha rfl
    have htot := (C25_totals h).2.2.2 hne
    have hcons : ∀ ds1, run env negLog (d :: ds1) s = (step env negLog s d >>= fun s1 => run env negLog ds1 s1) :=
      fun ds1 => loopM_cons _ _ _ _
    have hrun := hcons ds
    have hstep : step env negLog s d = (propagateTime negLog s d.time >>= fun s1 =>
        singleStep env s1 d.process d.site) := rfl
    rcases drawStep_or (negLog := negLog) (s.ms.procs.map (·.weights.sum)).sum d.time with ⟨dt, hdt⟩ | hdt
    · have hpt : propagateTime negLog s d.time = .ok { s with time := s.time + dt } := by
        unfold propagateTime
        rw [htot, ok_bind, hdt, ok_bind]
        rfl
      have hsame : singleStep env { s with time := s.time + dt } d.process d.site =
          (singleStep env s d.process d.site).map (fun s' => { s' with time := s.time + dt }) := by
        unfold singleStep
        dsimp only
        cases select s.ms.procs s.table d.process d.site with
        | error e => rfl
        | ok r =>
          rw [ok_bind, ok_bind]
          cases performAt { s.ms with procs := r.2.2 } r.1 r.2.1 with
          | error e => rfl
          | ok m =>
            rw [ok_bind, ok_bind]
            cases rematch env m r.1 with
            | error e => rfl
            | ok m => rfl
      rw [hpt, ok_bind, hsame] at hstep
      rcases C26_single_step_partial h hr ha d.process d.site hd1 hd2 hd3.le hd4 with ⟨s', hs'⟩ | hov
      · rw [hs'] at hstep
        have hstep' : step env negLog s d = .ok { s' with time := s.time + dt } := hstep
        rw [hstep', ok_bind] at hrun
        rcases ih (h.step hstep') (fun d' hd' => hd d' (by simp [hd'])) with ⟨s2, h2⟩ | h2 | h2 | ⟨ds1, ds2, d', s1, e, h2, h0⟩
        · exact .ok s2 (by rw [hrun, h2])
        · exact .overflow (by rw [hrun, h2])
        · exact .diverges (by rw [hrun, h2])
        · refine .stuck (d :: ds1) ds2 d' s1 (by rw [e]; rfl) ?_ h0
          rw [hcons, hstep', ok_bind, h2]
      · rw [hov] at hstep
        exact .overflow (by rw [hrun, hstep]; rfl)
    · have hpt : propagateTime negLog s d.time = .error .diverges := by
        unfold propagateTime
        rw [htot, ok_bind, hdt]
        rfl
      exact .diverges (by rw [hrun, hstep, hpt]; rfl)

/-- Non-vacuity: a run with positive rates in a state with available sites. -/
example : ∃ (cfg : Config ℚ) (procs : List (Proc ℚ)) (s : Sim ℚ), GoodRun (Sample.env Sample.ring) 4 4 Sample.lg cfg procs s ∧
    PositiveRates (Sample.env Sample.ring) procs ∧ Interactions.totalAvailableSites s.ms.procs ≠ 0 ∧
    Draws.Inside Sample.half := by
  obtain ⟨cfg, procs, s, -, -, h, hp, -, h', -⟩ := Sample.ring_run
  refine ⟨cfg, procs, s, h, hp, ?_, by unfold Draws.Inside; decide +kernel⟩
  have h1 := (C25_totals h).2.1
  have h2 : (s.ms.procs.map (·.sites.length)) = (s.ms.procs.map (·.sites)).map List.length := by rw [List.map_map]; rfl
  rw [h1, h2, h']
  decide

/-- **C26** Negation: with custom rates a process can match (its positions are compared with a tolerance) at a
site where fewer sites are within its cutoff (compared without tolerance) than its pattern has. The code
then writes outside the vector. The input is well formed and the calculator's answers are positive. -/
theorem C26_cutoff_overrun :
    (∃ cfg procs, Sample.config Sample.shifted Sample.allA = .ok cfg ∧ Sample.flipPair = .ok procs ∧
      WellFormed (Sample.byGeometry Sample.shifted) 6 4 cfg procs ∧
      PositiveRates (Sample.byGeometry Sample.shifted) procs ∧
      LatticeModel.init (Sample.byGeometry Sample.shifted) cfg procs = .error .outOfBounds) := by
  obtain ⟨cfg, procs, h1, h2, h3⟩ := Sample.goodCheck_ok (env := Sample.byGeometry Sample.shifted) (P := Sample.shifted)
    (els := Sample.allA) (procs := Sample.flipPair) (by decide +kernel)
  have hn : Sample.shifted.sites.length = 6 := by decide +kernel
  rw [hn] at h3
  have hrun : (do
      let c ← Sample.config Sample.shifted Sample.allA
      let ps ← Sample.flipPair
      LatticeModel.init (Sample.byGeometry Sample.shifted) c ps) = .error .outOfBounds := by decide +kernel
  rw [h1, ok_bind, h2, ok_bind] at hrun
  refine ⟨cfg, procs, h1, h2, h3, ⟨?_, ?_⟩, hrun⟩
  · have : Sample.flipPair.map (fun ps => ps.all (fun p => decide (0 < p.rate))) = .ok true := by decide +kernel
    rw [h2] at this
    have := Except.ok.inj this
    rw [List.all_eq_true] at this
    exact fun p hp => by simpa using this p hp
  · intro _ a
    cases a with
    | plain g b a r n c =>
      show (0 : ℚ) < match g[1]? with
        | some c => if c.x < 0 then (1 : ℚ) else 2
        | none => 1
      split
      · split <;> norm_num
      · norm_num
    | buckets => exact one_pos

/-! ### C31 -/

theorem matchPairs_ranks (env : Env K) (r : Nat) (h : 0 < env.nRanks) (h' : 0 < r) (s : MState K)
    (pairs : List (Nat × Nat)) :
    Matcher.matchPairs { env with nRanks := r } s pairs = Matcher.matchPairs env s pairs := by
  unfold Matcher.matchPairs
  dsimp only
  rw [Mpi.parMap_eq h, Mpi.parMap_eq h']

theorem lookupTasks_ranks (env : Env K) (r : Nat) (s : MState K) (i : Nat) (ts : List (RateTask K)) :
    Matcher.lookupTasks { env with nRanks := r } s i ts = Matcher.lookupTasks env s i ts := by
  induction ts generalizing i with
  | nil => rfl
  | cons t ts ih =>
    unfold Matcher.lookupTasks
    simp only [ih]
    rfl

/-- **C31** A call of the matcher gives the same result, including the same error, for any number of
ranks. -/
theorem C31_matching (env : Env K) (r : Nat) (h : 0 < env.nRanks) (h' : 0 < r) (s : MState K)
    (indices : List Nat) :
    Matcher.calculateMatching { env with nRanks := r } s indices = Matcher.calculateMatching env s indices := by
  have hcr : ∀ s ts, Matcher.customRates { env with nRanks := r } s ts = Matcher.customRates env s ts := by
    intro s ts
    unfold Matcher.customRates
    dsimp only
    simp only [lookupTasks_ranks, Mpi.parMap_eq h, Mpi.parMap_eq h']
    rfl
  unfold Matcher.calculateMatching
  dsimp only
  simp only [matchPairs_ranks env r h h', hcr]

/-- **C31** Whole runs give the same result for any number of ranks. -/
theorem C31_run (env : Env K) (r : Nat) (h : 0 < env.nRanks) (h' : 0 < r) (cfg : Config K)
    (procs : List (Proc K)) (ds : List (Draws K)) :
    (LatticeModel.init { env with nRanks := r } cfg procs >>= run { env with nRanks := r } negLog ds) =
      (LatticeModel.init env cfg procs >>= run env negLog ds) := by
  have h1 : LatticeModel.init { env with nRanks := r } cfg procs = LatticeModel.init env cfg procs := by
    unfold LatticeModel.init initialMatching
    dsimp only
    simp only [C31_matching env r h h']
  have h2 : step { env with nRanks := r } negLog = step env negLog := by
    funext s d
    unfold step singleStep rematch
    dsimp only
    simp only [C31_matching env r h h']
  unfold run
  rw [h1, h2]

/-- Non-vacuity: a run on three ranks. -/
example : (Sample.go { Sample.byNumber Sample.ring with nRanks := 3 } Sample.ring Sample.ringElements
    (Sample.customHops true) [Sample.half, Sample.half]).map (fun s => s.ms.procs.map (·.siteRates)) =
    .ok [[3], [2]] := by decide +kernel

/-! ### C32, C33 -/

/-- In every state of every run with custom rates, the rate of every listed site is the answer of the
calculator for the present state of its surroundings. -/
theorem rate_current (h : GoodRun env n nT negLog cfg procs s) (hcu : env.useCustomRates = true) {j : Nat}
    {p : Proc K} (hp : s.ms.procs[j]? = some p) (hc : p.custom = true) {k site : Nat} {r : K}
    (hs : p.sites[k]? = some site) (hr : p.siteRates[k]? = some r) :
    s.ms.cfg.matchLists[site]?.isSome ∧
    (∃ ml, Surroundings env procs s.ms.cfg site = .ok ml ∧ s.ms.cfg.matchLists[site]? = some ml) ∧
    ∃ a, Matcher.rateArgs s.ms.cfg p site = .ok a ∧ r = env.callback a := by
  obtain ⟨cfg1, procs1, hprep, hok, ⟨⟨A, hI⟩, -⟩, -⟩ := h.inv
  have hl := lists_of h.input hprep.1
  have hco : s.ms.cfg.coords = cfg.coords := by
    have : s.ms.cfg.coords = cfg1.coords := hI.coords
    rw [this, hl.rest]
  have hrep := hI.book.rep j p hp
  have hA := hrep.rates hc k site r hs hr
  have hin : site < n := by
    by_contra hcn
    rw [hI.off site j (fun h => hcn h.1)] at hA
    cases hA
  obtain ⟨sk, hsk⟩ : ∃ sk, cfg1.matchLists[site]? = some sk :=
    ⟨_, List.getElem?_eq_getElem (by rw [hl.shape.matchLists]; exact hin)⟩
  have hright := hI.right site sk hsk
  have hav := (hright.avail j _ (hI.proc hp)).1 (by rw [hA]; rfl)
  have hfresh := hright.fresh (by
    intro h0
    have := Matcher.mem_processesFor.2 ⟨_, hI.proc hp, hav.1⟩
    rw [h0] at this
    simp at this)
  have hrate := hright.rate j _ r (hI.proc hp) hA
  unfold Matcher.RateIs at hrate
  have hrate : if env.useCustomRates = true then
          ∃ a, Matcher.rateArgsOn s.ms.cfg (seen s.ms.cfg.types sk) p.still site = Except.ok a ∧ env.callback a = r
          else r = p.rate := hrate
  rw [if_pos hcu] at hrate
  obtain ⟨a, h1, h2⟩ := hrate
  refine ⟨by rw [hfresh]; rfl, ⟨_, hl.matchList h.input.lattice h.input.sites hI.good.shape hco hsk, hfresh⟩, a, ?_, h2.symm⟩
  rw [Matcher.rateArgs_eq p hfresh]
  exact h1

/-- **C32** With a custom rate calculator and no caching, in every state of every run the rate of every
available event is the calculator's answer for what is now around the site: the stored match list of the
site is the one computed anew, and the rate is the answer for the arguments formed from it. -/
theorem C32_current (hin : WellFormed env n nT cfg procs) (hgeo : CustomGeometry env cfg procs)
    (hnc : ∀ p ∈ procs, p.cacheRate = false) (hre : Reached env negLog cfg procs s)
    (hcu : env.useCustomRates = true) {j : Nat} {p : Proc K} (hp : s.ms.procs[j]? = some p)
    (hc : p.custom = true) {k site : Nat} {r : K} (hs : p.sites[k]? = some site)
    (hr : p.siteRates[k]? = some r) :
    (∃ ml, Surroundings env procs s.ms.cfg site = .ok ml ∧ s.ms.cfg.matchLists[site]? = some ml) ∧
    ∃ a, Matcher.rateArgs s.ms.cfg p site = .ok a ∧ r = env.callback a := by
  refine (rate_current (n := n) (nT := nT) ⟨hin, fun _ => ⟨hgeo, ?_⟩, hre⟩ hcu hp hc hs hr).2
  intro cfg1 procs1 hprep q hq q' hq' hcache
  obtain ⟨i, hi⟩ := List.mem_iff_getElem?.1 hq
  obtain ⟨q0, h1, -, h2⟩ := prepared_proc hin hprep hi
  have h3 := hnc q0 (List.mem_of_getElem? h1)
  rw [h2] at hcache
  have : q0.cacheRate = true := hcache
  rw [h3] at this
  cases this

/-- Non-vacuity: a run with custom rates and without caching, with a listed site. -/
example : ∃ (cfg : Config ℚ) (procs : List (Proc ℚ)) (s : Sim ℚ) (p : Proc ℚ),
    WellFormed (Sample.byNumber Sample.ring) 4 4 cfg procs ∧ CustomGeometry (Sample.byNumber Sample.ring) cfg procs ∧
    (∀ p ∈ procs, p.cacheRate = false) ∧ Reached (Sample.byNumber Sample.ring) Sample.lg cfg procs s ∧
    s.ms.procs[0]? = some p ∧ p.custom = true ∧ p.sites[0]? = some 2 ∧ p.siteRates[0]? = some 3 := by
  obtain ⟨cfg, procs, s, -, -, h, -, h1, h2, -, h3, h4⟩ := Sample.customRing_run false
  obtain ⟨hlen, hsame⟩ := C24_same_processes h
  match hps : s.ms.procs, h3, h4 with
  | p :: ps, h3, h4 =>
    simp only [List.map_cons, List.cons.injEq] at h3 h4
    rw [hps] at hlen hsame
    obtain ⟨p0, hp0⟩ : ∃ p0, procs[0]? = some p0 := ⟨_, List.getElem?_eq_getElem (by rw [← hlen]; simp)⟩
    refine ⟨cfg, procs, s, p, h.input, h2, fun p hp => (h1 p hp).1, h.reached, by rw [hps]; rfl, ?_, by rw [h3.1]; rfl,
      by rw [h4.1]; rfl⟩
    rw [(hsame 0 p0 p hp0 rfl).2.2.2.2.1]
    exact (h1 p0 (List.mem_of_getElem? hp0)).2

/-- **C33** With caching allowed for any of the processes the rates are still the calculator's answers for
the present state, provided the key decides the answer (`CustomRatesOk.keys`).

The condition on the key is needed: the key has the number of the process and the types of the sites
within the cutoff but not where they are, see `C33_key_blind`; hence `_partial`. -/
theorem C33_cached_current_partial (h : GoodRun env n nT negLog cfg procs s) (hcu : env.useCustomRates = true)
    {j : Nat} {p : Proc K} (hp : s.ms.procs[j]? = some p) (hc : p.custom = true) {k site : Nat} {r : K}
    (hs : p.sites[k]? = some site) (hr : p.siteRates[k]? = some r) :
    ∃ a, Matcher.rateArgs s.ms.cfg p site = .ok a ∧ r = env.callback a :=
  (rate_current h hcu hp hc hs hr).2.2

/-- Non-vacuity: a run with stored rates. -/
example : ∃ (cfg : Config ℚ) (procs : List (Proc ℚ)) (s : Sim ℚ), (∀ p ∈ procs, p.cacheRate = true ∧ p.custom = true) ∧
    GoodRun (Sample.byNumber Sample.ring) 4 4 Sample.lg cfg procs s ∧ s.ms.procs.map (·.siteRates) = [[3], [2]] := by
  obtain ⟨cfg, procs, s, -, -, h, -, h1, -, -, -, h4⟩ := Sample.customRing_run true
  exact ⟨cfg, procs, s, h1, h, h4⟩

/-- **C33** Negation: two sites with the same types around them but at different places have the same key. With
caching, after one step the site 0 has the rate 1 that belongs to sites like 1, while the calculator's answer for
it is 2 (and without caching that is its rate). -/
theorem C33_key_blind :
    ∃ cfg procs, Sample.config Sample.pairs Sample.allA = .ok cfg ∧ Sample.flips true = .ok procs ∧
      WellFormed (Sample.byGeometry Sample.pairs) 6 4 cfg procs ∧
      CustomGeometry (Sample.byGeometry Sample.pairs) cfg procs ∧
      PositiveRates (Sample.byGeometry Sample.pairs) procs ∧
      ∃ s p a, Reached (Sample.byGeometry Sample.pairs) Sample.lg cfg procs s ∧ s.ms.procs[0]? = some p ∧
        p.custom = true ∧ p.sites[1]? = some 0 ∧ p.siteRates[1]? = some 1 ∧
        Matcher.rateArgs s.ms.cfg p 0 = .ok a ∧ (Sample.byGeometry Sample.pairs).callback a = 2 := by
  obtain ⟨cfg, procs, h1, h2, h3⟩ := Sample.goodCheck_ok (env := Sample.byGeometry Sample.pairs) (P := Sample.pairs)
    (els := Sample.allA) (procs := Sample.flips true) (by decide +kernel)
  have hn : Sample.pairs.sites.length = 6 := by decide +kernel
  rw [hn] at h3
  have hg : CustomGeometry (Sample.byGeometry Sample.pairs) cfg procs :=
    Sample.geometryCheck_ok (P := Sample.pairs) (els := Sample.allA) (procs := Sample.flips true) (by decide +kernel) h1 h2
  refine ⟨cfg, procs, h1, h2, h3, hg, ⟨?_, ?_⟩, ?_⟩
  · have : (Sample.flips true).map (fun ps => ps.all (fun p => decide (0 < p.rate))) = .ok true := by decide +kernel
    rw [h2] at this
    have := Except.ok.inj this
    rw [List.all_eq_true] at this
    exact fun p hp => by simpa using this p hp
  · intro _ a
    cases a with
    | plain g b a r n c =>
      show (0 : ℚ) < match g[1]? with
        | some c => if c.x < 0 then (1 : ℚ) else 2
        | none => 1
      split
      · split <;> norm_num
      · norm_num
    | buckets => exact one_pos
  · obtain ⟨s, hs, hf⟩ := Sample.exists_of_map
      (x := Sample.go (Sample.byGeometry Sample.pairs) Sample.pairs Sample.allA (Sample.flips true) [Sample.half])
      (f := fun s => s.ms.procs[0]?.map (fun p => (p.custom, p.sites[1]?, p.siteRates[1]?,
        (Matcher.rateArgs s.ms.cfg p 0).toOption.map (Sample.byGeometry Sample.pairs).callback)))
      (b := some (true, some 0, some 1, some 2)) (by decide +kernel)
    rw [Option.map_eq_some_iff] at hf
    obtain ⟨p, hp, hf⟩ := hf
    simp only [Prod.mk.injEq] at hf
    obtain ⟨a, ha, ha'⟩ := Option.map_eq_some_iff.1 hf.2.2.2
    have ha : Matcher.rateArgs s.ms.cfg p 0 = .ok a := by
      cases hx : Matcher.rateArgs s.ms.cfg p 0 with
      | error e => rw [hx] at ha; cases ha
      | ok b => rw [hx] at ha; exact congrArg Except.ok (Option.some.inj ha)
    exact ⟨s, p, a, Sample.reached_of_go hs h1 h2, hp, hf.1, hf.2.1, hf.2.2.1, ha, ha'⟩

end KMC
