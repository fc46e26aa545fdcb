import Verif.Model.Sharing
import Verif.Lemmas.Again
import Verif.Samples.Runs

/-!
# C50: models made from the same interactions
-/

set_option linter.unusedSectionVars false

namespace KMC

open LatticeModel

variable {K : Type} [Field K] [LinearOrder K]

/-! ### One model at a time -/

/-- **C50** As long as only one of the models is used, it behaves as a model with its own processes: what the room
shows of it after any number of steps is the run of `LatticeModel` from what the room showed before. -/
theorem C50_alone (negLog : K → Option K) (i : Nat) (ds : List (Draws K)) (r : Room K) :
    (r.run negLog i ds >>= fun r' => r'.view i) =
      (r.view i >>= fun m => (LatticeModel.run m.1 negLog ds m.2).map (fun s => (m.1, s))) := by
  induction ds generalizing r with
  | nil =>
    show r.view i = _
    cases r.view i <;> rfl
  | cons d ds ih =>
    unfold Room.run
    rw [loopM_cons]
    unfold Room.step
    cases hv : r.view i with
    | error e => rfl
    | ok m =>
      rw [ok_bind, ok_bind]
      unfold LatticeModel.run
      rw [loopM_cons]
      cases hs : LatticeModel.step m.1 negLog m.2 d with
      | error e => rfl
      | ok s =>
        have hi : i < r.models.length := by
          unfold Room.view at hv
          rw [bind_ok] at hv
          obtain ⟨x, hx, -⟩ := hv
          exact (List.getElem?_eq_some_iff.1 (rd_ok.1 hx)).1
        rw [ok_bind, wr_of_lt hi, ok_bind, ok_bind]
        have := ih ⟨s.ms.procs, r.models.set i (m.1, s)⟩
        have hview : Room.view ⟨s.ms.procs, r.models.set i (m.1, s)⟩ i = .ok (m.1, s) := by
          unfold Room.view
          have : (r.models.set i (m.1, s))[i]? = some (m.1, s) := by
            rw [List.getElem?_set, if_pos rfl, if_pos hi]
          rw [rd_of_getElem? this, ok_bind]
          rfl
        rw [hview, ok_bind] at this
        exact this

/-- **C50** A model that has just been made is the one `LatticeModel` makes from the processes as they are. -/
theorem C50_new (env : Env K) (cfg : Config K) (r : Room K) :
    (r.construct env cfg >>= fun r' => r'.view r.models.length) =
      (init env cfg r.procs).map (fun s => (env, s)) := by
  unfold Room.construct
  cases init env cfg r.procs with
  | error e => rfl
  | ok s =>
    rw [ok_bind]
    show Room.view ⟨s.ms.procs, r.models ++ [(env, s)]⟩ r.models.length = _
    unfold Room.view
    have : (r.models ++ [(env, s)])[r.models.length]? = some (env, s) := by simp
    rw [rd_of_getElem? this, ok_bind]
    rfl

/-- A new model, run for some steps. -/
def Room.fresh (env : Env K) (negLog : K → Option K) (cfg : Config K) (ds : List (Draws K)) (r : Room K) : M (Sim K) := do
  let r1 ← r.construct env cfg
  let r2 ← r1.run negLog r.models.length ds
  let m ← r2.view r.models.length
  return m.2

theorem Room.fresh_eq (env : Env K) (negLog : K → Option K) (cfg : Config K) (ds : List (Draws K)) (r : Room K) :
    r.fresh env negLog cfg ds = (init env cfg r.procs >>= LatticeModel.run env negLog ds) := by
  unfold Room.fresh
  have h1 := C50_new env cfg r
  cases hc : r.construct env cfg with
  | error e =>
    rw [hc] at h1
    cases hi : init env cfg r.procs with
    | error e' => rw [hi] at h1; cases h1; rfl
    | ok s => rw [hi] at h1; cases h1
  | ok r1 =>
    rw [hc, ok_bind] at h1
    rw [ok_bind]
    cases hi : init env cfg r.procs with
    | error e' =>
      exfalso
      unfold Room.construct at hc
      rw [hi] at hc
      cases hc
    | ok s =>
      rw [hi] at h1
      have h2 := C50_alone negLog r.models.length ds r1
      rw [h1, map_ok', ok_bind] at h2
      rw [ok_bind]
      cases hr : r1.run negLog r.models.length ds with
      | error e =>
        rw [hr] at h2
        cases hl : LatticeModel.run env negLog ds s with
        | error e' => rw [hl] at h2; cases h2; rfl
        | ok s' => rw [hl] at h2; cases h2
      | ok r2 =>
        rw [hr, ok_bind] at h2
        rw [ok_bind, h2]
        cases LatticeModel.run env negLog ds s <;> rfl

/-! ### Using the processes again -/

/-- Every slot for an affected index is used by the process. -/
def Proc.Exact (p : Proc K) : Prop := p.affected.length = (p.matchList.filter (fun e => decide e.Changes)).length

section
variable [FloorRing K]

/-- The constructor of processes makes exactly the slots that are used. -/
theorem C50_exact {dist : Coord K → K} {first second : Config K} {info : List (List (String × Int))}
    {rate : K} {basis : List Nat} {moves : List (Nat × Coord K)} {number : Nat} {p : Proc K}
    (hp : mkProcess dist first second info rate basis moves number = .ok p) : p.Exact := by
  unfold mkProcess at hp
  obtain ⟨us, -, hp⟩ := bind_ok.1 hp
  obtain ⟨origin, -, hp⟩ := bind_ok.1 hp
  obtain ⟨entries, he, hp⟩ := bind_ok.1 hp
  obtain ⟨wm, hm, hp⟩ := bind_ok.1 hp
  have hp : p = _ := (Except.ok.inj hp).symm
  obtain ⟨m1, m2, m3⟩ := setMove_loop _ _ _ hm
  have hperm : p.matchList.Perm wm := by rw [hp]; exact (perm_sortP wm)
  unfold Proc.Exact
  rw [(hperm.filter _).length_eq]
  have ha : p.affected.length = (entries.filter isAffecting).length := by rw [hp]; simp
  rw [ha]
  have e1 : ∀ l : List (PEntry K), (l.filter (fun e => decide e.Changes)).length =
      ((l.map (·.updateTypes)).filter (fun u => decide (∃ v ∈ u, v ≠ 0))).length := by
    intro l
    rw [List.filter_map, List.length_map]
    rfl
  have e2 : ∀ l : List (PEntry K), (l.filter isAffecting).length =
      ((l.map (·.updateTypes)).filter (fun u => decide (∃ v ∈ u, v ≠ 0))).length := by
    intro l
    rw [List.filter_map, List.length_map]
    congr 2
    funext e
    unfold isAffecting
    rw [Bool.eq_iff_iff]
    simp
  rw [e1, e2, m2]

end

variable [IsStrictOrderedRing K]
variable {env env1 : Env K} {n n1 nT nT1 : Nat} {negLog negLog1 : K → Option K} {cfg cfg1 : Config K}
  {procs : List (Proc K)} {s1 : Sim K}

/-- In the world of a model every slot is used, wildcards inserted or not. -/
theorem world_exact (h : WellFormed env n nT cfg procs) (hx : ∀ p ∈ procs, p.Exact) {cfg' : Config K}
    {procs' : List (Proc K)} (hp : Prepared env cfg procs cfg' procs') :
    (World.of env n nT (Interactions.maxRange procs) cfg' procs').Exact := by
  have hact : ∀ p ∈ procs, (p.matchList.filter (fun e => decide e.Acts)) =
      (p.matchList.filter (fun e => decide e.Changes)) := by
    intro p hpm
    apply List.filter_congr
    intro e he
    rw [decide_eq_decide]
    exact ⟨acts_changes, acts_of_changes ((h.processes p hpm).slot e he)⟩
  intro p' hp'
  have hp' : p' ∈ procs'.map Proc.still := hp'
  obtain ⟨q, hq, rfl⟩ := List.mem_map.1 hp'
  obtain ⟨h1, h2⟩ := hp
  show (List.replicate q.affected.length 0).length = (q.matchList.filter (fun e => decide e.Acts)).length
  rw [List.length_replicate]
  unfold Interactions.updateProcessMatchLists at h2
  split at h2
  · cases h2
    unfold Interactions.clearMatching at hq
    obtain ⟨p, hpm, rfl⟩ := List.mem_map.1 hq
    have := hx p hpm
    unfold Proc.Exact at this
    rw [← hact p hpm] at this
    exact this
  · obtain ⟨j, hj⟩ := List.mem_iff_getElem?.1 hq
    obtain ⟨q0, hq0, hu⟩ := mapMM_getElem?' h2 hj
    unfold Interactions.clearMatching at hq0
    rw [List.getElem?_map, Option.map_eq_some_iff] at hq0
    obtain ⟨p, hpj, rfl⟩ := hq0
    have hpm := List.mem_of_getElem? hpj
    have hrest := (C12_insertion _ _ _ _ hu).2.2.2.2
    have haff : q.affected = p.affected := by rw [hrest]; rfl
    rw [haff]
    have hf : q.matchList.filter (fun e => decide e.Acts) = p.matchList.filter (fun e => decide e.Acts) := by
      rcases updateMatchListOf_aligned hu with rfl | ⟨cml, hcm, hal⟩
      · rfl
      · exact hal.filter _ (fun c => decide_eq_false (fun hc => not_changes_wildcardFor c (acts_changes hc)))
    rw [hf, hact p hpm]
    exact hx p hpm

/-- From a state that differs from the initial one in scratch memory only. -/
theorem run_reuse (h : WellFormed env n nT cfg procs)
    (hc : env.useCustomRates = true → CustomRatesOk env n nT cfg procs) (hx : ∀ p ∈ procs, p.Exact)
    {used : List (Proc K)}
    (hi : (initialMatching env cfg used).map MState.wiped = (initialMatching env cfg procs).map MState.wiped)
    (ds : List (Draws K)) :
    (init env cfg used >>= LatticeModel.run env negLog ds).map Sim.wiped =
      (init env cfg procs >>= LatticeModel.run env negLog ds).map Sim.wiped := by
  unfold init
  cases e1 : initialMatching env cfg procs with
  | error a =>
    cases e2 : initialMatching env cfg used with
    | error b => rw [e1, e2] at hi; cases hi; rfl
    | ok b => rw [e1, e2] at hi; cases hi
  | ok a =>
    cases e2 : initialMatching env cfg used with
    | error b => rw [e1, e2] at hi; cases hi
    | ok b =>
      rw [e1, e2, map_ok', map_ok', Except.ok.injEq] at hi
      obtain ⟨cfg1, procs1, hp, hok, hinv, -⟩ := initialMatching_inv h hc e1
      have hpb : b.procs.map Proc.wiped = a.procs.map Proc.wiped := congrArg MState.procs hi
      have ht : Interactions.probabilityTable b.procs = Interactions.probabilityTable a.procs := by
        rw [← probabilityTable_wiped b.procs, hpb, probabilityTable_wiped]
      exact run_wiped hok (world_exact h hx hp) negLog ds
        (s := { ms := a, table := Interactions.probabilityTable a.procs, time := 0 })
        (t := { ms := b, table := Interactions.probabilityTable b.procs, time := 0 }) ⟨hinv, rfl⟩
        (by unfold Sim.wiped; simp only [hi, ht])

/-- **C50** (partial: the first model is not used any more, its interactions do not insert wildcards, and both inputs
are well formed.) A new model made from processes that were used in a run of another model, on any lattice, and run
for any number of steps, is the same as one made from the processes as they were before that run: configuration,
tables, time and processes are the same, except for the memory of the processes that is written before it is read. -/
theorem C50_reuse_partial (h1 : GoodRun env1 n1 nT1 negLog1 cfg1 procs s1) (hw : env1.implicitWildcards = false)
    (h : WellFormed env n nT cfg procs)
    (hc : env.useCustomRates = true → CustomRatesOk env n nT cfg procs) (hx : ∀ p ∈ procs, p.Exact)
    (r : Room K) (hr : r.procs = s1.ms.procs) (ds : List (Draws K)) :
    (r.fresh env negLog cfg ds).map Sim.wiped =
      ((⟨procs, []⟩ : Room K).fresh env negLog cfg ds).map Sim.wiped := by
  rw [Room.fresh_eq, Room.fresh_eq, hr]
  obtain ⟨c1, procs1, hp, -, hat, -⟩ := h1.inv
  obtain ⟨A, hI⟩ := hat.inv
  have hstill : s1.ms.procs.map Proc.still = procs.map Proc.still := by
    have h2 : s1.ms.procs.map Proc.still = procs1.map Proc.still := hI.procs
    rw [h2]
    have h3 := hp.2
    unfold Interactions.updateProcessMatchLists at h3
    rw [if_pos hw] at h3
    cases h3
    unfold Interactions.clearMatching
    rw [List.map_map]
    rfl
  refine run_reuse h hc hx ?_ ds
  rw [← initialMatching_still, ← initialMatching_still, hstill]

/-- Match lists on the same lattice have the same places. -/
theorem samePlaces {cfg' cfg1' : Config K} (h : WellFormed env n nT cfg procs) (h1 : WellFormed env1 n nT cfg1 procs)
    (hL : env1.L = env.L) (hd : env1.dist = env.dist) (hco : cfg1.coords = cfg.coords)
    (e : cfg.initMatchLists env.dist env.L (Interactions.maxRange procs) = .ok cfg')
    (e1 : cfg1.initMatchLists env1.dist env1.L (Interactions.maxRange procs) = .ok cfg1') : SamePlaces cfg1' cfg' := by
  have hl := lists_of h e
  have hl1 := lists_of h1 e1
  have hs := hl.sized h.config
  have hs1 := hl1.sized h1.config
  unfold SamePlaces
  apply List.ext_getElem?
  intro i
  rw [List.getElem?_map, List.getElem?_map]
  by_cases hi : i < n
  · have hi0 : i < cfg'.matchLists.length := by rw [hl.shape.matchLists]; exact hi
    have hi1 : i < cfg1'.matchLists.length := by rw [hl1.shape.matchLists]; exact hi
    have a := List.getElem?_eq_getElem hi0
    have a1 := List.getElem?_eq_getElem hi1
    have b := hl.matchList h.lattice h.sites h.config.shape rfl a
    have b1 := hl1.matchList h1.lattice h1.sites h.config.shape hco.symm a1
    rw [hL, hd] at b1
    rw [b1, Except.ok.injEq] at b
    rw [a, a1]
    simp only [Option.map_some, Option.some.injEq]
    have hstrip : cfg'.matchLists[i].map CEntry.strip = cfg1'.matchLists[i].map CEntry.strip := by
      have := congrArg (List.map CEntry.strip) b
      unfold seen at this
      rw [List.map_map, List.map_map] at this
      exact this.symm
    have hsz := hs _ (List.getElem_mem hi0)
    have hsz1 := hs1 _ (List.getElem_mem hi1)
    have key : ∀ l : List (CEntry K), SizedC nT l → l.map CEntry.place =
        (l.map CEntry.strip).map (fun c => (c.distance, c.coord, nT)) := by
      intro l hl
      rw [List.map_map]
      apply List.map_congr_left
      intro c hc
      simp only [CEntry.place, hl c hc]
      rfl
    rw [key _ hsz, key _ hsz1, hstrip]
  · rw [List.getElem?_eq_none (by rw [hl.shape.matchLists]; omega),
      List.getElem?_eq_none (by rw [hl1.shape.matchLists]; omega)]

/-- **C50** (partial: the first model is not used any more, both models are on the same lattice, and both inputs are
well formed.) The same with or without insertion of wildcards, when both models are on the same lattice. -/
theorem C50_reuse_same_lattice_partial (h1 : GoodRun env1 n nT negLog1 cfg1 procs s1) (hL : env1.L = env.L)
    (hd : env1.dist = env.dist) (hw : env1.implicitWildcards = env.implicitWildcards) (hco : cfg1.coords = cfg.coords)
    (h : WellFormed env n nT cfg procs)
    (hc : env.useCustomRates = true → CustomRatesOk env n nT cfg procs) (hx : ∀ p ∈ procs, p.Exact)
    (r : Room K) (hr : r.procs = s1.ms.procs) (ds : List (Draws K)) :
    (r.fresh env negLog cfg ds).map Sim.wiped =
      ((⟨procs, []⟩ : Room K).fresh env negLog cfg ds).map Sim.wiped := by
  rw [Room.fresh_eq, Room.fresh_eq, hr]
  obtain ⟨c1, procs1, hp, -, hat, -⟩ := h1.inv
  obtain ⟨A, hI⟩ := hat.inv
  have hstill : s1.ms.procs.map Proc.still = procs1.map Proc.still := hI.procs
  refine run_reuse h hc hx ?_ ds
  rw [← initialMatching_still, hstill, initialMatching_still]
  -- the prepared processes are made from the fresh ones in the second model as well
  have hrange : Interactions.maxRange procs1 = Interactions.maxRange procs := prepared_range h1.input hp
  have hlen : procs1.length = procs.length := prepared_length hp
  unfold initialMatching
  rw [hrange, hlen]
  cases e : cfg.initMatchLists env.dist env.L (Interactions.maxRange procs) with
  | error a => rfl
  | ok cfg' =>
    rw [ok_bind, ok_bind]
    have hpl := samePlaces h h1.input hL hd hco e hp.1
    have h3 := hp.2
    have hclear : Interactions.clearMatching procs1 = procs1 := by
      unfold Interactions.clearMatching
      conv_rhs => rw [← List.map_id procs1]
      apply List.map_congr_left
      intro p hpm
      obtain ⟨j, hj⟩ := List.mem_iff_getElem?.1 hpm
      obtain ⟨p0, -, -, h4⟩ := prepared_proc h1.input hp hj
      rw [h4]
      rfl
    have hu : Interactions.updateProcessMatchLists env.implicitWildcards cfg' env.L (Interactions.clearMatching procs) =
        .ok procs1 ∧ Interactions.updateProcessMatchLists env.implicitWildcards cfg' env.L procs1 = .ok procs1 := by
      unfold Interactions.updateProcessMatchLists at h3 ⊢
      rw [hw] at h3
      split at h3
      · next hf => rw [if_pos hf, if_pos hf]; exact ⟨h3, rfl⟩
      · next hf =>
        rw [if_neg hf, if_neg hf]
        rw [mapMM_ok_iff] at h3
        rw [mapMM_ok_iff, mapMM_ok_iff]
        rw [hL] at h3
        refine ⟨h3.imp (fun _ _ hu => updateMatchListOf_place hpl hu), ?_⟩
        rw [List.forall₂_same]
        intro q hq
        obtain ⟨j, hj⟩ := List.mem_iff_getElem?.1 hq
        obtain ⟨hjl, hje⟩ := List.getElem?_eq_some_iff.1 hj
        have hu := (List.forall₂_iff_get.1 h3).2 j (by rw [h3.length_eq]; exact hjl) hjl
        simp only [List.get_eq_getElem, hje] at hu
        exact updateMatchListOf_again hpl hu
    simp only
    rw [hclear, hu.1, hu.2]

/-! ### Non-vacuity: the ring of `Verif/Samples/Runs`, run twice with the same processes -/

/-- Without insertion of wildcards. -/
def Sample.plainEnv (P : PyLattice ℚ) : Env ℚ := { Sample.env P with implicitWildcards := false }

theorem Sample.process_exact {xs : List ℚ} {b a : List String} {r : ℚ} {bs : List Nat} {m : List (Nat × ℚ)} {n : Nat}
    {p : Proc ℚ} (hp : Sample.process xs b a r bs m n = .ok p) : p.Exact := by
  unfold Sample.process at hp
  obtain ⟨c, -, hp⟩ := bind_ok.1 hp
  obtain ⟨d, -, hp⟩ := bind_ok.1 hp
  exact C50_exact hp

theorem Sample.hops_exact {procs : List (Proc ℚ)} (h : Sample.hops = .ok procs) : ∀ p ∈ procs, p.Exact := by
  unfold Sample.hops at h
  obtain ⟨p, hp, h⟩ := bind_ok.1 h
  obtain ⟨q, hq, h⟩ := bind_ok.1 h
  cases Except.ok.inj h
  intro p' hp'
  simp only [List.mem_cons, List.not_mem_nil, or_false] at hp'
  rcases hp' with rfl | rfl
  · exact Sample.process_exact hp
  · exact Sample.process_exact hq

/-- A hop to the right that says what is on both sides. -/
def Sample.fullHop : M (List (Proc ℚ)) := do
  let p ← Sample.process [0, -1, 1] ["A", "B", "B"] ["B", "B", "A"] 2 [0] [] 0
  return [p]

theorem Sample.fullHop_exact {procs : List (Proc ℚ)} (h : Sample.fullHop = .ok procs) : ∀ p ∈ procs, p.Exact := by
  unfold Sample.fullHop at h
  obtain ⟨p, hp, h⟩ := bind_ok.1 h
  cases Except.ok.inj h
  intro p' hp'
  rw [List.mem_singleton] at hp'
  subst hp'
  exact Sample.process_exact hp

/-- After two hops of the first model the processes are used for a second model that starts where the first one did;
it runs like the first one. -/
example : ∃ (cfg : Config ℚ) (procs : List (Proc ℚ)) (s1 : Sim ℚ),
    GoodRun (Sample.env Sample.ring) 4 4 Sample.lg cfg procs s1 ∧ s1.ms.procs.map (·.sites) = [[2], [2]] ∧
    (Room.fresh (Sample.env Sample.ring) Sample.lg cfg [Sample.half] ⟨s1.ms.procs, []⟩).map (fun s => s.ms.cfg.elements) =
      .ok [["B"], ["A"], ["B"], ["B"]] := by
  obtain ⟨cfg, procs, s, h1, h2, h3, -, -, h4, -⟩ := Sample.ring_run
  refine ⟨cfg, procs, s, h3, h4, ?_⟩
  have := C50_reuse_same_lattice_partial (negLog := Sample.lg) h3 rfl rfl rfl rfl h3.input h3.custom
    (Sample.hops_exact h2) ⟨s.ms.procs, []⟩ rfl [Sample.half]
  have e : ((⟨procs, []⟩ : Room ℚ).fresh (Sample.env Sample.ring) Sample.lg cfg [Sample.half]).map
      (fun s => s.ms.cfg.elements) = .ok [["B"], ["A"], ["B"], ["B"]] := by
    have : (do
        let c ← Sample.config Sample.ring Sample.ringElements
        let ps ← Sample.hops
        ((⟨ps, []⟩ : Room ℚ).fresh (Sample.env Sample.ring) Sample.lg c [Sample.half]).map
          (fun s => s.ms.cfg.elements)) = (.ok [["B"], ["A"], ["B"], ["B"]] : M _) := by decide +kernel
    rw [h1, ok_bind, h2, ok_bind] at this
    exact this
  rw [← e]
  have h5 : ∀ x : M (Sim ℚ), x.map (fun s => s.ms.cfg.elements) = (x.map Sim.wiped).map (fun s => s.ms.cfg.elements) := by
    intro x
    cases x <;> rfl
  rw [h5, h5 (Room.fresh _ _ _ _ ⟨procs, []⟩), this]

/-- A first model on a ring of five sites, a second on the ring of four. -/
example : ∃ (cfg cfg1 : Config ℚ) (procs : List (Proc ℚ)) (s1 : Sim ℚ),
    GoodRun (Sample.plainEnv (Sample.chain 5 true)) 5 4 Sample.lg cfg1 procs s1 ∧
    s1.ms.procs.map (·.sites) = [[1]] ∧
    (Room.fresh (Sample.plainEnv Sample.ring) Sample.lg cfg [Sample.half, Sample.half] ⟨s1.ms.procs, []⟩).map
      (fun s => s.ms.cfg.elements) = .ok [["B"], ["B"], ["A"], ["B"]] := by
  obtain ⟨cfg1, procs, h1, h2, h3⟩ := Sample.goodCheck_ok (env := Sample.plainEnv (Sample.chain 5 true))
    (P := Sample.chain 5 true) (els := [["A"], ["B"], ["B"], ["B"], ["B"]]) (procs := Sample.fullHop) (by decide +kernel)
  obtain ⟨cfg, procs', h4, h5, h6⟩ := Sample.goodCheck_ok (env := Sample.plainEnv Sample.ring)
    (P := Sample.ring) (els := Sample.ringElements) (procs := Sample.fullHop) (by decide +kernel)
  obtain ⟨s, hs, hf⟩ := Sample.exists_of_map
    (x := Sample.go (Sample.plainEnv (Sample.chain 5 true)) (Sample.chain 5 true)
      [["A"], ["B"], ["B"], ["B"], ["B"]] Sample.fullHop [Sample.half])
    (f := fun s => s.ms.procs.map (·.sites)) (b := [[1]]) (by decide +kernel)
  have hn : (Sample.chain 5 true).sites.length = 5 := by decide +kernel
  have hn' : Sample.ring.sites.length = 4 := by decide +kernel
  rw [hn] at h3
  rw [hn'] at h6
  rw [h2] at h5
  cases h5
  have hg : GoodRun (Sample.plainEnv (Sample.chain 5 true)) 5 4 Sample.lg cfg1 procs s :=
    ⟨h3, fun h => (by cases h), Sample.reached_of_go hs h1 h2⟩
  refine ⟨cfg, cfg1, procs, s, hg, hf, ?_⟩
  have := C50_reuse_partial (negLog := Sample.lg) hg rfl h6 (fun h => (by cases h))
    (Sample.fullHop_exact h2) ⟨s.ms.procs, []⟩ rfl [Sample.half, Sample.half]
  have e : ((⟨procs, []⟩ : Room ℚ).fresh (Sample.plainEnv Sample.ring) Sample.lg cfg [Sample.half, Sample.half]).map
      (fun s => s.ms.cfg.elements) = .ok [["B"], ["B"], ["A"], ["B"]] := by
    have : (do
        let c ← Sample.config Sample.ring Sample.ringElements
        let ps ← Sample.fullHop
        ((⟨ps, []⟩ : Room ℚ).fresh (Sample.plainEnv Sample.ring) Sample.lg c [Sample.half, Sample.half]).map
          (fun s => s.ms.cfg.elements)) = (.ok [["B"], ["B"], ["A"], ["B"]] : M _) := by decide +kernel
    rw [h4, ok_bind, h2, ok_bind] at this
    exact this
  rw [← e]
  have h5 : ∀ x : M (Sim ℚ), x.map (fun s => s.ms.cfg.elements) = (x.map Sim.wiped).map (fun s => s.ms.cfg.elements) := by
    intro x
    cases x <;> rfl
  rw [h5, h5 (Room.fresh _ _ _ _ ⟨procs, []⟩), this]

/-! ### What goes wrong -/

/-- Two models on the ring, made from the same processes; the atom is at site 0 in the first and at site 2 in the
second. -/
def Sample.twoModels : M (Room ℚ) := do
  let c ← Sample.config Sample.ring [["A"], ["B"], ["B"], ["B"]]
  let c' ← Sample.config Sample.ring [["B"], ["B"], ["A"], ["B"]]
  let ps ← Sample.hops
  let r ← Room.construct (Sample.env Sample.ring) c ⟨ps, []⟩
  Room.construct (Sample.env Sample.ring) c' r

/-- **C50 is false of the code.** The first of two models made from the same interactions does not do what it does
alone: once the second has been made, the first chooses the site of the atom of the second, and performs the process
at a place where it is not possible. In this model the step then reads outside of a vector. -/
theorem C50_shared_changes :
    ((Sample.twoModels >>= fun r => r.run Sample.lg 0 [Sample.half]).map (fun r => r.models.length)) =
      .error .outOfBounds ∧
    (Sample.go (Sample.env Sample.ring) Sample.ring Sample.ringElements Sample.hops [Sample.half]).map
      (fun s => s.ms.cfg.elements) = .ok [["B"], ["A"], ["B"], ["B"]] := by
  constructor <;> decide +kernel

/-- A chain of four cells with two positions in each. -/
def Sample.dense : PyLattice ℚ := Sample.chain 4 true [0, 1 / 2]

/-- A model on the ring, made from one process, after another model on the denser chain was made from it or not. -/
def Sample.afterDense (first : Bool) : M (Sim ℚ) := do
  let c ← Sample.config Sample.dense [["A"], ["C"], ["B"], ["C"], ["B"], ["C"], ["B"], ["C"]]
  let c' ← Sample.config Sample.ring [["B"], ["B"], ["A"], ["B"]]
  let p ← Sample.process [0, 1] ["A", "B"] ["B", "A"] 2 [0] [] 0
  let r ← if first then Room.construct (Sample.env Sample.dense) c ⟨[p], []⟩ else pure ⟨[p], []⟩
  let r ← Room.construct (Sample.env Sample.ring) c' r
  let m ← r.view (if first then 1 else 0)
  return m.2

/-- **C50 is false of the code** also when only one model is used at a time. The wildcards inserted for the first
lattice stay in the process; on the second lattice the process, which is possible at site 2, is then found nowhere. -/
theorem C50_wildcards_stay :
    (Sample.afterDense true).map (fun s => s.ms.procs.map (·.sites)) = .ok [[]] ∧
    (Sample.afterDense false).map (fun s => s.ms.procs.map (·.sites)) = .ok [[2]] := by
  constructor <;> decide +kernel

section
variable {F : Type} [Field F] [LinearOrder F] [FloorRing F]

/-- **C50** The front end makes the back end processes once: from the second call on the numbering of the types and the
number of basis sites are not looked at. -/
theorem C50_cached (dist dist' : Coord F → F) (pt pt' : List (String × Nat)) (nb nb' : Nat) (p q : PyInteractions F)
    (procs : List (Proc F)) (h : p.backend dist pt nb = .ok (procs, q)) :
    q.backend dist' pt' nb' = .ok (procs, q) := by
  unfold PyInteractions.backend at h
  split at h
  · next ps hc =>
    cases Except.ok.inj h
    unfold PyInteractions.backend
    rw [hc]
  · next hc =>
    obtain ⟨ps, -, h⟩ := bind_ok.1 h
    cases Except.ok.inj h
    rfl

end

/-- A process that turns A into B. -/
def Sample.turning : PyInteractions ℚ := ⟨[⟨[⟨0, 0, 0⟩], ["A"], ["B"], [], [0], 1⟩], none⟩

/-- **C50 is false of the code** for the front end. The interactions turn A into B. They are first used in a model with
types A and B, then in one with types B and C. Without the first model the second is rejected, as it has no type A;
after it, it is accepted, with a process that looks for type number 1, which is now B, and writes type number 2, which
is now C. -/
theorem C50_stale_numbering :
    (do
      let (_, i) ← Sample.turning.backend Sample.dist1 [("*", 0), ("A", 1), ("B", 2)] 1
      let (ps, _) ← i.backend Sample.dist1 [("*", 0), ("B", 1), ("C", 2)] 1
      return ps.map (fun (p : Proc ℚ) => p.matchList.map (fun (e : PEntry ℚ) => (e.matchTypes, e.updateTypes)))) =
      (.ok [[([0, 1, 0], [0, -1, 1])]] : M _) ∧
    (Sample.turning.backend Sample.dist1 [("*", 0), ("B", 1), ("C", 2)] 1).map (fun x => x.1.length) =
      .error .exception := by
  constructor <;> decide +kernel

end KMC
