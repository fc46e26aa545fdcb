import Verif.Lemmas.Faded

/-!
# What caching the rates does not touch

The rate table and the mark that the rates of a process are stored are only looked at when the rates are found. The
rest of the matcher does the same whatever these are.
-/

set_option linter.unusedSectionVars false

namespace KMC

open LatticeModel

variable {K : Type} [Field K] [LinearOrder K]

/-- The process with its rates not stored. -/
def Proc.uncached (p : Proc K) : Proc K := { p with cacheRate := false }

/-- The state without the rate table and the marks of the processes whose rates are stored. -/
def MState.uncached (s : MState K) : MState K :=
  { s with procs := s.procs.map Proc.uncached, rates := RateTable.empty }

/-- The simulation without the rate table and the marks of the processes whose rates are stored. -/
def Sim.uncached (s : Sim K) : Sim K := { s with ms := s.ms.uncached }

theorem MState.uncached_cfg {s t : MState K} (h : s.uncached = t.uncached) : s.cfg = t.cfg :=
  (congrArg MState.cfg h :)

theorem MState.uncached_procs {s t : MState K} (h : s.uncached = t.uncached) :
    s.procs.map Proc.uncached = t.procs.map Proc.uncached :=
  (congrArg MState.procs h :)

theorem MState.uncached_inverse {s t : MState K} (h : s.uncached = t.uncached) : s.inverse = t.inverse :=
  (congrArg MState.inverse h :)

theorem MState.uncached_mk {s t : MState K} (h1 : s.cfg = t.cfg)
    (h2 : s.procs.map Proc.uncached = t.procs.map Proc.uncached) (h3 : s.inverse = t.inverse) :
    s.uncached = t.uncached := by
  unfold MState.uncached
  rw [h1, h2, h3]

theorem uncached_get {ps qs : List (Proc K)} (h : ps.map Proc.uncached = qs.map Proc.uncached) {j : Nat} {p : Proc K}
    (hp : ps[j]? = some p) : ∃ q, qs[j]? = some q ∧ p.uncached = q.uncached := by
  have h2 : (ps.map Proc.uncached)[j]? = some p.uncached := by rw [List.getElem?_map, hp]; rfl
  rw [h, List.getElem?_map, Option.map_eq_some_iff] at h2
  obtain ⟨q, h3, h4⟩ := h2
  exact ⟨q, h3, h4.symm⟩

theorem rd_uncached {ps qs : List (Proc K)} (h : ps.map Proc.uncached = qs.map Proc.uncached) (j : Nat) :
    (rd ps j).map Proc.uncached = (rd qs j).map Proc.uncached := by
  have := congrArg (fun l => l[j]?) h
  simp only [List.getElem?_map] at this
  unfold rd
  cases h1 : ps[j]? with
  | none =>
    cases h2 : qs[j]? with
    | none => rfl
    | some b => rw [h1, h2] at this; cases this
  | some a =>
    cases h2 : qs[j]? with
    | none => rw [h1, h2] at this; cases this
    | some b => rw [h1, h2] at this; exact congrArg Except.ok (Option.some.inj this)

theorem wr_uncached {ps qs : List (Proc K)} (h : ps.map Proc.uncached = qs.map Proc.uncached) (j : Nat) {p q : Proc K}
    (hpq : p.uncached = q.uncached) :
    (wr ps j p).map (List.map Proc.uncached) = (wr qs j q).map (List.map Proc.uncached) := by
  have hl : ps.length = qs.length := by simpa using congrArg List.length h
  unfold wr
  rw [hl]
  split
  · rw [map_ok', map_ok', List.map_set, List.map_set, h, hpq]
  · rfl

namespace Matcher

theorem processesFor_uncached (L : LatticeMap) (procs : List (Proc K)) (i : Nat) :
    processesFor L (procs.map Proc.uncached) i = processesFor L procs i := by
  unfold processesFor
  rw [List.zipIdx_map, List.filter_map, List.map_map]
  rfl

theorem collectPairs_uncached (L : LatticeMap) (procs : List (Proc K)) (is : List Nat) (cfg : Config K) :
    collectPairs L (procs.map Proc.uncached) is cfg = collectPairs L procs is cfg := by
  induction is generalizing cfg with
  | nil => rfl
  | cons i is ih =>
    unfold collectPairs
    simp only [processesFor_uncached, ih]

theorem taskType_uncached (s : MState K) : taskType s.uncached = taskType s := by
  funext pair
  unfold taskType
  exact rd_map_bind _ _ _ _

theorem rateTask_uncached (s : MState K) : rateTask s.uncached = rateTask s := by
  funext pair
  unfold rateTask
  exact rd_map_bind _ _ _ _

theorem sortTasks_uncached (s : MState K) (pairs : List (Nat × Nat)) (ts : List Nat) :
    sortTasks s.uncached pairs ts = sortTasks s pairs ts := by
  induction pairs generalizing ts with
  | nil => rfl
  | cons pair pairs ih =>
    cases ts with
    | nil => rfl
    | cons t ts =>
      unfold sortTasks
      simp only [ih, rateTask_uncached]

theorem matchPairs_uncached (env : Env K) (s : MState K) (pairs : List (Nat × Nat)) :
    matchPairs env s.uncached pairs = matchPairs env s pairs := by
  unfold matchPairs
  simp only [taskType_uncached, sortTasks_uncached]

theorem taskRate_uncached (env : Env K) (s : MState K) : taskRate env s.uncached = taskRate env s := by
  funext t
  unfold taskRate
  exact rd_map_bind _ _ _ _

theorem directRates_uncached (env : Env K) (s : MState K) (tasks : Tasks K) :
    directRates env s.uncached tasks = directRates env s tasks := by
  unfold directRates
  simp only [taskRate_uncached]

theorem directTasks_uncached (env : Env K) (s : MState K) (is : List Nat) :
    directTasks env s.uncached is = directTasks env s is := by
  unfold directTasks
  have e1 : collectPairs env.L s.uncached.procs is s.uncached.cfg = collectPairs env.L s.procs is s.cfg :=
    collectPairs_uncached _ _ _ _
  rw [e1]
  congr 1
  funext c
  have e2 : ({ s.uncached with cfg := c.2 } : MState K) = ({ s with cfg := c.2 } : MState K).uncached := rfl
  rw [e2, matchPairs_uncached]
  simp only [directRates_uncached]

theorem removeSite_uncached {p q : Proc K} (h : p.uncached = q.uncached) (i : Nat) :
    (p.removeSite i).map Proc.uncached = (q.removeSite i).map Proc.uncached := by
  have key : ∀ (p : Proc K) (c : Bool),
      (({ p with cacheRate := c } : Proc K).removeSite i).map Proc.uncached = (p.removeSite i).map Proc.uncached := by
    intro p c
    unfold Proc.removeSite
    show Except.map _ (match p.sites.findIdx? (fun s => decide (s = i)) with | none => _ | some i => _) = _
    cases p.sites.findIdx? (fun s => decide (s = i)) with
    | none => rfl
    | some j =>
      show Except.map _ (if p.custom = true then _ else _) = _
      by_cases hc : p.custom = true
      · simp only [if_pos hc]
        rw [bind_map, bind_map]
        congr 1
        funext a
        rw [bind_map, bind_map]
        congr 1
        funext b
        rw [bind_map, bind_map]
        rfl
      · simp only [if_neg hc]
        rw [bind_map, bind_map]
        congr 1
        funext a
        rw [bind_map, bind_map]
        rfl
  calc (p.removeSite i).map Proc.uncached
      = (p.uncached.removeSite i).map Proc.uncached := (key p false).symm
    _ = (q.uncached.removeSite i).map Proc.uncached := by rw [h]
    _ = (q.removeSite i).map Proc.uncached := key q false

theorem addSite_uncached {p q : Proc K} (h : p.uncached = q.uncached) (i : Nat) (r m : K) :
    (p.addSite i r m).uncached = (q.addSite i r m).uncached := by
  have key : ∀ p : Proc K, (p.uncached.addSite i r m).uncached = (p.addSite i r m).uncached := by
    intro p
    unfold Proc.addSite
    by_cases hc : p.custom = true
    · rw [if_pos hc, if_pos (show p.uncached.custom = true from hc)]
      rfl
    · rw [if_neg hc, if_neg (show ¬ p.uncached.custom = true from hc)]
      rfl
  rw [← key p, h, key q]

theorem modifyProc_uncached {ps qs : List (Proc K)} (h : ps.map Proc.uncached = qs.map Proc.uncached)
    {f : Proc K → M (Proc K)}
    (hf : ∀ p q, p.uncached = q.uncached → (f p).map Proc.uncached = (f q).map Proc.uncached) (i : Nat) :
    (modifyProc ps i f).map (List.map Proc.uncached) = (modifyProc qs i f).map (List.map Proc.uncached) := by
  unfold modifyProc
  exact bind_agree (rd_uncached h i) fun a b hab => bind_agree (hf a b hab) fun c d hcd => wr_uncached h i hcd

/-- The books without the marks. -/
def uncacheBook (b : Book K) : Book K := (b.1.map Proc.uncached, b.2)

theorem updateProcesses_uncached (tasks : Tasks K) {b c : Book K} (h : uncacheBook b = uncacheBook c) :
    (updateProcesses tasks b).map uncacheBook = (updateProcesses tasks c).map uncacheBook := by
  have hfst : ∀ {b c : Book K}, uncacheBook b = uncacheBook c → b.1.map Proc.uncached = c.1.map Proc.uncached :=
    fun h => (congrArg Prod.fst h :)
  have hsnd : ∀ {b c : Book K}, uncacheBook b = uncacheBook c → b.2 = c.2 := fun h => (congrArg Prod.snd h :)
  have tail : ∀ {b c : Book K} {ps qs : List (Proc K)} (s j : Nat) (v : Bool), uncacheBook b = uncacheBook c →
      ps.map Proc.uncached = qs.map Proc.uncached →
      (setInverse b.2 s j v >>= fun inv => (pure (ps, inv) : M (Book K))).map uncacheBook =
        (setInverse c.2 s j v >>= fun inv => (pure (qs, inv) : M (Book K))).map uncacheBook := by
    intro b c ps qs s j v h hps
    rw [hsnd h, bind_map, bind_map]
    congr 1
    funext inv
    show Except.ok _ = Except.ok _
    unfold uncacheBook
    simp only [hps]
  have hadd : ∀ (t : RateTask K) (p q : Proc K), p.uncached = q.uncached →
      ((fun p => (.ok (p.addSite t.index t.rate 1) : M (Proc K))) p).map Proc.uncached =
        ((fun p => (.ok (p.addSite t.index t.rate 1) : M (Proc K))) q).map Proc.uncached :=
    fun t p q hpq => congrArg Except.ok (addSite_uncached hpq t.index t.rate 1)
  have h1 : ∀ (b c : Book K) (t : Nat × Nat), uncacheBook b = uncacheBook c →
      (removeTask b t).map uncacheBook = (removeTask c t).map uncacheBook := by
    intro b c t h
    unfold removeTask
    exact bind_agree (modifyProc_uncached (hfst h) (fun p q hpq => removeSite_uncached hpq t.1) t.2)
      fun ps qs hps => tail _ _ _ h hps
  have h2 : ∀ (b c : Book K) (t : RateTask K), uncacheBook b = uncacheBook c →
      (addTask b t).map uncacheBook = (addTask c t).map uncacheBook := by
    intro b c t h
    unfold addTask
    exact bind_agree (modifyProc_uncached (hfst h) (hadd t) t.process)
      fun ps qs hps => tail _ _ _ h hps
  have h3 : ∀ (b c : Book K) (t : RateTask K), uncacheBook b = uncacheBook c →
      (updateTask b t).map uncacheBook = (updateTask c t).map uncacheBook := by
    intro b c t h
    unfold updateTask
    refine bind_agree (modifyProc_uncached (hfst h) (fun p q hpq => removeSite_uncached hpq t.index) t.process)
      fun ps qs hps => ?_
    refine bind_agree (modifyProc_uncached hps (hadd t) t.process) fun ps' qs' hps' => ?_
    show Except.ok _ = Except.ok _
    unfold uncacheBook
    simp only [hps', hsnd h]
  unfold updateProcesses
  exact bind_agree (loopM_agree h1 _ _ _ h) fun b c h => bind_agree (loopM_agree h3 _ _ _ h) fun b c h =>
    loopM_agree h2 _ _ _ h

theorem multOk_uncached {env : Env K} {skel : List (List (CEntry K))} {s t : MState K} {is : List Nat}
    (h : s.uncached = t.uncached) (hm : MultOk env skel s is) : MultOk env skel t is := by
  intro i j sk q hi hsk hq hb hw
  obtain ⟨p, hp, hpq⟩ := uncached_get (MState.uncached_procs h).symm hq
  have e1 : q.matchList = p.matchList := (congrArg Proc.matchList hpq :)
  have e2 : q.basisSites = p.basisSites := (congrArg Proc.basisSites hpq :)
  rw [e1] at hw ⊢
  rw [e2] at hb
  rw [← MState.uncached_cfg h] at hw ⊢
  exact hm i j sk p hi hsk hp hb hw

/-- A call that goes through goes through with other marks and another good table, with the same result. -/
theorem calculateMatching_uncached_ok {env : Env K} {G G' : Nat → K → Prop} {skel : List (List (CEntry K))}
    {s t : MState K} {A A' : Content K} {is : List Nat} (hs : CallOk env G skel s A is) (ht : CallOk env G' skel t A' is)
    (h : s.uncached = t.uncached) {s' : MState K} (hc : calculateMatching env s is = .ok s') :
    ∃ t', calculateMatching env t is = .ok t' ∧ s'.uncached = t'.uncached := by
  have hm := multOk_of_ok hs hc
  obtain ⟨c1, ts1, rt1, s1, A1, p1, e1, -⟩ := calculateMatching_plan hs hm
  obtain ⟨c2, ts2, rt2, t1, A2, p2, e2, -⟩ := calculateMatching_plan ht (multOk_uncached h hm)
  have hd : directTasks env s is = directTasks env t is := by
    rw [← directTasks_uncached, h, directTasks_uncached]
  rw [p1.direct, p2.direct] at hd
  cases hd
  refine ⟨t1, e2, ?_⟩
  rw [e1] at hc
  cases hc
  have f1 : calculateWith updateProcesses env s is = .ok s' := e1
  have f2 : calculateWith updateProcesses env t is = .ok t1 := e2
  rw [p1.calls, bind_ok] at f1
  rw [p2.calls, bind_ok] at f2
  obtain ⟨b1, g1, f1⟩ := f1
  obtain ⟨b2, g2, f2⟩ := f2
  cases f1
  cases f2
  have hb : uncacheBook (s.procs, s.inverse) = uncacheBook (t.procs, t.inverse) := by
    unfold uncacheBook
    rw [MState.uncached_procs h, MState.uncached_inverse h]
  have hu := updateProcesses_uncached ts1 hb
  rw [g1, g2] at hu
  have hu : uncacheBook b1 = uncacheBook b2 := Except.ok.inj hu
  exact MState.uncached_mk rfl (congrArg Prod.fst hu :) (congrArg Prod.snd hu :)

/-- A call does the same with other marks and another good table. -/
theorem calculateMatching_uncached {env : Env K} {G G' : Nat → K → Prop} {skel : List (List (CEntry K))}
    {s t : MState K} {A A' : Content K} {is : List Nat} (hs : CallOk env G skel s A is) (ht : CallOk env G' skel t A' is)
    (h : s.uncached = t.uncached) (h1 : OkOr (calculateMatching env s is)) (h2 : OkOr (calculateMatching env t is)) :
    (calculateMatching env s is).map MState.uncached = (calculateMatching env t is).map MState.uncached := by
  cases hcs : calculateMatching env s is with
  | ok s' =>
    obtain ⟨t', e, e'⟩ := calculateMatching_uncached_ok hs ht h hcs
    rw [e]
    exact congrArg Except.ok e'
  | error f =>
    cases hct : calculateMatching env t is with
    | ok t' =>
      obtain ⟨s', e, e'⟩ := calculateMatching_uncached_ok ht hs h.symm hct
      rw [hcs] at e
      cases e
    | error g =>
      rcases h1 with ⟨a, ha⟩ | ha
      · rw [hcs] at ha; cases ha
      rcases h2 with ⟨b, hb⟩ | hb
      · rw [hct] at hb; cases hb
      rw [hcs] at ha
      rw [hct] at hb
      cases ha
      cases hb
      rfl

end Matcher

theorem performAt_uncached {s t : MState K} (h : s.uncached = t.uncached) (i site : Nat) :
    (performAt s i site).map MState.uncached = (performAt t i site).map MState.uncached := by
  unfold performAt
  refine bind_agree (rd_uncached (MState.uncached_procs h) i) fun p q hpq => ?_
  have e : s.cfg.perform p.number p.matchList p.idMoves p.affected site =
      t.cfg.perform q.number q.matchList q.idMoves q.affected site := by
    have h1 : p.number = q.number := (congrArg Proc.number hpq :)
    have h2 : p.matchList = q.matchList := (congrArg Proc.matchList hpq :)
    have h3 : p.idMoves = q.idMoves := (congrArg Proc.idMoves hpq :)
    have h4 : p.affected = q.affected := (congrArg Proc.affected hpq :)
    rw [MState.uncached_cfg h, h1, h2, h3, h4]
  rw [e, bind_map, bind_map]
  congr 1
  funext r
  refine bind_agree (wr_uncached (MState.uncached_procs h) i (p := { p with affected := r.2 })
    (q := { q with affected := r.2 }) ?_) fun ps qs hps => ?_
  · exact congrArg (fun x : Proc K => { x with affected := r.2 }) hpq
  · have hinv := MState.uncached_inverse h
    exact congrArg Except.ok (MState.uncached_mk rfl hps hinv)

theorem maxRange_uncached (procs : List (Proc K)) :
    Interactions.maxRange (procs.map Proc.uncached) = Interactions.maxRange procs := by
  unfold Interactions.maxRange
  rw [List.foldl_map]
  rfl

theorem probabilityTable_uncached (procs : List (Proc K)) :
    Interactions.probabilityTable (procs.map Proc.uncached) = Interactions.probabilityTable procs := by
  have : ∀ x : K, Interactions.probabilityLoop x (procs.map Proc.uncached) = Interactions.probabilityLoop x procs := by
    induction procs with
    | nil => intro x; rfl
    | cons p ps ih =>
      intro x
      rw [List.map_cons]
      unfold Interactions.probabilityLoop
      rw [ih]
      rfl
  exact this 0

theorem updateRateTable_uncached {p q : Proc K} (h : p.uncached = q.uncached) :
    p.updateRateTable.map Proc.uncached = q.updateRateTable.map Proc.uncached := by
  have key : ∀ p : Proc K, p.uncached.updateRateTable.map Proc.uncached = p.updateRateTable.map Proc.uncached := by
    intro p
    unfold Proc.updateRateTable
    by_cases hc : p.custom = true
    · rw [if_pos hc, if_pos (show p.uncached.custom = true from hc)]
      rw [bind_map, bind_map]
      rfl
    · rw [if_neg hc, if_neg (show ¬ p.uncached.custom = true from hc)]
      rfl
  rw [← key p, h, key q]

/-- What a selection gives, without the marks. -/
def uncacheChoice (e : Nat × Nat × List (Proc K)) : Nat × Nat × List (Proc K) := (e.1, e.2.1, e.2.2.map Proc.uncached)

theorem select_uncached {ps qs : List (Proc K)} (h : ps.map Proc.uncached = qs.map Proc.uncached)
    (table : List (K × Nat)) (u1 u2 : K) :
    (select ps table u1 u2).map uncacheChoice = (select qs table u1 u2).map uncacheChoice := by
  unfold select
  refine bind_agree (f := fun pk : Nat × Proc K × List (Proc K) => (pk.1, pk.2.1.uncached, pk.2.2.map Proc.uncached))
    (f' := fun pk => (pk.1, pk.2.1.uncached, pk.2.2.map Proc.uncached)) ?_ ?_
  · unfold Interactions.pickProcess
    rw [bind_map, bind_map]
    congr 1
    funext i
    refine bind_agree (rd_uncached h i) fun p q hpq => ?_
    refine bind_agree (updateRateTable_uncached hpq) fun p' q' hpq' => ?_
    refine bind_agree (wr_uncached h i hpq') fun ps' qs' hps' => ?_
    show Except.ok (i, p'.uncached, ps'.map Proc.uncached) = Except.ok (i, q'.uncached, qs'.map Proc.uncached)
    rw [hpq', hps']
  · intro a b hab
    simp only [Prod.mk.injEq] at hab
    obtain ⟨h1, h2, h3⟩ := hab
    have e : a.2.1.pickSite u2 = b.2.1.pickSite u2 := by
      have k : ∀ p : Proc K, p.pickSite u2 = p.uncached.pickSite u2 := fun p => rfl
      rw [k, h2, ← k]
    rw [e, bind_map, bind_map]
    congr 1
    funext site
    show Except.ok _ = Except.ok _
    unfold uncacheChoice
    rw [h1, h3]

namespace Interactions

theorem updateMatchListOf_uncached (cfg : Config K) (L : LatticeMap) (p : Proc K) :
    updateMatchListOf cfg L p.uncached = (updateMatchListOf cfg L p).map Proc.uncached := by
  unfold updateMatchListOf
  have hb : p.uncached.basisSites = p.basisSites := rfl
  rw [hb]
  split
  · rw [bind_map]
    congr 1
    funext i
    rw [bind_map]
    congr 1
    funext c
    rw [bind_map]
    congr 1
    funext r
    dsimp only
    rw [bind_map]
    rfl
  · rfl

theorem mapMM_uncached {f : Proc K → M (Proc K)} (hf : ∀ p, f p.uncached = (f p).map Proc.uncached)
    (procs : List (Proc K)) :
    mapMM f (procs.map Proc.uncached) = (mapMM f procs).map (List.map Proc.uncached) := by
  induction procs with
  | nil => rfl
  | cons p ps ih =>
    rw [List.map_cons]
    unfold mapMM
    rw [hf, ih]
    cases f p with
    | error e => rfl
    | ok a =>
      cases mapMM f ps with
      | error e => rfl
      | ok b => rfl

theorem updateProcessMatchLists_uncached (w : Bool) (cfg : Config K) (L : LatticeMap) (procs : List (Proc K)) :
    updateProcessMatchLists w cfg L (clearMatching (procs.map Proc.uncached)) =
      (updateProcessMatchLists w cfg L (clearMatching procs)).map (List.map Proc.uncached) := by
  have e : clearMatching (procs.map Proc.uncached) = (clearMatching procs).map Proc.uncached := by
    unfold clearMatching
    rw [List.map_map, List.map_map]
    rfl
  rw [e]
  unfold updateProcessMatchLists
  split
  · rfl
  · exact mapMM_uncached (updateMatchListOf_uncached cfg L) _

end Interactions

variable {env : Env K} {n nT : Nat} {negLog : K → Option K} {cfg : Config K} {procs : List (Proc K)}

theorem prepared_uncached {ps qs : List (Proc K)} (h : ps.map Proc.uncached = qs.map Proc.uncached) {cfg1 : Config K}
    {ps1 : List (Proc K)} (hp : Prepared env cfg ps cfg1 ps1) :
    ∃ qs1, Prepared env cfg qs cfg1 qs1 ∧ ps1.map Proc.uncached = qs1.map Proc.uncached := by
  have hm : Interactions.maxRange ps = Interactions.maxRange qs := by
    rw [← maxRange_uncached, h, maxRange_uncached]
  have he := Interactions.updateProcessMatchLists_uncached env.implicitWildcards cfg1 env.L ps
  rw [h, Interactions.updateProcessMatchLists_uncached] at he
  obtain ⟨qs1, e1, e2⟩ := map_ok_of he.symm hp.2
  exact ⟨qs1, ⟨hm ▸ hp.1, e1⟩, e2⟩

theorem wellFormed_uncached (h : WellFormed env n nT cfg procs) : WellFormed env n nT cfg (procs.map Proc.uncached) := by
  obtain ⟨h1, h2, h3, h4, h5, h6⟩ := h
  refine ⟨h1, h2, h3, h4, h5, ?_⟩
  intro p hp
  obtain ⟨q, hq, rfl⟩ := List.mem_map.1 hp
  obtain ⟨g1, g2, g3, g4, g5, g6, g7, g8, g9, g10⟩ := h6 q hq
  exact ⟨g1, g2, g3, g4, g5, g6, g7, g8, g9, g10⟩

/-- Where no rates are stored nothing is needed of the keys. -/
theorem customRatesOk_uncached (h : CustomGeometry env cfg procs) :
    CustomRatesOk env n nT cfg (procs.map Proc.uncached) := by
  have hu : (procs.map Proc.uncached).map Proc.uncached = procs.map Proc.uncached := by
    rw [List.map_map]
    rfl
  refine ⟨⟨?_, ?_⟩, ?_⟩
  · intro j p hp
    rw [List.getElem?_map, Option.map_eq_some_iff] at hp
    obtain ⟨q, hq, rfl⟩ := hp
    exact h.number j q hq
  · intro cfg1 procs1 hp i ml p hml hpm hb hl hk
    obtain ⟨qs1, hq, e⟩ := prepared_uncached hu hp
    obtain ⟨j, hj⟩ := List.mem_iff_getElem?.1 hpm
    obtain ⟨q, hqj, hpq⟩ := uncached_get e hj
    have e1 : p.matchList = q.matchList := (congrArg Proc.matchList hpq :)
    have e2 : p.basisSites = q.basisSites := (congrArg Proc.basisSites hpq :)
    have e3 : p.cutoff = q.cutoff := (congrArg Proc.cutoff hpq :)
    rw [e1] at hl hk ⊢
    rw [e2] at hb
    rw [e3]
    exact h.inside cfg1 qs1 hq i ml q hml (List.mem_of_getElem? hqj) hb hl hk
  · intro cfg1 procs1 hp p hpm p' _ hc
    exfalso
    have hfalse : ∀ q ∈ procs1, q.cacheRate = false := by
      have e := Interactions.updateProcessMatchLists_uncached env.implicitWildcards cfg1 env.L procs
      rw [hp.2] at e
      obtain ⟨qs, -, e2⟩ := map_ok_of (f := id) (by exact e) rfl
      have e2 : procs1 = qs.map Proc.uncached := e2
      intro q hq
      rw [e2] at hq
      obtain ⟨q', -, rfl⟩ := List.mem_map.1 hq
      rfl
    rw [hfalse p hpm] at hc
    cases hc

section
variable [IsStrictOrderedRing K]

/-- One step of two runs that only differ in which rates are stored. -/
theorem singleStep_uncached {W W' : World K} (hW : W.Ok) (hW' : W'.Ok) (henv : W'.env = W.env) (hsk : W'.skel = W.skel)
    (hrange : W'.range = W.range) {s t : Sim K} (hs : W.Inv s.ms) (ht : W'.Inv t.ms) (h : s.uncached = t.uncached)
    (u1 u2 : K) :
    (singleStep W.env s u1 u2).map Sim.uncached = (singleStep W'.env t u1 u2).map Sim.uncached := by
  obtain ⟨A, hs⟩ := hs
  obtain ⟨A', ht⟩ := ht
  have hms : s.ms.uncached = t.ms.uncached := (congrArg Sim.ms h :)
  have htab : s.table = t.table := (congrArg Sim.table h :)
  have htime : s.time = t.time := (congrArg Sim.time h :)
  have hsel := select_uncached (MState.uncached_procs hms) s.table u1 u2
  unfold singleStep
  rw [htab] at hsel
  cases hse : select s.ms.procs s.table u1 u2 with
  | error e =>
    rw [htab] at hse
    rw [hse] at hsel
    cases hte : select t.ms.procs t.table u1 u2 with
    | error e' =>
      rw [hte] at hsel
      cases hsel
      rfl
    | ok r => rw [hte] at hsel; cases hsel
  | ok r =>
    rw [← htab] at hsel
    obtain ⟨r', hse', hr⟩ := map_ok_of hsel hse
    rw [htab] at hse'
    rw [hse', ok_bind, ok_bind]
    have hr1 : r.1 = r'.1 := (congrArg Prod.fst hr :)
    have hr2 : r.2.1 = r'.2.1 := (congrArg (fun e => e.2.1) hr :)
    have hr3 : r.2.2.map Proc.uncached = r'.2.2.map Proc.uncached := (congrArg (fun e => e.2.2) hr :)
    obtain ⟨p, p', hp, hp', hset, hsite⟩ := select_ok hse
    obtain ⟨q, q', hq, hq', hset', hsite'⟩ := select_ok hse'
    obtain ⟨hI, hp0, hst, hsites⟩ := World.select_inv hs hp hp'
    obtain ⟨hI', hq0, hst', hsites'⟩ := World.select_inv ht hq hq'
    have hms0 : ({ s.ms with procs := r.2.2 } : MState K).uncached = ({ t.ms with procs := r'.2.2 } : MState K).uncached :=
      MState.uncached_mk (MState.uncached_cfg hms :) hr3 (MState.uncached_inverse hms :)
    have hperf := performAt_uncached hms0 r.1 r.2.1
    rw [hset, hset'] at hperf ⊢
    obtain ⟨sk, cfg1, cfg2, aff, hev⟩ := World.event_ok hW hI (j := r.1) (q := p') hp0 (by rw [hsites]; exact hsite)
    obtain ⟨sk', cfg1', cfg2', aff', hev'⟩ := World.event_ok hW' hI' (j := r'.1) (q := q') hq0
      (by rw [hsites']; exact hsite')
    rw [World.performAt_eq hev, hr1, hr2, World.performAt_eq hev'] at hperf
    rw [World.performAt_eq hev, World.performAt_eq hev', ok_bind, ok_bind,
      World.rematch_eq hW hI.toPreA hev, World.rematch_eq hW' hI'.toPreA hev']
    have hmid : (World.mid { s.ms with procs := s.ms.procs.set r.1 p' } r.1 p' cfg2 aff).uncached =
        (World.mid { t.ms with procs := t.ms.procs.set r'.1 q' } r'.1 q' cfg2' aff').uncached := by
      rw [hr1]
      exact Except.ok.inj hperf
    have haff : aff = aff' := by
      have h1 : (World.mid { s.ms with procs := s.ms.procs.set r.1 p' } r.1 p' cfg2 aff).procs[r.1]? =
          some { p' with affected := aff } := by
        simp only [World.mid]
        rw [List.getElem?_set, if_pos rfl, if_pos (List.getElem?_eq_some_iff.1 hp0).1]
      have h2 : (World.mid { t.ms with procs := t.ms.procs.set r'.1 q' } r'.1 q' cfg2' aff').procs[r.1]? =
          some { q' with affected := aff' } := by
        rw [hr1]
        simp only [World.mid]
        rw [List.getElem?_set, if_pos rfl, if_pos (List.getElem?_eq_some_iff.1 hq0).1]
      obtain ⟨x, hx, hxe⟩ := uncached_get (MState.uncached_procs hmid) h1
      rw [h2, Option.some.injEq] at hx
      subst hx
      exact (congrArg Proc.affected hxe :)
    have hagain : W'.again aff' = W.again aff := by
      unfold World.again
      rw [henv, hrange, haff]
    have hcall := World.mid_call hW hI.toPreA hev
    have hcall' := World.mid_call hW' hI'.toPreA hev'
    have ho := Matcher.calculateMatching_okOr hcall
      (fun i j sk p _ hsk hj hm => hW.mult (World.mid_pre hI.toPreA hev) hsk hj hm)
    have ho' := Matcher.calculateMatching_okOr hcall'
      (fun i j sk p _ hsk hj hm => hW'.mult (World.mid_pre hI'.toPreA hev') hsk hj hm)
    rw [hagain, henv] at ho' hcall'
    rw [hsk] at hcall'
    rw [hagain, henv]
    refine bind_agree (Matcher.calculateMatching_uncached hcall hcall' hmid ho ho') fun a b hab => ?_
    have hpt : Interactions.probabilityTable a.procs = Interactions.probabilityTable b.procs := by
      rw [← probabilityTable_uncached, MState.uncached_procs hab, probabilityTable_uncached]
    show Except.ok _ = Except.ok _
    unfold Sim.uncached
    simp only [hab, hpt, htime]

/-- A whole run. -/
theorem run_uncached {W W' : World K} (hW : W.Ok) (hW' : W'.Ok) (henv : W'.env = W.env) (hsk : W'.skel = W.skel)
    (hrange : W'.range = W.range) (ds : List (Draws K)) {s t : Sim K} (hs : AtRun W s) (ht : AtRun W' t)
    (h : s.uncached = t.uncached) :
    (run W.env negLog ds s).map Sim.uncached = (run W.env negLog ds t).map Sim.uncached := by
  induction ds generalizing s t with
  | nil => exact congrArg Except.ok h
  | cons d ds ih =>
    have hstep : (step W.env negLog s d).map Sim.uncached = (step W.env negLog t d).map Sim.uncached := by
      have htab : s.table = t.table := (congrArg Sim.table h :)
      have htime : s.time = t.time := (congrArg Sim.time h :)
      have hms : s.ms.uncached = t.ms.uncached := (congrArg Sim.ms h :)
      unfold step propagateTime
      rw [htab]
      cases Interactions.totalRate t.table with
      | error e => rfl
      | ok r =>
        rw [ok_bind, ok_bind]
        cases drawStep negLog r d.time with
        | error e => rfl
        | ok dt =>
          have := singleStep_uncached hW hW' henv hsk hrange (s := { s with time := s.time + dt })
            (t := { t with time := t.time + dt }) hs.inv ht.inv
            (by unfold Sim.uncached; simp only [htab, htime, hms]) d.process d.site
          rw [henv, htab] at this
          exact this
    unfold run
    rw [loopM_cons, loopM_cons]
    cases h1 : step W.env negLog s d with
    | error e =>
      rw [h1] at hstep
      cases h2 : step W.env negLog t d with
      | error e' => rw [h2] at hstep; cases hstep; rfl
      | ok t' => rw [h2] at hstep; cases hstep
    | ok s' =>
      obtain ⟨t', h2, h3⟩ := map_ok_of hstep h1
      rw [h2, ok_bind, ok_bind]
      have h2' := h2
      rw [← henv] at h2'
      exact ih (step_ok hW hs h1).1 (step_ok hW' ht h2').1 h3

/-- The start. -/
theorem init_uncached {ps qs : List (Proc K)} (h : WellFormed env n nT cfg ps) (h' : WellFormed env n nT cfg qs)
    (hc : env.useCustomRates = true → CustomRatesOk env n nT cfg ps)
    (hc' : env.useCustomRates = true → CustomRatesOk env n nT cfg qs)
    (hpq : ps.map Proc.uncached = qs.map Proc.uncached) :
    (init env cfg ps).map Sim.uncached = (init env cfg qs).map Sim.uncached := by
  have hm : Interactions.maxRange ps = Interactions.maxRange qs := by
    rw [← maxRange_uncached, hpq, maxRange_uncached]
  unfold init
  refine bind_agree (f := MState.uncached) (f' := MState.uncached) ?_ ?_
  · have hl : ps.length = qs.length := by simpa using congrArg List.length hpq
    unfold initialMatching
    rw [hm]
    cases hcfg : cfg.initMatchLists env.dist env.L (Interactions.maxRange qs) with
    | error e => rfl
    | ok cfg1 =>
      rw [ok_bind, ok_bind]
      dsimp only
      have he := Interactions.updateProcessMatchLists_uncached env.implicitWildcards cfg1 env.L ps
      rw [hpq, Interactions.updateProcessMatchLists_uncached] at he
      cases hps : Interactions.updateProcessMatchLists env.implicitWildcards cfg1 env.L (Interactions.clearMatching ps) with
      | error e =>
        rw [hps] at he
        cases hqs : Interactions.updateProcessMatchLists env.implicitWildcards cfg1 env.L
          (Interactions.clearMatching qs) with
        | error e' => rw [hqs] at he; cases he; rfl
        | ok x => rw [hqs] at he; cases he
      | ok ps1 =>
        obtain ⟨qs1, hqs, e2⟩ := map_ok_of he.symm hps
        rw [hqs, ok_bind, ok_bind]
        have hP : Prepared env cfg ps cfg1 ps1 := ⟨by rw [hm]; exact hcfg, hps⟩
        have hQ : Prepared env cfg qs cfg1 qs1 := ⟨hcfg, hqs⟩
        have hok := world_ok h hc hP
        have hok' := world_ok h' hc' hQ
        have hpre := start_pre h hP
        have hpre' := start_pre h' hQ
        have hcall := World.callOk hok hpre (List.nodup_range (n := n)) (fun i hi => List.mem_range.1 hi)
        have hcall' := World.callOk hok' hpre' (List.nodup_range (n := n)) (fun i hi => List.mem_range.1 hi)
        have ho := Matcher.calculateMatching_okOr hcall (fun i j sk p _ hsk hj hm => hok.mult hpre hsk hj hm)
        have ho' := Matcher.calculateMatching_okOr hcall' (fun i j sk p _ hsk hj hm => hok'.mult hpre' hsk hj hm)
        have hll := lists_of h hP.1
        have e1 : cfg.coords = cfg1.coords := by rw [hll.rest]
        have hlen : ps1.length = qs1.length := by simpa using congrArg List.length e2
        have hst : (startState cfg1 ps1).uncached = (startState cfg1 qs1).uncached :=
          MState.uncached_mk rfl e2 (by simp only [startState]; rw [hlen])
        have := Matcher.calculateMatching_uncached hcall hcall' hst ho ho'
        unfold startState at this
        rw [hll.shape.elements, hl, ← prepared_length hQ, e1]
        rw [hlen] at this
        exact this
  · intro a b hab
    have hpt : Interactions.probabilityTable a.procs = Interactions.probabilityTable b.procs := by
      rw [← probabilityTable_uncached, MState.uncached_procs hab, probabilityTable_uncached]
    show Except.ok _ = Except.ok _
    unfold Sim.uncached
    simp only [hab, hpt]
end
end KMC
