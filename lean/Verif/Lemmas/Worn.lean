import Verif.Lemmas.Run

/-!
# Scratch memory of the processes

A process keeps two vectors that are overwritten before they are read: the table used to pick a site and the list of
affected indices. The functions of the model do the same whatever these contain.
-/

set_option linter.unusedSectionVars false

namespace KMC

open LatticeModel

theorem rd_map_bind {α β γ : Type _} (f : α → β) (l : List α) (i : Nat) (g : β → M γ) :
    (rd (l.map f) i >>= g) = (rd l i >>= fun x => g (f x)) := by
  unfold rd
  rw [List.getElem?_map]
  cases l[i]? <;> rfl

theorem map_ok' {α β : Type _} (f : α → β) (a : α) : (Except.ok a : M α).map f = .ok (f a) := rfl

theorem map_error' {α β : Type _} (f : α → β) (e : Fault) : (Except.error e : M α).map f = .error e := rfl

theorem bind_map {α β γ : Type _} (x : M α) (g : α → M β) (f : β → γ) :
    (x >>= g).map f = (x >>= fun a => (g a).map f) := by
  cases x <;> rfl

theorem map_bind {α β γ : Type _} (x : M α) (f : α → β) (g : β → M γ) :
    (x.map f >>= g) = (x >>= fun a => g (f a)) := by
  cases x <;> rfl

theorem loopM_map {σ τ : Type} {α : Type _} {f : σ → α → M σ} {g : τ → α → M τ} {h : σ → τ} {xs : List α}
    (hc : ∀ s, ∀ x ∈ xs, g (h s) x = (f s x).map h) (s : σ) : loopM g xs (h s) = (loopM f xs s).map h := by
  induction xs generalizing s with
  | nil => rfl
  | cons x xs ih =>
    rw [loopM_cons, loopM_cons, hc s x (by simp), map_bind]
    show _ = (f s x >>= fun a => loopM f xs a).map h
    rw [bind_map]
    congr 1
    funext a
    exact ih (fun s y hy => hc s y (List.mem_cons_of_mem _ hy)) a

theorem mapMM_commute {α β γ δ : Type} {f : α → M β} {g : γ → M δ} {h : α → γ} {k : β → δ} {xs : List α}
    (hc : ∀ x ∈ xs, g (h x) = (f x).map k) : mapMM g (xs.map h) = (mapMM f xs).map (List.map k) := by
  induction xs with
  | nil => rfl
  | cons x xs ih =>
    rw [List.map_cons, mapMM_cons, mapMM_cons, hc x (by simp), bind_map, map_bind,
      ih (fun y hy => hc y (List.mem_cons_of_mem _ hy))]
    congr 1
    funext a
    rw [bind_map, map_bind]
    rfl

variable {K : Type _} [Field K] [LinearOrder K]

/-- The process with its scratch memory wiped. -/
def Proc.wiped (p : Proc K) : Proc K :=
  { p with rateTable := [], affected := List.replicate p.affected.length 0 }

theorem Proc.wiped_wiped (p : Proc K) : p.wiped.wiped = p.wiped := by
  simp [Proc.wiped]

theorem Proc.wiped_clearSites (p : Proc K) : p.clearSites.wiped = p.still := rfl

theorem Proc.still_wiped (p : Proc K) : p.wiped.still = p.still := by
  simp [Proc.wiped, Proc.still, Proc.core]

/-- The state with the scratch memory of its processes wiped. -/
def MState.wiped (s : MState K) : MState K := { s with procs := s.procs.map Proc.wiped }

namespace Matcher

theorem processesFor_wiped (L : LatticeMap) (procs : List (Proc K)) (i : Nat) :
    processesFor L (procs.map Proc.wiped) i = processesFor L procs i := by
  unfold processesFor
  rw [List.zipIdx_map, List.filter_map, List.map_map]
  rfl

theorem collectPairs_wiped (L : LatticeMap) (procs : List (Proc K)) (is : List Nat) (cfg : Config K) :
    collectPairs L (procs.map Proc.wiped) is cfg = collectPairs L procs is cfg := by
  induction is generalizing cfg with
  | nil => rfl
  | cons i is ih =>
    unfold collectPairs
    simp only [processesFor_wiped, ih]

theorem taskType_wiped (s : MState K) : taskType s.wiped = taskType s := by
  funext pair
  unfold taskType
  exact rd_map_bind _ _ _ _

theorem rateTask_wiped (s : MState K) : rateTask s.wiped = rateTask s := by
  funext pair
  unfold rateTask
  exact rd_map_bind _ _ _ _

theorem sortTasks_wiped (s : MState K) (pairs : List (Nat × Nat)) (ts : List Nat) :
    sortTasks s.wiped pairs ts = sortTasks s pairs ts := by
  induction pairs generalizing ts with
  | nil => rfl
  | cons pair pairs ih =>
    cases ts with
    | nil => rfl
    | cons t ts =>
      unfold sortTasks
      simp only [ih, rateTask_wiped]

theorem matchPairs_wiped (env : Env K) (s : MState K) (pairs : List (Nat × Nat)) :
    matchPairs env s.wiped pairs = matchPairs env s pairs := by
  unfold matchPairs
  simp only [taskType_wiped, sortTasks_wiped]

theorem taskRate_wiped (env : Env K) (s : MState K) : taskRate env s.wiped = taskRate env s := by
  funext t
  unfold taskRate
  exact rd_map_bind _ _ _ _

theorem lookupTasks_wiped (env : Env K) (s : MState K) (i : Nat) (ts : List (RateTask K)) :
    lookupTasks env s.wiped i ts = lookupTasks env s i ts := by
  induction ts generalizing i with
  | nil => rfl
  | cons t ts ih =>
    unfold lookupTasks
    simp only [ih]
    exact rd_map_bind _ _ _ _

theorem storeRates_wiped (procs : List (Proc K)) (l : List (Pending K × K)) (rt : RateTable K) :
    storeRates (procs.map Proc.wiped) l rt = storeRates procs l rt := by
  unfold storeRates
  congr 1
  funext rt e
  exact rd_map_bind _ _ _ _

theorem customRates_wiped (env : Env K) (s : MState K) (tasks : Tasks K) :
    customRates env s.wiped tasks = customRates env s tasks := by
  unfold customRates
  simp only [lookupTasks_wiped, taskRate_wiped]
  have : ∀ l rt, storeRates s.wiped.procs l rt = storeRates s.procs l rt := storeRates_wiped s.procs
  simp only [this]
  rfl

theorem modifyProc_wiped {f : Proc K → M (Proc K)} (hf : ∀ p, f p.wiped = (f p).map Proc.wiped)
    (procs : List (Proc K)) (i : Nat) :
    modifyProc (procs.map Proc.wiped) i f = (modifyProc procs i f).map (List.map Proc.wiped) := by
  unfold modifyProc
  rw [rd_map_bind, bind_map]
  congr 1
  funext p
  rw [hf, map_bind, bind_map]
  congr 1
  funext p'
  unfold wr
  rw [List.length_map]
  split
  · rw [map_ok', List.map_set]
  · rfl

theorem removeSite_wiped (p : Proc K) (i : Nat) : p.wiped.removeSite i = (p.removeSite i).map Proc.wiped := by
  unfold Proc.removeSite
  show (match p.sites.findIdx? (fun s => decide (s = i)) with | none => _ | some i => _) = _
  cases p.sites.findIdx? (fun s => decide (s = i)) with
  | none => rfl
  | some j =>
    show (if p.custom = true then _ else _) = _
    by_cases hc : p.custom = true
    · rw [if_pos hc]
      simp only [if_pos hc]
      rw [bind_map]
      congr 1
      funext a
      rw [bind_map]
      congr 1
      funext b
      rw [bind_map]
      rfl
    · rw [if_neg hc]
      simp only [if_neg hc]
      rw [bind_map]
      congr 1
      funext a
      rw [bind_map]
      rfl

theorem addSite_wiped (p : Proc K) (i : Nat) (r m : K) : p.wiped.addSite i r m = (p.addSite i r m).wiped := by
  unfold Proc.addSite
  by_cases hc : p.custom = true
  · rw [if_pos hc, if_pos (show p.wiped.custom = true from hc)]
    rfl
  · rw [if_neg hc, if_neg (show ¬ p.wiped.custom = true from hc)]
    rfl

/-- The books with the scratch memory of the processes wiped. -/
def wipeBook (b : Book K) : Book K := (b.1.map Proc.wiped, b.2)

theorem updateProcesses_wiped (tasks : Tasks K) (b : Book K) :
    updateProcesses tasks (wipeBook b) = (updateProcesses tasks b).map wipeBook := by
  have h1 : ∀ (b : Book K) (t : Nat × Nat), removeTask (wipeBook b) t = (removeTask b t).map wipeBook := by
    intro b t
    unfold removeTask
    have := modifyProc_wiped (f := fun p => p.removeSite t.1) (fun p => removeSite_wiped p _) b.1 t.2
    show (modifyProc (b.1.map Proc.wiped) t.2 _ >>= _) = _
    rw [this, map_bind, bind_map]
    congr 1
    funext ps
    rw [bind_map]
    rfl
  have h2 : ∀ (b : Book K) (t : RateTask K), addTask (wipeBook b) t = (addTask b t).map wipeBook := by
    intro b t
    unfold addTask
    have := modifyProc_wiped (f := fun p => .ok (p.addSite t.index t.rate 1))
      (fun p => by rw [addSite_wiped]; rfl) b.1 t.process
    show (modifyProc (b.1.map Proc.wiped) t.process _ >>= _) = _
    rw [this, map_bind, bind_map]
    congr 1
    funext ps
    rw [bind_map]
    rfl
  have h3 : ∀ (b : Book K) (t : RateTask K), updateTask (wipeBook b) t = (updateTask b t).map wipeBook := by
    intro b t
    unfold updateTask
    have e1 := modifyProc_wiped (f := fun p => p.removeSite t.index) (fun p => removeSite_wiped p _) b.1 t.process
    have e2 := fun ps => modifyProc_wiped (f := fun p => .ok (p.addSite t.index t.rate 1))
      (fun p => by rw [addSite_wiped]; rfl) ps t.process
    show (modifyProc (b.1.map Proc.wiped) t.process _ >>= _) = _
    rw [e1, map_bind, bind_map]
    congr 1
    funext ps
    rw [e2, map_bind, bind_map]
    rfl
  unfold updateProcesses
  rw [loopM_map (f := removeTask) (h := wipeBook) (fun b t _ => h1 b t), map_bind, bind_map]
  congr 1
  funext b
  rw [loopM_map (f := updateTask) (h := wipeBook) (fun b t _ => h3 b t), map_bind, bind_map]
  congr 1
  funext b
  exact loopM_map (f := addTask) (h := wipeBook) (fun b t _ => h2 b t) b

theorem calculateMatching_wiped (env : Env K) (s : MState K) (is : List Nat) :
    calculateMatching env s.wiped is = (calculateMatching env s is).map MState.wiped := by
  unfold calculateMatching
  have e1 : ∀ is cfg, collectPairs env.L s.wiped.procs is cfg = collectPairs env.L s.procs is cfg :=
    collectPairs_wiped env.L s.procs
  rw [e1, bind_map]
  show (collectPairs env.L s.procs is s.cfg >>= _) = _
  congr 1
  funext c
  have e2 : ∀ pairs, matchPairs env { s.wiped with cfg := c.2 } pairs = matchPairs env { s with cfg := c.2 } pairs :=
    matchPairs_wiped env { s with cfg := c.2 }
  have e3 : ∀ tasks, customRates env { s.wiped with cfg := c.2 } tasks = customRates env { s with cfg := c.2 } tasks :=
    customRates_wiped env { s with cfg := c.2 }
  simp only
  rw [e2, bind_map]
  congr 1
  funext tasks
  have e4 : ∀ r : Tasks K × RateTable K,
      (updateProcesses r.1 (s.wiped.procs, s.wiped.inverse) >>= fun b =>
        (pure ⟨c.2, b.1, b.2, r.2⟩ : M (MState K)))
      = (updateProcesses r.1 (s.procs, s.inverse) >>= fun b =>
        (pure ⟨c.2, b.1, b.2, r.2⟩ : M (MState K))).map MState.wiped := by
    intro r
    have := updateProcesses_wiped r.1 (s.procs, s.inverse)
    rw [show (s.wiped.procs, s.wiped.inverse) = wipeBook (s.procs, s.inverse) from rfl, this, map_bind, bind_map]
    rfl
  rw [e3]
  split
  · rw [bind_map]
    congr 1
    funext r
    exact e4 r
  · exact e4 (tasks, s.rates)

end Matcher

theorem updateMatchListOf_wiped (cfg : Config K) (L : LatticeMap) (p : Proc K) :
    Interactions.updateMatchListOf cfg L p.wiped = (Interactions.updateMatchListOf cfg L p).map Proc.wiped := by
  unfold Interactions.updateMatchListOf
  show (match p.basisSites with | [b] => _ | _ => _) = _
  match p.basisSites with
  | [b] =>
    simp only
    rw [bind_map]
    congr 1
    funext i
    rw [bind_map]
    congr 1
    funext cml
    rw [bind_map]
    show (Interactions.alignLoop p.matchList _ _ _ _ >>= _) = _
    congr 1
    funext r
    rw [bind_map]
    rfl
  | [] => rfl
  | _ :: _ :: _ => rfl

theorem maxRange_wiped (procs : List (Proc K)) :
    Interactions.maxRange (procs.map Proc.wiped) = Interactions.maxRange procs := by
  unfold Interactions.maxRange
  rw [List.foldl_map]
  rfl

theorem maxRange_still (procs : List (Proc K)) :
    Interactions.maxRange (procs.map Proc.still) = Interactions.maxRange procs := by
  unfold Interactions.maxRange
  rw [List.foldl_map]
  rfl

/-- The first matching does the same for processes that differ in what a run changes only. -/
theorem initialMatching_still (env : Env K) (cfg : Config K) (procs : List (Proc K)) :
    initialMatching env cfg (procs.map Proc.still) = (initialMatching env cfg procs).map MState.wiped := by
  unfold initialMatching
  rw [maxRange_still, bind_map]
  congr 1
  funext cfg1
  have e0 : Interactions.clearMatching (procs.map Proc.still) = (Interactions.clearMatching procs).map Proc.wiped := by
    unfold Interactions.clearMatching
    rw [List.map_map, List.map_map]
    rfl
  have e1 : ∀ ps : List (Proc K), Interactions.updateProcessMatchLists env.implicitWildcards cfg1 env.L (ps.map Proc.wiped)
      = (Interactions.updateProcessMatchLists env.implicitWildcards cfg1 env.L ps).map (List.map Proc.wiped) := by
    intro ps
    unfold Interactions.updateProcessMatchLists
    split
    · rfl
    · exact mapMM_commute (fun p _ => updateMatchListOf_wiped cfg1 env.L p)
  simp only
  rw [e0, e1, map_bind, bind_map]
  congr 1
  funext ps
  rw [List.length_map]
  exact Matcher.calculateMatching_wiped env ⟨cfg1, ps, _, RateTable.empty⟩ _

theorem probabilityTable_wiped (procs : List (Proc K)) :
    Interactions.probabilityTable (procs.map Proc.wiped) = Interactions.probabilityTable procs := by
  unfold Interactions.probabilityTable
  generalize (0 : K) = a
  induction procs generalizing a with
  | nil => rfl
  | cons p ps ih =>
    simp only [List.map_cons, Interactions.probabilityLoop, ih]
    rfl

end KMC
