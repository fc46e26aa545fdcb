import Verif.Model.Rounded
import Verif.Lemmas.Worn
import Verif.Props.Run

/-!
# What rounding does not touch

The rounded numbers are the total rates, the tables made from them and the time. The functions of the matcher do the
same whatever these are.
-/

set_option linter.unusedSectionVars false

namespace KMC

open LatticeModel

/-- Two computations that agree after `f`, continued by functions that agree on such values. -/
theorem bind_agree {α α' β β' γ δ : Type} {x : M α} {y : M α'} {f : α → γ} {f' : α' → γ} {g : α → M β} {k : α' → M β'}
    {h : β → δ} {h' : β' → δ} (hx : x.map f = y.map f')
    (hg : ∀ a b, f a = f' b → (g a).map h = (k b).map h') : (x >>= g).map h = (y >>= k).map h' := by
  cases x with
  | error a =>
    cases y with
    | error b => cases hx; rfl
    | ok b => cases hx
  | ok a =>
    cases y with
    | error b => cases hx
    | ok b => exact hg a b (Except.ok.inj hx)

theorem loopM_agree {σ τ γ : Type} {α : Type _} {f : σ → α → M σ} {g : τ → α → M τ} {h : σ → γ} {h' : τ → γ}
    (hc : ∀ s t x, h s = h' t → (f s x).map h = (g t x).map h') (xs : List α) (s : σ) (t : τ) (hst : h s = h' t) :
    (loopM f xs s).map h = (loopM g xs t).map h' := by
  induction xs generalizing s t with
  | nil => exact congrArg Except.ok hst
  | cons x xs ih =>
    rw [loopM_cons, loopM_cons]
    exact bind_agree (hc s t x hst) (fun a b hab => ih a b hab)

theorem map_ok_of {α β : Type} {x : M α} {y : M β} {γ : Type} {f : α → γ} {f' : β → γ} (h : x.map f = y.map f') {a : α}
    (hx : x = .ok a) : ∃ b, y = .ok b ∧ f a = f' b := by
  cases y with
  | error e => rw [hx] at h; cases h
  | ok b => rw [hx] at h; exact ⟨b, rfl, Except.ok.inj h⟩

variable {K : Type} [Field K] [LinearOrder K]

/-- The process without its total rate and its table. -/
def Proc.faded (p : Proc K) : Proc K := { p with totalRate := 0, rateTable := [] }

/-- The state without the total rates and tables of its processes. -/
def MState.faded (s : MState K) : MState K := { s with procs := s.procs.map Proc.faded }

theorem Proc.faded_weights (p : Proc K) : p.faded.weights = p.weights := rfl

theorem MState.faded_cfg {s t : MState K} (h : s.faded = t.faded) : s.cfg = t.cfg :=
  (congrArg MState.cfg h :)

theorem MState.faded_procs {s t : MState K} (h : s.faded = t.faded) : s.procs.map Proc.faded = t.procs.map Proc.faded :=
  (congrArg MState.procs h :)

theorem faded_get {ps qs : List (Proc K)} (h : ps.map Proc.faded = qs.map Proc.faded) {j : Nat} {p : Proc K}
    (hp : ps[j]? = some p) : ∃ q, qs[j]? = some q ∧ p.faded = q.faded := by
  have h2 : (ps.map Proc.faded)[j]? = some p.faded := by rw [List.getElem?_map, hp]; rfl
  rw [h, List.getElem?_map, Option.map_eq_some_iff] at h2
  obtain ⟨q, h3, h4⟩ := h2
  exact ⟨q, h3, h4.symm⟩

theorem rd_faded {ps qs : List (Proc K)} (h : ps.map Proc.faded = qs.map Proc.faded) (j : Nat) :
    (rd ps j).map Proc.faded = (rd qs j).map Proc.faded := by
  have := congrArg (fun l => l[j]?) h
  simp only [List.getElem?_map] at this
  unfold rd
  cases h1 : ps[j]? with
  | none =>
    cases h2 : qs[j]? with
    | none => rfl
    | some b => rw [h1, h2] at this; cases this
  | some a =>
    cases h2 : qs[j]? with
    | none => rw [h1, h2] at this; cases this
    | some b => rw [h1, h2] at this; exact congrArg Except.ok (Option.some.inj this)

theorem wr_faded {ps qs : List (Proc K)} (h : ps.map Proc.faded = qs.map Proc.faded) (j : Nat) {p q : Proc K}
    (hpq : p.faded = q.faded) : (wr ps j p).map (List.map Proc.faded) = (wr qs j q).map (List.map Proc.faded) := by
  have hl : ps.length = qs.length := by simpa using congrArg List.length h
  unfold wr
  rw [hl]
  split
  · rw [map_ok', map_ok', List.map_set, List.map_set, h, hpq]
  · rfl

namespace Matcher

theorem processesFor_faded (L : LatticeMap) (procs : List (Proc K)) (i : Nat) :
    processesFor L (procs.map Proc.faded) i = processesFor L procs i := by
  unfold processesFor
  rw [List.zipIdx_map, List.filter_map, List.map_map]
  rfl

theorem collectPairs_faded (L : LatticeMap) (procs : List (Proc K)) (is : List Nat) (cfg : Config K) :
    collectPairs L (procs.map Proc.faded) is cfg = collectPairs L procs is cfg := by
  induction is generalizing cfg with
  | nil => rfl
  | cons i is ih =>
    unfold collectPairs
    simp only [processesFor_faded, ih]

theorem taskType_faded (s : MState K) : taskType s.faded = taskType s := by
  funext pair
  unfold taskType
  exact rd_map_bind _ _ _ _

theorem rateTask_faded (s : MState K) : rateTask s.faded = rateTask s := by
  funext pair
  unfold rateTask
  exact rd_map_bind _ _ _ _

theorem sortTasks_faded (s : MState K) (pairs : List (Nat × Nat)) (ts : List Nat) :
    sortTasks s.faded pairs ts = sortTasks s pairs ts := by
  induction pairs generalizing ts with
  | nil => rfl
  | cons pair pairs ih =>
    cases ts with
    | nil => rfl
    | cons t ts =>
      unfold sortTasks
      simp only [ih, rateTask_faded]

theorem matchPairs_faded (env : Env K) (s : MState K) (pairs : List (Nat × Nat)) :
    matchPairs env s.faded pairs = matchPairs env s pairs := by
  unfold matchPairs
  simp only [taskType_faded, sortTasks_faded]

theorem taskRate_faded (env : Env K) (s : MState K) : taskRate env s.faded = taskRate env s := by
  funext t
  unfold taskRate
  exact rd_map_bind _ _ _ _

theorem lookupTasks_faded (env : Env K) (s : MState K) (i : Nat) (ts : List (RateTask K)) :
    lookupTasks env s.faded i ts = lookupTasks env s i ts := by
  induction ts generalizing i with
  | nil => rfl
  | cons t ts ih =>
    unfold lookupTasks
    simp only [ih]
    exact rd_map_bind _ _ _ _

theorem storeRates_faded (procs : List (Proc K)) (l : List (Pending K × K)) (rt : RateTable K) :
    storeRates (procs.map Proc.faded) l rt = storeRates procs l rt := by
  unfold storeRates
  congr 1
  funext rt e
  exact rd_map_bind _ _ _ _

theorem customRates_faded (env : Env K) (s : MState K) (tasks : Tasks K) :
    customRates env s.faded tasks = customRates env s tasks := by
  unfold customRates
  simp only [lookupTasks_faded, taskRate_faded]
  have : ∀ l rt, storeRates s.faded.procs l rt = storeRates s.procs l rt := storeRates_faded s.procs
  simp only [this]
  rfl

end Matcher

namespace Rounded
open Matcher

variable {fl : K → K}

theorem removeSite_faded {p q : Proc K} (h : p.faded = q.faded) (i : Nat) :
    (removeSite fl p i).map Proc.faded = (q.removeSite i).map Proc.faded := by
  have key : ∀ (p : Proc K) (T : K) (R : List K),
      (removeSite fl { p with totalRate := T, rateTable := R } i).map Proc.faded = (p.removeSite i).map Proc.faded := by
    intro p T R
    unfold removeSite Proc.removeSite
    show Except.map _ (match p.sites.findIdx? (fun s => decide (s = i)) with | none => _ | some i => _) = _
    cases p.sites.findIdx? (fun s => decide (s = i)) with
    | none => rfl
    | some j =>
      show Except.map _ (if p.custom = true then _ else _) = _
      by_cases hc : p.custom = true
      · simp only [if_pos hc]
        rw [bind_map, bind_map]
        congr 1
        funext a
        rw [bind_map, bind_map]
        congr 1
        funext b
        rw [bind_map, bind_map]
        rfl
      · simp only [if_neg hc]
        rw [bind_map, bind_map]
        congr 1
        funext a
        rw [bind_map, bind_map]
        rfl
  have key2 : ∀ (p : Proc K) (T : K) (R : List K),
      (({ p with totalRate := T, rateTable := R } : Proc K).removeSite i).map Proc.faded =
        (p.removeSite i).map Proc.faded := by
    intro p T R
    unfold Proc.removeSite
    show Except.map _ (match p.sites.findIdx? (fun s => decide (s = i)) with | none => _ | some i => _) = _
    cases p.sites.findIdx? (fun s => decide (s = i)) with
    | none => rfl
    | some j =>
      show Except.map _ (if p.custom = true then _ else _) = _
      by_cases hc : p.custom = true
      · simp only [if_pos hc]
        rw [bind_map, bind_map]
        congr 1
        funext a
        rw [bind_map, bind_map]
        congr 1
        funext b
        rw [bind_map, bind_map]
        rfl
      · simp only [if_neg hc]
        rw [bind_map, bind_map]
        congr 1
        funext a
        rw [bind_map, bind_map]
        rfl
  calc (removeSite fl p i).map Proc.faded
      = (p.faded.removeSite i).map Proc.faded := key p.faded p.totalRate p.rateTable
    _ = (q.faded.removeSite i).map Proc.faded := by rw [h]
    _ = (q.removeSite i).map Proc.faded := key2 q 0 []

theorem addSite_faded {p q : Proc K} (h : p.faded = q.faded) (i : Nat) (r m : K) :
    (addSite fl p i r m).faded = (q.addSite i r m).faded := by
  have k1 : (addSite fl p i r m).faded = (p.faded.addSite i r m).faded := by
    unfold addSite Proc.addSite
    by_cases hc : p.custom = true
    · rw [if_pos hc, if_pos (show p.faded.custom = true from hc)]
      rfl
    · rw [if_neg hc, if_neg (show ¬ p.faded.custom = true from hc)]
      rfl
  have k2 : (q.faded.addSite i r m).faded = (q.addSite i r m).faded := by
    unfold Proc.addSite
    by_cases hc : q.custom = true
    · rw [if_pos hc, if_pos (show q.faded.custom = true from hc)]
      rfl
    · rw [if_neg hc, if_neg (show ¬ q.faded.custom = true from hc)]
      rfl
  rw [k1, h, k2]

theorem modifyProc_faded {ps qs : List (Proc K)} (h : ps.map Proc.faded = qs.map Proc.faded)
    {f g : Proc K → M (Proc K)} (hf : ∀ p q, p.faded = q.faded → (f p).map Proc.faded = (g q).map Proc.faded) (i : Nat) :
    (modifyProc ps i f).map (List.map Proc.faded) = (modifyProc qs i g).map (List.map Proc.faded) := by
  unfold modifyProc
  exact bind_agree (rd_faded h i) fun a b hab => bind_agree (hf a b hab) fun c d hcd => wr_faded h i hcd

/-- The books without the total rates. -/
def fadeBook (b : Book K) : Book K := (b.1.map Proc.faded, b.2)

theorem updateProcesses_faded (tasks : Tasks K) {b c : Book K} (h : fadeBook b = fadeBook c) :
    (updateProcesses fl tasks b).map fadeBook = (Matcher.updateProcesses tasks c).map fadeBook := by
  have hfst : ∀ {b c : Book K}, fadeBook b = fadeBook c → b.1.map Proc.faded = c.1.map Proc.faded :=
    fun h => (congrArg Prod.fst h :)
  have hsnd : ∀ {b c : Book K}, fadeBook b = fadeBook c → b.2 = c.2 := fun h => (congrArg Prod.snd h :)
  have tail : ∀ {b c : Book K} {ps qs : List (Proc K)} (s j : Nat) (v : Bool), fadeBook b = fadeBook c →
      ps.map Proc.faded = qs.map Proc.faded →
      (setInverse b.2 s j v >>= fun inv => (pure (ps, inv) : M (Book K))).map fadeBook =
        (setInverse c.2 s j v >>= fun inv => (pure (qs, inv) : M (Book K))).map fadeBook := by
    intro b c ps qs s j v h hps
    rw [hsnd h, bind_map, bind_map]
    congr 1
    funext inv
    show Except.ok _ = Except.ok _
    unfold fadeBook
    simp only [hps]
  have h1 : ∀ (b c : Book K) (t : Nat × Nat), fadeBook b = fadeBook c →
      (removeTask fl b t).map fadeBook = (Matcher.removeTask c t).map fadeBook := by
    intro b c t h
    unfold removeTask Matcher.removeTask
    exact bind_agree (modifyProc_faded (hfst h) (fun p q hpq => removeSite_faded hpq t.1) t.2)
      fun ps qs hps => tail _ _ _ h hps
  have h2 : ∀ (b c : Book K) (t : RateTask K), fadeBook b = fadeBook c →
      (addTask fl b t).map fadeBook = (Matcher.addTask c t).map fadeBook := by
    intro b c t h
    unfold addTask Matcher.addTask
    exact bind_agree (modifyProc_faded (f := fun p => .ok (addSite fl p t.index t.rate 1))
      (g := fun p => .ok (p.addSite t.index t.rate 1)) (hfst h)
      (fun p q hpq => congrArg Except.ok (addSite_faded hpq t.index t.rate 1)) t.process)
      fun ps qs hps => tail _ _ _ h hps
  have h3 : ∀ (b c : Book K) (t : RateTask K), fadeBook b = fadeBook c →
      (updateTask fl b t).map fadeBook = (Matcher.updateTask c t).map fadeBook := by
    intro b c t h
    unfold updateTask Matcher.updateTask
    refine bind_agree (modifyProc_faded (hfst h) (fun p q hpq => removeSite_faded hpq t.index) t.process)
      fun ps qs hps => ?_
    refine bind_agree (modifyProc_faded (f := fun p => .ok (addSite fl p t.index t.rate 1))
      (g := fun p => .ok (p.addSite t.index t.rate 1)) hps
      (fun p q hpq => congrArg Except.ok (addSite_faded hpq t.index t.rate 1)) t.process) fun ps' qs' hps' => ?_
    show Except.ok _ = Except.ok _
    unfold fadeBook
    simp only [hps', hsnd h]
  unfold updateProcesses Matcher.updateProcesses
  exact bind_agree (loopM_agree h1 _ _ _ h) fun b c h => bind_agree (loopM_agree h3 _ _ _ h) fun b c h =>
    loopM_agree h2 _ _ _ h

theorem calculateMatching_faded (env : Env K) {s t : MState K} (h : s.faded = t.faded) (is : List Nat) :
    (calculateMatching fl env s is).map MState.faded = (Matcher.calculateMatching env t is).map MState.faded := by
  unfold calculateMatching Matcher.calculateMatching
  have hp := MState.faded_procs h
  have e1 : collectPairs env.L s.procs is s.cfg = collectPairs env.L t.procs is t.cfg := by
    rw [← collectPairs_faded, hp, collectPairs_faded, MState.faded_cfg h]
  rw [e1, bind_map, bind_map]
  congr 1
  funext c
  have hst : ({ s with cfg := c.2 } : MState K).faded = ({ t with cfg := c.2 } : MState K).faded := by
    unfold MState.faded at h ⊢
    simp only [MState.mk.injEq] at h ⊢
    exact ⟨trivial, h.2⟩
  have e2 : ∀ pairs, matchPairs env { s with cfg := c.2 } pairs = matchPairs env { t with cfg := c.2 } pairs := by
    intro pairs
    rw [← matchPairs_faded, hst, matchPairs_faded]
  have e3 : ∀ tasks, customRates env { s with cfg := c.2 } tasks = customRates env { t with cfg := c.2 } tasks := by
    intro tasks
    rw [← customRates_faded, hst, customRates_faded]
  simp only
  rw [e2, bind_map, bind_map]
  congr 1
  funext tasks
  have hinv : s.inverse = t.inverse := (congrArg MState.inverse h :)
  have hrates : s.rates = t.rates := (congrArg MState.rates h :)
  have e4 : ∀ r : Tasks K × RateTable K,
      (updateProcesses fl r.1 (s.procs, s.inverse) >>= fun b => (pure ⟨c.2, b.1, b.2, r.2⟩ : M (MState K))).map MState.faded
      = (Matcher.updateProcesses r.1 (t.procs, t.inverse) >>= fun b =>
        (pure ⟨c.2, b.1, b.2, r.2⟩ : M (MState K))).map MState.faded := by
    intro r
    refine bind_agree (updateProcesses_faded r.1 ?_) ?_
    · unfold fadeBook
      simp only [hp, hinv]
    · intro a b hab
      show Except.ok _ = Except.ok _
      have h1 : a.1.map Proc.faded = b.1.map Proc.faded := (congrArg Prod.fst hab :)
      have h2 : a.2 = b.2 := (congrArg Prod.snd hab :)
      unfold MState.faded
      simp only [h1, h2]
  rw [e3, hrates]
  split
  · rw [bind_map, bind_map]
    congr 1
    funext r
    exact e4 r
  · exact e4 (tasks, t.rates)

theorem initialMatching_faded (env : Env K) (cfg : Config K) (procs : List (Proc K)) :
    (initialMatching fl env cfg procs).map MState.faded = (LatticeModel.initialMatching env cfg procs).map MState.faded := by
  unfold initialMatching LatticeModel.initialMatching
  rw [bind_map, bind_map]
  congr 1
  funext cfg1
  rw [bind_map, bind_map]
  congr 1
  funext procs1
  exact calculateMatching_faded env rfl _

theorem maxRange_faded {ps qs : List (Proc K)} (h : ps.map Proc.faded = qs.map Proc.faded) :
    Interactions.maxRange ps = Interactions.maxRange qs := by
  have : ∀ procs : List (Proc K), Interactions.maxRange (procs.map Proc.faded) = Interactions.maxRange procs := by
    intro procs
    unfold Interactions.maxRange
    rw [List.foldl_map]
    rfl
  rw [← this, h, this]

theorem performAt_faded {s t : MState K} (h : s.faded = t.faded) (i site : Nat) :
    (performAt s i site).map MState.faded = (performAt t i site).map MState.faded := by
  unfold performAt
  refine bind_agree (rd_faded (MState.faded_procs h) i) fun p q hpq => ?_
  have e : s.cfg.perform p.number p.matchList p.idMoves p.affected site =
      t.cfg.perform q.number q.matchList q.idMoves q.affected site := by
    have h1 : p.number = q.number := (congrArg Proc.number hpq :)
    have h2 : p.matchList = q.matchList := (congrArg Proc.matchList hpq :)
    have h3 : p.idMoves = q.idMoves := (congrArg Proc.idMoves hpq :)
    have h4 : p.affected = q.affected := (congrArg Proc.affected hpq :)
    rw [MState.faded_cfg h, h1, h2, h3, h4]
  rw [e, bind_map, bind_map]
  congr 1
  funext r
  refine bind_agree (wr_faded (MState.faded_procs h) i (p := { p with affected := r.2 })
    (q := { q with affected := r.2 }) ?_) fun ps qs hps => ?_
  · exact congrArg (fun x : Proc K => { x with affected := r.2 }) hpq
  · show Except.ok _ = Except.ok _
    have hinv : s.inverse = t.inverse := (congrArg MState.inverse h :)
    have hrates : s.rates = t.rates := (congrArg MState.rates h :)
    unfold MState.faded
    simp only [hps, hinv, hrates]

theorem rematch_faded (env : Env K) {s t : MState K} (h : s.faded = t.faded) (i : Nat) :
    (rematch fl env s i).map MState.faded = (LatticeModel.rematch env t i).map MState.faded := by
  unfold rematch LatticeModel.rematch
  refine bind_agree (rd_faded (MState.faded_procs h) i) fun p q hpq => ?_
  have h4 : p.affected = q.affected := (congrArg Proc.affected hpq :)
  rw [maxRange_faded (MState.faded_procs h), h4]
  exact calculateMatching_faded env h _

/-- What a selection gives: a site that is listed. -/
theorem select_ok {procs : List (Proc K)} {table : List (K × Nat)} {u1 u2 : K} {e : Nat × Nat × List (Proc K)}
    (h : select fl procs table u1 u2 = .ok e) :
    ∃ p, procs[e.1]? = some p ∧ e.2.1 ∈ p.sites ∧ e.2.2.map Proc.faded = procs.map Proc.faded := by
  unfold select at h
  rw [bind_ok] at h
  obtain ⟨pk, h1, h⟩ := h
  rw [bind_ok] at h
  obtain ⟨site, h2, h⟩ := h
  cases h
  unfold pickProcess at h1
  rw [bind_ok] at h1
  obtain ⟨i, -, h1⟩ := h1
  rw [bind_ok] at h1
  obtain ⟨p, hp, h1⟩ := h1
  rw [bind_ok] at h1
  obtain ⟨p', hp', h1⟩ := h1
  rw [bind_ok] at h1
  obtain ⟨ps, hps, h1⟩ := h1
  cases h1
  have hfd : p'.faded = p.faded := by
    unfold updateRateTable at hp'
    split at hp'
    · rw [bind_ok] at hp'
      obtain ⟨t, -, hp'⟩ := hp'
      cases hp'
      rfl
    · cases hp'
      rfl
  rw [rd_ok] at hp
  refine ⟨p, hp, ?_, ?_⟩
  · have hs : p'.sites = p.sites := (congrArg Proc.sites hfd :)
    unfold pickSite at h2
    split at h2
    · cases h2
    · rw [rd_ok] at h2
      rw [← hs]
      exact List.mem_of_getElem? h2
  · obtain ⟨-, rfl⟩ := wr_ok.1 hps
    rw [List.map_set, hfd]
    apply List.ext_getElem?
    intro k
    rw [List.getElem?_set]
    split
    · next hk =>
      subst hk
      rw [List.getElem?_map, hp, List.length_map, if_pos (List.getElem?_eq_some_iff.1 hp).1]
      rfl
    · rfl

end Rounded
end KMC
