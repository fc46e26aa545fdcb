import Verif.Model.RoundedGeometry
import Verif.Lemmas.Faded

/-!
# States without coordinates

Coordinates and distances decide whether the points of a process and of the lattice are the same. Everything else that a step
does is the same whatever they are.
-/

set_option linter.unusedSectionVars false

namespace KMC

open LatticeModel

variable {K : Type} [Field K] [LinearOrder K]

/-- The entry without its place. -/
def CEntry.bare (c : CEntry K) : CEntry K := { c with distance := 0, coord := 0 }

/-- The entry without its place and its move. -/
def PEntry.bare (p : PEntry K) : PEntry K := { p with distance := 0, coord := 0, moveCoord := 0 }

/-- The configuration without coordinates. -/
def Config.bare (cfg : Config K) : Config K :=
  { cfg with coords := cfg.coords.map (fun _ => 0), atomIdCoords := cfg.atomIdCoords.map (fun _ => 0),
             matchLists := cfg.matchLists.map (List.map CEntry.bare), moveVectors := cfg.moveVectors.map (fun _ => 0) }

/-- The process without coordinates. -/
def Proc.bare (p : Proc K) : Proc K := { p with cutoff := 0, matchList := p.matchList.map PEntry.bare }

/-- The state without coordinates. -/
def MState.bare (s : MState K) : MState K := { s with cfg := s.cfg.bare, procs := s.procs.map Proc.bare }

/-- The simulation without coordinates. -/
def Sim.bare (s : Sim K) : Sim K := { s with ms := s.ms.bare }

/-- The places of the entries of all match lists. -/
def Config.places (cfg : Config K) : List (List (K × Coord K)) :=
  cfg.matchLists.map (List.map fun c => (c.distance, c.coord))

theorem rd_map {α β : Type _} (f : α → β) (l : List α) (i : Nat) : rd (l.map f) i = (rd l i).map f := by
  unfold rd
  rw [List.getElem?_map]
  cases l[i]? <;> rfl

theorem wr_map {α β : Type _} (f : α → β) (l : List α) (i : Nat) (a : α) :
    wr (l.map f) i (f a) = (wr l i a).map (List.map f) := by
  unfold wr
  rw [List.length_map]
  split
  · rw [map_ok', List.map_set]
  · rfl

namespace Config

/-- The result of a turn of the loop of performBucketProcess, without coordinates. -/
def bareSt (st : Config K × List Nat) : Config K × List Nat := (st.1.bare, st.2)

theorem updateMatchList_bare (cfg : Config K) (i : Nat) : cfg.bare.updateMatchList i = (cfg.updateMatchList i).map bare := by
  unfold updateMatchList
  show (rd (cfg.matchLists.map (List.map CEntry.bare)) i >>= _) = _
  rw [rd_map_bind, bind_map]
  congr 1
  funext ml
  have : mapMM (fun (e : CEntry K) => rd cfg.types e.index >>= fun t => (pure { e with matchTypes := t } : M (CEntry K)))
        (ml.map CEntry.bare)
      = (mapMM (fun (e : CEntry K) => rd cfg.types e.index >>= fun t => (pure { e with matchTypes := t } : M (CEntry K)))
          ml).map (List.map CEntry.bare) := by
    apply mapMM_commute
    intro e _
    rw [bind_map]
    rfl
  show (mapMM (fun (e : CEntry K) => rd cfg.types e.index >>= fun t => (pure { e with matchTypes := t } : M (CEntry K)))
        (ml.map CEntry.bare) >>= _) = _
  rw [this, map_bind, bind_map]
  congr 1
  funext ml'
  show (wr (cfg.matchLists.map (List.map CEntry.bare)) i (ml'.map CEntry.bare) >>= _) = _
  rw [wr_map, map_bind, bind_map]
  rfl

theorem performEntry_bare (st : Config K × List Nat) (p : PEntry K) (c : CEntry K) :
    performEntry (bareSt st) p.bare c.bare = (performEntry st p c).map bareSt := by
  unfold performEntry
  dsimp only
  show (if absSum p.updateTypes > 0 then _ else _) = _
  split
  · show (rd p.updateTypes 0 >>= _) = _
    rw [bind_map]
    congr 1
    funext u0
    split
    · show (rd st.1.atomId c.index >>= _) = _
      rw [bind_map]
      congr 1
      funext id
      show (rd (st.1.atomIdCoords.map fun _ => (0 : Coord K)) id >>= _) = _
      rw [rd_map_bind, bind_map]
      congr 1
      funext ac
      show (wr (st.1.atomIdCoords.map fun _ => (0 : Coord K)) id (0 + 0) >>= _) = _
      have e := wr_map (fun _ => (0 : Coord K)) st.1.atomIdCoords id (ac + p.moveCoord)
      rw [show (0 : Coord K) + 0 = 0 by ext <;> simp, e, map_bind, bind_map]
      congr 1
      funext aic
      show (rd st.1.types c.index >>= _) = _
      rw [bind_map]
      congr 1
      funext t
      rw [bind_map]
      show (addUpdate t p.updateTypes >>= _) = _
      congr 1
      funext t'
      rw [bind_map]
      show (wr st.1.types c.index t' >>= _) = _
      congr 1
      funext types
      rw [bind_map]
      show (elementsOf st.1.typeNames t' >>= _) = _
      congr 1
      funext els
      rw [bind_map]
      show (wr st.1.elements c.index els >>= _) = _
      congr 1
      funext elements
      show (if p.hasMove = false then _ else _) = _
      split
      · rw [bind_map]
        congr 1
        funext e0
        rw [bind_map]
        show (wr st.1.atomIdElements id e0 >>= _) = _
        congr 1
        funext aie
        rw [bind_map]
        show (wr st.2 st.1.nMoved c.index >>= _) = _
        congr 1
        funext aff
        rw [bind_map]
        show (wr st.1.movedIds st.1.nMoved id >>= _) = _
        congr 1
        funext mi
        have e := wr_map (fun _ => (0 : Coord K)) st.1.moveVectors st.1.nMoved p.moveCoord
        show (wr (st.1.moveVectors.map fun _ => (0 : Coord K)) st.1.nMoved 0 >>= _) = _
        rw [e, map_bind, bind_map]
        rfl
      · rw [bind_map]
        show ((pure st.1.atomIdElements : M _) >>= _) = _
        congr 1
        funext aie
        rw [bind_map]
        show (wr st.2 st.1.nMoved c.index >>= _) = _
        congr 1
        funext aff
        rw [bind_map]
        show (wr st.1.movedIds st.1.nMoved id >>= _) = _
        congr 1
        funext mi
        have e := wr_map (fun _ => (0 : Coord K)) st.1.moveVectors st.1.nMoved p.moveCoord
        show (wr (st.1.moveVectors.map fun _ => (0 : Coord K)) st.1.nMoved 0 >>= _) = _
        rw [e, map_bind, bind_map]
        rfl
    · rfl
  · rfl

theorem performEntry_bare' (fl : K → K) (st : Config K × List Nat) (p : PEntry K) (c : CEntry K) :
    performEntry (bareSt st) p.bare c.bare = (InDouble.performEntry fl st p c).map bareSt := by
  unfold performEntry InDouble.performEntry
  dsimp only
  show (if absSum p.updateTypes > 0 then _ else _) = _
  split
  · show (rd p.updateTypes 0 >>= _) = _
    rw [bind_map]
    congr 1
    funext u0
    split
    · show (rd st.1.atomId c.index >>= _) = _
      rw [bind_map]
      congr 1
      funext id
      show (rd (st.1.atomIdCoords.map fun _ => (0 : Coord K)) id >>= _) = _
      rw [rd_map_bind, bind_map]
      congr 1
      funext ac
      show (wr (st.1.atomIdCoords.map fun _ => (0 : Coord K)) id (0 + 0) >>= _) = _
      have e := wr_map (fun _ => (0 : Coord K)) st.1.atomIdCoords id (InDouble.add fl ac p.moveCoord)
      rw [show (0 : Coord K) + 0 = 0 by ext <;> simp, e, map_bind, bind_map]
      congr 1
      funext aic
      show (rd st.1.types c.index >>= _) = _
      rw [bind_map]
      congr 1
      funext t
      rw [bind_map]
      show (addUpdate t p.updateTypes >>= _) = _
      congr 1
      funext t'
      rw [bind_map]
      show (wr st.1.types c.index t' >>= _) = _
      congr 1
      funext types
      rw [bind_map]
      show (elementsOf st.1.typeNames t' >>= _) = _
      congr 1
      funext els
      rw [bind_map]
      show (wr st.1.elements c.index els >>= _) = _
      congr 1
      funext elements
      show (if p.hasMove = false then _ else _) = _
      split
      · rw [bind_map]
        congr 1
        funext e0
        rw [bind_map]
        show (wr st.1.atomIdElements id e0 >>= _) = _
        congr 1
        funext aie
        rw [bind_map]
        show (wr st.2 st.1.nMoved c.index >>= _) = _
        congr 1
        funext aff
        rw [bind_map]
        show (wr st.1.movedIds st.1.nMoved id >>= _) = _
        congr 1
        funext mi
        have e := wr_map (fun _ => (0 : Coord K)) st.1.moveVectors st.1.nMoved p.moveCoord
        show (wr (st.1.moveVectors.map fun _ => (0 : Coord K)) st.1.nMoved 0 >>= _) = _
        rw [e, map_bind, bind_map]
        rfl
      · rw [bind_map]
        show ((pure st.1.atomIdElements : M _) >>= _) = _
        congr 1
        funext aie
        rw [bind_map]
        show (wr st.2 st.1.nMoved c.index >>= _) = _
        congr 1
        funext aff
        rw [bind_map]
        show (wr st.1.movedIds st.1.nMoved id >>= _) = _
        congr 1
        funext mi
        have e := wr_map (fun _ => (0 : Coord K)) st.1.moveVectors st.1.nMoved p.moveCoord
        show (wr (st.1.moveVectors.map fun _ => (0 : Coord K)) st.1.nMoved 0 >>= _) = _
        rw [e, map_bind, bind_map]
        rfl
    · rfl
  · rfl

theorem performLoop_bare : ∀ (ps : List (PEntry K)) (cs : List (CEntry K)) (st : Config K × List Nat),
    performLoop (ps.map PEntry.bare) (cs.map CEntry.bare) (bareSt st) = (performLoop ps cs st).map bareSt
  | [], _, _ => rfl
  | _ :: _, [], _ => rfl
  | p :: ps, c :: cs, st => by
    show (performEntry (bareSt st) p.bare c.bare >>= _) = (performEntry st p c >>= _).map bareSt
    rw [performEntry_bare, map_bind, bind_map]
    congr 1
    funext st'
    exact performLoop_bare ps cs st'

theorem performLoop_bare' (fl : K → K) : ∀ (ps : List (PEntry K)) (cs : List (CEntry K)) (st : Config K × List Nat),
    performLoop (ps.map PEntry.bare) (cs.map CEntry.bare) (bareSt st) = (InDouble.performLoop fl ps cs st).map bareSt
  | [], _, _ => rfl
  | _ :: _, [], _ => rfl
  | p :: ps, c :: cs, st => by
    show (performEntry (bareSt st) p.bare c.bare >>= _) = (InDouble.performEntry fl st p c >>= _).map bareSt
    rw [performEntry_bare' fl, map_bind, bind_map]
    congr 1
    funext st'
    exact performLoop_bare' fl ps cs st'

theorem idUpdate_bare (cfg : Config K) (sml : List (CEntry K)) : idUpdate cfg.bare (sml.map CEntry.bare) = idUpdate cfg sml := by
  funext mv
  unfold idUpdate
  rw [rd_map_bind]
  congr 1
  funext f
  rw [rd_map_bind]
  rfl

theorem applyIdUpdate_bare (cfg : Config K) (u : Nat × Nat) : applyIdUpdate cfg.bare u = (applyIdUpdate cfg u).map bare := by
  unfold applyIdUpdate
  show (wr cfg.atomId u.2 u.1 >>= _) = _
  rw [bind_map]
  congr 1
  funext a
  show (rd cfg.elements u.2 >>= _) = _
  rw [bind_map]
  congr 1
  funext els
  rw [bind_map]
  congr 1
  funext e0
  show (wr cfg.atomIdElements u.1 e0 >>= _) = _
  rw [bind_map]
  rfl

theorem perform_bare (cfg : Config K) (number : Nat) (pml : List (PEntry K)) (idMoves : List (Nat × Nat))
    (affected : List Nat) (site : Nat) :
    cfg.bare.perform number (pml.map PEntry.bare) idMoves affected site =
      (cfg.perform number pml idMoves affected site).map bareSt := by
  unfold perform
  show (rd (cfg.matchLists.map (List.map CEntry.bare)) site >>= _) = _
  rw [rd_map_bind, bind_map]
  congr 1
  funext sml
  dsimp only
  have e := performLoop_bare pml sml ({ cfg with latestProcess := number, latestSite := site, nMoved := 0 }, affected)
  rw [show ({ cfg.bare with latestProcess := number, latestSite := site, nMoved := 0 }, affected)
    = bareSt ({ cfg with latestProcess := number, latestSite := site, nMoved := 0 }, affected) from rfl, e, map_bind, bind_map]
  congr 1
  funext st
  show (mapMM (idUpdate st.1.bare (sml.map CEntry.bare)) idMoves >>= _) = _
  rw [idUpdate_bare, bind_map]
  congr 1
  funext ups
  show (loopM applyIdUpdate ups st.1.bare >>= _) = _
  rw [loopM_map (f := applyIdUpdate) (h := bare) (fun s u _ => applyIdUpdate_bare s u), map_bind, bind_map]
  rfl

theorem perform_bare' (fl : K → K) (cfg : Config K) (number : Nat) (pml : List (PEntry K)) (idMoves : List (Nat × Nat))
    (affected : List Nat) (site : Nat) :
    cfg.bare.perform number (pml.map PEntry.bare) idMoves affected site =
      (InDouble.perform fl cfg number pml idMoves affected site).map bareSt := by
  unfold perform InDouble.perform
  show (rd (cfg.matchLists.map (List.map CEntry.bare)) site >>= _) = _
  rw [rd_map_bind, bind_map]
  congr 1
  funext sml
  dsimp only
  have e := performLoop_bare' fl pml sml ({ cfg with latestProcess := number, latestSite := site, nMoved := 0 }, affected)
  rw [show ({ cfg.bare with latestProcess := number, latestSite := site, nMoved := 0 }, affected)
    = bareSt ({ cfg with latestProcess := number, latestSite := site, nMoved := 0 }, affected) from rfl, e, map_bind, bind_map]
  congr 1
  funext st
  show (mapMM (idUpdate st.1.bare (sml.map CEntry.bare)) idMoves >>= _) = _
  rw [idUpdate_bare, bind_map]
  congr 1
  funext ups
  show (loopM applyIdUpdate ups st.1.bare >>= _) = _
  rw [loopM_map (f := applyIdUpdate) (h := bare) (fun s u _ => applyIdUpdate_bare s u), map_bind, bind_map]
  rfl

/-! ### The places stay -/

theorem updateMatchList_places {cfg cfg' : Config K} {i : Nat} (h : cfg.updateMatchList i = .ok cfg') :
    cfg'.places = cfg.places := by
  unfold updateMatchList at h
  rw [bind_ok] at h
  obtain ⟨ml, h1, h⟩ := h
  rw [bind_ok] at h
  obtain ⟨ml', h2, h⟩ := h
  rw [bind_ok] at h
  obtain ⟨mls, h3, h⟩ := h
  cases h
  rw [rd_ok] at h1
  obtain ⟨-, rfl⟩ := wr_ok.1 h3
  unfold places
  dsimp only
  rw [List.map_set]
  have e : ml'.map (fun c => (c.distance, c.coord)) = ml.map (fun c => (c.distance, c.coord)) := by
    clear h1 h3
    induction ml generalizing ml' with
    | nil => cases h2; rfl
    | cons a ml ih =>
      rw [mapMM_cons, bind_ok] at h2
      obtain ⟨b, h4, h2⟩ := h2
      rw [bind_ok] at h2
      obtain ⟨bs, h5, h2⟩ := h2
      cases h2
      rw [bind_ok] at h4
      obtain ⟨t, -, h4⟩ := h4
      cases h4
      rw [List.map_cons, List.map_cons, ih _ h5]
  rw [e]
  apply List.ext_getElem?
  intro k
  rw [List.getElem?_set]
  split
  · next hk =>
    subst hk
    rw [List.getElem?_map, h1, List.length_map, if_pos (List.getElem?_eq_some_iff.1 h1).1]
    rfl
  · rfl

theorem performEntry_lists (fl : K → K) {st st' : Config K × List Nat} {p : PEntry K} {c : CEntry K}
    (h : InDouble.performEntry fl st p c = .ok st') : st'.1.matchLists = st.1.matchLists := by
  unfold InDouble.performEntry at h
  dsimp only at h
  split at h
  · rw [bind_ok] at h
    obtain ⟨u0, -, h⟩ := h
    split at h
    · simp only [bind_ok] at h
      obtain ⟨_, -, _, -, _, -, _, -, _, -, _, -, _, -, _, -, h⟩ := h
      split at h
      · simp only [bind_ok] at h
        obtain ⟨_, -, _, -, _, -, _, -, _, -, h⟩ := h
        cases h
        rfl
      · simp only [bind_ok] at h
        obtain ⟨_, -, _, -, _, -, _, -, h⟩ := h
        cases h
        rfl
    · cases h
      rfl
  · cases h
    rfl

theorem performLoop_lists (fl : K → K) : ∀ (ps : List (PEntry K)) (cs : List (CEntry K)) (st st' : Config K × List Nat),
    InDouble.performLoop fl ps cs st = .ok st' → st'.1.matchLists = st.1.matchLists
  | [], _, _, _, h => by cases h; rfl
  | _ :: _, [], _, _, h => by cases h
  | p :: ps, c :: cs, st, st', h => by
    unfold InDouble.performLoop at h
    rw [bind_ok] at h
    obtain ⟨st1, h1, h⟩ := h
    rw [performLoop_lists fl ps cs st1 st' h, performEntry_lists fl h1]

theorem applyLoop_lists (ups : List (Nat × Nat)) (cfg cfg' : Config K) (h : loopM applyIdUpdate ups cfg = .ok cfg') :
    cfg'.matchLists = cfg.matchLists := by
  induction ups generalizing cfg with
  | nil => cases h; rfl
  | cons u ups ih =>
    rw [loopM_cons, bind_ok] at h
    obtain ⟨c1, h1, h⟩ := h
    rw [ih c1 h]
    unfold applyIdUpdate at h1
    simp only [bind_ok] at h1
    obtain ⟨_, -, _, -, _, -, _, -, h1⟩ := h1
    cases h1
    rfl

theorem perform_lists' (fl : K → K) {cfg : Config K} {number : Nat} {pml : List (PEntry K)} {idMoves : List (Nat × Nat)}
    {affected : List Nat} {site : Nat} {r : Config K × List Nat}
    (h : InDouble.perform fl cfg number pml idMoves affected site = .ok r) : r.1.matchLists = cfg.matchLists := by
  unfold InDouble.perform at h
  rw [bind_ok] at h
  obtain ⟨sml, -, h⟩ := h
  dsimp only at h
  rw [bind_ok] at h
  obtain ⟨st, h1, h⟩ := h
  rw [bind_ok] at h
  obtain ⟨ups, -, h⟩ := h
  rw [bind_ok] at h
  obtain ⟨c2, h2, h⟩ := h
  cases h
  rw [applyLoop_lists _ _ _ h2, performLoop_lists fl _ _ _ _ h1]

theorem performEntry_id (st : Config K × List Nat) (p : PEntry K) (c : CEntry K) :
    performEntry st p c = InDouble.performEntry id st p c := rfl

theorem performLoop_id : ∀ (ps : List (PEntry K)) (cs : List (CEntry K)) (st : Config K × List Nat),
    performLoop ps cs st = InDouble.performLoop id ps cs st
  | [], _, _ => rfl
  | _ :: _, [], _ => rfl
  | p :: ps, c :: cs, st => by
    unfold performLoop InDouble.performLoop
    rw [performEntry_id]
    congr 1
    funext st'
    exact performLoop_id ps cs st'

theorem perform_id (cfg : Config K) (number : Nat) (pml : List (PEntry K)) (idMoves : List (Nat × Nat))
    (affected : List Nat) (site : Nat) :
    cfg.perform number pml idMoves affected site = InDouble.perform id cfg number pml idMoves affected site := by
  unfold perform InDouble.perform
  congr 1
  funext sml
  dsimp only
  rw [performLoop_id]

theorem perform_lists {cfg : Config K} {number : Nat} {pml : List (PEntry K)} {idMoves : List (Nat × Nat)}
    {affected : List Nat} {site : Nat} {r : Config K × List Nat}
    (h : cfg.perform number pml idMoves affected site = .ok r) : r.1.matchLists = cfg.matchLists := by
  rw [perform_id] at h
  exact perform_lists' id h

end Config

namespace Matcher

theorem processesFor_bare (L : LatticeMap) (procs : List (Proc K)) (i : Nat) :
    processesFor L (procs.map Proc.bare) i = processesFor L procs i := by
  unfold processesFor
  rw [List.zipIdx_map, List.filter_map, List.map_map]
  rfl

theorem collectPairs_bare (L : LatticeMap) (procs : List (Proc K)) (is : List Nat) (cfg : Config K) :
    collectPairs L (procs.map Proc.bare) is cfg.bare = (collectPairs L procs is cfg).map fun r => (r.1, r.2.bare) := by
  induction is generalizing cfg with
  | nil => rfl
  | cons i is ih =>
    unfold collectPairs
    simp only [processesFor_bare]
    split
    · rw [Config.updateMatchList_bare, map_bind, bind_map]
      congr 1
      funext c
      rw [ih, map_bind, bind_map]
      rfl
    · show (collectPairs _ _ _ cfg.bare >>= _) = (collectPairs _ _ _ cfg >>= _).map _
      rw [ih, map_bind, bind_map]
      rfl

theorem collectPairs_places {L : LatticeMap} {procs : List (Proc K)} {is : List Nat} {cfg : Config K}
    {r : List (Nat × Nat) × Config K} (h : collectPairs L procs is cfg = .ok r) : r.2.places = cfg.places := by
  induction is generalizing cfg r with
  | nil => cases h; rfl
  | cons i is ih =>
    unfold collectPairs at h
    dsimp only at h
    split at h
    · rw [bind_ok] at h
      obtain ⟨c, h1, h⟩ := h
      rw [bind_ok] at h
      obtain ⟨r', h2, h⟩ := h
      cases h
      rw [ih h2]
      exact Config.updateMatchList_places h1
    · rw [bind_ok] at h
      obtain ⟨c, h1, h⟩ := h
      rw [bind_ok] at h
      obtain ⟨r', h2, h⟩ := h
      cases h
      rw [ih h2]
      cases h1
      rfl

theorem multLoop_bare : ∀ (m : Int) (ps : List (PEntry K)) (cs : List (CEntry K)),
    multLoop m (ps.map PEntry.bare) (cs.map CEntry.bare) = multLoop m ps cs
  | _, [], _ => rfl
  | _, _ :: _, [] => rfl
  | m, p :: ps, c :: cs => by
    rw [List.map_cons, List.map_cons]
    unfold multLoop
    show (rd p.matchTypes 0 >>= _) = _
    congr 1
    funext t0
    split
    · show (multTypes m p.matchTypes.tail c.matchTypes.tail >>= _) = _
      congr 1
      funext m'
      exact multLoop_bare m' ps cs
    · exact multLoop_bare m ps cs

theorem rateTask_bare (s : MState K) : rateTask s.bare = rateTask s := by
  funext pair
  unfold rateTask
  show (rd (s.procs.map Proc.bare) pair.2 >>= _) = _
  rw [rd_map_bind]
  congr 1
  funext p
  show (rd (s.cfg.matchLists.map (List.map CEntry.bare)) pair.1 >>= _) = _
  rw [rd_map_bind]
  congr 1
  funext cml
  show (multiplicity (p.matchList.map PEntry.bare) (cml.map CEntry.bare) >>= _) = _
  unfold multiplicity
  rw [multLoop_bare]
  rfl

theorem sortTasks_bare (s : MState K) (pairs : List (Nat × Nat)) (ts : List Nat) :
    sortTasks s.bare pairs ts = sortTasks s pairs ts := by
  induction pairs generalizing ts with
  | nil => rfl
  | cons pair pairs ih =>
    cases ts with
    | nil => rfl
    | cons t ts =>
      unfold sortTasks
      simp only [ih, rateTask_bare]

theorem modifyProc_bare {f : Proc K → M (Proc K)} (hf : ∀ p, f p.bare = (f p).map Proc.bare)
    (procs : List (Proc K)) (i : Nat) :
    modifyProc (procs.map Proc.bare) i f = (modifyProc procs i f).map (List.map Proc.bare) := by
  unfold modifyProc
  rw [rd_map_bind, bind_map]
  congr 1
  funext p
  rw [hf, map_bind, bind_map]
  congr 1
  funext p'
  exact wr_map _ _ _ _

/-- The books without coordinates. -/
def bareBook (b : Book K) : Book K := (b.1.map Proc.bare, b.2)

end Matcher

namespace Rounded
open Matcher
variable (fl : K → K)

theorem removeSite_bare (p : Proc K) (i : Nat) : removeSite fl p.bare i = (removeSite fl p i).map Proc.bare := by
  unfold removeSite
  show (match p.sites.findIdx? (fun s => decide (s = i)) with | none => _ | some i => _) = _
  cases p.sites.findIdx? (fun s => decide (s = i)) with
  | none => rfl
  | some j =>
    show (if p.custom = true then _ else _) = _
    by_cases hc : p.custom = true
    · rw [if_pos hc]
      simp only [if_pos hc]
      rw [bind_map]
      congr 1
      funext a
      rw [bind_map]
      congr 1
      funext b
      rw [bind_map]
      rfl
    · rw [if_neg hc]
      simp only [if_neg hc]
      rw [bind_map]
      congr 1
      funext a
      rw [bind_map]
      rfl

theorem addSite_bare (p : Proc K) (i : Nat) (r m : K) : addSite fl p.bare i r m = (addSite fl p i r m).bare := by
  unfold addSite
  by_cases hc : p.custom = true
  · rw [if_pos hc, if_pos (show p.bare.custom = true from hc)]
    rfl
  · rw [if_neg hc, if_neg (show ¬ p.bare.custom = true from hc)]
    rfl

theorem updateProcesses_bare (tasks : Tasks K) (b : Book K) :
    updateProcesses fl tasks (bareBook b) = (updateProcesses fl tasks b).map bareBook := by
  have h1 : ∀ (b : Book K) (t : Nat × Nat), removeTask fl (bareBook b) t = (removeTask fl b t).map bareBook := by
    intro b t
    unfold removeTask
    have := modifyProc_bare (f := fun p => removeSite fl p t.1) (fun p => removeSite_bare fl p _) b.1 t.2
    show (modifyProc (b.1.map Proc.bare) t.2 _ >>= _) = _
    rw [this, map_bind, bind_map]
    congr 1
    funext ps
    rw [bind_map]
    rfl
  have h2 : ∀ (b : Book K) (t : RateTask K), addTask fl (bareBook b) t = (addTask fl b t).map bareBook := by
    intro b t
    unfold addTask
    have := modifyProc_bare (f := fun p => .ok (addSite fl p t.index t.rate 1))
      (fun p => by rw [addSite_bare]; rfl) b.1 t.process
    show (modifyProc (b.1.map Proc.bare) t.process _ >>= _) = _
    rw [this, map_bind, bind_map]
    congr 1
    funext ps
    rw [bind_map]
    rfl
  have h3 : ∀ (b : Book K) (t : RateTask K), updateTask fl (bareBook b) t = (updateTask fl b t).map bareBook := by
    intro b t
    unfold updateTask
    have e1 := modifyProc_bare (f := fun p => removeSite fl p t.index) (fun p => removeSite_bare fl p _) b.1 t.process
    have e2 := fun ps => modifyProc_bare (f := fun p => .ok (addSite fl p t.index t.rate 1))
      (fun p => by rw [addSite_bare]; rfl) ps t.process
    show (modifyProc (b.1.map Proc.bare) t.process _ >>= _) = _
    rw [e1, map_bind, bind_map]
    congr 1
    funext ps
    rw [e2, map_bind, bind_map]
    rfl
  unfold updateProcesses
  rw [loopM_map (f := removeTask fl) (h := bareBook) (fun b t _ => h1 b t), map_bind, bind_map]
  congr 1
  funext b
  rw [loopM_map (f := updateTask fl) (h := bareBook) (fun b t _ => h3 b t), map_bind, bind_map]
  congr 1
  funext b
  exact loopM_map (f := addTask fl) (h := bareBook) (fun b t _ => h2 b t) b

end Rounded
end KMC
