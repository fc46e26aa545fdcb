import Verif.Lemmas.MultOk
import Verif.Lemmas.Perform
import Verif.Lemmas.Matching

/-!
# What stays fixed during a run, and the invariant of a run
-/

set_option linter.unusedSectionVars false

namespace KMC

variable {K : Type _} [Field K] [LinearOrder K]

/-- The process without the fields that a run changes. -/
def Proc.still (p : Proc K) : Proc K :=
  { p.core with affected := List.replicate p.affected.length 0 }

/-- The entry changes its site or carries an atom. -/
def PEntry.Active (p : PEntry K) : Prop := p.Acts ∨ p.hasMove = true

/-- The list can match the surroundings as far as the points are concerned. -/
def GeoMatch (ps : List (PEntry K)) (cs : List (CEntry K)) : Prop :=
  ∃ l1 l2, cs = l1 ++ l2 ∧ List.Forall₂ (fun p c => p.Wild ∨ samePoint p c = true) ps l1

/-- The static conditions on a process (as used by the engine, with wildcards inserted). -/
structure ProcOk (nT : Nat) (p : Proc K) : Prop where
  sized : SizedP nT p.matchList
  updates : ∀ e ∈ p.matchList, e.updateTypes.length = nT
  safe : ∀ e ∈ p.matchList, e.Acts → ∀ (i : Nat) (x u : Int), e.matchTypes[i]? = some x →
    e.updateTypes[i]? = some u → 0 ≤ x + u
  some : ∀ e ∈ p.matchList, e.Acts → ∃ (i : Nat) (x u : Int), e.matchTypes[i]? = some x ∧
    e.updateTypes[i]? = some u ∧ 0 < x + u
  points : p.matchList.Pairwise (fun e f => e.Active → f.Active →
    ∀ c : CEntry K, ¬ (samePoint e c = true ∧ samePoint f c = true))
  notWild : ∀ e ∈ p.matchList, e.Active → ¬ e.Wild
  affected : (p.matchList.filter (fun e => decide e.Acts)).length ≤ p.affected.length
  moves : ∀ mv ∈ p.idMoves, ∃ e f, p.matchList[mv.1]? = Option.some e ∧
    p.matchList[mv.2]? = Option.some f ∧ e.hasMove = true ∧ f.hasMove = true

/-- What stays fixed during a run. -/
structure World (K : Type _) where
  env : Env K
  n : Nat
  nT : Nat
  range : Nat
  room : Nat
  coords : List (Coord K)
  names : List String
  skel : List (List (CEntry K))
  procs : List (Proc K)

namespace World

/-- The rate calculator can be asked `a` for process `p` at site `i`, in a configuration where `cml`
are the surroundings. -/
structure Asks (W : World K) (cfg : Config K) (p : Proc K) (i : Nat) (cml : List (CEntry K))
    (a : RateArgs K) : Prop where
  good : cfg.Good W.n W.nT
  coords : cfg.coords = W.coords
  names : cfg.typeNames = W.names
  proc : p ∈ W.procs
  list : ∃ sk, W.skel[i]? = some sk ∧ cml = seen cfg.types sk
  basis : W.env.L.basisSite i ∈ p.basisSites
  fits : whateverMatch p.matchList cml = .ok true
  args : Matcher.rateArgsOn cfg cml p i = .ok a

/-- The pairs of key and value that can get into the rate table. -/
def Stores (W : World K) (k : Nat) (v : K) : Prop :=
  ∃ cfg p i cml a, W.Asks cfg p i cml a ∧ p.cacheRate = true ∧ k = Matcher.keyOn W.env cml p ∧
    v = W.env.callback a

structure Ok (W : World K) : Prop where
  ranks : 0 < W.env.nRanks
  typed : 0 < W.nT
  wf : W.env.L.WF
  sites : W.env.L.nSites = W.n
  len : W.skel.length = W.n
  near : ∀ (i : Nat) (sk : List (CEntry K)), W.skel[i]? = some sk →
    ∀ e ∈ sk, e.index ∈ W.env.L.neighbourIndices i W.range
  same : ∀ sk ∈ W.skel, ∀ e ∈ sk, ∀ e' ∈ sk, e.index = e'.index → e.coord = e'.coord ∧ e.distance = e'.distance
  room : ∀ sk ∈ W.skel, sk.length ≤ W.room
  maxRange : W.range = Interactions.maxRange W.procs
  proc : ∀ p ∈ W.procs, ProcOk W.nT p
  number : W.env.useCustomRates = true → ∀ (j : Nat) (p : Proc K), W.procs[j]? = some p → p.number = j
  inside : W.env.useCustomRates = true → ∀ (i : Nat) (sk : List (CEntry K)) (p : Proc K), W.skel[i]? = some sk →
    p ∈ W.procs → W.env.L.basisSite i ∈ p.basisSites → GeoMatch p.matchList sk →
    0 < (Matcher.withinCutoff p.cutoff sk).length ∧
    p.matchList.length ≤ (Matcher.withinCutoff p.cutoff sk).length
  keys : W.env.useCustomRates = true → ∀ cfg p i cml a cfg' p' i' cml' a',
    W.Asks cfg p i cml a → p.cacheRate = true → W.Asks cfg' p' i' cml' a' →
    Matcher.keyOn W.env cml p = Matcher.keyOn W.env cml' p' → W.env.callback a = W.env.callback a'

/-- The part of the invariant of a run that holds before a call of the matcher; `A` is what the lists
of available sites contain. -/
structure PreA (W : World K) (s : MState K) (A : Matcher.Content K) : Prop where
  good : s.cfg.Good W.n W.nT
  coords : s.cfg.coords = W.coords
  names : s.cfg.typeNames = W.names
  roomI : s.cfg.movedIds.length = W.room
  roomV : s.cfg.moveVectors.length = W.room
  procs : s.procs.map Proc.still = W.procs
  geo : ∀ (i : Nat) (ml sk : List (CEntry K)), s.cfg.matchLists[i]? = some ml →
      W.skel[i]? = some sk → SameGeo ml sk
  affected : ∀ p ∈ s.procs, ∀ a ∈ p.affected, a < W.n
  table : W.env.useCustomRates = true → Matcher.TableOk W.Stores s.rates
  book : Matcher.BookRep W.n (s.procs, s.inverse) A
  basis : ∀ (i j : Nat) (p : Proc K), i < W.n → W.procs[j]? = some p →
    W.env.L.basisSite i ∉ p.basisSites → A j i = none
  off : ∀ (i j : Nat), ¬ (i < W.n ∧ j < W.procs.length) → A j i = none

/-- The books are right at site `i`. -/
structure RightAt (W : World K) (s : MState K) (A : Matcher.Content K) (i : Nat)
    (sk : List (CEntry K)) : Prop where
  fresh : Matcher.processesFor W.env.L W.procs i ≠ [] → s.cfg.matchLists[i]? = some (seen s.cfg.types sk)
  avail : ∀ (j : Nat) (p : Proc K), W.procs[j]? = some p →
    ((A j i).isSome ↔ W.env.L.basisSite i ∈ p.basisSites ∧
      whateverMatch p.matchList (seen s.cfg.types sk) = .ok true)
  rate : ∀ (j : Nat) (p : Proc K) (r : K), W.procs[j]? = some p → A j i = some r →
    Matcher.RateIs W.env s.cfg (seen s.cfg.types sk) p i r

/-- The invariant of a run. -/
structure InvA (W : World K) (s : MState K) (A : Matcher.Content K) : Prop extends W.PreA s A where
  right : ∀ (i : Nat) (sk : List (CEntry K)), W.skel[i]? = some sk → W.RightAt s A i sk

def Inv (W : World K) (s : MState K) : Prop := ∃ A, W.InvA s A

end World

/-! ### What depends on the sites of a match list only -/

theorem seen_local {types types' : List Bucket} {sk : List (CEntry K)}
    (h : ∀ e ∈ sk, types'[e.index]? = types[e.index]?) : seen types' sk = seen types sk := by
  unfold seen
  apply List.map_congr_left
  intro e he
  unfold CEntry.look
  rw [List.getD_eq_getElem?_getD, h e he, ← List.getD_eq_getElem?_getD]

theorem samePoint_look (types : List Bucket) (p : PEntry K) (c : CEntry K) :
    samePoint p (c.look types) = samePoint p c := rfl

theorem length_seen (types : List Bucket) (sk : List (CEntry K)) : (seen types sk).length = sk.length := by
  simp [seen]

theorem sized_seen {n nT : Nat} {types : List Bucket} (hn : types.length = n) (ht : ∀ t ∈ types, t.length = nT)
    {sk : List (CEntry K)} (hi : ∀ e ∈ sk, e.index < n) : SizedC nT (seen types sk) := by
  intro c hc
  obtain ⟨e, he, rfl⟩ := List.mem_map.1 hc
  have hlt : e.index < types.length := by rw [hn]; exact hi e he
  simp only [CEntry.look]
  rw [List.getD_eq_getElem?_getD, List.getElem?_eq_getElem hlt]
  exact ht _ (List.getElem_mem _)

namespace Matcher

theorem mem_withinCutoff {c : K} {l : List (CEntry K)} {e : CEntry K} (h : e ∈ withinCutoff c l) : e ∈ l :=
  List.takeWhile_prefix _ |>.sublist.subset h

theorem withinCutoff_seen (c : K) (types : List Bucket) (l : List (CEntry K)) :
    withinCutoff c (seen types l) = seen types (withinCutoff c l) := by
  unfold withinCutoff seen
  rw [List.takeWhile_map]
  rfl

theorem rateArgsOn_local {cfg cfg' : Config K} {cml : List (CEntry K)} (hc : cfg'.coords = cfg.coords)
    (hn : cfg'.typeNames = cfg.typeNames)
    (he : ∀ e ∈ cml, cfg'.elements[e.index]? = cfg.elements[e.index]?)
    (ht : ∀ e ∈ cml, cfg'.types[e.index]? = cfg.types[e.index]?) (p : Proc K) (i : Nat) :
    rateArgsOn cfg' cml p i = rateArgsOn cfg cml p i := by
  have h1 : mapMM (firstElement cfg') (withinCutoff p.cutoff cml) =
      mapMM (firstElement cfg) (withinCutoff p.cutoff cml) := by
    apply mapMM_congr
    intro e hem
    unfold firstElement rd
    rw [he e (mem_withinCutoff hem)]
  have h2 : mapMM (occupation cfg') (withinCutoff p.cutoff cml) =
      mapMM (occupation cfg) (withinCutoff p.cutoff cml) := by
    apply mapMM_congr
    intro e hem
    unfold occupation rd
    rw [ht e (mem_withinCutoff hem)]
  have h3 : afterStep cfg' = afterStep cfg := by
    funext st e
    unfold afterStep
    rw [hn]
  unfold rateArgsOn
  dsimp only
  rw [h1, h2, h3, hc, hn]

theorem firstOne_lt {u : Bucket} {j : Nat} (h : firstOne u = some j) : j < u.length := by
  unfold firstOne at h
  rw [List.findIdx?_eq_some_iff_getElem] at h
  exact h.1

theorem afterLoop_ok {cfg : Config K} {nT : Nat} (hT : 0 < nT) (hn : cfg.typeNames.length = nT) {m : Nat}
    (es : List (PEntry K × Nat)) (hes : ∀ e ∈ es, e.2 < m ∧ e.1.updateTypes.length = nT)
    (st : List Bucket × List String) (h1 : st.1.length = m) (h2 : st.2.length = m) :
    ∃ st', loopM (afterStep cfg) es st = .ok st' := by
  induction es generalizing st with
  | nil => exact ⟨st, rfl⟩
  | cons e es ih =>
    obtain ⟨he1, he2⟩ := hes e (by simp)
    obtain ⟨st', hs, hl1, hl2⟩ : ∃ st', afterStep cfg st e = .ok st' ∧ st'.1.length = m ∧ st'.2.length = m := by
      unfold afterStep
      rw [wr_of_lt (by omega), ok_bind]
      by_cases ha : Config.absSum e.1.updateTypes ≠ 0
      · rw [if_pos ha]
        unfold Bucket.isSingle
        rw [if_neg (by omega), ok_bind]
        by_cases hw : Bucket.isSingleLoop 0 0 e.1.updateTypes = false
        · rw [if_pos hw]
          cases hf : firstOne e.1.updateTypes with
          | none => exact ⟨_, rfl, by simpa using h1, h2⟩
          | some j =>
            have hj := firstOne_lt hf
            simp only
            rw [rd_of_lt (by omega), ok_bind, wr_of_lt (by omega), ok_bind]
            exact ⟨_, rfl, by simpa using h1, by simpa using h2⟩
        · rw [if_neg hw]
          exact ⟨_, rfl, by simpa using h1, h2⟩
      · rw [if_neg ha]
        exact ⟨_, rfl, by simpa using h1, h2⟩
    rw [loopM_cons, hs, ok_bind]
    exact ih (fun f hf => hes f (by simp [hf])) st' hl1 hl2

theorem rateArgsOn_ok {n nT : Nat} (hT : 0 < nT) {cfg : Config K} (hg : cfg.Good n nT) {p : Proc K} {i : Nat}
    (hi : i < n) {cml : List (CEntry K)} (hidx : ∀ e ∈ cml, e.index < n)
    (hpos : 0 < (withinCutoff p.cutoff cml).length)
    (hlen : p.matchList.length ≤ (withinCutoff p.cutoff cml).length)
    (hu : ∀ e ∈ p.matchList, e.updateTypes.length = nT) : ∃ a, rateArgsOn cfg cml p i = .ok a := by
  obtain ⟨before, hb⟩ := mapMM_isOk (f := firstElement cfg) (xs := withinCutoff p.cutoff cml) (by
    intro e he
    have h1 : e.index < cfg.elements.length := by rw [hg.shape.elements]; exact hidx e (mem_withinCutoff he)
    have h2 := List.length_pos_iff.2 (hg.elements _ (List.getElem_mem h1))
    refine ⟨cfg.elements[e.index][0], ?_⟩
    unfold firstElement
    rw [rd_of_lt h1, ok_bind, rd_of_lt h2])
  obtain ⟨occ, ho⟩ := mapMM_isOk (f := occupation cfg) (xs := withinCutoff p.cutoff cml) (by
    intro e he
    have h1 : e.index < cfg.types.length := by rw [hg.shape.types]; exact hidx e (mem_withinCutoff he)
    exact ⟨_, rd_of_lt h1⟩)
  have hol := mapMM_length ho
  have hbl := mapMM_length hb
  obtain ⟨st, hst⟩ := afterLoop_ok hT hg.names (m := (withinCutoff p.cutoff cml).length) p.matchList.zipIdx (by
      intro e he
      have h1 := List.mem_zipIdx he
      have h2 : e.1 ∈ p.matchList := by
        have := List.mem_zipIdx_iff_getElem?.1 he
        exact List.mem_of_getElem? this
      exact ⟨by omega, hu _ h2⟩)
    (List.replicate (withinCutoff p.cutoff cml).length (Bucket.zeros (occ[0]'(by omega)).length), before)
    (by simp) hbl
  unfold rateArgsOn
  dsimp only
  rw [hb, ok_bind, ho, ok_bind, rd_of_lt (show 0 < occ.length by omega), ok_bind, hst, ok_bind,
    rd_of_lt (show i < cfg.coords.length by rw [hg.shape.coords]; exact hi), ok_bind]
  split
  · exact ⟨_, rfl⟩
  · exact ⟨_, rfl⟩

end Matcher
end KMC
