import Verif.Lemmas.Bare

/-!
# Runs that see the same points

Two states, one with exact coordinates and one with rounded ones, that are equal apart from coordinates and agree on which
points are the same, stay so.
-/

set_option linter.unusedSectionVars false

namespace KMC

open LatticeModel

variable {K : Type} [Field K] [LinearOrder K]

/-- The entry is a wildcard. -/
def PEntry.isWild (p : PEntry K) : Prop := p.matchTypes[0]? = some 1

/-- A process and the list of a site agree with their rounded versions on which points are the same. -/
def SamePoints (fl : K → K) (ps : List (PEntry K)) (cs : List (K × Coord K)) (qs : List (PEntry K)) (ds : List (K × Coord K)) :
    Prop :=
  ∀ (k : Nat) (p : PEntry K) (c : K × Coord K) (q : PEntry K) (d : K × Coord K), ps[k]? = some p → cs[k]? = some c → qs[k]? = some q → ds[k]? = some d →
    p.isWild ∨ ptSame p.distance p.coord c.1 c.2 = InDouble.ptSame fl q.distance q.coord d.1 d.2

theorem SamePoints.tail {fl : K → K} {p q : PEntry K} {c d : K × Coord K} {ps qs cs ds}
    (h : SamePoints fl (p :: ps) (c :: cs) (q :: qs) (d :: ds)) : SamePoints fl ps cs qs ds :=
  fun k p c q d h1 h2 h3 h4 => h (k + 1) p c q d h1 h2 h3 h4

/-- The place of an entry. -/
abbrev CEntry.spot (c : CEntry K) : K × Coord K := (c.distance, c.coord)

theorem matchPrefix_same {fl : K → K} : ∀ {ps qs : List (PEntry K)} {cs ds : List (CEntry K)},
    ps.map PEntry.bare = qs.map PEntry.bare → cs.map CEntry.bare = ds.map CEntry.bare →
    SamePoints fl ps (cs.map CEntry.spot) qs (ds.map CEntry.spot) →
    matchPrefix ps cs = InDouble.matchPrefix fl qs ds
  | [], [], _, _, _, _, _ => rfl
  | [], _ :: _, _, _, h, _, _ => by cases h
  | _ :: _, [], _, _, h, _, _ => by cases h
  | _ :: _, _ :: _, [], [], _, _, _ => rfl
  | _ :: _, _ :: _, [], _ :: _, _, h, _ => by cases h
  | _ :: _, _ :: _, _ :: _, [], _, h, _ => by cases h
  | p :: ps, q :: qs, c :: cs, d :: ds, h1, h2, h3 => by
    rw [List.map_cons, List.map_cons, List.cons.injEq] at h1 h2
    have e1 : p.matchTypes = q.matchTypes := (congrArg PEntry.matchTypes h1.1 :)
    have e2 : c.matchTypes = d.matchTypes := (congrArg CEntry.matchTypes h2.1 :)
    have e : p.matches? c = InDouble.entryMatches fl q d := by
      unfold PEntry.matches? InDouble.entryMatches
      rw [e1, e2]
      rcases h3 0 p c.spot q d.spot rfl rfl rfl rfl with hw | hs
      · unfold PEntry.isWild at hw
        rw [e1] at hw
        unfold rd
        rw [hw]
        rfl
      · congr 1
        funext t0
        split
        · rfl
        · congr 1
          funext r
          split
          · rfl
          · exact congrArg Except.ok hs
    unfold matchPrefix InDouble.matchPrefix
    rw [e]
    congr 1
    funext r
    split
    · rfl
    · exact matchPrefix_same h1.2 h2.2 h3.tail

theorem whateverMatch_same {fl : K → K} {ps qs : List (PEntry K)} {cs ds : List (CEntry K)}
    (h1 : ps.map PEntry.bare = qs.map PEntry.bare) (h2 : cs.map CEntry.bare = ds.map CEntry.bare)
    (h3 : SamePoints fl ps (cs.map CEntry.spot) qs (ds.map CEntry.spot)) :
    whateverMatch ps cs = InDouble.whateverMatch fl qs ds := by
  unfold whateverMatch InDouble.whateverMatch
  have e1 : ps.length = qs.length := by simpa using congrArg List.length h1
  have e2 : cs.length = ds.length := by simpa using congrArg List.length h2
  rw [e1, e2, matchPrefix_same h1 h2 h3]

/-- The states agree apart from coordinates, and on which points are the same. -/
structure Alike (fl : K → K) (s t : MState K) : Prop where
  bare : s.bare = t.bare
  points : ∀ (j i : Nat) p q cs ds, s.procs[j]? = some p → t.procs[j]? = some q → s.cfg.places[i]? = some cs →
    t.cfg.places[i]? = some ds → SamePoints fl p.matchList cs q.matchList ds

namespace Alike
variable {fl : K → K} {s t : MState K}

theorem cfg (h : Alike fl s t) : s.cfg.bare = t.cfg.bare := (congrArg MState.cfg h.bare :)

theorem procs (h : Alike fl s t) : s.procs.map Proc.bare = t.procs.map Proc.bare := (congrArg MState.procs h.bare :)

theorem inverse (h : Alike fl s t) : s.inverse = t.inverse := (congrArg MState.inverse h.bare :)

theorem rates (h : Alike fl s t) : s.rates = t.rates := (congrArg MState.rates h.bare :)

/-- What a step keeps is enough. -/
theorem of_kept {s' t' : MState K} (h : Alike fl s t) (hb : s'.bare = t'.bare) (h1 : s'.cfg.places = s.cfg.places)
    (h2 : t'.cfg.places = t.cfg.places) (h3 : s'.procs.map (·.matchList) = s.procs.map (·.matchList))
    (h4 : t'.procs.map (·.matchList) = t.procs.map (·.matchList)) : Alike fl s' t' where
  bare := hb
  points := by
    intro j i p q cs ds hp hq hc hd
    have e1 : (s.procs.map (·.matchList))[j]? = some p.matchList := by rw [← h3, List.getElem?_map, hp]; rfl
    have e2 : (t.procs.map (·.matchList))[j]? = some q.matchList := by rw [← h4, List.getElem?_map, hq]; rfl
    rw [List.getElem?_map, Option.map_eq_some_iff] at e1 e2
    obtain ⟨p', hp', e1⟩ := e1
    obtain ⟨q', hq', e2⟩ := e2
    rw [← e1, ← e2]
    rw [h1] at hc
    rw [h2] at hd
    exact h.points j i p' q' cs ds hp' hq' hc hd

theorem taskType (h : Alike fl s t) : Matcher.taskType s = InDouble.taskType fl t := by
  funext pair
  unfold Matcher.taskType InDouble.taskType
  have hp := congrArg (fun l => l[pair.2]?) h.procs
  simp only [List.getElem?_map] at hp
  have hl : s.cfg.matchLists.map (List.map CEntry.bare) = t.cfg.matchLists.map (List.map CEntry.bare) :=
    (congrArg Config.matchLists h.cfg :)
  have hc := congrArg (fun l => l[pair.1]?) hl
  simp only [List.getElem?_map] at hc
  rw [h.inverse]
  cases h1 : s.procs[pair.2]? with
  | none =>
    rw [h1] at hp
    cases h2 : t.procs[pair.2]? with
    | some q => rw [h2] at hp; cases hp
    | none => unfold rd; rw [h1, h2]; rfl
  | some p =>
    rw [h1] at hp
    cases h2 : t.procs[pair.2]? with
    | none => rw [h2] at hp; cases hp
    | some q =>
      rw [h2] at hp
      have hpq : p.bare = q.bare := Option.some.inj hp
      rw [rd_of_getElem? h1, rd_of_getElem? h2]
      simp only [ok_bind]
      congr 1
      funext row
      congr 1
      funext inList
      cases h3 : s.cfg.matchLists[pair.1]? with
      | none =>
        rw [h3] at hc
        cases h4 : t.cfg.matchLists[pair.1]? with
        | some q => rw [h4] at hc; cases hc
        | none => unfold rd; rw [h3, h4]; rfl
      | some cs =>
        rw [h3] at hc
        cases h4 : t.cfg.matchLists[pair.1]? with
        | none => rw [h4] at hc; cases hc
        | some ds =>
          rw [h4] at hc
          rw [rd_of_getElem? h3, rd_of_getElem? h4]
          simp only [ok_bind]
          rw [whateverMatch_same (fl := fl) (congrArg Proc.matchList hpq :) (Option.some.inj hc)]
          apply h.points pair.2 pair.1 p q _ _ h1 h2
          · unfold Config.places; rw [List.getElem?_map, h3]; rfl
          · unfold Config.places; rw [List.getElem?_map, h4]; rfl

end Alike

/-! ### The patterns stay -/

theorem modifyProc_patterns {f : Proc K → M (Proc K)} (hf : ∀ p p', f p = .ok p' → p'.matchList = p.matchList)
    {ps ps' : List (Proc K)} {i : Nat} (h : Matcher.modifyProc ps i f = .ok ps') :
    ps'.map (·.matchList) = ps.map (·.matchList) := by
  unfold Matcher.modifyProc at h
  rw [bind_ok] at h
  obtain ⟨p, h1, h⟩ := h
  rw [bind_ok] at h
  obtain ⟨p', h2, h⟩ := h
  rw [rd_ok] at h1
  obtain ⟨-, rfl⟩ := wr_ok.1 h
  rw [List.map_set, hf p p' h2]
  apply List.ext_getElem?
  intro k
  rw [List.getElem?_set]
  split
  · next hk =>
    subst hk
    rw [List.getElem?_map, h1, List.length_map, if_pos (List.getElem?_eq_some_iff.1 h1).1]
    rfl
  · rfl

namespace Rounded
open Matcher
variable (fl : K → K)

theorem removeSite_pattern {p p' : Proc K} {i : Nat} (h : removeSite fl p i = .ok p') : p'.matchList = p.matchList := by
  unfold removeSite at h
  split at h
  · cases h
  · split at h
    · simp only [bind_ok] at h
      obtain ⟨_, -, _, -, _, -, h⟩ := h
      cases h
      rfl
    · simp only [bind_ok] at h
      obtain ⟨_, -, _, -, h⟩ := h
      cases h
      rfl

theorem addSite_pattern (p : Proc K) (i : Nat) (r m : K) : (addSite fl p i r m).matchList = p.matchList := by
  unfold addSite
  split <;> rfl

theorem loopM_kept {σ α β : Type} {f : σ → α → M σ} {k : σ → β} (hf : ∀ s x s', f s x = .ok s' → k s' = k s) :
    ∀ (xs : List α) (s s' : σ), loopM f xs s = .ok s' → k s' = k s := by
  intro xs
  induction xs with
  | nil => intro s s' h; cases h; rfl
  | cons x xs ih =>
    intro s s' h
    rw [loopM_cons, bind_ok] at h
    obtain ⟨s1, h1, h⟩ := h
    rw [ih s1 s' h, hf s x s1 h1]

theorem updateProcesses_patterns {tasks : Tasks K} {b b' : Book K} (h : updateProcesses fl tasks b = .ok b') :
    b'.1.map (·.matchList) = b.1.map (·.matchList) := by
  unfold updateProcesses at h
  rw [bind_ok] at h
  obtain ⟨b1, h1, h⟩ := h
  rw [bind_ok] at h
  obtain ⟨b2, h2, h⟩ := h
  have k1 : ∀ (b : Book K) t b', removeTask fl b t = .ok b' → b'.1.map (·.matchList) = b.1.map (·.matchList) := by
    intro b t b' h
    unfold removeTask at h
    rw [bind_ok] at h
    obtain ⟨ps, h1, h⟩ := h
    rw [bind_ok] at h
    obtain ⟨inv, -, h⟩ := h
    cases h
    exact modifyProc_patterns (fun p p' => removeSite_pattern fl) h1
  have k2 : ∀ (b : Book K) t b', updateTask fl b t = .ok b' → b'.1.map (·.matchList) = b.1.map (·.matchList) := by
    intro b t b' h
    unfold updateTask at h
    rw [bind_ok] at h
    obtain ⟨ps, h1, h⟩ := h
    rw [bind_ok] at h
    obtain ⟨ps', h2, h⟩ := h
    cases h
    rw [modifyProc_patterns (fun p p' hp => by cases hp; exact addSite_pattern fl _ _ _ _) h2]
    exact modifyProc_patterns (fun p p' => removeSite_pattern fl) h1
  have k3 : ∀ (b : Book K) t b', addTask fl b t = .ok b' → b'.1.map (·.matchList) = b.1.map (·.matchList) := by
    intro b t b' h
    unfold addTask at h
    rw [bind_ok] at h
    obtain ⟨ps, h1, h⟩ := h
    rw [bind_ok] at h
    obtain ⟨inv, -, h⟩ := h
    cases h
    exact modifyProc_patterns (fun p p' hp => by cases hp; exact addSite_pattern fl _ _ _ _) h1
  rw [loopM_kept (k := fun b : Book K => b.1.map (·.matchList)) k3 _ _ _ h,
    loopM_kept (k := fun b : Book K => b.1.map (·.matchList)) k2 _ _ _ h2,
    loopM_kept (k := fun b : Book K => b.1.map (·.matchList)) k1 _ _ _ h1]

end Rounded

/-! ### The matching -/

theorem book_agree (fl : K → K) {b c : Matcher.Book K} (h : Matcher.bareBook b = Matcher.bareBook c) (tasks : Matcher.Tasks K) :
    (Rounded.updateProcesses fl tasks b).map Matcher.bareBook = (Rounded.updateProcesses fl tasks c).map Matcher.bareBook := by
  rw [← Rounded.updateProcesses_bare, ← Rounded.updateProcesses_bare, h]

/-- The matching of alike states, for models without custom rates. -/
theorem calculateMatching_alike {fl : K → K} {env env' : Env K} (hc : env.useCustomRates = false)
    (hc' : env'.useCustomRates = false) (hL : env'.L = env.L) (hR : env'.nRanks = env.nRanks) {s t : MState K}
    (h : Alike fl s t) (is : List Nat) :
    (Rounded.calculateMatching fl env s is).map MState.bare = (InDouble.calculateMatching fl env' t is).map MState.bare ∧
    ∀ s' t', Rounded.calculateMatching fl env s is = .ok s' → InDouble.calculateMatching fl env' t is = .ok t' →
      Alike fl s' t' := by
  have main : (Rounded.calculateMatching fl env s is).map MState.bare =
      (InDouble.calculateMatching fl env' t is).map MState.bare := by
    unfold Rounded.calculateMatching InDouble.calculateMatching
    rw [hL]
    have e0 : (Matcher.collectPairs env.L s.procs is s.cfg).map (fun r => (r.1, r.2.bare)) =
        (Matcher.collectPairs env.L t.procs is t.cfg).map (fun r => (r.1, r.2.bare)) := by
      rw [← Matcher.collectPairs_bare, ← Matcher.collectPairs_bare, h.procs, h.cfg]
    cases hx : Matcher.collectPairs env.L s.procs is s.cfg with
    | error e =>
      rw [hx] at e0
      cases hy : Matcher.collectPairs env.L t.procs is t.cfg with
      | ok d => rw [hy] at e0; cases e0
      | error e' => rw [hy] at e0; cases e0; rfl
    | ok c =>
      obtain ⟨d, hy, hcd⟩ := map_ok_of e0 hx
      rw [hy]
      have hp1 : c.1 = d.1 := (congrArg Prod.fst hcd :)
      have hp2 : c.2.bare = d.2.bare := (congrArg Prod.snd hcd :)
      have hal : Alike fl { s with cfg := c.2 } { t with cfg := d.2 } := by
        refine h.of_kept ?_ (Matcher.collectPairs_places hx) (Matcher.collectPairs_places hy) rfl rfl
        unfold MState.bare
        simp only [hp2, h.procs, h.inverse, h.rates]
      simp only [ok_bind, hc, hc']
      unfold Matcher.matchPairs InDouble.matchPairs
      rw [hal.taskType, hR, hp1]
      simp only [bind_assoc]
      rw [bind_map, bind_map]
      congr 1
      funext types
      have e1 : Matcher.sortTasks { s with cfg := c.2 } d.1 types = Matcher.sortTasks { t with cfg := d.2 } d.1 types := by
        rw [← Matcher.sortTasks_bare, hal.bare, Matcher.sortTasks_bare]
      rw [e1, bind_map, bind_map]
      congr 1
      funext tasks
      simp only [Bool.false_eq_true, if_false, pure_bind]
      refine bind_agree (book_agree fl ?_ tasks) ?_
      · unfold Matcher.bareBook
        simp only [h.procs, h.inverse]
      · intro a b hab
        have h1 : a.1.map Proc.bare = b.1.map Proc.bare := (congrArg Prod.fst hab :)
        have h2 : a.2 = b.2 := (congrArg Prod.snd hab :)
        show Except.ok _ = Except.ok _
        unfold MState.bare
        simp only [h1, h2, hp2, h.rates]
  refine ⟨main, fun s' t' hs ht => ?_⟩
  have hb : s'.bare = t'.bare := by
    rw [hs, ht] at main
    exact Except.ok.inj main
  have k1 : s'.cfg.places = s.cfg.places ∧ s'.procs.map (·.matchList) = s.procs.map (·.matchList) := by
    unfold Rounded.calculateMatching at hs
    rw [bind_ok] at hs
    obtain ⟨c, h1, hs⟩ := hs
    dsimp only at hs
    rw [bind_ok] at hs
    obtain ⟨tasks, -, hs⟩ := hs
    simp only [hc, Bool.false_eq_true, if_false] at hs
    rw [bind_ok] at hs
    obtain ⟨r, -, hs⟩ := hs
    rw [bind_ok] at hs
    obtain ⟨b, h2, hs⟩ := hs
    cases hs
    exact ⟨Matcher.collectPairs_places h1, Rounded.updateProcesses_patterns fl h2⟩
  have k2 : t'.cfg.places = t.cfg.places ∧ t'.procs.map (·.matchList) = t.procs.map (·.matchList) := by
    unfold InDouble.calculateMatching at ht
    rw [bind_ok] at ht
    obtain ⟨c, h1, ht⟩ := ht
    dsimp only at ht
    rw [bind_ok] at ht
    obtain ⟨tasks, -, ht⟩ := ht
    simp only [hc', Bool.false_eq_true, if_false] at ht
    rw [bind_ok] at ht
    obtain ⟨r, -, ht⟩ := ht
    rw [bind_ok] at ht
    obtain ⟨b, h2, ht⟩ := ht
    cases ht
    exact ⟨Matcher.collectPairs_places h1, Rounded.updateProcesses_patterns fl h2⟩
  exact h.of_kept hb k1.1 k2.1 k1.2 k2.2

end KMC
