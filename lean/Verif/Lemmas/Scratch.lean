import Verif.Lemmas.Run

/-!
# The same model started from another configuration on the same sites
-/

set_option linter.unusedSectionVars false

namespace KMC

variable {K : Type _} [Field K] [LinearOrder K]

/-! ### The rates of the listed sites -/

/-- The total rate in terms of what is listed. -/
theorem Proc.Rep.weights {p : Proc K} {A : Nat → Option K} (h : p.Rep A) :
    p.weights = p.sites.map (fun s => if p.custom then (A s).getD 0 else p.rate) := by
  apply List.ext_getElem
  · rw [h.consistent.length_weights, List.length_map]
  intro k h1 h2
  rw [List.length_map] at h2
  rw [List.getElem_map]
  have hk := List.getElem?_eq_getElem h2
  have hm : k < p.siteMult.length := by rw [h.consistent.mults]; exact h2
  have hone := h.ones _ (List.getElem_mem hm)
  by_cases hc : p.custom
  · rw [if_pos hc]
    have hr : k < p.siteRates.length := by rw [h.consistent.rates hc]; exact h2
    have := h.rates hc k _ _ hk (List.getElem?_eq_getElem hr)
    rw [this]
    simp only [Proc.weights, hc, if_true, List.getElem_zipWith, hone, mul_one, Option.getD_some]
  · rw [if_neg hc]
    simp [Proc.weights, hc, hone]

theorem Proc.Rep.perm {p p' : Proc K} {A A' : Nat → Option K} (h : p.Rep A) (h' : p'.Rep A')
    (hs : ∀ s, (A s).isSome ↔ (A' s).isSome) : p.sites.Perm p'.sites := by
  rw [List.perm_ext_iff_of_nodup h.consistent.nodup h'.consistent.nodup]
  intro s
  rw [h.listed, h'.listed, hs]

theorem Proc.Rep.pairs {p p' : Proc K} {A A' : Nat → Option K} (h : p.Rep A) (h' : p'.Rep A')
    (hs : ∀ s, A s = A' s) (hc : p'.custom = p.custom) (hr : p'.rate = p.rate) :
    (p.sites.zip p.weights).Perm (p'.sites.zip p'.weights) ∧ p.totalRate = p'.totalRate := by
  have hp := h.perm h' (fun s => by rw [hs])
  have hz : ∀ (l : List Nat) (f : Nat → K), l.zip (l.map f) = l.map (fun s => (s, f s)) := by
    intro l f
    induction l with
    | nil => rfl
    | cons a l ih => simp [ih]
  have hA : (fun s => if p'.custom then (A' s).getD 0 else p'.rate) =
      (fun s => if p.custom then (A s).getD 0 else p.rate) := by
    funext s
    rw [hc, hr, hs]
  rw [h.consistent.total, h'.consistent.total, h.weights, h'.weights, hA]
  refine ⟨?_, (hp.map _).sum_eq⟩
  rw [hz, hz]
  exact hp.map _

/-! ### Preparing -/

/-- The lists differ in what is on the sites only. -/
def SameFrame (c c' : CEntry K) : Prop :=
  c.distance = c'.distance ∧ c.coord = c'.coord ∧ c.matchTypes.length = c'.matchTypes.length

theorem alignLoop_frame (ps : List (PEntry K)) {cs cs' : List (CEntry K)} (h : List.Forall₂ SameFrame cs cs')
    (old new : Nat) (m : List Nat) :
    Interactions.alignLoop ps cs old new m = Interactions.alignLoop ps cs' old new m := by
  induction h generalizing ps old new m with
  | nil => rfl
  | @cons c c' cs cs' hc _ ih =>
    cases ps with
    | nil => rfl
    | cons p ps =>
      have h1 : samePoint p c = samePoint p c' := by unfold samePoint; rw [hc.1, hc.2.1]
      have h2 : initWildcard c = initWildcard c' := by unfold initWildcard; rw [hc.1, hc.2.1, hc.2.2]
      unfold Interactions.alignLoop
      rw [h1, h2, ih]
      simp only [ih]

theorem updateMatchListOf_frame {cfg cfg' : Config K} (L : LatticeMap)
    (hl : cfg'.matchLists.length = cfg.matchLists.length)
    (h : ∀ (i : Nat) (l l' : List (CEntry K)), cfg.matchLists[i]? = some l → cfg'.matchLists[i]? = some l' →
      List.Forall₂ SameFrame l l') (p : Proc K) :
    Interactions.updateMatchListOf cfg' L p = Interactions.updateMatchListOf cfg L p := by
  unfold Interactions.updateMatchListOf
  split
  · next b hb =>
    cases hidx : rd (L.indicesFromCell (L.repA / 2) (L.repB / 2) (L.repC / 2)) b with
    | error e => rfl
    | ok idx =>
      rw [ok_bind, ok_bind]
      by_cases hi : idx < cfg.matchLists.length
      · have hi' : idx < cfg'.matchLists.length := by rw [hl]; exact hi
        have hf := h idx _ _ (List.getElem?_eq_getElem hi) (List.getElem?_eq_getElem hi')
        rw [rd_of_lt hi, rd_of_lt hi', ok_bind, ok_bind, alignLoop_frame _ hf, hf.length_eq]
      · have hi' : ¬ idx < cfg'.matchLists.length := by rw [hl]; exact hi
        unfold rd
        rw [List.getElem?_eq_none (by omega), List.getElem?_eq_none (by omega)]
  · rfl

section
variable {env : Env K} {n nT : Nat} {cfg cfg1 c c1 : Config K} {procs procs1 procs2 : List (Proc K)}

theorem frame_lists (h : WellFormed env n nT cfg procs) (hc : c.Good n nT) (hco : c.coords = cfg.coords)
    (hp : cfg.initMatchLists env.dist env.L (Interactions.maxRange procs) = .ok cfg1)
    (hp' : c.initMatchLists env.dist env.L (Interactions.maxRange procs) = .ok c1) :
    c1.matchLists = cfg1.matchLists.map (seen c.types) := by
  have h' : WellFormed env n nT c procs := ⟨h.ranks, h.typed, h.lattice, h.sites, hc, h.processes⟩
  have hl := lists_of h hp
  have hl' := lists_of h' hp'
  apply List.ext_getElem?
  intro i
  rw [List.getElem?_map]
  by_cases hi : i < n
  · obtain ⟨l, h1⟩ : ∃ l, cfg1.matchLists[i]? = some l :=
      ⟨_, List.getElem?_eq_getElem (by rw [hl.shape.matchLists]; exact hi)⟩
    obtain ⟨l', h2⟩ : ∃ l, c1.matchLists[i]? = some l :=
      ⟨_, List.getElem?_eq_getElem (by rw [hl'.shape.matchLists]; exact hi)⟩
    have e1 := hl.matchList h.lattice h.sites hc.shape hco h1
    have e2 := hl'.matchList h.lattice h.sites hc.shape rfl h2
    have e3 : seen c.types l' = l' := by
      obtain ⟨center, -, h3⟩ := hl'.entry h2
      unfold seen
      conv_rhs => rw [← List.map_id l']
      apply List.map_congr_left
      intro e he
      obtain ⟨p1, p2, p3, p4⟩ := (h3 e he).2
      unfold CEntry.look
      rw [List.getD_eq_getElem?_getD, p4]
      rfl
    rw [e1, Except.ok.injEq, e3] at e2
    rw [h1, h2, ← e2]
    rfl
  · rw [List.getElem?_eq_none (l := c1.matchLists) (by rw [hl'.shape.matchLists]; omega),
      List.getElem?_eq_none (l := cfg1.matchLists) (by rw [hl.shape.matchLists]; omega)]
    rfl

theorem frame_update (h : WellFormed env n nT cfg procs) (hc : c.Good n nT)
    (hp : cfg.initMatchLists env.dist env.L (Interactions.maxRange procs) = .ok cfg1)
    (hlist : c1.matchLists = cfg1.matchLists.map (seen c.types)) (b : Bool) (ps : List (Proc K)) :
    Interactions.updateProcessMatchLists b c1 env.L ps = Interactions.updateProcessMatchLists b cfg1 env.L ps := by
  have hl := lists_of h hp
  have hframe : ∀ (i : Nat) (l l' : List (CEntry K)), cfg1.matchLists[i]? = some l →
      c1.matchLists[i]? = some l' → List.Forall₂ SameFrame l l' := by
    intro i l l' h1 h2
    rw [hlist, List.getElem?_map, h1] at h2
    cases h2
    unfold seen
    rw [List.forall₂_map_right_iff, List.forall₂_same]
    intro e he
    have hs := hl.sized h.config l (List.mem_of_getElem? h1) e he
    refine ⟨rfl, rfl, ?_⟩
    rw [hs]
    obtain ⟨center, -, h3⟩ := hl.entry h1
    have hlt : e.index < c.types.length := by
      rw [hc.shape.types]
      have := (h3 e he).2.types
      have := (List.getElem?_eq_some_iff.1 this).1
      rw [h.config.shape.types] at this
      exact this
    show nT = (c.types.getD e.index []).length
    rw [List.getD_eq_getElem?_getD, List.getElem?_eq_getElem hlt]
    exact (hc.bucket _ (List.getElem_mem hlt)).symm
  unfold Interactions.updateProcessMatchLists
  rw [mapMM_congr (g := Interactions.updateMatchListOf cfg1 env.L) (fun p _ =>
      updateMatchListOf_frame env.L (by rw [hlist, List.length_map]) hframe p)]

/-- Preparing from another configuration on the same sites gives the same surroundings and the same
processes. -/
theorem prepared_frame (h : WellFormed env n nT cfg procs) (hc : c.Good n nT) (hco : c.coords = cfg.coords)
    (hp : Prepared env cfg procs cfg1 procs1) (hp' : Prepared env c procs c1 procs2) :
    procs2 = procs1 ∧ c1.matchLists = cfg1.matchLists.map (seen c.types) := by
  have hlist := frame_lists h hc hco hp.1 hp'.1
  have h2 := hp'.2
  rw [frame_update h hc hp.1 hlist, hp.2] at h2
  cases h2
  exact ⟨rfl, hlist⟩

theorem prepared_exists (h : WellFormed env n nT cfg procs) (hc : c.Good n nT) (hco : c.coords = cfg.coords)
    (hp : Prepared env cfg procs cfg1 procs1) : ∃ c1, Prepared env c procs c1 procs1 := by
  obtain ⟨c1, e1, -⟩ := Config.initMatchLists_ok (dist := env.dist) h.lattice hc.shape
    h.sites (Interactions.maxRange procs)
  exact ⟨c1, e1, (frame_update h hc hp.1 (frame_lists h hc hco hp.1 e1) _ _).trans hp.2⟩

/-- What custom rates need does not depend on what is on the sites. -/
theorem CustomRatesOk.frame (h : WellFormed env n nT cfg procs) (hcu : CustomRatesOk env n nT cfg procs)
    (hc : c.Good n nT) (hco : c.coords = cfg.coords) (hn : c.typeNames = cfg.typeNames)
    (hp : Prepared env cfg procs cfg1 procs1) : CustomRatesOk env n nT c procs := by
  refine ⟨⟨hcu.number, ?_⟩, ?_⟩
  · intro c1 procs2 hp' i ml p hml hpm hb hlen hpos
    obtain ⟨rfl, hlist⟩ := prepared_frame h hc hco hp hp'
    rw [hlist, List.getElem?_map, Option.map_eq_some_iff] at hml
    obtain ⟨ml0, hml0, rfl⟩ := hml
    rw [length_seen] at hlen
    have := hcu.inside cfg1 _ hp i ml0 p hml0 hpm hb hlen (by
      intro k e d he hd
      exact hpos k e (d.look c.types) he (by unfold seen; rw [List.getElem?_map, hd]; rfl))
    have hw := Matcher.withinCutoff_seen p.cutoff c.types ml0
    unfold Matcher.withinCutoff at hw
    rw [hw, length_seen]
    exact this
  · intro c1 procs2 hp' p hpm p' hpm' hcache k a a' hq hq'
    obtain ⟨rfl, -⟩ := prepared_frame h hc hco hp hp'
    have hqq : ∀ {p k a}, Question env n nT c procs p k a → Question env n nT cfg procs p k a := by
      rintro p k a ⟨d, i, ml, g1, g2, g3, g4⟩
      exact ⟨d, i, ml, g1, g2.trans hco, g3.trans hn, g4⟩
    exact hcu.keys cfg1 _ hp p hpm p' hpm' hcache k a a' (hqq hq) (hqq hq')

end
end KMC
