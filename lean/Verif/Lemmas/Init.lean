import Verif.Lemmas.Step
import Verif.Props.Matching
import Mathlib.Tactic.Linarith
import Mathlib.Tactic.NormNum
import Mathlib.Tactic.Positivity

/-!
# The start of a run
-/

set_option linter.unusedSectionVars false

namespace KMC

variable {K : Type _} [Field K] [LinearOrder K]

/-! ### Processes -/

theorem Config.absSum_pos_iff (u : Bucket) : 0 < Config.absSum u ↔ ∃ v ∈ u, v ≠ 0 := by
  have h : ∀ (u : Bucket) (a : Int), 0 ≤ a →
      (0 < u.foldl (fun s v => s + |v|) a ↔ 0 < a ∨ ∃ v ∈ u, v ≠ 0) := by
    intro u
    induction u with
    | nil => simp
    | cons x u ih =>
      intro a ha
      have h1 := abs_nonneg x
      rw [List.foldl_cons, ih _ (by omega)]
      have h2 : 0 < |x| ↔ x ≠ 0 := abs_pos
      constructor
      · rintro (h | ⟨v, hv, h⟩)
        · by_cases hx : x = 0
          · left; simpa [hx] using h
          · right; exact ⟨x, by simp, hx⟩
        · right; exact ⟨v, by simp [hv], h⟩
      · rintro (h | ⟨v, hv, h⟩)
        · left; omega
        · rcases List.mem_cons.1 hv with rfl | hv
          · left; have := h2.2 h; omega
          · right; exact ⟨v, hv, h⟩
  have := h u 0 le_rfl
  simpa [Config.absSum] using this

theorem acts_changes {e : PEntry K} (h : e.Acts) : e.Changes := (Config.absSum_pos_iff _).1 h.1

theorem acts_of_changes {e : PEntry K} (h0 : e.updateTypes[0]? = some 0) (h : e.Changes) : e.Acts := by
  refine ⟨(Config.absSum_pos_iff _).2 h, ?_⟩
  rw [List.getD_eq_getElem?_getD, h0]
  simp

theorem active_imp {e : PEntry K} (h : e.Active) : e.Changes ∨ e.hasMove = true :=
  h.imp acts_changes id

/-- Insertion keeps the entries at which something happens. -/
theorem Aligned.filter {ps : List (PEntry K)} {cs : List (CEntry K)} {al : List (PEntry K)}
    (h : Aligned ps cs al) (f : PEntry K → Bool) (hf : ∀ c, f (wildcardFor c) = false) :
    al.filter f = ps.filter f := by
  induction h with
  | nil => rfl
  | rest => rfl
  | skip _ _ _ ih => rw [List.filter_cons, hf]; simpa using ih
  | take _ _ ih => rw [List.filter_cons, List.filter_cons, ih]

theorem not_changes_wildcardFor (c : CEntry K) : ¬ (wildcardFor c).Changes := by
  rintro ⟨u, hu, h0⟩
  simp [wildcardFor, Bucket.zeros] at hu
  exact h0 hu.2

/-- The match list after insertion. -/
theorem updateMatchListOf_aligned {cfg : Config K} {L : LatticeMap} {p p' : Proc K}
    (h : Interactions.updateMatchListOf cfg L p = .ok p') :
    p' = p ∨ ∃ cml ∈ cfg.matchLists, Aligned p.matchList cml p'.matchList := by
  unfold Interactions.updateMatchListOf at h
  split at h
  · rw [bind_ok] at h
    obtain ⟨idx, -, h⟩ := h
    rw [bind_ok] at h
    obtain ⟨cml, hcml, h⟩ := h
    rw [bind_ok] at h
    obtain ⟨r, hr, h⟩ := h
    dsimp only at h
    rw [bind_ok] at h
    obtain ⟨ids, -, h⟩ := h
    cases h
    exact .inr ⟨cml, List.mem_of_getElem? (rd_ok.1 hcml), alignLoop_aligned hr⟩
  · cases h
    exact .inl rfl

section
variable [IsStrictOrderedRing K]

theorem samePoint_close {e : PEntry K} {c : CEntry K} (h : samePoint e c = true) :
    |c.coord.x - e.coord.x| ≤ 1 / 100000 ∧ |c.coord.y - e.coord.y| ≤ 1 / 100000 ∧
    |c.coord.z - e.coord.z| ≤ 1 / 100000 := by
  unfold samePoint ptSame epsi at h
  split at h
  · cases h
  split at h
  · cases h
  split at h
  · cases h
  split at h
  · cases h
  next h1 h2 h3 h4 => exact ⟨not_lt.1 h2, not_lt.1 h3, not_lt.1 h4⟩

theorem not_apart {e f : PEntry K} {c : CEntry K} (h1 : samePoint e c = true) (h2 : samePoint f c = true) :
    ¬ Apart e.coord f.coord := by
  obtain ⟨a1, a2, a3⟩ := samePoint_close h1
  obtain ⟨b1, b2, b3⟩ := samePoint_close h2
  have key : ∀ x y z : K, |z - x| ≤ 1 / 100000 → |z - y| ≤ 1 / 100000 → ¬ 1 / 50000 < |x - y| := by
    intro x y z hx hy h
    rw [abs_le] at hx hy
    rw [lt_abs] at h
    have h5 : (1 : K) / 50000 = 1 / 100000 + 1 / 100000 := by norm_num
    rw [h5] at h
    rcases h with h | h <;> linarith [hx.1, hx.2, hy.1, hy.2]
  rintro (h | h | h)
  · exact key _ _ _ a1 b1 h
  · exact key _ _ _ a2 b2 h
  · exact key _ _ _ a3 b3 h

/-- A well formed process, with wildcards inserted, is as the engine needs it. -/
theorem procOk_of {nT : Nat} {cfg : Config K} {L : LatticeMap} {p p' : Proc K} (hp : p.WellFormed nT)
    (hc : ∀ l ∈ cfg.matchLists, SizedC nT l) (hu : Interactions.updateMatchListOf cfg L p = .ok p') :
    ProcOk nT p'.still := by
  obtain ⟨-, hnew, -, hmv, hrest⟩ := C12_insertion cfg L p p' hu
  have hzero : ∀ e : PEntry K, (∀ u ∈ e.updateTypes, u = 0) → e.hasMove = false →
      ¬ (e.Changes ∨ e.hasMove = true) := by
    rintro e h1 h2 (⟨u, hu, h0⟩ | h)
    · exact h0 (h1 u hu)
    · rw [h2] at h; cases h
  have hold : ∀ e ∈ p'.matchList, e.Changes ∨ e.hasMove = true → e ∈ p.matchList := by
    intro e he ha
    rcases hnew e he with h | ⟨-, h1, h2, -⟩
    · exact h
    · exact absurd ha (hzero e h1 h2)
  have hsz : SizedP nT p'.matchList ∧ ∀ e ∈ p'.matchList, e.updateTypes.length = nT := by
    rcases updateMatchListOf_aligned hu with rfl | ⟨cml, hcm, hal⟩
    · exact ⟨hp.sized, hp.updates⟩
    · refine ⟨hal.sized hp.sized (hc _ hcm), ?_⟩
      intro e he
      rcases hal.sublist.2 e he with h | ⟨c, hcm', -, rfl⟩
      · exact hp.updates e h
      · simp [wildcardFor, Bucket.zeros, hc _ hcm c hcm']
  have hfilter : ∀ f : PEntry K → Bool, (∀ c, f (wildcardFor c) = false) →
      p'.matchList.filter f = p.matchList.filter f := by
    intro f hf
    rcases updateMatchListOf_aligned hu with rfl | ⟨cml, hcm, hal⟩
    · rfl
    · exact hal.filter f hf
  refine ⟨hsz.1, hsz.2, ?_, ?_, ?_, ?_, ?_, ?_⟩
  · intro e he ha
    have hc := acts_changes ha
    exact hp.enough e (hold e he (.inl hc)) hc
  · intro e he ha
    have hc := acts_changes ha
    exact hp.leaves e (hold e he (.inl hc)) hc
  · have h1 := hp.apart
    have h2 : (p.matchList.filter (fun e => decide (e.Changes ∨ e.hasMove = true))).Pairwise
        (fun e f => Apart e.coord f.coord) := by
      rw [List.pairwise_filter]
      refine h1.imp ?_
      intro e f h he hf
      exact h (of_decide_eq_true he) (of_decide_eq_true hf)
    rw [← hfilter _ (by
      intro c
      rw [decide_eq_false_iff_not]
      rintro (h | h)
      · exact not_changes_wildcardFor c h
      · cases h), List.pairwise_filter] at h2
    refine h2.imp ?_
    rintro e f h he hf c ⟨hs1, hs2⟩
    exact not_apart hs1 hs2 (h (decide_eq_true (active_imp he)) (decide_eq_true (active_imp hf)))
  · intro e he ha
    exact hp.notWild e (hold e he (active_imp ha)) (active_imp ha)
  · have h1 := hp.affected
    have h2 : (p'.matchList.filter (fun e => decide e.Acts)).length ≤
        (p'.matchList.filter (fun e => decide e.Changes)).length := by
      apply List.Sublist.length_le
      apply List.monotone_filter_right
      intro e he
      exact decide_eq_true (acts_changes (of_decide_eq_true he))
    rw [hfilter (fun e => decide e.Changes) (fun c => decide_eq_false (not_changes_wildcardFor c))] at h2
    have h3 : p'.affected = p.affected := by rw [hrest]
    simp only [Proc.still, List.length_replicate]
    rw [h3]
    exact le_trans h2 h1
  · have hbs : p'.basisSites = p.basisSites := by rw [hrest]
    intro mv' hmv'
    show ∃ e f, p'.matchList[mv'.1]? = some e ∧ p'.matchList[mv'.2]? = some f ∧ _
    rcases updateMatchListOf_aligned hu with rfl | ⟨cml, hcm, hal⟩
    · exact hp.moves mv' hmv'
    · by_cases hb : p.basisSites.length = 1
      · obtain ⟨i, hi⟩ := List.mem_iff_getElem?.1 hmv'
        have hi : p'.idMoves[i]? = some mv' := hi
        obtain ⟨-, -, hlen, -, -⟩ := C12_insertion cfg L p p' hu
        have hil : i < p.idMoves.length := by rw [← hlen]; exact (List.getElem?_eq_some_iff.1 hi).1
        have hmvi := List.getElem?_eq_getElem hil
        obtain ⟨⟨e, e1, e2⟩, ⟨f, f1, f2⟩⟩ := hmv i _ mv' hmvi hi hb
        obtain ⟨e', f', a1, a2, a3, a4⟩ := hp.moves _ (List.getElem_mem hil)
        rw [e2, Option.some.injEq] at a1
        rw [f2, Option.some.injEq] at a2
        subst a1 a2
        exact ⟨_, _, e1, f1, a3, a4⟩
      · have : p' = p := by
          unfold Interactions.updateMatchListOf at hu
          split at hu
          · next b h => rw [h] at hb; simp at hb
          · cases hu; rfl
        subst this
        exact hp.moves mv' hmv'

end

/-! ### Match lists -/

theorem sortC_seen (types : List Bucket) (l : List (CEntry K)) : sortC (seen types l) = seen types (sortC l) := by
  unfold sortC seen
  exact (map_insertionSort_key (fun a b : CEntry K => CEntry.lt b a = false)
    (fun a b : CEntry K => CEntry.lt b a = false) (CEntry.look types) (fun _ _ => Iff.rfl) l).symm

/-- The surroundings computed anew are the stored ones with the types refreshed. -/
theorem configMatchList_seen {dist : Coord K → K} {L : LatticeMap} {cfg cfg' : Config K} {n : Nat}
    (hs : cfg'.Shape n) (hc : cfg'.coords = cfg.coords) {i : Nat} {indices : List Nat} {center : Coord K}
    (hi : i < n) (hidx : ∀ j ∈ indices, j < n) (hcen : cfg.coords[i]? = some center) {l : List (CEntry K)}
    (hl : List.Forall₂ (Config.EntryFor dist L cfg center) indices l) :
    cfg'.configMatchList dist L i indices = .ok (seen cfg'.types (sortC l)) := by
  obtain ⟨l', center', h1, h2, h3⟩ := Config.configMatchList_ok (dist := dist) (L := L) hs hi hidx
  rw [h2, ← sortC_seen]
  rw [hc, hcen, Option.some.injEq] at h1
  subst h1
  have : l' = seen cfg'.types l := by
    clear h2
    induction hl generalizing l' with
    | nil => cases h3; rfl
    | @cons a b as bs hab _ ih =>
      cases h3 with
      | @cons _ b' _ bs' hab' h3 =>
        have hb : b' = b.look cfg'.types := by
          obtain ⟨p1, ⟨x, hx, p2⟩, p3, p4⟩ := hab
          obtain ⟨q1, ⟨y, hy, q2⟩, q3, q4⟩ := hab'
          rw [hc, hx, Option.some.injEq] at hy
          subst hy
          rw [← p2] at q2
          rw [q2, ← p3] at q3
          cases b; cases b'
          simp only at p1 q1 q2 q3 q4
          subst p1 q1 q2 q3
          simp only [CEntry.look, CEntry.mk.injEq, true_and]
          rw [List.getD_eq_getElem?_getD, q4]
          rfl
        rw [hb]
        unfold seen at ih ⊢
        rw [List.map_cons, ← ih (fun j hj => hidx j (by simp [hj])) _ h3]
  rw [this]

/-! ### The world of a model -/

/-- What stays fixed during the runs of a model. -/
def World.of (env : Env K) (n nT range : Nat) (cfg1 : Config K) (procs1 : List (Proc K)) : World K :=
  { env := env, n := n, nT := nT, range := range, room := cfg1.movedIds.length, coords := cfg1.coords
    names := cfg1.typeNames, skel := cfg1.matchLists, procs := procs1.map Proc.still }

/-- The match lists at the start. -/
structure Lists (env : Env K) (n range : Nat) (cfg cfg1 : Config K) : Prop where
  rest : cfg1 = { cfg with matchLists := cfg1.matchLists, movedIds := cfg1.movedIds, moveVectors := cfg1.moveVectors }
  shape : cfg1.Shape n
  rooms : cfg1.movedIds.length = cfg1.moveVectors.length
  list : ∀ i < n, ∃ l center, cfg.coords[i]? = some center ∧
        cfg1.matchLists[i]? = some (sortC l) ∧ l.length ≤ cfg1.movedIds.length ∧
        List.Forall₂ (Config.EntryFor env.dist env.L cfg center) (env.L.neighbourIndices i range) l

section
variable {env : Env K} {n nT : Nat} {cfg cfg1 : Config K} {procs procs1 : List (Proc K)}

theorem lists_of (h : WellFormed env n nT cfg procs)
    (h1 : cfg.initMatchLists env.dist env.L (Interactions.maxRange procs) = .ok cfg1) :
    Lists env n (Interactions.maxRange procs) cfg cfg1 := by
  obtain ⟨cfg', e1, e2, e3, e4, e5⟩ := Config.initMatchLists_ok (dist := env.dist) h.lattice h.config.shape
    h.sites (Interactions.maxRange procs)
  rw [h1] at e1
  cases e1
  exact ⟨e2, e3, e4, e5⟩

theorem Lists.good (h : Lists env n (Interactions.maxRange procs) cfg cfg1) (hg : cfg.Good n nT) :
    cfg1.Good n nT := by
  have hr := h.rest
  obtain ⟨_, g2, g3, g4, g5, g6, g7, g8⟩ := hg
  refine ⟨h.shape, ?_, ?_, ?_, ?_, ?_, ?_, ?_⟩
  · rw [hr]; exact g2
  · rw [hr]; exact g3
  · rw [hr]; exact g4
  · rw [hr]; exact g5
  · rw [hr]; exact g6
  · rw [hr]; exact g7
  · unfold Config.Tallied at g8 ⊢
    rw [hr]; exact g8

/-- An entry of a match list. -/
theorem Lists.entry {range : Nat} (h : Lists env n range cfg cfg1) {i : Nat} {sk : List (CEntry K)}
    (hsk : cfg1.matchLists[i]? = some sk) :
    ∃ center, cfg.coords[i]? = some center ∧ ∀ e ∈ sk, e.index ∈ env.L.neighbourIndices i range ∧
      Config.EntryFor env.dist env.L cfg center e.index e := by
  have hi : i < n := by rw [← h.shape.matchLists]; exact (List.getElem?_eq_some_iff.1 hsk).1
  obtain ⟨l, center, h1, h2, -, h4⟩ := h.list i hi
  rw [hsk, Option.some.injEq] at h2
  subst h2
  refine ⟨center, h1, ?_⟩
  intro e he
  rw [(perm_sortC l).mem_iff] at he
  obtain ⟨k, hk⟩ := List.mem_iff_getElem?.1 he
  obtain ⟨hk1, hk2⟩ := List.getElem?_eq_some_iff.1 hk
  have hkl : k < (env.L.neighbourIndices i range).length := by rw [h4.length_eq]; exact hk1
  have := (List.forall₂_iff_get.1 h4).2 k hkl hk1
  simp only [List.get_eq_getElem, hk2] at this
  rw [this.index]
  exact ⟨List.getElem_mem _, this⟩

theorem Lists.sized {range : Nat} (h : Lists env n range cfg cfg1) (hg : cfg.Good n nT) :
    ∀ l ∈ cfg1.matchLists, SizedC nT l := by
  intro l hl c hc
  obtain ⟨i, hi⟩ := List.mem_iff_getElem?.1 hl
  obtain ⟨center, -, h2⟩ := h.entry hi
  exact hg.bucket _ (List.mem_of_getElem? (h2 c hc).2.types)

/-- The surroundings of a site in any configuration of the model. -/
theorem Lists.matchList {range : Nat} (h : Lists env n range cfg cfg1) (hw : env.L.WF) (hn : env.L.nSites = n)
    {c : Config K} (hs : c.Shape n) (hc : c.coords = cfg.coords) {i : Nat} {sk : List (CEntry K)}
    (hsk : cfg1.matchLists[i]? = some sk) :
    c.configMatchList env.dist env.L i (env.L.neighbourIndices i range) = .ok (seen c.types sk) := by
  have hi : i < n := by rw [← h.shape.matchLists]; exact (List.getElem?_eq_some_iff.1 hsk).1
  obtain ⟨l, center, h1, h2, -, h4⟩ := h.list i hi
  rw [hsk, Option.some.injEq] at h2
  subst h2
  refine configMatchList_seen hs hc hi ?_ h1 h4
  intro j hj
  rw [← hn] at hi ⊢
  exact ((env.L.mem_neighbourIndices hw _ _ _ hi).1 hj).1

theorem prepared_proc [IsStrictOrderedRing K] (h : WellFormed env n nT cfg procs)
    (hp : Prepared env cfg procs cfg1 procs1) {j : Nat} {p1 : Proc K} (hj : procs1[j]? = some p1) :
    ∃ p, procs[j]? = some p ∧ ProcOk nT p1.still ∧
      p1 = { p.clearSites with matchList := p1.matchList, idMoves := p1.idMoves } := by
  obtain ⟨h1, h2⟩ := hp
  have hl := lists_of h h1
  have hws : ∀ p ∈ procs, p.clearSites.WellFormed nT := fun p hpm => by
    obtain ⟨a1, a2, a3, a4, a5, a6, a7, a8, a9, a10⟩ := h.processes p hpm
    exact ⟨a1, a2, a3, a4, a5, a6, a7, a8, a9, a10⟩
  unfold Interactions.updateProcessMatchLists at h2
  split at h2
  · cases h2
    unfold Interactions.clearMatching at hj
    rw [List.getElem?_map, Option.map_eq_some_iff] at hj
    obtain ⟨p, hpj, rfl⟩ := hj
    refine ⟨p, hpj, ?_, rfl⟩
    have hwp := hws p (List.mem_of_getElem? hpj)
    refine ⟨hwp.sized, hwp.updates, ?_, ?_, ?_, ?_, ?_, hwp.moves⟩
    · exact fun e he ha => hwp.enough e he (acts_changes ha)
    · exact fun e he ha => hwp.leaves e he (acts_changes ha)
    · refine hwp.apart.imp ?_
      rintro e f h he hf c ⟨hs1, hs2⟩
      exact not_apart hs1 hs2 (h (active_imp he) (active_imp hf))
    · exact fun e he ha => hwp.notWild e he (active_imp ha)
    · simp only [Proc.still, List.length_replicate]
      refine le_trans ?_ hwp.affected
      apply List.Sublist.length_le
      apply List.monotone_filter_right
      intro e he
      exact decide_eq_true (acts_changes (of_decide_eq_true he))
  · obtain ⟨q, hq, hqp⟩ := mapMM_getElem?' h2 hj
    unfold Interactions.clearMatching at hq
    rw [List.getElem?_map, Option.map_eq_some_iff] at hq
    obtain ⟨p, hpj, rfl⟩ := hq
    exact ⟨p, hpj, procOk_of (hws p (List.mem_of_getElem? hpj)) (hl.sized h.config) hqp,
      (C12_insertion _ _ _ _ hqp).2.2.2.2⟩

theorem prepared_length (hp : Prepared env cfg procs cfg1 procs1) : procs1.length = procs.length := by
  obtain ⟨h1, h2⟩ := hp
  unfold Interactions.updateProcessMatchLists at h2
  split at h2
  · cases h2; simp [Interactions.clearMatching]
  · rw [mapMM_length h2]; simp [Interactions.clearMatching]

theorem prepared_range [IsStrictOrderedRing K] (h : WellFormed env n nT cfg procs)
    (hp : Prepared env cfg procs cfg1 procs1) :
    Interactions.maxRange procs1 = Interactions.maxRange procs := by
  have h1 : procs1.map (·.range) = procs.map (·.range) := by
    apply List.ext_getElem?
    intro j
    rw [List.getElem?_map, List.getElem?_map]
    cases hj : procs1[j]? with
    | none =>
      rw [List.getElem?_eq_none_iff, prepared_length hp] at hj
      rw [List.getElem?_eq_none_iff.2 hj]
    | some p1 =>
      obtain ⟨p, hpj, -, he⟩ := prepared_proc h hp hj
      rw [hpj, he]
      rfl
  have h2 : ∀ ps : List (Proc K), Interactions.maxRange ps = (ps.map (·.range)).foldl max 1 := by
    intro ps
    unfold Interactions.maxRange
    rw [List.foldl_map]
  rw [h2, h1, ← h2]

/-- The engine's conditions hold. -/
theorem world_ok [IsStrictOrderedRing K] (h : WellFormed env n nT cfg procs)
    (hcu : env.useCustomRates = true → CustomRatesOk env n nT cfg procs)
    (hp : Prepared env cfg procs cfg1 procs1) :
    (World.of env n nT (Interactions.maxRange procs) cfg1 procs1).Ok := by
  have hl := lists_of h hp.1
  have hstill : ∀ (j : Nat) (q : Proc K), (procs1.map Proc.still)[j]? = some q →
      ∃ p1, procs1[j]? = some p1 ∧ p1.still = q := by
    intro j q hq
    rw [List.getElem?_map, Option.map_eq_some_iff] at hq
    exact hq
  refine ⟨h.ranks, h.typed, h.lattice, h.sites, hl.shape.matchLists, ?_, ?_, ?_, ?_, ?_, ?_, ?_, ?_⟩
  · intro i sk hsk e he
    obtain ⟨center, -, h2⟩ := hl.entry hsk
    exact (h2 e he).1
  · intro sk hsk e he e' he' hee
    obtain ⟨i, hi⟩ := List.mem_iff_getElem?.1 hsk
    obtain ⟨center, -, h2⟩ := hl.entry hi
    obtain ⟨p1, ⟨x, hx, p2⟩, p3, p4⟩ := (h2 e he).2
    obtain ⟨q1, ⟨y, hy, q2⟩, q3, q4⟩ := (h2 e' he').2
    rw [hee, hy, Option.some.injEq] at hx
    subst hx
    rw [← p2] at q2
    refine ⟨q2.symm, ?_⟩
    rw [p3, q3, q2]
  · intro sk hsk
    obtain ⟨i, hi⟩ := List.mem_iff_getElem?.1 hsk
    have hin : i < n := by rw [← hl.shape.matchLists]; exact (List.getElem?_eq_some_iff.1 hi).1
    obtain ⟨l, center, h1, h2, h3, -⟩ := hl.list i hin
    have hi : cfg1.matchLists[i]? = some sk := hi
    rw [hi, Option.some.injEq] at h2
    rw [h2, (perm_sortC l).length_eq]
    exact h3
  · show Interactions.maxRange procs = Interactions.maxRange (procs1.map Proc.still)
    rw [Interactions.maxRange_still, prepared_range h hp]
  · intro q hq
    obtain ⟨j, hj⟩ := List.mem_iff_getElem?.1 hq
    obtain ⟨p1, hp1, rfl⟩ := hstill j q hj
    obtain ⟨p, -, h2, -⟩ := prepared_proc h hp hp1
    exact h2
  · intro hc j q hq
    obtain ⟨p1, hp1, rfl⟩ := hstill j q hq
    obtain ⟨p, hpj, -, h3⟩ := prepared_proc h hp hp1
    have := (hcu hc).number j p hpj
    show p1.number = j
    rw [h3]
    exact this
  · intro hc i sk q hsk hq hb hgeo
    obtain ⟨j, hj⟩ := List.mem_iff_getElem?.1 hq
    obtain ⟨p1, hp1, rfl⟩ := hstill j q hj
    obtain ⟨l1, l2, hsp, hf⟩ := hgeo
    have hlen := hf.length_eq
    refine (hcu hc).inside cfg1 procs1 hp i sk p1 hsk (List.mem_of_getElem? hp1) hb ?_ ?_
    · rw [hsp, List.length_append]
      have : p1.still.matchList.length = p1.matchList.length := rfl
      omega
    · intro k e c he hcc
      have he' : p1.still.matchList[k]? = some e := he
      obtain ⟨hk1, hk2⟩ := List.getElem?_eq_some_iff.1 he'
      have hk3 : k < l1.length := by rw [← hlen]; exact hk1
      rw [hsp, List.getElem?_append_left hk3] at hcc
      obtain ⟨hk4, hk5⟩ := List.getElem?_eq_some_iff.1 hcc
      have := (List.forall₂_iff_get.1 hf).2 k hk1 hk4
      simp only [List.get_eq_getElem, hk2, hk5] at this
      exact this
  · intro hc c q i cml a c' q' i' cml' a' hask hcache hask' hkey
    have hquest : ∀ {c : Config K} {q : Proc K} {i : Nat} {cml : List (CEntry K)} {a : RateArgs K} {p1 : Proc K},
        (World.of env n nT (Interactions.maxRange procs) cfg1 procs1).Asks c q i cml a → p1.still = q →
        Question env n nT cfg procs p1 (Matcher.keyOn env cml q) a := by
      intro c q i cml a p1 hask hst
      obtain ⟨g1, g2, g3, g4, ⟨sk, hsk, rfl⟩, g6, g7, g8⟩ := hask
      subst hst
      have hsk : cfg1.matchLists[i]? = some sk := hsk
      have hcoords : c.coords = cfg.coords := by
        have : c.coords = cfg1.coords := g2
        rw [this, hl.rest]
      obtain ⟨c2, hc2⟩ : ∃ c2 : Config K, c2 = { c with matchLists := cfg1.matchLists.map (seen c.types) } := ⟨_, rfl⟩
      have hsame : Matcher.SameBut c c2 := by unfold Matcher.SameBut; rw [hc2]
      have hgood : c2.Good n nT := Config.Good.sameBut g1 hsame (by
        rw [hc2]; simpa using hl.shape.matchLists)
      have hml : c2.matchLists[i]? = some (seen c.types sk) := by
        rw [hc2]; simp only [List.getElem?_map, hsk]; rfl
      have hty : c2.types = c.types := by rw [hc2]
      refine ⟨c2, i, seen c.types sk, hgood, by rw [hc2]; exact hcoords, ?_, ?_, hml, g6, g7, ?_, ?_⟩
      · rw [hc2]
        have : c.typeNames = cfg1.typeNames := g3
        show c.typeNames = cfg.typeNames
        rw [this, hl.rest]
      · rw [hl.matchList h.lattice h.sites hgood.shape (by rw [hc2]; exact hcoords) hsk, hty]
      · rw [Matcher.rateArgs_eq p1 hml, Matcher.rateArgsOn_sameBut hsame]
        exact g8
      · rw [Matcher.rateKey_eq p1 hml]
        rfl
    obtain ⟨j, hj⟩ := List.mem_iff_getElem?.1 hask.proc
    obtain ⟨p1, hp1, hst⟩ := hstill j q hj
    obtain ⟨j', hj'⟩ := List.mem_iff_getElem?.1 hask'.proc
    obtain ⟨p1', hp1', hst'⟩ := hstill j' q' hj'
    have h1 := hquest hask hst
    have h2 := hquest hask' hst'
    have hkey : Matcher.keyOn env cml q = Matcher.keyOn env cml' q' := hkey
    rw [← hkey] at h2
    exact (hcu hc).keys cfg1 procs1 hp p1 (List.mem_of_getElem? hp1) p1' (List.mem_of_getElem? hp1')
      (by rw [← hst] at hcache; exact hcache) _ _ _ h1 h2

/-- The state in which the matcher is first called. -/
def startState (cfg1 : Config K) (procs1 : List (Proc K)) : MState K :=
  ⟨cfg1, procs1, List.replicate cfg1.coords.length (List.replicate procs1.length false), RateTable.empty⟩

theorem start_pre [IsStrictOrderedRing K] (h : WellFormed env n nT cfg procs)
    (hp : Prepared env cfg procs cfg1 procs1) :
    (World.of env n nT (Interactions.maxRange procs) cfg1 procs1).PreA (startState cfg1 procs1)
      (fun _ _ => none) := by
  have hl := lists_of h hp.1
  have hn : 0 < n := by
    rw [← h.sites]
    obtain ⟨a, b, c, d⟩ := h.lattice
    unfold LatticeMap.nSites
    positivity
  refine ⟨hl.good h.config, rfl, rfl, rfl, hl.rooms.symm, rfl, ?_, ?_, ?_, ?_, ?_, ?_⟩
  · intro i ml sk hml hsk
    have hml : cfg1.matchLists[i]? = some ml := hml
    have hsk : cfg1.matchLists[i]? = some sk := hsk
    rw [hml, Option.some.injEq] at hsk
    rw [hsk]
    rfl
  · intro p1 hp1 a ha
    have hp1 : p1 ∈ procs1 := hp1
    obtain ⟨j, hj⟩ := List.mem_iff_getElem?.1 hp1
    obtain ⟨p, hpj, -, he⟩ := prepared_proc h hp hj
    rw [he] at ha
    have := (h.processes p (List.mem_of_getElem? hpj)).fresh a ha
    rw [this]
    exact hn
  · exact fun _ => ⟨[], RateTable.Inv.empty, by simp⟩
  · refine ⟨?_, ?_, ?_⟩
    · intro j p1 hj
      have hj : procs1[j]? = some p1 := hj
      obtain ⟨p, hpj, -, he⟩ := prepared_proc h hp hj
      refine ⟨⟨?_, ?_, ?_, ?_⟩, ?_, ?_, ?_⟩
      · rw [he]; exact List.nodup_nil
      · rw [he]; rfl
      · rw [he]; intro _; rfl
      · unfold Proc.weights
        rw [he]
        simp [Proc.clearSites]
      · rw [he]; simp [Proc.clearSites]
      · rw [he]; simp [Proc.clearSites]
      · rw [he]; simp [Proc.clearSites]
    · intro s hs
      have hs : s < n := hs
      refine ⟨List.replicate procs1.length false, ?_, by simp [startState], ?_⟩
      · simp only [startState]
        rw [List.getElem?_replicate, if_pos (by rw [hl.shape.coords]; exact hs)]
      · intro j hj
        simp only [startState] at hj
        rw [List.getElem?_replicate, if_pos hj]
        rfl
    · simp only [startState, List.length_replicate]
      exact hl.shape.coords
  · intros; rfl
  · intros; rfl

theorem initialMatching_eq (h : WellFormed env n nT cfg procs) {ms : MState K}
    (hi : LatticeModel.initialMatching env cfg procs = .ok ms) :
    ∃ cfg1 procs1, Prepared env cfg procs cfg1 procs1 ∧
      Matcher.calculateMatching env (startState cfg1 procs1) (List.range n) = .ok ms := by
  unfold LatticeModel.initialMatching at hi
  rw [bind_ok] at hi
  obtain ⟨cfg1, h1, hi⟩ := hi
  dsimp only at hi
  rw [bind_ok] at hi
  obtain ⟨procs1, h2, hi⟩ := hi
  have hp : Prepared env cfg procs cfg1 procs1 := ⟨h1, h2⟩
  have hl := lists_of h h1
  refine ⟨cfg1, procs1, hp, ?_⟩
  have e1 : cfg.coords = cfg1.coords := by rw [hl.rest]
  unfold startState
  rw [← hl.shape.elements, prepared_length hp, ← e1]
  exact hi

/-- The invariant holds when the first matching is done. -/
theorem initialMatching_inv [IsStrictOrderedRing K] (h : WellFormed env n nT cfg procs)
    (hcu : env.useCustomRates = true → CustomRatesOk env n nT cfg procs) {ms : MState K}
    (hi : LatticeModel.initialMatching env cfg procs = .ok ms) :
    ∃ cfg1 procs1, Prepared env cfg procs cfg1 procs1 ∧
      (World.of env n nT (Interactions.maxRange procs) cfg1 procs1).Ok ∧
      (World.of env n nT (Interactions.maxRange procs) cfg1 procs1).Inv ms ∧
      Matcher.SameBut cfg1 ms.cfg := by
  obtain ⟨cfg1, procs1, hp, hc⟩ := initialMatching_eq h hi
  obtain ⟨W, hW⟩ : ∃ W, W = World.of env n nT (Interactions.maxRange procs) cfg1 procs1 := ⟨_, rfl⟩
  have hok := world_ok h hcu hp
  have hpre := start_pre h hp
  refine ⟨cfg1, procs1, hp, hok, ?_⟩
  rw [← hW] at hok hpre ⊢
  have hWn : W.n = n := by rw [hW]; rfl
  have hWe : W.env = env := by rw [hW]; rfl
  have hcall := World.callOk hok hpre (List.nodup_range (n := n)) (by
    intro i hi; rw [hWn]; exact List.mem_range.1 hi)
  rw [hWe] at hcall
  obtain ⟨s2, A2, h1, h2⟩ := Matcher.calculateMatching_ok hcall (Matcher.multOk_of_ok hcall hc)
  rw [hc] at h1
  cases h1
  refine ⟨⟨A2, World.inv_of_call hok hpre (indices := List.range n) (by
      intro i hi; rw [hWn]; exact List.mem_range.1 hi) ?_ (by rw [hWe]; exact h2)⟩, h2.same⟩
  intro i sk hi hsk
  exfalso
  apply hi
  rw [List.mem_range, ← hWn, ← hok.len]
  exact (List.getElem?_eq_some_iff.1 hsk).1

/-- The first matching goes through unless a multiplicity overflows. -/
theorem initialMatching_progress [IsStrictOrderedRing K] (h : WellFormed env n nT cfg procs)
    (hcu : env.useCustomRates = true → CustomRatesOk env n nT cfg procs)
    (hp : Prepared env cfg procs cfg1 procs1)
    (hm : Matcher.MultOk env cfg1.matchLists (startState cfg1 procs1) (List.range n)) :
    ∃ ms, LatticeModel.initialMatching env cfg procs = .ok ms := by
  have hok := world_ok h hcu hp
  have hpre := start_pre h hp
  have hcall := World.callOk hok hpre (List.nodup_range (n := n)) (fun i hi => List.mem_range.1 hi)
  obtain ⟨s2, A2, h1, h2⟩ := Matcher.calculateMatching_ok hcall hm
  refine ⟨s2, ?_⟩
  have hl := lists_of h hp.1
  have e1 : cfg.coords = cfg1.coords := by rw [hl.rest]
  unfold LatticeModel.initialMatching
  rw [hp.1, ok_bind]
  dsimp only
  rw [hp.2, ok_bind]
  unfold startState at h1
  rw [hl.shape.elements, ← prepared_length hp, e1]
  exact h1
end

end KMC
