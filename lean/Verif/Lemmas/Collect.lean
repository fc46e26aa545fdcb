import Verif.Lemmas.Book
import Verif.Lemmas.Mpi
import Verif.Lemmas.RateTable
import Mathlib.Data.List.FinRange

/-!
# What one call of the matcher does
-/

set_option linter.unusedSectionVars false

namespace KMC

variable {K : Type _} [Field K] [LinearOrder K]

/-! ### Refreshing the types of a match list -/

/-- The entry with the types found at its site. -/
def CEntry.look (types : List Bucket) (e : CEntry K) : CEntry K :=
  { e with matchTypes := types.getD e.index [] }

/-- The list with the types found at its sites. -/
def seen (types : List Bucket) (l : List (CEntry K)) : List (CEntry K) := l.map (CEntry.look types)

/-- The entry without types. -/
def CEntry.strip (e : CEntry K) : CEntry K := { e with matchTypes := [] }

/-- The two lists differ in types only. -/
def SameGeo (l m : List (CEntry K)) : Prop := l.map CEntry.strip = m.map CEntry.strip

theorem look_strip (types : List Bucket) (e : CEntry K) : e.strip.look types = e.look types := rfl
theorem strip_look (types : List Bucket) (e : CEntry K) : (e.look types).strip = e.strip := rfl

theorem seen_congr {types : List Bucket} {l m : List (CEntry K)} (h : SameGeo l m) :
    seen types l = seen types m := by
  have h1 : ∀ l : List (CEntry K), seen types l = (l.map CEntry.strip).map (CEntry.look types) := by
    intro l
    unfold seen
    rw [List.map_map]
    rfl
  rw [h1, h1, h]

theorem sameGeo_seen (types : List Bucket) (l : List (CEntry K)) : SameGeo (seen types l) l := by
  unfold SameGeo seen
  rw [List.map_map]
  rfl

theorem SameGeo.trans {l m k : List (CEntry K)} (h : SameGeo l m) (h' : SameGeo m k) : SameGeo l k :=
  Eq.trans h h'

theorem SameGeo.index {l m : List (CEntry K)} (h : SameGeo l m) :
    l.map (·.index) = m.map (·.index) := by
  have h1 : ∀ l : List (CEntry K), l.map (·.index) = (l.map CEntry.strip).map (·.index) := by
    intro l; rw [List.map_map]; rfl
  rw [h1 l, h, ← h1 m]

theorem updateMatchList_ok {cfg : Config K} {i : Nat} {ml : List (CEntry K)}
    (h : cfg.matchLists[i]? = some ml) (hidx : ∀ e ∈ ml, e.index < cfg.types.length) :
    cfg.updateMatchList i =
      .ok { cfg with matchLists := cfg.matchLists.set i (seen cfg.types ml) } := by
  unfold Config.updateMatchList
  rw [rd_of_getElem? h, ok_bind]
  have : mapMM (fun (e : CEntry K) => do
      let t ← rd cfg.types e.index
      return { e with matchTypes := t }) ml = .ok (seen cfg.types ml) := by
    apply mapMM_eq_map
    intro e he
    have hlt := hidx e he
    rw [rd_of_lt hlt, ok_bind]
    simp [CEntry.look, hlt]
  rw [this, ok_bind, wr_of_lt (List.getElem?_eq_some_iff.1 h).1, ok_bind]
  rfl

namespace Matcher

theorem mem_processesFor {L : LatticeMap} {procs : List (Proc K)} {i j : Nat} :
    j ∈ processesFor L procs i ↔ ∃ p, procs[j]? = some p ∧ L.basisSite i ∈ p.basisSites := by
  unfold processesFor
  simp only [List.mem_map, List.mem_filter, decide_eq_true_eq, Prod.exists, exists_eq_right]
  constructor
  · rintro ⟨p, hp, hb⟩
    exact ⟨p, List.mem_zipIdx_iff_getElem?.1 hp, hb⟩
  · rintro ⟨p, hp, hb⟩
    exact ⟨p, List.mem_zipIdx_iff_getElem?.2 hp, hb⟩

theorem processesFor_nodup (L : LatticeMap) (procs : List (Proc K)) (i : Nat) :
    (processesFor L procs i).Nodup := by
  unfold processesFor
  refine List.Nodup.sublist (List.Sublist.map _ List.filter_sublist) ?_
  rw [List.zipIdx_map_snd]
  exact List.nodup_range'

theorem processesFor_congr {L : LatticeMap} {procs procs' : List (Proc K)}
    (h : procs.map Proc.core = procs'.map Proc.core) (i : Nat) :
    processesFor L procs i = processesFor L procs' i := by
  have h1 : ∀ ps : List (Proc K), processesFor L ps i = processesFor L (ps.map Proc.core) i := by
    intro ps
    unfold processesFor
    rw [List.zipIdx_map, List.filter_map, List.map_map]
    rfl
  rw [h1, h1 procs', h]

/-- All the pairs for a list of indices. -/
def pairsOf (L : LatticeMap) (procs : List (Proc K)) (indices : List Nat) : List (Nat × Nat) :=
  indices.flatMap fun i => (processesFor L procs i).map (fun j => (i, j))

theorem mem_pairsOf {L : LatticeMap} {procs : List (Proc K)} {indices : List Nat} {c : Nat × Nat} :
    c ∈ pairsOf L procs indices ↔
      c.1 ∈ indices ∧ ∃ p, procs[c.2]? = some p ∧ L.basisSite c.1 ∈ p.basisSites := by
  unfold pairsOf
  simp only [List.mem_flatMap, List.mem_map]
  constructor
  · rintro ⟨i, hi, j, hj, rfl⟩
    exact ⟨hi, mem_processesFor.1 hj⟩
  · rintro ⟨hi, h⟩
    exact ⟨c.1, hi, c.2, mem_processesFor.2 h, rfl⟩

theorem pairsOf_nodup {L : LatticeMap} {procs : List (Proc K)} {indices : List Nat}
    (h : indices.Nodup) : (pairsOf L procs indices).Nodup := by
  induction indices with
  | nil => simp [pairsOf]
  | cons i is ih =>
    rw [List.nodup_cons] at h
    have : pairsOf L procs (i :: is) =
        (processesFor L procs i).map (fun j => (i, j)) ++ pairsOf L procs is := rfl
    rw [this, List.nodup_append]
    refine ⟨?_, ih h.2, ?_⟩
    · apply List.Nodup.map _ (processesFor_nodup L procs i)
      intro a b hab
      simpa using hab
    · intro a ha b hb hab
      subst hab
      obtain ⟨j, -, rfl⟩ := List.mem_map.1 ha
      exact h.1 (mem_pairsOf.1 hb).1

/-- Same fields except for the match lists. -/
def SameBut (cfg cfg' : Config K) : Prop := cfg' = { cfg with matchLists := cfg'.matchLists }

theorem SameBut.types {cfg cfg' : Config K} (h : SameBut cfg cfg') : cfg'.types = cfg.types := by
  rw [h]

theorem collectPairs_ok {L : LatticeMap} {procs : List (Proc K)} {skel : List (List (CEntry K))}
    (indices : List Nat) (cfg : Config K)
    (hlen : cfg.matchLists.length = skel.length)
    (hgeo : ∀ (i : Nat) (ml sk : List (CEntry K)), cfg.matchLists[i]? = some ml →
      skel[i]? = some sk → SameGeo ml sk)
    (hidx : ∀ sk ∈ skel, ∀ e ∈ sk, e.index < cfg.types.length)
    (hi : ∀ i ∈ indices, i < skel.length) :
    ∃ cfg', collectPairs L procs indices cfg = .ok (pairsOf L procs indices, cfg') ∧
      SameBut cfg cfg' ∧ cfg'.matchLists.length = cfg.matchLists.length ∧
      ∀ i, cfg'.matchLists[i]? = if i ∈ indices ∧ processesFor L procs i ≠ [] then
        skel[i]?.map (seen cfg.types) else cfg.matchLists[i]? := by
  induction indices generalizing cfg with
  | nil => exact ⟨cfg, rfl, rfl, rfl, by simp⟩
  | cons i is ih =>
    have hil : i < skel.length := hi i (by simp)
    have hml := List.getElem?_eq_getElem (l := cfg.matchLists) (i := i) (by rw [hlen]; exact hil)
    have hsk := List.getElem?_eq_getElem hil
    have hg := hgeo i _ _ hml hsk
    have hidx' : ∀ e ∈ cfg.matchLists[i], e.index < cfg.types.length := by
      intro e he
      have : e.index ∈ (cfg.matchLists[i]).map (·.index) := List.mem_map_of_mem he
      rw [hg.index] at this
      obtain ⟨e', he', heq⟩ := List.mem_map.1 this
      rw [← heq]
      exact hidx _ (List.getElem_mem hil) e' he'
    unfold collectPairs
    dsimp only
    by_cases hjs : processesFor L procs i = []
    · rw [if_neg (by simpa using hjs), pure_ok, ok_bind]
      obtain ⟨cfg', h1, h2, h3, h4⟩ := ih cfg hlen hgeo hidx (fun k hk => hi k (by simp [hk]))
      rw [h1, ok_bind]
      refine ⟨cfg', rfl, h2, h3, ?_⟩
      intro k
      rw [h4 k]
      by_cases hk : k = i
      · subst hk; simp [hjs]
      · simp [hk]
    · rw [if_pos (by simpa using hjs), updateMatchList_ok hml hidx', ok_bind]
      obtain ⟨cfg', h1, h2, h3, h4⟩ := ih
          { cfg with matchLists := cfg.matchLists.set i (seen cfg.types cfg.matchLists[i]) } (by simpa using hlen) (by
          intro k ml sk h5 h6
          simp only [List.getElem?_set] at h5
          by_cases hk : i = k
          · subst hk
            rw [if_pos rfl, if_pos (by rw [hlen]; exact hil)] at h5
            cases h5
            exact (sameGeo_seen _ _).trans (hgeo _ _ _ hml h6)
          · rw [if_neg hk] at h5
            exact hgeo k ml sk h5 h6) hidx (fun k hk => hi k (by simp [hk]))
      rw [h1, ok_bind]
      refine ⟨cfg', rfl, ?_, by rw [h3]; simp, ?_⟩
      · unfold SameBut at h2 ⊢
        rw [h2]
      · intro k
        rw [h4 k]
        by_cases hk : k = i
        · subst hk
          by_cases hkm : k ∈ is ∧ processesFor L procs k ≠ []
          · rw [if_pos hkm, if_pos ⟨by simp, hjs⟩]
          · rw [if_neg hkm, if_pos ⟨by simp, hjs⟩]
            simp only [List.getElem?_set, if_true]
            rw [if_pos (by rw [hlen]; exact hil), hsk, seen_congr hg]
            rfl
        · have : (k ∈ i :: is ∧ processesFor L procs k ≠ []) ↔
              (k ∈ is ∧ processesFor L procs k ≠ []) := by simp [hk]
          rw [if_congr this rfl rfl]
          simp only [List.getElem?_set]
          rw [if_neg (Ne.symm hk)]

/-! ### The task lists -/

/-- The task type for a match result and a listing. -/
def typeOf (isMatch inList : Bool) : Nat :=
  if isMatch = false ∧ inList = true then 1
  else if isMatch = true ∧ inList = true then 2
  else if isMatch = true ∧ inList = false then 3
  else 0

/-- What the pairs look like: match results `mt` and listing `inl`. -/
structure PairsOk (s : MState K) (pairs : List (Nat × Nat)) (mt inl : Nat × Nat → Bool) : Prop where
  matched : ∀ c ∈ pairs, ∃ p cml, s.procs[c.2]? = some p ∧ s.cfg.matchLists[c.1]? = some cml ∧
    whateverMatch p.matchList cml = .ok (mt c) ∧ (mt c = true → ∃ m, multiplicity p.matchList cml = .ok m)
  listed : ∀ c ∈ pairs, ∃ row, s.inverse[c.1]? = some row ∧ row[c.2]? = some (inl c)

theorem taskType_ok {s : MState K} {pairs : List (Nat × Nat)} {mt inl : Nat × Nat → Bool}
    (h : PairsOk s pairs mt inl) {c : Nat × Nat} (hc : c ∈ pairs) :
    taskType s c = .ok (typeOf (mt c) (inl c)) := by
  obtain ⟨p, cml, h1, h2, h3, -⟩ := h.matched c hc
  obtain ⟨row, h4, h5⟩ := h.listed c hc
  unfold taskType
  rw [rd_of_getElem? h1, ok_bind, rd_of_getElem? h4, ok_bind, rd_of_getElem? h5, ok_bind,
    rd_of_getElem? h2, ok_bind, h3, ok_bind]
  unfold typeOf
  split_ifs <;> rfl

theorem sortTasks_ok {s : MState K} {mt inl : Nat × Nat → Bool} (pairs : List (Nat × Nat))
    (h : PairsOk s pairs mt inl) :
    ∃ ts, sortTasks s pairs (pairs.map fun c => typeOf (mt c) (inl c)) = .ok ts ∧
      ts.remove = pairs.filter (fun c => !mt c && inl c) ∧
      ts.update.map RateTask.cell = pairs.filter (fun c => mt c && inl c) ∧
      ts.add.map RateTask.cell = pairs.filter (fun c => mt c && !inl c) ∧
      (∀ t ∈ ts.update ++ ts.add, ∃ p, s.procs[t.process]? = some p ∧ t.rate = p.rate) := by
  induction pairs with
  | nil => exact ⟨_, rfl, rfl, rfl, rfl, by simp⟩
  | cons c cs ih =>
    obtain ⟨ts, h1, h2, h3, h4, h5⟩ := ih ⟨fun d hd => h.matched d (by simp [hd]),
      fun d hd => h.listed d (by simp [hd])⟩
    obtain ⟨p, cml, g1, g2, g3, g4⟩ := h.matched c (by simp)
    rw [List.map_cons]
    unfold sortTasks
    cases hm : mt c with
    | false =>
      cases hi : inl c with
      | false =>
        rw [show typeOf false false = 0 from rfl]
        refine ⟨ts, by simpa using h1, ?_, ?_, ?_, h5⟩ <;> simp [hm, hi, h2, h3, h4]
      | true =>
        rw [show typeOf false true = 1 from rfl]
        rw [if_pos (by simp), h1, ok_bind]
        refine ⟨_, rfl, ?_, ?_, ?_, h5⟩ <;> simp [hm, hi, h2, h3, h4]
    | true =>
      obtain ⟨m, hmul⟩ := g4 hm
      have hrt : rateTask s c = .ok ⟨c.1, c.2, p.rate, (m : K)⟩ := by
        unfold rateTask
        rw [rd_of_getElem? g1, ok_bind, rd_of_getElem? g2, ok_bind, hmul, ok_bind]
        rfl
      cases hi : inl c with
      | true =>
        rw [show typeOf true true = 2 from rfl]
        rw [if_neg (by simp), if_pos (by simp), hrt, ok_bind, h1, ok_bind]
        refine ⟨_, rfl, ?_, ?_, ?_, ?_⟩
        · simp [hm, hi, h2]
        · simp [hm, hi, h3, RateTask.cell]
        · simp [hm, hi, h4]
        · intro t ht
          simp only [List.cons_append, List.mem_cons] at ht
          rcases ht with rfl | ht
          · exact ⟨p, g1, rfl⟩
          · exact h5 t ht
      | false =>
        rw [show typeOf true false = 3 from rfl]
        rw [if_neg (by simp), if_neg (by simp), if_pos (by simp), hrt, ok_bind, h1, ok_bind]
        refine ⟨_, rfl, ?_, ?_, ?_, ?_⟩
        · simp [hm, hi, h2]
        · simp [hm, hi, h3]
        · simp [hm, hi, h4, RateTask.cell]
        · intro t ht
          simp only [List.mem_append, List.mem_cons] at ht
          rcases ht with ht | rfl | ht
          · exact h5 t (by simp [ht])
          · exact ⟨p, g1, rfl⟩
          · exact h5 t (by simp [ht])

theorem matchPairs_ok {env : Env K} (hr : 0 < env.nRanks) {s : MState K} {mt inl : Nat × Nat → Bool}
    {pairs : List (Nat × Nat)} (h : PairsOk s pairs mt inl) :
    ∃ ts, matchPairs env s pairs = .ok ts ∧
      ts.remove = pairs.filter (fun c => !mt c && inl c) ∧
      ts.update.map RateTask.cell = pairs.filter (fun c => mt c && inl c) ∧
      ts.add.map RateTask.cell = pairs.filter (fun c => mt c && !inl c) ∧
      (∀ t ∈ ts.update ++ ts.add, ∃ p, s.procs[t.process]? = some p ∧ t.rate = p.rate) := by
  obtain ⟨ts, h1, h2⟩ := sortTasks_ok pairs h
  refine ⟨ts, ?_, h2⟩
  unfold matchPairs
  rw [Mpi.parMap_eq hr, mapMM_eq_map (fun c hc => taskType_ok h hc), ok_bind, h1]

/-! ### Custom rates -/

/-- The table is well formed and everything in it satisfies `G`. -/
def TableOk (G : Nat → K → Prop) (rt : RateTable K) : Prop :=
  ∃ h, RateTable.Inv 8 1024 h rt ∧ ∀ e ∈ h, G e.1 e.2

/-- What is known about the rates of a set of cells: `tr` is the value the rate calculator gives, and
`G` relates keys to values. -/
structure RatesOk (env : Env K) (s : MState K) (cells : Nat × Nat → Prop) (tr : Nat × Nat → K)
    (G : Nat → K → Prop) : Prop where
  proc : ∀ c, cells c → ∃ p k a, s.procs[c.2]? = some p ∧ p.number = c.2 ∧
    rateKey env s.cfg p c.1 = .ok k ∧ rateArgs s.cfg p c.1 = .ok a ∧ env.callback a = tr c ∧
    (∀ w, G k w → w = tr c) ∧ (p.cacheRate = true → G k (tr c))

theorem lookupTasks_ok {env : Env K} {s : MState K} {cells : Nat × Nat → Prop} {tr : Nat × Nat → K}
    {G : Nat → K → Prop} (h : RatesOk env s cells tr G) (ht : TableOk G s.rates)
    (ts : List (RateTask K)) (hc : ∀ t ∈ ts, cells t.cell) (i : Nat) :
    ∃ r, lookupTasks env s i ts = .ok r ∧
      (∀ q ∈ r.2, cells q.task.cell ∧ q.number = q.task.process ∧
        ∃ p, s.procs[q.task.process]? = some p ∧ rateKey env s.cfg p q.task.index = .ok q.key) ∧
      ∀ pre extra, pre.length = i →
        writeBack (pre ++ r.1) r.2 (r.2.map (fun q => tr q.task.cell) ++ extra) =
          .ok (pre ++ ts.map (fun t => { t with rate := tr t.cell })) := by
  induction ts generalizing i with
  | nil => exact ⟨_, rfl, by simp, by intro pre extra _; simp [writeBack]⟩
  | cons t ts ih =>
    obtain ⟨r, hr1, hr2, hr3⟩ := ih (fun u hu => hc u (by simp [hu])) (i + 1)
    obtain ⟨p, k, a, g1, g2, g3, g4, g5, g6, g7⟩ := h.proc t.cell (hc t (by simp))
    simp only [RateTask.cell] at g1 g2 g3 g4
    unfold lookupTasks
    rw [rd_of_getElem? g1, ok_bind, g3, ok_bind]
    cases hst : s.rates.stored k with
    | some i' =>
      obtain ⟨_, v, -, -, hv⟩ := RateTable.retrieve_ok_of_stored hst
      obtain ⟨hh, hinv, hG⟩ := ht
      obtain ⟨tab, htab, hmem⟩ := RateTable.mem_of_retrieve hv
      have hvv : v = tr t.cell := g6 v (hG _ (hinv.hist tab htab _ hmem))
      dsimp only
      rw [hv, ok_bind, hr1, ok_bind]
      refine ⟨_, rfl, hr2, ?_⟩
      intro pre extra hpre
      have := hr3 (pre ++ [{ t with rate := tr t.cell }]) extra (by simp [hpre])
      simp only [List.append_assoc, List.singleton_append] at this
      rw [hvv]
      simpa using this
    | none =>
      dsimp only
      rw [hr1, ok_bind]
      refine ⟨_, rfl, ?_, ?_⟩
      · intro q hq
        simp only [List.mem_cons] at hq
        rcases hq with rfl | hq
        · exact ⟨hc t (by simp), g2, p, g1, g3⟩
        · exact hr2 q hq
      · intro pre extra hpre
        rw [List.map_cons, List.cons_append]
        conv_lhs => unfold writeBack
        have e1 : (pre ++ t :: r.1)[i]? = some t := by
          rw [List.getElem?_append_right (by omega)]
          simp [hpre]
        dsimp only
        rw [rd_of_getElem? e1, ok_bind, wr_of_lt (List.getElem?_eq_some_iff.1 e1).1, ok_bind,
          List.set_append_right _ _ (by omega)]
        have := hr3 (pre ++ [{ t with rate := tr t.cell }]) extra (by simp [hpre])
        simp only [List.append_assoc, List.singleton_append] at this
        simpa [hpre] using this

theorem storeRates_ok {env : Env K} {s : MState K} {cells : Nat × Nat → Prop} {tr : Nat × Nat → K}
    {G : Nat → K → Prop} (h : RatesOk env s cells tr G) (qs : List (Pending K))
    (hq : ∀ q ∈ qs, cells q.task.cell ∧ q.number = q.task.process ∧
        ∃ p, s.procs[q.task.process]? = some p ∧ rateKey env s.cfg p q.task.index = .ok q.key)
    (rt : RateTable K) (ht : TableOk G rt) :
    ∃ rt', storeRates s.procs (qs.zip (qs.map fun q => tr q.task.cell)) rt = .ok rt' ∧ TableOk G rt' := by
  unfold storeRates
  induction qs generalizing rt with
  | nil => exact ⟨rt, rfl, ht⟩
  | cons q qs ih =>
    obtain ⟨hc, hn, p, hp, hk⟩ := hq q (by simp)
    obtain ⟨p', k, a, g1, g2, g3, g4, g5, g6, g7⟩ := h.proc _ hc
    simp only [RateTask.cell] at g1 g2 g3 g4
    rw [hp, Option.some.injEq] at g1
    subst g1
    rw [hk] at g3
    cases g3
    rw [List.map_cons, List.zip_cons_cons, loopM_cons]
    dsimp only
    rw [hn, rd_of_getElem? hp, ok_bind]
    by_cases hcr : p.cacheRate = true
    · rw [if_pos hcr]
      obtain ⟨hh, hinv, hG⟩ := ht
      obtain ⟨rt', h1, h2, -⟩ := hinv.store (by omega) q.key (tr q.task.cell)
      rw [h1, ok_bind]
      apply ih (fun q' hq' => hq q' (by simp [hq'])) rt'
      refine ⟨_, h2, ?_⟩
      intro e he
      rcases List.mem_append.1 he with he | he
      · exact hG e he
      · rw [List.mem_singleton.1 he]
        exact g7 hcr
    · rw [if_neg hcr, pure_ok, ok_bind]
      exact ih (fun q' hq' => hq q' (by simp [hq'])) rt ht

theorem taskRate_ok {env : Env K} {s : MState K} {cells : Nat × Nat → Prop} {tr : Nat × Nat → K}
    {G : Nat → K → Prop} (h : RatesOk env s cells tr G) {t : RateTask K} (hc : cells t.cell) :
    taskRate env s t = .ok (tr t.cell) := by
  obtain ⟨p', k, ar, g1, g2, g3, g4, g5, g6, g7⟩ := h.proc _ hc
  simp only [RateTask.cell] at g1 g4
  unfold taskRate
  rw [rd_of_getElem? g1, ok_bind, g4, ok_bind, g5]
  rfl

theorem customRates_ok {env : Env K} (hr : 0 < env.nRanks) {s : MState K}
    {cells : Nat × Nat → Prop} {tr : Nat × Nat → K} {G : Nat → K → Prop}
    (h : RatesOk env s cells tr G) (ht : TableOk G s.rates) (ts : Tasks K)
    (hc : ∀ t ∈ ts.update ++ ts.add, cells t.cell) :
    ∃ rt', customRates env s ts = .ok
      ({ ts with add := ts.add.map (fun t => { t with rate := tr t.cell }),
                 update := ts.update.map (fun t => { t with rate := tr t.cell }) }, rt') ∧
      TableOk G rt' := by
  obtain ⟨a, ha1, ha2, ha3⟩ := lookupTasks_ok h ht ts.add (fun t htt => hc t (by simp [htt])) 0
  obtain ⟨u, hu1, hu2, hu3⟩ := lookupTasks_ok h ht ts.update (fun t htt => hc t (by simp [htt])) 0
  have hq : ∀ q ∈ a.2 ++ u.2, cells q.task.cell ∧ q.number = q.task.process ∧
        ∃ p, s.procs[q.task.process]? = some p ∧ rateKey env s.cfg p q.task.index = .ok q.key := by
    intro q hq
    rcases List.mem_append.1 hq with hq | hq
    · exact ha2 q hq
    · exact hu2 q hq
  have hrates : mapMM (fun e : Pending K => taskRate env s e.task) (a.2 ++ u.2) =
      .ok ((a.2 ++ u.2).map fun q => tr q.task.cell) := by
    apply mapMM_eq_map
    intro q hqm
    obtain ⟨p', k, ar, g1, g2, g3, g4, g5, g6, g7⟩ := h.proc _ (hq q hqm).1
    simp only [RateTask.cell] at g1 g4
    unfold taskRate
    rw [rd_of_getElem? g1, ok_bind, g4, ok_bind, g5]
    rfl
  obtain ⟨rt', h1, h2⟩ := storeRates_ok h (a.2 ++ u.2) hq s.rates ht
  refine ⟨rt', ?_, h2⟩
  unfold customRates
  rw [ha1, ok_bind, hu1, ok_bind]
  dsimp only
  rw [Mpi.parMap_eq hr, hrates, ok_bind]
  have e1 := ha3 [] (u.2.map fun q => tr q.task.cell) rfl
  have e2 := hu3 [] [] rfl
  simp only [List.nil_append, List.append_nil] at e1 e2
  rw [List.map_append, e1, ok_bind]
  have e3 : (a.2.map (fun q => tr q.task.cell) ++ u.2.map (fun q => tr q.task.cell)).drop a.2.length =
      u.2.map (fun q => tr q.task.cell) := by
    rw [List.drop_append_of_le_length (by simp)]
    simp
  rw [e3, e2, ok_bind, ← List.map_append, h1, ok_bind]
  rfl

/-! ### One call -/

/-- The arguments of the rate calculator, for a given match list. -/
def rateArgsOn (cfg : Config K) (cml : List (CEntry K)) (p : Proc K) (index : Nat) : M (RateArgs K) := do
  let near := withinCutoff p.cutoff cml
  let before ← mapMM (firstElement cfg) near
  let occ ← mapMM (occupation cfg) near
  let occ0 ← rd occ 0
  let st ← loopM (afterStep cfg) p.matchList.zipIdx
    (List.replicate near.length (Bucket.zeros occ0.length), before)
  let g ← rd cfg.coords index
  if p.bucketProcess = false then
    return .plain (near.map (·.coord)) before st.2 p.rate p.number g
  else
    return .buckets (near.map (·.coord)) occ st.1 cfg.typeNames p.rate p.number g

/-- The key, for a given match list. -/
def keyOn (env : Env K) (cml : List (CEntry K)) (p : Proc K) : Nat :=
  env.hash ((p.number : Int) :: (withinCutoff p.cutoff cml).flatMap (fun e => e.matchTypes))

theorem rateArgs_eq {cfg : Config K} {cml : List (CEntry K)} {i : Nat} (p : Proc K)
    (h : cfg.matchLists[i]? = some cml) : rateArgs cfg p i = rateArgsOn cfg cml p i := by
  unfold rateArgs rateArgsOn
  rw [rd_of_getElem? h, ok_bind]

theorem rateKey_eq {env : Env K} {cfg : Config K} {cml : List (CEntry K)} {i : Nat} (p : Proc K)
    (h : cfg.matchLists[i]? = some cml) : rateKey env cfg p i = .ok (keyOn env cml p) := by
  unfold rateKey keyData
  rw [rd_of_getElem? h, ok_bind]
  rfl

theorem rateArgsOn_sameBut {cfg cfg' : Config K} (h : SameBut cfg cfg') (cml : List (CEntry K))
    (p : Proc K) (i : Nat) : rateArgsOn cfg' cml p i = rateArgsOn cfg cml p i := by
  rw [h]
  rfl

/-- `r` is the rate process `p` has at site `i` when the surroundings are `cml`. -/
def RateIs (env : Env K) (cfg : Config K) (cml : List (CEntry K)) (p : Proc K) (i : Nat) (r : K) : Prop :=
  if env.useCustomRates then ∃ a, rateArgsOn cfg cml p i = .ok a ∧ env.callback a = r else r = p.rate

/-- The hypotheses of one call. -/
structure CallOk (env : Env K) (G : Nat → K → Prop) (skel : List (List (CEntry K))) (s : MState K)
    (A : Content K) (indices : List Nat) : Prop where
  ranks : 0 < env.nRanks
  book : BookRep skel.length (s.procs, s.inverse) A
  lists : s.cfg.matchLists.length = skel.length
  geo : ∀ (i : Nat) (ml sk : List (CEntry K)), s.cfg.matchLists[i]? = some ml →
      skel[i]? = some sk → SameGeo ml sk
  entries : ∀ sk ∈ skel, ∀ e ∈ sk, e.index < s.cfg.types.length
  nodup : indices.Nodup
  range : ∀ i ∈ indices, i < skel.length
  matchable : ∀ (i j : Nat) (sk : List (CEntry K)) (p : Proc K), skel[i]? = some sk →
    s.procs[j]? = some p → env.L.basisSite i ∈ p.basisSites →
    ∃ r, whateverMatch p.matchList (seen s.cfg.types sk) = .ok r
  table : env.useCustomRates = true → TableOk G s.rates
  rates : env.useCustomRates = true → ∀ (i j : Nat) (sk : List (CEntry K)) (p : Proc K),
    i ∈ indices → skel[i]? = some sk →
    s.procs[j]? = some p → env.L.basisSite i ∈ p.basisSites →
    whateverMatch p.matchList (seen s.cfg.types sk) = .ok true →
    p.number = j ∧ ∃ a, rateArgsOn s.cfg (seen s.cfg.types sk) p i = .ok a ∧
      (∀ w, G (keyOn env (seen s.cfg.types sk) p) w → w = env.callback a) ∧
      (p.cacheRate = true → G (keyOn env (seen s.cfg.types sk) p) (env.callback a))

/-- The multiplicities of the matches do not overflow. -/
def MultOk (env : Env K) (skel : List (List (CEntry K))) (s : MState K) (indices : List Nat) : Prop :=
  ∀ (i j : Nat) (sk : List (CEntry K)) (p : Proc K), i ∈ indices → skel[i]? = some sk →
    s.procs[j]? = some p → env.L.basisSite i ∈ p.basisSites →
    whateverMatch p.matchList (seen s.cfg.types sk) = .ok true →
    ∃ m, multiplicity p.matchList (seen s.cfg.types sk) = .ok m

/-- What one call does. -/
structure CallDone (env : Env K) (G : Nat → K → Prop) (skel : List (List (CEntry K)))
    (s : MState K) (A : Content K) (indices : List Nat) (s' : MState K) (A' : Content K) : Prop where
  same : SameBut s.cfg s'.cfg
  lists : s'.cfg.matchLists.length = skel.length
  list : ∀ i, s'.cfg.matchLists[i]? = if i ∈ indices ∧ processesFor env.L s.procs i ≠ [] then
        skel[i]?.map (seen s.cfg.types) else s.cfg.matchLists[i]?
  core : s'.procs.map Proc.core = s.procs.map Proc.core
  book : BookRep skel.length (s'.procs, s'.inverse) A'
  table : env.useCustomRates = true → TableOk G s'.rates
  hit : ∀ (i j : Nat) (sk : List (CEntry K)) (p : Proc K), i ∈ indices → skel[i]? = some sk →
    s.procs[j]? = some p → env.L.basisSite i ∈ p.basisSites →
    whateverMatch p.matchList (seen s.cfg.types sk) = .ok true →
    ∃ r, A' j i = some r ∧ RateIs env s.cfg (seen s.cfg.types sk) p i r
  miss : ∀ (i j : Nat) (sk : List (CEntry K)) (p : Proc K), i ∈ indices → skel[i]? = some sk →
    s.procs[j]? = some p → env.L.basisSite i ∈ p.basisSites →
    whateverMatch p.matchList (seen s.cfg.types sk) = .ok false → A' j i = none
  other : ∀ (i j : Nat), ¬ (i ∈ indices ∧ ∃ p, s.procs[j]? = some p ∧ env.L.basisSite i ∈ p.basisSites) →
    A' j i = A j i

/-- `calculateMatching` with the last part left open. -/
def calculateWith (upd : Tasks K → Book K → M (Book K)) (env : Env K) (s : MState K) (indices : List Nat) :
    M (MState K) := do
  let c ← collectPairs env.L s.procs indices s.cfg
  let s1 := { s with cfg := c.2 }
  let tasks ← matchPairs env s1 c.1
  let r ← if env.useCustomRates then customRates env s1 tasks else pure (tasks, s.rates)
  let b ← upd r.1 (s.procs, s.inverse)
  return { s1 with procs := b.1, inverse := b.2, rates := r.2 }

/-- The rates as they are without a rate table: the calculator is asked for every task. -/
def directRates (env : Env K) (s : MState K) (tasks : Tasks K) : M (Tasks K) := do
  let add ← mapMM (fun t => do let r ← taskRate env s t; return { t with rate := r }) tasks.add
  let update ← mapMM (fun t => do let r ← taskRate env s t; return { t with rate := r }) tasks.update
  return { tasks with add := add, update := update }

/-- The refreshed configuration and the tasks of a call, with the rates as they are without a rate table. -/
def directTasks (env : Env K) (s : MState K) (indices : List Nat) : M (Config K × Tasks K) := do
  let c ← collectPairs env.L s.procs indices s.cfg
  let tasks ← matchPairs env { s with cfg := c.2 } c.1
  let r ← if env.useCustomRates then directRates env { s with cfg := c.2 } tasks else pure tasks
  return (c.2, r)

/-- The tasks that one call comes to. -/
structure Plan (env : Env K) (skel : List (List (CEntry K))) (s : MState K) (A : Content K) (indices : List Nat)
    (cfg' : Config K) (ts : Tasks K) (rt : RateTable K) : Prop where
  calls : ∀ upd : Tasks K → Book K → M (Book K), calculateWith upd env s indices =
    (upd ts (s.procs, s.inverse) >>= fun b => .ok ⟨cfg', b.1, b.2, rt⟩)
  direct : directTasks env s indices = .ok (cfg', ts)
  range : ∀ c ∈ ts.remove ++ ts.update.map RateTask.cell ++ ts.add.map RateTask.cell,
    c.1 < skel.length ∧ c.2 < s.procs.length
  nodup : (ts.remove ++ ts.update.map RateTask.cell ++ ts.add.map RateTask.cell).Nodup
  remove : ∀ c ∈ ts.remove, (A c.2 c.1).isSome
  update : ∀ t ∈ ts.update, (A t.process t.index).isSome
  add : ∀ t ∈ ts.add, A t.process t.index = none
  rates : ∀ t ∈ ts.update ++ ts.add, ∀ sk p, skel[t.index]? = some sk → s.procs[t.process]? = some p →
    RateIs env s.cfg (seen s.cfg.types sk) p t.index t.rate

theorem calculateMatching_plan {env : Env K} {G : Nat → K → Prop} {skel : List (List (CEntry K))}
    {s : MState K} {A : Content K} {indices : List Nat} (h : CallOk env G skel s A indices)
    (hmult : MultOk env skel s indices) :
    ∃ cfg' ts rt s' A', Plan env skel s A indices cfg' ts rt ∧
      calculateMatching env s indices = .ok s' ∧ CallDone env G skel s A indices s' A' := by
  classical
  obtain ⟨cfg', c1, c2, c3, c4⟩ := collectPairs_ok (L := env.L) (procs := s.procs) indices s.cfg h.lists h.geo
    h.entries h.range
  have htypes : cfg'.types = s.cfg.types := c2.types
  obtain ⟨mt, hmt⟩ : ∃ mt : Nat × Nat → Bool, ∀ c, mt c = match skel[c.1]?, s.procs[c.2]? with
    | some sk, some p => (match whateverMatch p.matchList (seen s.cfg.types sk) with
      | .ok r => r
      | .error _ => false)
    | _, _ => false := ⟨_, fun _ => rfl⟩
  have hmt' : ∀ (i j : Nat) (sk : List (CEntry K)) (p : Proc K) (r : Bool), skel[i]? = some sk →
      s.procs[j]? = some p → whateverMatch p.matchList (seen s.cfg.types sk) = .ok r →
      mt (i, j) = r := by
    intro i j sk p r h1 h2 h3
    rw [hmt]
    simp only [h1, h2, h3]
  obtain ⟨tr, htr⟩ : ∃ tr : Nat × Nat → K, ∀ c, tr c = match skel[c.1]?, s.procs[c.2]? with
    | some sk, some p => (match rateArgsOn s.cfg (seen s.cfg.types sk) p c.1 with
      | .ok a => env.callback a
      | .error _ => 0)
    | _, _ => 0 := ⟨_, fun _ => rfl⟩
  have htr' : ∀ (i j : Nat) (sk : List (CEntry K)) (p : Proc K) (a), skel[i]? = some sk →
      s.procs[j]? = some p → rateArgsOn s.cfg (seen s.cfg.types sk) p i = .ok a →
      tr (i, j) = env.callback a := by
    intro i j sk p r h1 h2 h3
    rw [htr]
    simp only [h1, h2, h3]
  -- the refreshed lists
  have hfresh : ∀ c ∈ pairsOf env.L s.procs indices, ∃ sk p, skel[c.1]? = some sk ∧
      s.procs[c.2]? = some p ∧ env.L.basisSite c.1 ∈ p.basisSites ∧
      cfg'.matchLists[c.1]? = some (seen s.cfg.types sk) := by
    intro c hc
    obtain ⟨h1, p, h2, h3⟩ := mem_pairsOf.1 hc
    have h4 := List.getElem?_eq_getElem (h.range _ h1)
    refine ⟨_, p, h4, h2, h3, ?_⟩
    have hne : processesFor env.L s.procs c.1 ≠ [] := by
      intro h0
      have := mem_processesFor.2 ⟨p, h2, h3⟩
      rw [h0] at this
      simp at this
    rw [c4, if_pos ⟨h1, hne⟩, h4]
    rfl
  have hpairs : PairsOk { s with cfg := cfg' } (pairsOf env.L s.procs indices) mt
      (fun c => (A c.2 c.1).isSome) := by
    constructor
    · intro c hc
      obtain ⟨sk, p, h1, h2, h3, h4⟩ := hfresh c hc
      obtain ⟨r, h5⟩ := h.matchable _ _ _ _ h1 h2 h3
      have h7 : mt c = r := hmt' c.1 c.2 sk p r h1 h2 h5
      exact ⟨p, _, h2, h4, by rw [h7]; exact h5, fun hm =>
        hmult _ _ _ _ (mem_pairsOf.1 hc).1 h1 h2 h3 (by rw [h5, ← h7, hm])⟩
    · intro c hc
      obtain ⟨h1, p, h2, h3⟩ := mem_pairsOf.1 hc
      obtain ⟨row, r1, r2, r3⟩ := h.book.inv c.1 (h.range _ h1)
      exact ⟨row, r1, r3 _ (List.getElem?_eq_some_iff.1 h2).1⟩
  obtain ⟨ts, t1, t2, t3, t4, t5⟩ := matchPairs_ok h.ranks hpairs
  have hnd := pairsOf_nodup (L := env.L) (procs := s.procs) h.nodup
  -- the rates
  obtain ⟨ts', rt', r1, r7, r2, r3, r4, r5, r6⟩ : ∃ ts' rt',
      (if env.useCustomRates then customRates env { s with cfg := cfg' } ts else pure (ts, s.rates)) =
        .ok (ts', rt') ∧
      (if env.useCustomRates then directRates env { s with cfg := cfg' } ts else pure ts) = .ok ts' ∧
      ts'.remove = ts.remove ∧
      ts'.update.map RateTask.cell = ts.update.map RateTask.cell ∧
      ts'.add.map RateTask.cell = ts.add.map RateTask.cell ∧
      (∀ t ∈ ts'.update ++ ts'.add, ∀ sk p, skel[t.index]? = some sk → s.procs[t.process]? = some p →
        RateIs env s.cfg (seen s.cfg.types sk) p t.index t.rate) ∧
      (env.useCustomRates = true → TableOk G rt') := by
    cases hcu : env.useCustomRates with
    | false =>
      refine ⟨ts, s.rates, rfl, rfl, rfl, rfl, rfl, ?_, by simp⟩
      intro t ht sk p hsk hp
      obtain ⟨p', hp', hrate⟩ := t5 t ht
      simp only at hp'
      rw [hp, Option.some.injEq] at hp'
      unfold RateIs
      rw [hcu, hrate, hp']
      simp
    | true =>
      have hcells : ∀ t ∈ ts.update ++ ts.add, t.cell ∈ pairsOf env.L s.procs indices ∧ mt t.cell = true := by
        intro t ht
        rcases List.mem_append.1 ht with ht | ht
        · have := List.mem_map_of_mem (f := RateTask.cell) ht
          rw [t3, List.mem_filter] at this
          simp only [Bool.and_eq_true] at this
          exact ⟨this.1, this.2.1⟩
        · have := List.mem_map_of_mem (f := RateTask.cell) ht
          rw [t4, List.mem_filter] at this
          simp only [Bool.and_eq_true] at this
          exact ⟨this.1, this.2.1⟩
      have hmtrue : ∀ (c : Nat × Nat) sk p, skel[c.1]? = some sk → s.procs[c.2]? = some p →
          env.L.basisSite c.1 ∈ p.basisSites → mt c = true →
          whateverMatch p.matchList (seen s.cfg.types sk) = .ok true := by
        intro c sk p h1 h2 h3 h4
        obtain ⟨r, h5⟩ := h.matchable _ _ _ _ h1 h2 h3
        rw [h5, ← h4, hmt' c.1 c.2 sk p r h1 h2 h5]
      have hro : RatesOk env { s with cfg := cfg' }
          (fun c => c ∈ pairsOf env.L s.procs indices ∧ mt c = true) tr G := by
        constructor
        rintro c ⟨hc, hmc⟩
        obtain ⟨sk, p, h1, h2, h3, h4⟩ := hfresh c hc
        obtain ⟨n1, a, n2, n3, n4⟩ := h.rates hcu _ _ _ _ (mem_pairsOf.1 hc).1 h1 h2 h3 (hmtrue c sk p h1 h2 h3 hmc)
        have htc : tr c = env.callback a := htr' c.1 c.2 sk p a h1 h2 n2
        refine ⟨p, _, a, h2, n1, rateKey_eq p h4, ?_, htc.symm, ?_, ?_⟩
        · rw [rateArgs_eq p h4, rateArgsOn_sameBut c2, n2]
        · rw [htc]; exact n3
        · rw [htc]; exact n4
      obtain ⟨rt', k1, k2⟩ := customRates_ok h.ranks hro (h.table hcu) ts hcells
      refine ⟨⟨ts.remove, ts.update.map (fun t => { t with rate := tr t.cell }),
          ts.add.map (fun t => { t with rate := tr t.cell })⟩, rt',
        by rw [if_pos rfl]; exact k1, ?_, rfl, ?_, ?_, ?_, fun _ => k2⟩
      · rw [if_pos rfl]
        unfold directRates
        rw [mapMM_eq_map (g := fun t => { t with rate := tr t.cell }), ok_bind,
          mapMM_eq_map (g := fun t => { t with rate := tr t.cell }), ok_bind]
        · rfl
        · intro t ht
          rw [taskRate_ok hro (hcells t (by simp [ht])), ok_bind]
          rfl
        · intro t ht
          rw [taskRate_ok hro (hcells t (by simp [ht])), ok_bind]
          rfl
      · simp [List.map_map, Function.comp_def, RateTask.cell]
      · simp [List.map_map, Function.comp_def, RateTask.cell]
      · intro t ht sk p hsk hp
        simp only [← List.map_append] at ht
        obtain ⟨u, hu, rfl⟩ := List.mem_map.1 ht
        obtain ⟨hc, hmc⟩ := hcells u hu
        obtain ⟨-, p', h2, h3⟩ := mem_pairsOf.1 hc
        simp only [RateTask.cell] at h2 h3
        simp only at hsk hp
        rw [hp, Option.some.injEq] at h2
        subst h2
        obtain ⟨n1, a, n2, n3, n4⟩ := h.rates hcu _ _ _ _ (mem_pairsOf.1 hc).1 hsk hp h3 (hmtrue u.cell sk p hsk hp h3 hmc)
        unfold RateIs
        rw [if_pos hcu]
        exact ⟨a, n2, (htr' u.index u.process sk p a hsk hp n2).symm⟩
  -- the bookkeeping
  have hrem : ∀ c, c ∈ ts'.remove ↔ c ∈ pairsOf env.L s.procs indices ∧ mt c = false ∧ (A c.2 c.1).isSome := by
    intro c; rw [r2, t2, List.mem_filter]; simp
  have hupd : ∀ c, c ∈ ts'.update.map RateTask.cell ↔
      c ∈ pairsOf env.L s.procs indices ∧ mt c = true ∧ (A c.2 c.1).isSome := by
    intro c; rw [r3, t3, List.mem_filter]; simp
  have hadd : ∀ c, c ∈ ts'.add.map RateTask.cell ↔
      c ∈ pairsOf env.L s.procs indices ∧ mt c = true ∧ A c.2 c.1 = none := by
    intro c; rw [r4, t4, List.mem_filter]; simp
  have p1 : ∀ c ∈ ts'.remove ++ ts'.update.map RateTask.cell ++ ts'.add.map RateTask.cell,
      c.1 < skel.length ∧ c.2 < s.procs.length := by
    intro c hc
    have hm : c ∈ pairsOf env.L s.procs indices := by
      simp only [List.mem_append] at hc
      rcases hc with (hc | hc) | hc
      · exact ((hrem c).1 hc).1
      · exact ((hupd c).1 hc).1
      · exact ((hadd c).1 hc).1
    obtain ⟨h1, p, h2, h3⟩ := mem_pairsOf.1 hm
    exact ⟨h.range _ h1, (List.getElem?_eq_some_iff.1 h2).1⟩
  have p2 : (ts'.remove ++ ts'.update.map RateTask.cell ++ ts'.add.map RateTask.cell).Nodup := by
    rw [List.nodup_append, List.nodup_append]
    refine ⟨⟨?_, ?_, ?_⟩, ?_, ?_⟩
    · rw [r2, t2]; exact hnd.filter _
    · rw [r3, t3]; exact hnd.filter _
    · rintro a ha b hb rfl
      have h1 := ((hrem a).1 ha).2.1
      have h2 := ((hupd a).1 hb).2.1
      rw [h1] at h2
      cases h2
    · rw [r4, t4]; exact hnd.filter _
    · rintro a ha b hb rfl
      obtain ⟨-, h1, h2⟩ := (hadd a).1 hb
      rcases List.mem_append.1 ha with ha | ha
      · have := ((hrem a).1 ha).2.1
        rw [h1] at this
        cases this
      · have := ((hupd a).1 ha).2.2
        rw [h2] at this
        cases this
  have p3 : ∀ c ∈ ts'.remove, (A c.2 c.1).isSome := fun c hc => ((hrem c).1 hc).2.2
  have p4 : ∀ t ∈ ts'.update, (A t.process t.index).isSome :=
    fun t ht => ((hupd t.cell).1 (List.mem_map_of_mem ht)).2.2
  have p5 : ∀ t ∈ ts'.add, A t.process t.index = none :=
    fun t ht => ((hadd t.cell).1 (List.mem_map_of_mem ht)).2.2
  have p6 : ∀ upd : Tasks K → Book K → M (Book K), calculateWith upd env s indices =
      (upd ts' (s.procs, s.inverse) >>= fun b => .ok ⟨cfg', b.1, b.2, rt'⟩) := by
    intro upd
    unfold calculateWith
    rw [c1, ok_bind]
    dsimp only
    rw [t1, ok_bind]
    cases hcu : env.useCustomRates with
    | true =>
      rw [hcu, if_pos rfl] at r1
      rw [if_pos rfl, r1, ok_bind]
      rfl
    | false =>
      rw [hcu, if_neg (by simp)] at r1
      rw [if_neg (by simp), r1, ok_bind]
      rfl
  obtain ⟨b, A', b1, b2, b3, b4, b5, b6⟩ := updateProcesses_ok (ts := ts') h.book p1 p2 p3 p4 p5
  refine ⟨cfg', ts', rt', { cfg := cfg', procs := b.1, inverse := b.2, rates := rt' }, A',
    ⟨p6, ?_, p1, p2, p3, p4, p5, r5⟩, ?_, ?_⟩
  · unfold directTasks
    rw [c1, ok_bind]
    dsimp only
    rw [t1, ok_bind]
    split at r7
    · next hcu => rw [if_pos hcu, r7]; rfl
    · next hcu =>
      cases r7
      rw [if_neg hcu]
      rfl
  · show calculateWith updateProcesses env s indices = _
    rw [p6, b1, ok_bind]
  · refine ⟨c2, c3.trans h.lists, c4, b2, b3, r6, ?_, ?_, ?_⟩
    · intro i j sk p hi hsk hp hb hm
      have hpair : (i, j) ∈ pairsOf env.L s.procs indices := mem_pairsOf.2 ⟨hi, p, hp, hb⟩
      have hmm := hmt' i j sk p true hsk hp hm
      have hmem : (i, j) ∈ (ts'.update ++ ts'.add).map RateTask.cell := by
        rw [List.map_append, List.mem_append, hupd, hadd]
        cases hA : A j i with
        | none => exact Or.inr ⟨hpair, hmm, rfl⟩
        | some v => exact Or.inl ⟨hpair, hmm, rfl⟩
      obtain ⟨t, ht, htc⟩ := List.mem_map.1 hmem
      simp only [RateTask.cell, Prod.mk.injEq] at htc
      obtain ⟨rfl, rfl⟩ := htc
      exact ⟨t.rate, b5 t ht, r5 t ht sk p hsk hp⟩
    · intro i j sk p hi hsk hp hb hm
      have hpair : (i, j) ∈ pairsOf env.L s.procs indices := mem_pairsOf.2 ⟨hi, p, hp, hb⟩
      have hmm := hmt' i j sk p false hsk hp hm
      cases hA : A j i with
      | some v => exact b4 (i, j) ((hrem _).2 ⟨hpair, hmm, by simp [hA]⟩)
      | none =>
        rw [b6 j i, hA]
        simp only [List.mem_append, not_or]
        refine ⟨⟨?_, ?_⟩, ?_⟩
        · intro hc
          have := ((hrem _).1 hc).2.2
          simp [hA] at this
        · intro hc
          have := ((hupd _).1 hc).2.1
          rw [hmm] at this
          cases this
        · intro hc
          have := ((hadd _).1 hc).2.1
          rw [hmm] at this
          cases this
    · intro i j hno
      apply b6
      have hnp : (i, j) ∉ pairsOf env.L s.procs indices := fun hc => hno (mem_pairsOf.1 hc)
      simp only [List.mem_append, not_or]
      exact ⟨⟨fun hc => hnp ((hrem _).1 hc).1, fun hc => hnp ((hupd _).1 hc).1⟩,
        fun hc => hnp ((hadd _).1 hc).1⟩

theorem calculateMatching_ok {env : Env K} {G : Nat → K → Prop} {skel : List (List (CEntry K))}
    {s : MState K} {A : Content K} {indices : List Nat} (h : CallOk env G skel s A indices)
    (hmult : MultOk env skel s indices) :
    ∃ s' A', calculateMatching env s indices = .ok s' ∧ CallDone env G skel s A indices s' A' := by
  obtain ⟨_, _, _, s', A', -, h1, h2⟩ := calculateMatching_plan h hmult
  exact ⟨s', A', h1, h2⟩

end Matcher
end KMC
