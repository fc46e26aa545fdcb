import Verif.Lemmas.EventStep

/-!
# One step keeps the invariant
-/

set_option linter.unusedSectionVars false

namespace KMC

variable {K : Type _} [Field K] [LinearOrder K]

open LatticeModel

theorem Proc.updateRateTable_fields {p p' : Proc K} (h : p.updateRateTable = .ok p') :
    p' = { p with rateTable := p'.rateTable } := by
  unfold Proc.updateRateTable at h
  split at h
  · rw [bind_ok] at h
    obtain ⟨t, -, h⟩ := h
    cases h
    rfl
  · cases h
    rfl

/-- What `select` gives. -/
theorem select_ok {procs : List (Proc K)} {table : List (K × Nat)} {u1 u2 : K} {r : Nat × Nat × List (Proc K)}
    (h : select procs table u1 u2 = .ok r) :
    ∃ p p', procs[r.1]? = some p ∧ p' = { p with rateTable := p'.rateTable } ∧
      r.2.2 = procs.set r.1 p' ∧ r.2.1 ∈ p.sites := by
  unfold select at h
  rw [bind_ok] at h
  obtain ⟨pk, hpk, h⟩ := h
  rw [bind_ok] at h
  obtain ⟨site, hsite, h⟩ := h
  cases h
  unfold Interactions.pickProcess at hpk
  rw [bind_ok] at hpk
  obtain ⟨i, hi, hpk⟩ := hpk
  rw [bind_ok] at hpk
  obtain ⟨p, hp, hpk⟩ := hpk
  rw [bind_ok] at hpk
  obtain ⟨p', hp', hpk⟩ := hpk
  rw [bind_ok] at hpk
  obtain ⟨ps, hps, hpk⟩ := hpk
  cases hpk
  have hf := Proc.updateRateTable_fields hp'
  refine ⟨p, p', rd_ok.1 hp, hf, (wr_ok.1 hps).2.symm, ?_⟩
  unfold Proc.pickSite at hsite
  simp only at hsite ⊢
  split at hsite
  · cases hsite
  · have := List.mem_of_getElem? (rd_ok.1 hsite)
    rw [hf] at this
    exact this

theorem Proc.Rep.congr {p p' : Proc K} {A : Nat → Option K} (h : p.Rep A) (h1 : p'.sites = p.sites)
    (h2 : p'.siteMult = p.siteMult) (h3 : p'.siteRates = p.siteRates) (h4 : p'.totalRate = p.totalRate)
    (h5 : p'.custom = p.custom) (h6 : p'.rate = p.rate) : p'.Rep A := by
  obtain ⟨⟨c1, c2, c3, c4⟩, o, l, r⟩ := h
  refine ⟨⟨by rw [h1]; exact c1, by rw [h1, h2]; exact c2, by rw [h1, h3, h5]; exact c3, ?_⟩,
    by rw [h2]; exact o, by rw [h1]; exact l, by rw [h1, h3, h5]; exact r⟩
  unfold Proc.weights at c4 ⊢
  rw [h2, h3, h4, h5, h6]
  exact c4

namespace World

variable {W : World K}

/-- Replacing a process record by one that differs in the scratch fields. -/
theorem PreA.setProc {s : MState K} {A : Matcher.Content K} (h : W.PreA s A) {j : Nat} {q q' : Proc K}
    (hq : s.procs[j]? = some q) (hst : q'.still = q.still) (h1 : q'.sites = q.sites)
    (h2 : q'.siteMult = q.siteMult) (h3 : q'.siteRates = q.siteRates) (h4 : q'.totalRate = q.totalRate)
    (haff : ∀ a ∈ q'.affected, a < W.n) : W.PreA { s with procs := s.procs.set j q' } A := by
  have hjl := (List.getElem?_eq_some_iff.1 hq).1
  have h5 : q'.custom = q.custom := by
    have : q'.still.custom = q.still.custom := by rw [hst]
    exact this
  have h6 : q'.rate = q.rate := by
    have : q'.still.rate = q.still.rate := by rw [hst]
    exact this
  refine ⟨h.good, h.coords, h.names, h.roomI, h.roomV, ?_, h.geo, ?_, h.table, ?_, h.basis, h.off⟩
  · rw [← h.procs, List.map_set]
    apply List.ext_getElem?
    intro k
    rw [List.getElem?_set]
    split
    · next hk =>
      subst hk
      rw [List.length_map, if_pos hjl, List.getElem?_map, hq, hst]
      rfl
    · rfl
  · intro p hp a ha
    rcases List.mem_or_eq_of_mem_set hp with hp | rfl
    · exact h.affected p hp a ha
    · exact haff a ha
  · refine ⟨?_, ?_, h.book.invLen⟩
    · intro k p hk
      simp only at hk
      rw [List.getElem?_set] at hk
      split at hk
      · next hjk =>
        subst hjk
        rw [Option.some.injEq] at hk
        rw [← hk]
        exact (h.book.rep j q hq).congr h1 h2 h3 h4 h5 h6
      · exact h.book.rep k p hk
    · intro k hk
      obtain ⟨row, r1, r2, r3⟩ := h.book.inv k hk
      refine ⟨row, r1, by simpa using r2, ?_⟩
      intro i hi
      exact r3 i (by simpa using hi)

/-- The configuration is replaced by the one after an event. -/
theorem PreA.setCfg {s : MState K} {A : Matcher.Content K} (h : W.PreA s A) {j site : Nat} {q : Proc K}
    {sk : List (CEntry K)} {cfg1 cfg2 : Config K} {aff : List Nat}
    (he : W.Event s j site q sk cfg1 cfg2 aff) : W.PreA { s with cfg := cfg2 } A := by
  refine ⟨he.good h.good, by rw [← h.coords]; exact he.coords, by rw [← h.names]; exact he.names,
    ?_, ?_, h.procs, ?_, h.affected, h.table, h.book, h.basis, h.off⟩
  · have h1 : cfg2.movedIds = cfg1.movedIds := by rw [he.moved.rest]
    have h2 := congrArg List.length he.done.ids
    simp only [List.length_append, List.length_take, List.length_map, List.length_drop] at h2
    have h3 := he.ready.roomI
    have h4 := h.roomI
    simp only [h1]
    omega
  · have h1 : cfg2.moveVectors = cfg1.moveVectors := by rw [he.moved.rest]
    have h2 := congrArg List.length he.done.vectors
    simp only [List.length_append, List.length_take, List.length_map, List.length_drop] at h2
    have h3 := he.ready.roomV
    have h4 := h.roomV
    simp only [h1]
    omega
  · intro i ml sk' hml hsk
    simp only [he.lists] at hml
    exact h.geo i ml sk' hml hsk

/-- The sites that are matched again. -/
def again (W : World K) (aff : List Nat) : List Nat := W.env.L.supersetNeighbourIndices aff W.range

/-- The state between performing and matching. -/
def mid (s : MState K) (j : Nat) (q : Proc K) (cfg2 : Config K) (aff : List Nat) : MState K :=
  { s with cfg := cfg2, procs := s.procs.set j { q with affected := aff } }

section
variable {s : MState K} {A : Matcher.Content K} {j site : Nat} {q : Proc K}
  {sk : List (CEntry K)} {cfg1 cfg2 : Config K} {aff : List Nat}

theorem performAt_eq (he : W.Event s j site q sk cfg1 cfg2 aff) :
    performAt s j site = .ok (mid s j q cfg2 aff) := by
  unfold performAt
  rw [rd_of_getElem? he.proc, ok_bind, he.result, ok_bind,
    wr_of_lt (List.getElem?_eq_some_iff.1 he.proc).1, ok_bind]
  rfl

theorem Event.affLen (he : W.Event s j site q sk cfg1 cfg2 aff) : aff.length = q.affected.length := by
  have h1 := he.aff_eq
  have h2 := he.ready.roomA
  rw [h1, List.length_append, List.length_drop]
  unfold changed
  rw [List.length_map]
  omega

theorem mid_pre (h : W.PreA s A) (he : W.Event s j site q sk cfg1 cfg2 aff) :
    W.PreA (mid s j q cfg2 aff) A := by
  have h1 := h.setCfg he
  refine h1.setProc (j := j) (q := q) (q' := { q with affected := aff }) he.proc ?_ rfl rfl rfl rfl ?_
  · simp only [Proc.still, he.affLen]
    rfl
  · intro a ha
    simp only [he.aff_eq, List.mem_append] at ha
    rcases ha with ha | ha
    · exact he.changed_lt ha
    · exact h.affected q (List.mem_of_getElem? he.proc) a (List.mem_of_mem_drop ha)

theorem rematch_eq (h : W.Ok) (hp : W.PreA s A) (he : W.Event s j site q sk cfg1 cfg2 aff) :
    rematch W.env (mid s j q cfg2 aff) j = Matcher.calculateMatching W.env (mid s j q cfg2 aff) (W.again aff) := by
  unfold rematch
  have h1 : (mid s j q cfg2 aff).procs[j]? = some { q with affected := aff } := by
    simp only [mid]
    rw [List.getElem?_set, if_pos rfl, if_pos (List.getElem?_eq_some_iff.1 he.proc).1]
  rw [rd_of_getElem? h1, ok_bind]
  unfold again
  rw [h.maxRange, ← (mid_pre hp he).procs, Interactions.maxRange_still]

theorem again_nodup (aff : List Nat) : (W.again aff).Nodup :=
  (LatticeMap.superset_sorted W.env.L aff W.range).imp (fun h => Nat.ne_of_lt h)

theorem again_lt (h : W.Ok) (haff : ∀ a ∈ aff, a < W.n) : ∀ i ∈ W.again aff, i < W.n := by
  intro i hi
  obtain ⟨a, ha, hn⟩ := (LatticeMap.mem_superset _ _ _ _).1 hi
  have hlt := haff a ha
  rw [← h.sites] at hlt ⊢
  exact ((W.env.L.mem_neighbourIndices h.wf _ _ _ hlt).1 hn).1

theorem mid_call (h : W.Ok) (hp : W.PreA s A) (he : W.Event s j site q sk cfg1 cfg2 aff) :
    Matcher.CallOk W.env W.Stores W.skel (mid s j q cfg2 aff) A (W.again aff) := by
  have hm := mid_pre hp he
  refine callOk h hm (again_nodup aff) (again_lt h ?_)
  intro a ha
  refine hm.affected { q with affected := aff } ?_ a ha
  simp only [mid]
  exact List.mem_set (List.getElem?_eq_some_iff.1 he.proc).1 _

/-- A site that is not matched again does not see any changed site. -/
theorem not_again (h : W.Ok) (he : W.Event s j site q sk cfg1 cfg2 aff) {i : Nat} {ski : List (CEntry K)}
    (hsk : W.skel[i]? = some ski) (hi : i ∉ W.again aff) {e : CEntry K} (hem : e ∈ ski) :
    e.index ∉ changed s q sk := by
  intro hc
  apply hi
  unfold again
  rw [LatticeMap.mem_superset]
  refine ⟨e.index, by rw [he.aff_eq]; exact List.mem_append_left _ hc, ?_⟩
  have hi' : i < W.n := by rw [← h.len]; exact (List.getElem?_eq_some_iff.1 hsk).1
  have he' := h.index hsk hem
  have hn := h.near i ski hsk e hem
  rw [← h.sites] at hi' he'
  rw [W.env.L.mem_neighbourIndices h.wf _ _ _ hi'] at hn
  rw [W.env.L.mem_neighbourIndices h.wf _ _ _ he']
  exact ⟨hi', LatticeMap.near_symm _ _ _ _ hn.2⟩

/-- Matching again after an event restores the invariant. -/
theorem mid_inv (h : W.Ok) (hI : W.InvA s A) (he : W.Event s j site q sk cfg1 cfg2 aff)
    {s' : MState K} {A' : Matcher.Content K}
    (hd : Matcher.CallDone W.env W.Stores W.skel (mid s j q cfg2 aff) A (W.again aff) s' A') : W.InvA s' A' := by
  have hm := mid_pre hI.toPreA he
  refine inv_of_call h hm (again_lt h ?_) ?_ hd
  · intro a ha
    refine hm.affected { q with affected := aff } ?_ a ha
    simp only [mid]
    exact List.mem_set (List.getElem?_eq_some_iff.1 he.proc).1 _
  · intro i ski hi hsk
    obtain ⟨g1, g2, g3⟩ := hI.right i ski hsk
    have hseen : seen cfg2.types ski = seen s.cfg.types ski :=
      seen_local (fun e hem => he.typeOff (not_again h he hsk hi hem))
    refine ⟨?_, ?_, ?_⟩
    · intro hne
      simp only [mid, he.lists, hseen]
      exact g1 hne
    · intro k p hk
      simp only [mid, hseen]
      exact g2 k p hk
    · intro k p r hk hA
      have := g3 k p r hk hA
      unfold Matcher.RateIs at this ⊢
      simp only [mid, hseen]
      rw [Matcher.rateArgsOn_local he.coords he.names]
      · exact this
      · intro e hem
        obtain ⟨e', he', rfl⟩ := List.mem_map.1 hem
        exact he.elementOff (not_again h he hsk hi (e := e') he')
      · intro e hem
        obtain ⟨e', he', rfl⟩ := List.mem_map.1 hem
        exact he.typeOff (not_again h he hsk hi (e := e') he')
end

/-- The states of one step. -/
structure StepOf (W : World K) (s s' : Sim K) (ms0 : MState K) (j site : Nat) (q : Proc K)
    (sk : List (CEntry K)) (cfg1 cfg2 : Config K) (aff : List Nat) : Prop where
  cfg : ms0.cfg = s.ms.cfg
  still : ms0.procs.map Proc.still = s.ms.procs.map Proc.still
  listed : ∃ p, s.ms.procs[j]? = some p ∧ p.still = q.still ∧ site ∈ p.sites
  inv : W.Inv ms0
  event : W.Event ms0 j site q sk cfg1 cfg2 aff
  same : Matcher.SameBut cfg2 s'.ms.cfg
  inv' : W.Inv s'.ms
  table : s'.table = Interactions.probabilityTable s'.ms.procs
  time : s'.time = s.time

/-- After the selection the invariant still holds. -/
theorem select_inv {s : MState K} {A : Matcher.Content K} (hI : W.InvA s A) {j : Nat} {p p' : Proc K}
    (hp : s.procs[j]? = some p) (hp' : p' = { p with rateTable := p'.rateTable }) :
    W.InvA { s with procs := s.procs.set j p' } A ∧
      (s.procs.set j p')[j]? = some p' ∧ p'.still = p.still ∧ p'.sites = p.sites := by
  have hst : p'.still = p.still := by rw [hp']; rfl
  have hsites : p'.sites = p.sites := by rw [hp']
  refine ⟨⟨?_, fun i sk hsk => ?_⟩, ?_, hst, hsites⟩
  · refine hI.toPreA.setProc hp hst hsites (by rw [hp']) (by rw [hp']) (by rw [hp']) ?_
    intro a ha
    rw [hp'] at ha
    exact hI.affected p (List.mem_of_getElem? hp) a ha
  · obtain ⟨g1, g2, g3⟩ := hI.right i sk hsk
    exact ⟨g1, g2, g3⟩
  · rw [List.getElem?_set, if_pos rfl, if_pos (List.getElem?_eq_some_iff.1 hp).1]

/-- A step that ends is the selected event followed by matching, and keeps the invariant. -/
theorem singleStep_sel (h : W.Ok) {s s' : Sim K} (hI : W.Inv s.ms) {u1 u2 : K} {e : Nat × Nat × List (Proc K)}
    (hsel : select s.ms.procs s.table u1 u2 = .ok e) (hs : singleStep W.env s u1 u2 = .ok s') :
    ∃ ms0 q sk cfg1 cfg2 aff, W.StepOf s s' ms0 e.1 e.2.1 q sk cfg1 cfg2 aff := by
  obtain ⟨A, hI⟩ := hI
  unfold singleStep at hs
  rw [hsel, ok_bind, bind_ok] at hs
  obtain ⟨ms1, hperf, hs⟩ := hs
  rw [bind_ok] at hs
  obtain ⟨ms2, hre, hs⟩ := hs
  cases hs
  obtain ⟨p, p', hp, hp', hset, hsite⟩ := select_ok hsel
  obtain ⟨hI0, hp0, hst, hsites⟩ := select_inv hI hp hp'
  rw [hset] at hperf
  obtain ⟨sk, cfg1, cfg2, aff, hev⟩ := event_ok h hI0 (j := e.1) (q := p') hp0 (by rw [hsites]; exact hsite)
  rw [performAt_eq hev] at hperf
  cases hperf
  rw [rematch_eq h hI0.toPreA hev] at hre
  have hcall := mid_call h hI0.toPreA hev
  obtain ⟨s2, A2, h1, h2⟩ := Matcher.calculateMatching_ok hcall (Matcher.multOk_of_ok hcall hre)
  rw [hre] at h1
  cases h1
  refine ⟨{ s.ms with procs := s.ms.procs.set e.1 p' }, p', sk, cfg1, cfg2, aff, rfl, ?_, ⟨p, hp, hst.symm, hsite⟩, ⟨A, hI0⟩, hev, h2.same,
    ⟨A2, mid_inv h hI0 hev h2⟩, rfl, rfl⟩
  exact hI0.procs.trans hI.procs.symm

/-- A step that ends is an event followed by matching, and keeps the invariant. -/
theorem singleStep_ok (h : W.Ok) {s s' : Sim K} (hI : W.Inv s.ms) {u1 u2 : K}
    (hs : singleStep W.env s u1 u2 = .ok s') :
    ∃ ms0 j site q sk cfg1 cfg2 aff, W.StepOf s s' ms0 j site q sk cfg1 cfg2 aff := by
  have hs' := hs
  unfold singleStep at hs'
  rw [bind_ok] at hs'
  obtain ⟨e, hsel, -⟩ := hs'
  obtain ⟨ms0, h⟩ := singleStep_sel h hI hsel hs
  exact ⟨ms0, e.1, e.2.1, h⟩

/-- The step goes through when the selection does and no multiplicity overflows. -/
theorem singleStep_progress (h : W.Ok) {s : Sim K} (hI : W.Inv s.ms) {u1 u2 : K}
    {r : Nat × Nat × List (Proc K)} (hsel : select s.ms.procs s.table u1 u2 = .ok r)
    (hmult : ∀ ms0 q sk cfg1 cfg2 aff, ms0.cfg = s.ms.cfg → W.Event ms0 r.1 r.2.1 q sk cfg1 cfg2 aff →
      Matcher.MultOk W.env W.skel (mid ms0 r.1 q cfg2 aff) (W.again aff)) :
    ∃ s', singleStep W.env s u1 u2 = .ok s' := by
  obtain ⟨A, hI⟩ := hI
  obtain ⟨p, p', hp, hp', hset, hsite⟩ := select_ok hsel
  obtain ⟨hI0, hp0, hst, hsites⟩ := select_inv hI hp hp'
  obtain ⟨sk, cfg1, cfg2, aff, hev⟩ := event_ok h hI0 (j := r.1) (q := p') hp0 (by rw [hsites]; exact hsite)
  have hcall := mid_call h hI0.toPreA hev
  obtain ⟨s2, A2, h1, h2⟩ := Matcher.calculateMatching_ok hcall (hmult _ p' sk cfg1 cfg2 aff rfl hev)
  unfold singleStep
  rw [hsel, ok_bind, hset, performAt_eq hev, ok_bind, rematch_eq h hI0.toPreA hev, h1, ok_bind]
  exact ⟨_, rfl⟩

end World
end KMC
