import Verif.Lemmas.World

/-!
# A call of the matcher restores the invariant
-/

set_option linter.unusedSectionVars false

namespace KMC

variable {K : Type _} [Field K] [LinearOrder K]

theorem geoMatch_of_fits {ps : List (PEntry K)} {types : List Bucket} {sk l1 l2 : List (CEntry K)}
    (h : seen types sk = l1 ++ l2) (hf : List.Forall₂ Fits ps l1) : GeoMatch ps sk := by
  unfold seen at h
  obtain ⟨k1, k2, rfl, rfl, rfl⟩ := List.map_eq_append_iff.1 h
  refine ⟨k1, k2, rfl, ?_⟩
  rw [List.forall₂_map_right_iff] at hf
  exact hf.imp fun p c hpc => by
    rcases hpc with h | h
    · exact .inl h
    · exact .inr h.1

theorem Interactions.maxRange_still (procs : List (Proc K)) :
    Interactions.maxRange (procs.map Proc.still) = Interactions.maxRange procs := by
  unfold Interactions.maxRange
  rw [List.foldl_map]
  rfl

theorem Matcher.processesFor_still (L : LatticeMap) (procs : List (Proc K)) (i : Nat) :
    Matcher.processesFor L (procs.map Proc.still) i = Matcher.processesFor L procs i := by
  unfold Matcher.processesFor
  rw [List.zipIdx_map, List.filter_map, List.map_map]
  rfl

theorem still_of_core {ps ps' : List (Proc K)} (h : ps'.map Proc.core = ps.map Proc.core) :
    ps'.map Proc.still = ps.map Proc.still := by
  have h1 : ∀ ps : List (Proc K), ps.map Proc.still =
      (ps.map Proc.core).map (fun p => { p with affected := List.replicate p.affected.length 0 }) := by
    intro ps
    rw [List.map_map]
    rfl
  rw [h1, h, ← h1]

namespace World

variable {W : World K}

theorem PreA.proc {s : MState K} {A : Matcher.Content K} (h : W.PreA s A) {j : Nat} {p : Proc K}
    (hp : s.procs[j]? = some p) : W.procs[j]? = some p.still := by
  rw [← h.procs, List.getElem?_map, hp]
  rfl

theorem PreA.proc' {s : MState K} {A : Matcher.Content K} (h : W.PreA s A) {j : Nat} {p : Proc K}
    (hp : W.procs[j]? = some p) : ∃ q, s.procs[j]? = some q ∧ q.still = p := by
  rw [← h.procs, List.getElem?_map, Option.map_eq_some_iff] at hp
  exact hp

theorem Ok.index {i : Nat} (h : W.Ok) {sk : List (CEntry K)} (hsk : W.skel[i]? = some sk) {e : CEntry K}
    (he : e ∈ sk) : e.index < W.n := by
  have h1 := h.near i sk hsk e he
  have hi : i < W.n := by rw [← h.len]; exact (List.getElem?_eq_some_iff.1 hsk).1
  rw [← h.sites] at hi ⊢
  exact ((W.env.L.mem_neighbourIndices h.wf _ _ _ hi).1 h1).1

theorem Ok.sized (h : W.Ok) {cfg : Config K} (hg : cfg.Good W.n W.nT) {i : Nat} {sk : List (CEntry K)}
    (hsk : W.skel[i]? = some sk) : SizedC W.nT (seen cfg.types sk) :=
  sized_seen hg.shape.types hg.bucket (fun _ he => h.index hsk he)

theorem callOk (h : W.Ok) {s : MState K} {A : Matcher.Content K} (hp : W.PreA s A) {indices : List Nat}
    (hn : indices.Nodup) (hr : ∀ i ∈ indices, i < W.n) :
    Matcher.CallOk W.env W.Stores W.skel s A indices where
  ranks := h.ranks
  book := by rw [h.len]; exact hp.book
  lists := by rw [hp.good.shape.matchLists, h.len]
  geo := hp.geo
  entries := by
    intro sk hsk e he
    obtain ⟨i, hi⟩ := List.mem_iff_getElem?.1 hsk
    rw [hp.good.shape.types]
    exact h.index hi he
  nodup := hn
  range := by rw [h.len]; exact hr
  matchable := by
    intro i j sk p hsk hpj _
    obtain ⟨r, hr, -⟩ := whateverMatch_ok h.typed p.matchList _
      (h.proc _ (List.mem_of_getElem? (hp.proc hpj))).sized (h.sized hp.good hsk)
    exact ⟨r, hr⟩
  table := hp.table
  rates := by
    intro hcu i j sk p hi hsk hpj hb hm
    have hpw := hp.proc hpj
    have hmem := List.mem_of_getElem? hpw
    have hpo := h.proc _ hmem
    obtain ⟨r, hr1, hr2⟩ := whateverMatch_ok h.typed p.matchList _ hpo.sized (h.sized hp.good hsk)
    rw [hm] at hr1
    cases hr1
    obtain ⟨l1, l2, hl, hf⟩ := hr2.1 rfl
    obtain ⟨hpos, hlen⟩ := h.inside hcu i sk p.still hsk hmem hb (geoMatch_of_fits hl hf)
    obtain ⟨a, ha⟩ := Matcher.rateArgsOn_ok (p := p) h.typed hp.good (hr i hi) (cml := seen s.cfg.types sk)
      (by
        intro e he
        obtain ⟨e', he', rfl⟩ := List.mem_map.1 he
        show e'.index < W.n
        exact h.index hsk he')
      (by rw [Matcher.withinCutoff_seen, length_seen]; exact hpos)
      (by rw [Matcher.withinCutoff_seen, length_seen]; exact hlen) hpo.updates
    have hask : W.Asks s.cfg p.still i (seen s.cfg.types sk) a :=
      ⟨hp.good, hp.coords, hp.names, hmem, ⟨sk, hsk, rfl⟩, hb, hm, ha⟩
    refine ⟨h.number hcu j p.still hpw, a, ha, ?_, ?_⟩
    · rintro w ⟨cfg', p', i', cml', a', ha', hc', hk, rfl⟩
      exact h.keys hcu _ _ _ _ _ _ _ _ _ _ ha' hc' hask hk.symm
    · intro hc
      exact ⟨s.cfg, p.still, i, _, a, hask, hc, rfl, rfl⟩

theorem _root_.KMC.Config.Good.sameBut {n nT : Nat} {cfg cfg' : Config K} (h : cfg.Good n nT)
    (hs : Matcher.SameBut cfg cfg') (hl : cfg'.matchLists.length = n) : cfg'.Good n nT := by
  obtain ⟨⟨s1, s2, s3, s4, s5, s6, s7⟩, h2, h3, h4, h5, h6, h7, h8⟩ := h
  unfold Matcher.SameBut at hs
  constructor
  · constructor
    · rw [hs]; exact s1
    · rw [hs]; exact s2
    · rw [hs]; exact s3
    · rw [hs]; exact s4
    · rw [hs]; exact s5
    · rw [hs]; exact s6
    · exact hl
  · rw [hs]; exact h2
  · rw [hs]; exact h3
  · rw [hs]; exact h4
  · rw [hs]; exact h5
  · rw [hs]; exact h6
  · rw [hs]; exact h7
  · unfold Config.Tallied at h8 ⊢
    rw [hs]; exact h8

theorem rateIs_sameBut {env : Env K} {cfg cfg' : Config K} (h : Matcher.SameBut cfg cfg') {cml : List (CEntry K)}
    {p : Proc K} {i : Nat} {r : K} (hr : Matcher.RateIs env cfg cml p i r) :
    Matcher.RateIs env cfg' cml p i r := by
  unfold Matcher.RateIs at hr ⊢
  rw [Matcher.rateArgsOn_sameBut h]
  exact hr

/-- After a call everything is right that was right before or was looked at. -/
theorem inv_of_call (h : W.Ok) {s : MState K} {A : Matcher.Content K} (hp : W.PreA s A) {indices : List Nat}
    (hr : ∀ i ∈ indices, i < W.n)
    (hright : ∀ (i : Nat) (sk : List (CEntry K)), i ∉ indices → W.skel[i]? = some sk → W.RightAt s A i sk)
    {s' : MState K} {A' : Matcher.Content K}
    (hd : Matcher.CallDone W.env W.Stores W.skel s A indices s' A') : W.InvA s' A' := by
  have htypes := hd.same.types
  have hprocs : s'.procs.map Proc.still = W.procs := by rw [still_of_core hd.core, hp.procs]
  have hfor : ∀ i, Matcher.processesFor W.env.L s.procs i = Matcher.processesFor W.env.L W.procs i := by
    intro i
    rw [← hp.procs, Matcher.processesFor_still]
  have hother : ∀ (i j : Nat), (∀ p, W.procs[j]? = some p → i ∈ indices →
      W.env.L.basisSite i ∉ p.basisSites) → A' j i = A j i := by
    intro i j hno
    apply hd.other
    rintro ⟨hi, p, hpj, hb⟩
    exact hno p.still (hp.proc hpj) hi hb
  refine ⟨⟨?_, ?_, ?_, ?_, ?_, hprocs, ?_, ?_, hd.table, ?_, ?_, ?_⟩, ?_⟩
  · exact hp.good.sameBut hd.same (by rw [hd.lists, h.len])
  · rw [hd.same]; exact hp.coords
  · rw [hd.same]; exact hp.names
  · rw [hd.same]; exact hp.roomI
  · rw [hd.same]; exact hp.roomV
  · intro i ml sk hml hsk
    rw [hd.list, hsk] at hml
    split at hml
    · simp only [Option.map_some, Option.some.injEq] at hml
      rw [← hml]
      exact sameGeo_seen _ _
    · exact hp.geo i ml sk hml hsk
  · intro p hpm a ha
    have : p.core ∈ s'.procs.map Proc.core := List.mem_map_of_mem hpm
    rw [hd.core] at this
    obtain ⟨q, hq, hqp⟩ := List.mem_map.1 this
    have haff : q.core.affected = p.core.affected := by rw [hqp]
    have haff : q.affected = p.affected := haff
    rw [← haff] at ha
    exact hp.affected q hq a ha
  · rw [← h.len]; exact hd.book
  · intro i j p hi hpj hb
    rw [hother i j ?_]
    · exact hp.basis i j p hi hpj hb
    · intro p' hp' _
      rw [hpj, Option.some.injEq] at hp'
      rw [← hp']
      exact hb
  · intro i j hij
    rw [hother i j ?_]
    · exact hp.off i j hij
    · intro p hpj hi
      exact absurd ⟨hr i hi, (List.getElem?_eq_some_iff.1 hpj).1⟩ hij
  · intro i sk hsk
    have hi : i < W.n := by rw [← h.len]; exact (List.getElem?_eq_some_iff.1 hsk).1
    by_cases him : i ∈ indices
    · refine ⟨?_, ?_, ?_⟩
      · intro hne
        rw [hd.list, if_pos ⟨him, by rw [hfor]; exact hne⟩, hsk, htypes]
        rfl
      · intro j p hpj
        obtain ⟨q, hq, rfl⟩ := hp.proc' hpj
        by_cases hb : W.env.L.basisSite i ∈ q.basisSites
        · obtain ⟨r, hr1, -⟩ := whateverMatch_ok h.typed q.matchList _
            (h.proc _ (List.mem_of_getElem? hpj)).sized (h.sized hp.good hsk)
          rw [htypes]
          cases r with
          | true =>
            obtain ⟨v, hv, -⟩ := hd.hit i j sk q him hsk hq hb hr1
            simp only [hv, Option.isSome_some, true_iff]
            exact ⟨hb, hr1⟩
          | false =>
            rw [hd.miss i j sk q him hsk hq hb hr1]
            simp only [Option.isSome_none, Bool.false_eq_true, false_iff, not_and]
            intro _
            show ¬ whateverMatch q.matchList _ = _
            rw [hr1]
            simp
        · rw [hother i j ?_, hp.basis i j _ hi hpj hb]
          · simp only [Option.isSome_none, Bool.false_eq_true, false_iff, not_and]
            exact fun h => absurd h hb
          · intro p' hp' _
            rw [hpj, Option.some.injEq] at hp'
            rw [← hp']
            exact hb
      · intro j p r hpj hA
        obtain ⟨q, hq, rfl⟩ := hp.proc' hpj
        rw [htypes]
        apply rateIs_sameBut hd.same
        by_cases hb : W.env.L.basisSite i ∈ q.basisSites
        · obtain ⟨m, hm, -⟩ := whateverMatch_ok h.typed q.matchList _
            (h.proc _ (List.mem_of_getElem? hpj)).sized (h.sized hp.good hsk)
          cases m with
          | true =>
            obtain ⟨v, hv, hv'⟩ := hd.hit i j sk q him hsk hq hb hm
            rw [hA, Option.some.injEq] at hv
            rw [hv]
            exact hv'
          | false =>
            rw [hd.miss i j sk q him hsk hq hb hm] at hA
            cases hA
        · rw [hother i j ?_, hp.basis i j _ hi hpj hb] at hA
          · cases hA
          · intro p' hp' _
            rw [hpj, Option.some.injEq] at hp'
            rw [← hp']
            exact hb
    · obtain ⟨g1, g2, g3⟩ := hright i sk him hsk
      have hA : ∀ j, A' j i = A j i := fun j => hother i j (fun _ _ hi => absurd hi him)
      refine ⟨?_, ?_, ?_⟩
      · intro hne
        rw [hd.list, if_neg (fun h => him h.1), htypes]
        exact g1 hne
      · intro j p hpj
        rw [hA, htypes]
        exact g2 j p hpj
      · intro j p r hpj hAj
        rw [hA] at hAj
        rw [htypes]
        exact rateIs_sameBut hd.same (g3 j p r hpj hAj)

end World
end KMC
