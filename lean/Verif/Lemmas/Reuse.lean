import Verif.Lemmas.Worn

/-!
# Runs in lockstep

Two states that differ in the scratch memory of the processes only stay so.
-/

set_option linter.unusedSectionVars false

namespace KMC

open LatticeModel

variable {K : Type} [Field K] [LinearOrder K]

namespace Config

theorem actOne_slots {cfg cfg' : Config K} {a a' b : List Nat} {e : PEntry K} {c : CEntry K}
    (hab : b.length = a.length) (h : actOne (cfg, a) e c = .ok (cfg', a')) :
    ∃ b', actOne (cfg, b) e c = .ok (cfg', b') ∧ b'.length = a'.length := by
  unfold actOne at h ⊢
  rw [bind_ok] at h
  obtain ⟨id, h1, h⟩ := h
  rw [bind_ok] at h
  obtain ⟨ac, h2, h⟩ := h
  rw [bind_ok] at h
  obtain ⟨aic, h3, h⟩ := h
  rw [bind_ok] at h
  obtain ⟨t0, h4, h⟩ := h
  rw [bind_ok] at h
  obtain ⟨t1, h5, h⟩ := h
  rw [bind_ok] at h
  obtain ⟨ty, h6, h⟩ := h
  rw [bind_ok] at h
  obtain ⟨els, h7, h⟩ := h
  rw [bind_ok] at h
  obtain ⟨el, h8, h⟩ := h
  simp only at h1 h2 h3 h4 h5 h6 h7 h8 h ⊢
  have tail : ∀ {aie : List String} {r : Config K × List Nat},
      (wr a cfg.nMoved c.index >>= fun affected' => wr cfg.movedIds cfg.nMoved id >>= fun movedIds =>
        wr cfg.moveVectors cfg.nMoved e.moveCoord >>= fun moveVectors =>
        (pure ({ cfg with
          atomIdCoords := aic, types := ty, elements := el, atomIdElements := aie, movedIds := movedIds
          moveVectors := moveVectors, nMoved := cfg.nMoved + 1 }, affected') :
          M (Config K × List Nat))) = .ok r →
      ∃ b', (wr b cfg.nMoved c.index >>= fun affected' => wr cfg.movedIds cfg.nMoved id >>= fun movedIds =>
        wr cfg.moveVectors cfg.nMoved e.moveCoord >>= fun moveVectors =>
        (pure ({ cfg with
          atomIdCoords := aic, types := ty, elements := el, atomIdElements := aie, movedIds := movedIds
          moveVectors := moveVectors, nMoved := cfg.nMoved + 1 }, affected') :
          M (Config K × List Nat))) = .ok (r.1, b') ∧ b'.length = r.2.length := by
    intro aie r h
    rw [bind_ok] at h
    obtain ⟨a1, h9, h⟩ := h
    rw [bind_ok] at h
    obtain ⟨mi, h10, h⟩ := h
    rw [bind_ok] at h
    obtain ⟨mv, h11, h⟩ := h
    cases h
    obtain ⟨hlt, rfl⟩ := wr_ok.1 h9
    refine ⟨b.set cfg.nMoved c.index, ?_, by simp only [List.length_set]; exact hab⟩
    rw [wr_of_lt (by rw [hab]; exact hlt), ok_bind, h10, ok_bind, h11, ok_bind]
    rfl
  rw [h1, ok_bind, h2, ok_bind, h3, ok_bind, h4, ok_bind, h5, ok_bind, h6, ok_bind, h7, ok_bind, h8, ok_bind]
  split at h
  · next hm =>
    rw [bind_ok] at h
    obtain ⟨e0, h9, h⟩ := h
    rw [bind_ok] at h
    obtain ⟨aie, h10, h⟩ := h
    simp only [if_pos hm]
    rw [h9, ok_bind, h10, ok_bind]
    exact tail h
  · next hm =>
    simp only [if_neg hm]
    exact tail h

theorem actLoop_slots {es : List (PEntry K × CEntry K)} : ∀ {cfg cfg' : Config K} {a a' b : List Nat},
    b.length = a.length → loopM (fun st e => actOne st e.1 e.2) es (cfg, a) = .ok (cfg', a') →
    ∃ b', loopM (fun st e => actOne st e.1 e.2) es (cfg, b) = .ok (cfg', b') ∧ b'.length = a'.length := by
  induction es with
  | nil => intro cfg cfg' a a' b hab h; cases h; exact ⟨b, rfl, hab⟩
  | cons e es ih =>
    intro cfg cfg' a a' b hab h
    rw [loopM_cons, bind_ok] at h
    obtain ⟨⟨c1, a1⟩, h1, h2⟩ := h
    obtain ⟨b1, h3, h4⟩ := actOne_slots hab h1
    obtain ⟨b2, h5, h6⟩ := ih h4 h2
    exact ⟨b2, by rw [loopM_cons, h3, ok_bind, h5], h6⟩

theorem perform_slots {cfg cfg' : Config K} {number site : Nat} {pml : List (PEntry K)} {sml : List (CEntry K)}
    {idMoves : List (Nat × Nat)} {a a' b : List Nat} (hs : cfg.matchLists[site]? = some sml)
    (hl : pml.length ≤ sml.length) (hab : b.length = a.length)
    (h : cfg.perform number pml idMoves a site = .ok (cfg', a')) :
    ∃ b', cfg.perform number pml idMoves b site = .ok (cfg', b') := by
  unfold perform at h ⊢
  rw [rd_of_getElem? hs, ok_bind] at h ⊢
  simp only at h ⊢
  rw [performLoop_eq _ _ _ hl, bind_ok] at h
  obtain ⟨⟨c1, a1⟩, h1, h⟩ := h
  rw [bind_ok] at h
  obtain ⟨ups, h2, h⟩ := h
  rw [bind_ok] at h
  obtain ⟨c2, h3, h⟩ := h
  cases h
  obtain ⟨b1, h4, -⟩ := actLoop_slots hab h1
  exact ⟨b1, by rw [performLoop_eq _ _ _ hl, h4, ok_bind, h2, ok_bind, h3, ok_bind]; rfl⟩

end Config

theorem length_acting {pml : List (PEntry K)} {sml : List (CEntry K)} (h : pml.length ≤ sml.length) :
    (acting pml sml).length = (pml.filter (fun e => decide e.Acts)).length := by
  unfold acting
  induction pml generalizing sml with
  | nil => rfl
  | cons p ps ih =>
    cases sml with
    | nil => simp at h
    | cons c cs =>
      have := ih (sml := cs) (by simpa using h)
      rw [List.zip_cons_cons, List.filter_cons, List.filter_cons]
      by_cases ha : p.Acts
      · simp only [ha, decide_true, if_true, List.length_cons, this]
      · simp only [ha, decide_false, Bool.false_eq_true, if_false, this]

/-- The simulation with the scratch memory of its processes wiped. -/
def Sim.wiped (s : Sim K) : Sim K := { s with ms := s.ms.wiped }

theorem wiped_procs {s t : MState K} (h : s.wiped = t.wiped) {j : Nat} {p : Proc K} (hp : s.procs[j]? = some p) :
    ∃ q, t.procs[j]? = some q ∧ q.wiped = p.wiped := by
  have h1 : s.procs.map Proc.wiped = t.procs.map Proc.wiped := congrArg MState.procs h
  have h2 : (s.procs.map Proc.wiped)[j]? = some p.wiped := by rw [List.getElem?_map, hp]; rfl
  rw [h1, List.getElem?_map, Option.map_eq_some_iff] at h2
  exact h2

theorem updateRateTable_wiped {p q : Proc K} (h : q.wiped = p.wiped) :
    q.updateRateTable.map (fun r => (r.wiped, r.rateTable, r.sites)) =
      p.updateRateTable.map (fun r => (r.wiped, r.rateTable, r.sites)) := by
  have h1 : ∀ p : Proc K, p.updateRateTable.map (fun r => (r.wiped, r.rateTable, r.sites)) =
      p.wiped.updateRateTable.map (fun r => (p.wiped, r.rateTable, r.sites)) := by
    intro p
    unfold Proc.updateRateTable
    by_cases hc : p.custom = true
    · rw [if_pos hc, if_pos (show p.wiped.custom = true from hc), bind_map, bind_map]
      rfl
    · rw [if_neg hc, if_neg (show ¬ p.wiped.custom = true from hc)]
      rfl
  rw [h1, h1, h]

/-- The selection only looks at what is not scratch memory. -/
theorem select_wiped {procs procs' : List (Proc K)} (h : procs'.map Proc.wiped = procs.map Proc.wiped)
    (table : List (K × Nat)) (u1 u2 : K) :
    (select procs' table u1 u2).map (fun r => (r.1, r.2.1, r.2.2.map Proc.wiped)) =
      (select procs table u1 u2).map (fun r => (r.1, r.2.1, r.2.2.map Proc.wiped)) := by
  unfold select Interactions.pickProcess
  simp only [bind_assoc, bind_map]
  congr 1
  funext i
  have hl : procs'.length = procs.length := by
    have := congrArg List.length h
    simpa using this
  by_cases hi : i < procs.length
  · have hi' : i < procs'.length := by omega
    rw [rd_of_lt hi, rd_of_lt hi', ok_bind, ok_bind]
    have hp : procs'[i].wiped = procs[i].wiped := by
      have h1 := congrArg (fun l => l[i]?) h
      simpa [hi, hi'] using h1
    have hu := updateRateTable_wiped hp
    cases e1 : procs[i].updateRateTable with
    | error a =>
      cases e2 : procs'[i].updateRateTable with
      | error b => rw [e1, e2] at hu; cases hu; rfl
      | ok b => rw [e1, e2] at hu; cases hu
    | ok a =>
      cases e2 : procs'[i].updateRateTable with
      | error b => rw [e1, e2] at hu; cases hu
      | ok b =>
        rw [e1, e2, map_ok', map_ok', Except.ok.injEq, Prod.mk.injEq, Prod.mk.injEq] at hu
        obtain ⟨hu1, hu2, hu3⟩ := hu
        rw [ok_bind, ok_bind, wr_of_lt hi, wr_of_lt hi', ok_bind, ok_bind]
        show (b.pickSite u2 >>= _) = (a.pickSite u2 >>= _)
        have hs : b.pickSite u2 = a.pickSite u2 := by
          unfold Proc.pickSite
          rw [hu2, hu3]
        rw [hs]
        congr 1
        funext site
        show Except.ok _ = Except.ok _
        simp only [List.map_set, hu1, h]
  · have hi' : ¬ i < procs'.length := by omega
    unfold rd
    rw [List.getElem?_eq_none (by omega), List.getElem?_eq_none (by omega)]
    rfl

/-- Every slot for affected indices is used. -/
def World.Exact (W : World K) : Prop :=
  ∀ p ∈ W.procs, p.affected.length = (p.matchList.filter (fun e => decide e.Acts)).length

variable {W : World K}

theorem rematch_wiped (env : Env K) {s t : MState K} {j : Nat} {p q : Proc K} (hst : s.wiped = t.wiped)
    (hp : s.procs[j]? = some p) (hq : t.procs[j]? = some q) (ha : q.affected = p.affected) :
    (rematch env t j).map MState.wiped = (rematch env s j).map MState.wiped := by
  unfold rematch
  rw [rd_of_getElem? hp, rd_of_getElem? hq, ok_bind, ok_bind, ← Matcher.calculateMatching_wiped,
    ← Matcher.calculateMatching_wiped, hst, ha]
  have h1 : s.procs.map Proc.wiped = t.procs.map Proc.wiped := (congrArg MState.procs hst :)
  rw [← maxRange_wiped t.procs, ← h1, maxRange_wiped]

/-- A step does the same to states that differ in scratch memory. -/
theorem singleStep_wiped (h : W.Ok) (hx : W.Exact) {s t : Sim K} (hI : W.Inv s.ms) (hst : s.wiped = t.wiped)
    (u1 u2 : K) : (singleStep W.env t u1 u2).map Sim.wiped = (singleStep W.env s u1 u2).map Sim.wiped := by
  obtain ⟨A, hI⟩ := hI
  have hms : s.ms.wiped = t.ms.wiped := (congrArg Sim.ms hst :)
  have htab : s.table = t.table := (congrArg Sim.table hst :)
  have htime : s.time = t.time := (congrArg Sim.time hst :)
  have hpr : s.ms.procs.map Proc.wiped = t.ms.procs.map Proc.wiped := (congrArg MState.procs hms :)
  have hcfg : s.ms.cfg = t.ms.cfg := (congrArg MState.cfg hms :)
  have hinv : s.ms.inverse = t.ms.inverse := (congrArg MState.inverse hms :)
  have hrat : s.ms.rates = t.ms.rates := (congrArg MState.rates hms :)
  have hsel := select_wiped hpr.symm s.table u1 u2
  unfold singleStep
  rw [← htab]
  cases e1 : select s.ms.procs s.table u1 u2 with
  | error a =>
    cases e2 : select t.ms.procs s.table u1 u2 with
    | error b => rw [e1, e2] at hsel; cases hsel; rfl
    | ok b => rw [e1, e2] at hsel; cases hsel
  | ok r =>
    cases e2 : select t.ms.procs s.table u1 u2 with
    | error b => rw [e1, e2] at hsel; cases hsel
    | ok r' =>
      rw [e1, e2, map_ok', map_ok', Except.ok.injEq, Prod.mk.injEq, Prod.mk.injEq] at hsel
      obtain ⟨g1, g2, g3⟩ := hsel
      rw [ok_bind, ok_bind, g1, g2]
      obtain ⟨p, p', hp, hp', hset, hsite⟩ := select_ok e1
      obtain ⟨hI0, hp0, -, hsites⟩ := World.select_inv hI hp hp'
      obtain ⟨sk, cfg1, cfg2, aff, hev⟩ := World.event_ok h hI0 (j := r.1) (q := p') hp0 (by rw [hsites]; exact hsite)
      rw [hset, World.performAt_eq hev, ok_bind]
      -- the same event from the other state
      have hw0 : ({ s.ms with procs := s.ms.procs.set r.1 p' } : MState K).wiped =
          ({ t.ms with procs := r'.2.2 } : MState K).wiped := by
        unfold MState.wiped
        simp only [g3, hset, hcfg, hinv, hrat]
      obtain ⟨q', hq', hqp⟩ := wiped_procs hw0 (j := r.1) hp0
      have hlen : q'.affected.length = p'.affected.length := by
        have := congrArg (fun p : Proc K => p.affected.length) hqp
        simpa [Proc.wiped] using this
      obtain ⟨b', hb'⟩ := Config.perform_slots hev.list hev.ready.len hlen hev.result
      have hready : Config.EventOk W.n W.nT s.ms.cfg q'.matchList (seen s.ms.cfg.types sk) q'.idMoves q'.affected := by
        have e1 : q'.matchList = p'.matchList := (congrArg Proc.matchList hqp :)
        have e2 : q'.idMoves = p'.idMoves := (congrArg Proc.idMoves hqp :)
        obtain ⟨a1, a2, a3, a4, a5, a6, a7, a8, a9⟩ := hev.ready
        rw [e1, e2]
        exact ⟨a1, a2, a3, a4, a5, by rw [hlen]; exact a6, a7, a8, a9⟩
      obtain ⟨c1, c2, b2, k1, k2, -⟩ := Config.perform_ok hI0.good q'.number hev.list hready
      have n1 : q'.number = p'.number := (congrArg Proc.number hqp :)
      have n2 : q'.matchList = p'.matchList := (congrArg Proc.matchList hqp :)
      have n3 : q'.idMoves = p'.idMoves := (congrArg Proc.idMoves hqp :)
      have k1' := k1
      rw [n1, n2, n3] at k1
      have k3 := hb'.symm.trans k1
      rw [Except.ok.injEq, Prod.mk.injEq] at k3
      obtain ⟨rfl, rfl⟩ := k3
      have hexact : (acting p'.matchList (seen s.ms.cfg.types sk)).length = p'.affected.length := by
        rw [length_acting hev.ready.len]
        have h1 := hx p'.still (List.mem_of_getElem? (hI0.proc hp0))
        simp only [Proc.still, List.length_replicate] at h1
        exact h1.symm
      have haff : b' = aff := by
        have h1 := k2.aff
        have h2 := hev.done.aff
        rw [n2] at h1
        simp only [List.take_zero, List.nil_append, Nat.zero_add] at h1 h2
        rw [hexact, List.drop_length, List.append_nil] at h2
        rw [hexact, ← hlen, List.drop_length, List.append_nil] at h1
        rw [h1, h2]
      have hperf : performAt { t.ms with procs := r'.2.2 } r.1 r.2.1 =
          .ok { t.ms with cfg := cfg2, procs := r'.2.2.set r.1 { q' with affected := b' } } := by
        unfold performAt
        rw [rd_of_getElem? hq', ok_bind]
        simp only
        rw [← hcfg, k1', ok_bind, wr_of_lt (List.getElem?_eq_some_iff.1 hq').1, ok_bind]
        rfl
      rw [hperf, ok_bind]
      subst haff
      have hw : (World.mid { s.ms with procs := s.ms.procs.set r.1 p' } r.1 p' cfg2 b').wiped =
          ({ t.ms with cfg := cfg2, procs := r'.2.2.set r.1 { q' with affected := b' } } : MState K).wiped := by
        unfold MState.wiped World.mid
        simp only [List.map_set, hinv, hrat]
        have e1 : Proc.wiped { p' with affected := b' } = Proc.wiped { q' with affected := b' } := by
          have : { p'.wiped with affected := List.replicate b'.length 0 } =
            { q'.wiped with affected := List.replicate b'.length 0 } := by rw [hqp]
          exact this
        rw [e1, g3, hset, List.map_set]
      have hre := rematch_wiped W.env hw (j := r.1) (p := { p' with affected := b' }) (q := { q' with affected := b' })
        (by
          simp only [World.mid]
          rw [List.getElem?_set, if_pos rfl, if_pos (List.getElem?_eq_some_iff.1 hp0).1])
        (by
          simp only
          rw [List.getElem?_set, if_pos rfl, if_pos (List.getElem?_eq_some_iff.1 hq').1]) rfl
      generalize rematch W.env (World.mid { s.ms with procs := s.ms.procs.set r.1 p' } r.1 p' cfg2 b') r.1 = x at hre ⊢
      generalize rematch W.env { t.ms with cfg := cfg2, procs := r'.2.2.set r.1 { q' with affected := b' } } r.1 = y
        at hre ⊢
      cases x with
      | error a =>
        cases y with
        | error b => cases hre; rfl
        | ok b => cases hre
      | ok a =>
        cases y with
        | error b => cases hre
        | ok b =>
          rw [map_ok', map_ok', Except.ok.injEq] at hre
          rw [ok_bind, ok_bind]
          show Except.ok _ = Except.ok _
          have hpb : b.procs.map Proc.wiped = a.procs.map Proc.wiped := congrArg MState.procs hre
          simp only [Sim.wiped, hre, htime]
          rw [← probabilityTable_wiped b.procs, hpb, probabilityTable_wiped]

theorem propagateTime_wiped (negLog : K → Option K) {s t : Sim K} (hst : s.wiped = t.wiped) (us : List K) :
    (propagateTime negLog t us).map Sim.wiped = (propagateTime negLog s us).map Sim.wiped := by
  have hms : s.ms.wiped = t.ms.wiped := (congrArg Sim.ms hst :)
  have htab : s.table = t.table := (congrArg Sim.table hst :)
  have htime : s.time = t.time := (congrArg Sim.time hst :)
  unfold propagateTime
  rw [bind_map, bind_map, htab]
  congr 1
  funext r
  rw [bind_map, bind_map]
  congr 1
  funext dt
  show Except.ok _ = Except.ok _
  simp only [Sim.wiped, hms, htime]

/-- So does a run. -/
theorem run_wiped [IsStrictOrderedRing K] (h : W.Ok) (hx : W.Exact) (negLog : K → Option K) (ds : List (Draws K)) {s t : Sim K}
    (hs : AtRun W s) (hst : s.wiped = t.wiped) :
    (run W.env negLog ds t).map Sim.wiped = (run W.env negLog ds s).map Sim.wiped := by
  induction ds generalizing s t with
  | nil => exact congrArg Except.ok hst.symm
  | cons d ds ih =>
    have hstep : (step W.env negLog t d).map Sim.wiped = (step W.env negLog s d).map Sim.wiped := by
      unfold step
      have hp := propagateTime_wiped negLog hst d.time
      cases e1 : propagateTime negLog s d.time with
      | error a =>
        cases e2 : propagateTime negLog t d.time with
        | error b => rw [e1, e2] at hp; cases hp; rfl
        | ok b => rw [e1, e2] at hp; cases hp
      | ok a =>
        cases e2 : propagateTime negLog t d.time with
        | error b => rw [e1, e2] at hp; cases hp
        | ok b =>
          rw [e1, e2, map_ok', map_ok', Except.ok.injEq] at hp
          rw [ok_bind, ok_bind]
          exact singleStep_wiped h hx (by rw [(propagateTime_ok e1).1]; exact hs.inv) hp.symm _ _
    unfold run
    rw [loopM_cons, loopM_cons]
    cases e1 : step W.env negLog s d with
    | error a =>
      cases e2 : step W.env negLog t d with
      | error b => rw [e1, e2] at hstep; cases hstep; rfl
      | ok b => rw [e1, e2] at hstep; cases hstep
    | ok a =>
      cases e2 : step W.env negLog t d with
      | error b => rw [e1, e2] at hstep; cases hstep
      | ok b =>
        rw [e1, e2, map_ok', map_ok', Except.ok.injEq] at hstep
        rw [ok_bind, ok_bind]
        exact ih (step_ok h hs e1).1 hstep.symm

end KMC
