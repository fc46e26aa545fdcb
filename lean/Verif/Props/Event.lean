import Verif.Lemmas.Track
import Verif.Props.Run
import Verif.Samples.Events

/-!
# C16, C17, C18, C19, C20, C21, C22, C23: what an event does, and what events preserve

As in Props/Run.lean, the theorems are about every state that is reached from a well formed input.
-/

set_option linter.unusedSectionVars false

namespace KMC

variable {K : Type _} [Field K] [LinearOrder K] [IsStrictOrderedRing K]
variable {env : Env K} {n nT : Nat} {negLog : K → Option K} {cfg : Config K} {procs : List (Proc K)} {s : Sim K}

open LatticeModel

theorem GoodRun.good (h : GoodRun env n nT negLog cfg procs s) : s.ms.cfg.Good n nT := by
  obtain ⟨cfg1, procs1, -, -, ⟨⟨A, hI⟩, -⟩, -⟩ := h.inv
  exact hI.good

theorem GoodRun.coords (h : GoodRun env n nT negLog cfg procs s) : s.ms.cfg.coords = cfg.coords := by
  obtain ⟨cfg1, procs1, hprep, -, ⟨⟨A, hI⟩, -⟩, -⟩ := h.inv
  have h1 : s.ms.cfg.coords = cfg1.coords := hI.coords
  rw [h1, (lists_of h.input hprep.1).rest]

theorem GoodRun.names (h : GoodRun env n nT negLog cfg procs s) : s.ms.cfg.typeNames = cfg.typeNames := by
  obtain ⟨cfg1, procs1, hprep, -, ⟨⟨A, hI⟩, -⟩, -⟩ := h.inv
  have h1 : s.ms.cfg.typeNames = cfg1.typeNames := hI.names
  rw [h1, (lists_of h.input hprep.1).rest]

/-- The ids, elements and coordinates of atoms as the constructor of the configuration sets them. -/
structure Config.Fresh (c : Config K) : Prop where
  ids : c.atomId = List.range c.coords.length
  tracked : c.atomIdCoords = c.coords
  names : ∀ (i : Nat) (els : List String), c.elements[i]? = some els → c.atomIdElements[i]? = els[0]?

/-- A configuration made by the constructor is fresh. -/
theorem fresh_of_constructor {pt : List (String × Nat)} (h : Numbering pt) {coords : List (Coord K)}
    {elements : List (List String)} (hn : coords.length = n) (ho : Occupation pt n elements)
    (hc : Config.mk' coords elements pt = .ok cfg) : cfg.Fresh ∧ cfg.elements = elements := by
  obtain ⟨c, c1, -, c2, c3, -, c4, c5, -, c6⟩ := Config.mk'_ok h hn ho
  rw [hc] at c1
  have c1 := Except.ok.inj c1
  subst c1
  refine ⟨⟨by rw [c4, c2, hn], by rw [c5, c2], fun i els he => c6 i els (by rw [← c3]; exact he)⟩, c3⟩

/-! ### C16 -/

/-- **C16** In every state of every run the elements reported for a site are known types, and each
type is listed as often as the counts of the site say. The names of the types never change. -/
theorem C16_elements (h : GoodRun env n nT negLog cfg procs s) {i : Nat} {els : List String} {t : Bucket}
    (he : s.ms.cfg.elements[i]? = some els) (ht : s.ms.cfg.types[i]? = some t) :
    (∀ e ∈ els, e ∈ cfg.typeNames) ∧ t.length = nT ∧
    ∀ (k : Nat) (name : String), cfg.typeNames[k]? = some name → t[k]? = some (els.count name : Int) := by
  have hg := h.good
  obtain ⟨h1, h2⟩ := hg.tallied i els t he ht
  rw [h.names] at h1 h2
  exact ⟨h1, hg.bucket t (List.mem_of_getElem? ht), h2⟩

theorem particlesPerType_total {c : Config K} (h : c.Good n nT) :
    c.particlesPerType = .ok ((List.range nT).map c.total) := by
  unfold Config.particlesPerType
  rw [h.possible]
  apply mapMM_eq_map
  intro j hj
  have hj : j < nT := List.mem_range.1 hj
  have key : ∀ (l : List Bucket) (a : Int), (∀ t ∈ l, t.length = nT) →
      loopM (fun (s : Int) (t : Bucket) => do let v ← rd t j; return s + v) l a =
        .ok (a + (l.map (fun t => t.getD j 0)).sum) := by
    intro l
    induction l with
    | nil => intro a _; simp
    | cons t l ih =>
      intro a hl
      have htl : j < t.length := by rw [hl t (by simp)]; exact hj
      rw [loopM_cons, rd_of_lt htl, ok_bind, pure_ok, ok_bind, ih _ (fun t ht => hl t (by simp [ht])), List.map_cons,
        List.sum_cons, List.getD_eq_getElem?_getD, List.getElem?_eq_getElem htl, Option.getD_some, add_assoc]
  rw [key _ _ h.bucket, zero_add]
  rfl

/-- The total of a type is the number of times its name is reported. -/
theorem total_eq_count {c : Config K} (h : c.Good n nT) {k : Nat} {name : String} (hk : c.typeNames[k]? = some name) :
    c.total k = ((c.elements.map (fun els => els.count name)).sum : Nat) := by
  have h1 : c.types.map (fun t => t.getD k 0) = c.elements.map (fun els => (els.count name : Int)) := by
    apply List.ext_getElem?
    intro i
    rw [List.getElem?_map, List.getElem?_map]
    by_cases hi : i < n
    · have a1 : i < c.types.length := by rw [h.shape.types]; exact hi
      have a2 : i < c.elements.length := by rw [h.shape.elements]; exact hi
      rw [List.getElem?_eq_getElem a1, List.getElem?_eq_getElem a2, Option.map_some, Option.map_some,
        Option.some.injEq, List.getD_eq_getElem?_getD,
        (h.tallied i _ _ (List.getElem?_eq_getElem a2) (List.getElem?_eq_getElem a1)).2 k name hk]
      rfl
    · rw [List.getElem?_eq_none_iff.2 (by rw [h.shape.types]; omega),
        List.getElem?_eq_none_iff.2 (by rw [h.shape.elements]; omega)]
      rfl
  unfold Config.total
  rw [h1]
  induction c.elements with
  | nil => rfl
  | cons a l ih => simp only [List.map_cons, List.sum_cons, ih]; push_cast; rfl

/-- **C16** The global counts are computed without fault, there is one for every type, and each is the
number of times the name of the type is reported, summed over the sites. -/
theorem C16_counts (h : GoodRun env n nT negLog cfg procs s) :
    ∃ counts, s.ms.cfg.particlesPerType = .ok counts ∧ counts.length = nT ∧
      ∀ (k : Nat) (name : String), cfg.typeNames[k]? = some name →
        counts[k]? = some (((s.ms.cfg.elements.map (fun els => els.count name)).sum : Nat) : Int) := by
  refine ⟨_, particlesPerType_total h.good, by simp, ?_⟩
  intro k name hk
  rw [← h.names] at hk
  have hkl : k < nT := by rw [← h.good.names]; exact (List.getElem?_eq_some_iff.1 hk).1
  rw [List.getElem?_map, List.getElem?_range hkl, Option.map_some, total_eq_count h.good hk]

/-- Non-vacuity: a run of two hops. -/
example : ∃ (cfg : Config ℚ) (procs : List (Proc ℚ)) (s : Sim ℚ),
    GoodRun (Sample.env Sample.ring) 4 4 Sample.lg cfg procs s ∧
    s.ms.cfg.elements = [["B"], ["B"], ["A"], ["B"]] ∧ s.ms.cfg.particlesPerType = .ok [0, 1, 3, 0] := by
  obtain ⟨cfg, procs, s, -, -, h, h'⟩ := Sample.good_run (env := Sample.env Sample.ring) (P := Sample.ring)
    (els := Sample.ringElements) (procs := Sample.hops) (ds := [Sample.half, Sample.half])
    (f := fun s => (s.ms.cfg.elements, s.ms.cfg.particlesPerType.toOption))
    (b := ([["B"], ["B"], ["A"], ["B"]], some [0, 1, 3, 0])) 4 (by decide +kernel) rfl (by decide +kernel) (by decide +kernel)
  rw [Prod.mk.injEq] at h'
  refine ⟨cfg, procs, s, h, h'.1, ?_⟩
  obtain ⟨counts, hc, -⟩ := C16_counts h
  rw [hc] at h' ⊢
  exact congrArg Except.ok (Option.some.inj h'.2)

/-! ### C17 and C23 -/

/-- The entries of a pattern that change something, each with the entry of the surroundings in the same
place. -/
def Targets (p : Proc K) (ml : List (CEntry K)) : List (PEntry K × CEntry K) :=
  (p.matchList.zip ml).filter (fun e => decide e.1.Changes)

/-- What is known about a step. -/
theorem GoodRun.stepped (h : GoodRun env n nT negLog cfg procs s) {s' : Sim K} {u1 u2 : K}
    {r : Nat × Nat × List (Proc K)} (hsel : select s.ms.procs s.table u1 u2 = .ok r)
    (hs : singleStep env s u1 u2 = .ok s') :
    ∃ cfg1 procs1 ms0 q sk c1 c2 aff p, Prepared env cfg procs cfg1 procs1 ∧
      (World.of env n nT (Interactions.maxRange procs) cfg1 procs1).Ok ∧
      (World.of env n nT (Interactions.maxRange procs) cfg1 procs1).StepOf s s' ms0 r.1 r.2.1 q sk c1 c2 aff ∧
      s.ms.procs[r.1]? = some p ∧ r.2.1 ∈ p.sites ∧ p.matchList = q.matchList ∧ p.number = q.number ∧
      Surroundings env procs s.ms.cfg r.2.1 = .ok (seen s.ms.cfg.types sk) ∧
      acting q.matchList (seen s.ms.cfg.types sk) = Targets p (seen s.ms.cfg.types sk) := by
  obtain ⟨cfg1, procs1, hprep, hok, ⟨hinv, -⟩, -⟩ := h.inv
  obtain ⟨ms0, q, sk, c1, c2, aff, hst⟩ := World.singleStep_sel hok hinv hsel hs
  obtain ⟨p, hp, hpq, hsite⟩ := hst.listed
  have e1 : p.matchList = q.matchList := by have h := congrArg Proc.matchList hpq; exact h
  have e2 : p.number = q.number := by have h := congrArg Proc.number hpq; exact h
  refine ⟨cfg1, procs1, ms0, q, sk, c1, c2, aff, p, hprep, hok, hst, hp, hsite, e1, e2, ?_, ?_⟩
  · have hl := lists_of h.input hprep.1
    exact hl.matchList h.input.lattice h.input.sites h.good.shape h.coords hst.event.skel
  · obtain ⟨p0, hp0, hf⟩ := World.source hprep hst.inv hst.event.proc
    have hw := h.input.processes p0 (List.mem_of_getElem? hp0)
    unfold acting Targets
    rw [e1]
    apply List.filter_congr
    intro e he
    rw [decide_eq_decide]
    exact hf.acts hw (List.of_mem_zip he).1

/-- **C17** A step performs the selected process at the selected site. The entries of the process that
change something each have their own site in the surroundings, at the place the entry says; the counts
of these sites change by exactly the update of their entry, and every other site keeps its counts and
its elements. -/
theorem C17_exact (h : GoodRun env n nT negLog cfg procs s) {s' : Sim K} {u1 u2 : K}
    {r : Nat × Nat × List (Proc K)} (hsel : select s.ms.procs s.table u1 u2 = .ok r)
    (hs : singleStep env s u1 u2 = .ok s') :
    ∃ p ml, s.ms.procs[r.1]? = some p ∧ r.2.1 ∈ p.sites ∧ Surroundings env procs s.ms.cfg r.2.1 = .ok ml ∧
      (Targets p ml).map (·.1) = p.matchList.filter (fun e => decide e.Changes) ∧
      ((Targets p ml).map (·.2.index)).Nodup ∧
      (∀ x ∈ Targets p ml, samePoint x.1 x.2 = true ∧ ∃ t, s.ms.cfg.types[x.2.index]? = some t ∧
        s'.ms.cfg.types[x.2.index]? = some (List.zipWith (· + ·) t x.1.updateTypes)) ∧
      ∀ i, i ∉ (Targets p ml).map (·.2.index) → s'.ms.cfg.types[i]? = s.ms.cfg.types[i]? ∧
        s'.ms.cfg.elements[i]? = s.ms.cfg.elements[i]? := by
  obtain ⟨cfg1, procs1, ms0, q, sk, c1, c2, aff, p, hprep, hok, hst, hp, hsite, e1, e2, hml, hact⟩ := h.stepped hsel hs
  have hev := hst.event
  have ht : s'.ms.cfg.types = c2.types := by rw [hst.same]
  have he : s'.ms.cfg.elements = c2.elements := by rw [hst.same]
  have hc := hst.cfg
  refine ⟨p, _, hp, hsite, hml, ?_, ?_, ?_, ?_⟩
  · rw [← hact, acting_fst (by rw [← hc]; exact hev.ready.len), e1]
    obtain ⟨p0, hp0, hf⟩ := World.source hprep hst.inv hst.event.proc
    have hw := h.input.processes p0 (List.mem_of_getElem? hp0)
    apply List.filter_congr
    intro e he
    rw [decide_eq_decide]
    exact hf.acts hw he
  · rw [← hact, ← hc]
    exact hev.ready.nodup
  · intro x hx
    rw [← hact, ← hc] at hx
    obtain ⟨l1, l2, hl, hfit⟩ := hev.fits
    refine ⟨?_, ?_⟩
    · obtain ⟨h1, -, h3⟩ := Config.mem_acting hx
      rcases acting_fits hl hfit hx with hw | hw
      · exact absurd hw (hev.procOk.notWild x.1 h1 (.inl h3))
      · exact hw.1
    · have hlt : x.2.index < s.ms.cfg.types.length := by
        rw [h.good.shape.types]
        exact hev.ready.index _ (Config.mem_acting hx).2.1
      refine ⟨_, List.getElem?_eq_getElem hlt, ?_⟩
      rw [ht]
      exact hev.typeAt hx (by rw [hc]; exact List.getElem?_eq_getElem hlt)
  · intro i hi
    rw [← hact, ← hc] at hi
    rw [ht, he, ← hc]
    exact ⟨hev.typeOff hi, hev.elementOff hi⟩

/-- The updates of a process for type `k`, added up. -/
def Proc.net (p : Proc K) (k : Nat) : Int := (p.matchList.map (fun e => e.updateTypes.getD k 0)).sum

theorem net_of_from {p q : Proc K} (h : p.From q) (hw : p.WellFormed nT) (k : Nat) :
    ((q.matchList.filter (fun e => decide e.Acts)).map (fun e => e.updateTypes.getD k 0)).sum = p.net k := by
  rw [h.changing hw, sum_changing]
  rfl

/-- **C17** In a step the number of particles of each type changes by the sum of the updates of the
selected process. -/
theorem C17_total (h : GoodRun env n nT negLog cfg procs s) {s' : Sim K} {u1 u2 : K}
    {r : Nat × Nat × List (Proc K)} (hsel : select s.ms.procs s.table u1 u2 = .ok r)
    (hs : singleStep env s u1 u2 = .ok s') :
    ∃ p, procs[r.1]? = some p ∧ ∀ k, s'.ms.cfg.total k = s.ms.cfg.total k + p.net k := by
  obtain ⟨cfg1, procs1, ms0, q, sk, c1, c2, aff, p, hprep, hok, hst, hp, hsite, e1, e2, hml, hact⟩ := h.stepped hsel hs
  obtain ⟨p0, hp0, hf⟩ := World.source hprep hst.inv hst.event.proc
  have hw := h.input.processes p0 (List.mem_of_getElem? hp0)
  refine ⟨p0, hp0, fun k => ?_⟩
  have h1 : s'.ms.cfg.total k = c2.total k := by
    unfold Config.total
    rw [hst.same]
  obtain ⟨A, hI⟩ := hst.inv
  rw [h1, hst.event.total hI.good k, net_of_from hf hw, hst.cfg]

/-- **C17** What every process conserves is conserved for ever. -/
theorem C17_conserved (h : GoodRun env n nT negLog cfg procs s) (k : Nat) (hk : ∀ p ∈ procs, p.net k = 0) :
    s.ms.cfg.total k = cfg.total k := by
  obtain ⟨cfg1, procs1, hprep, hok, ⟨⟨A, hI⟩, -⟩, hkept⟩ := h.inv
  refine hkept (fun c => c.total k = cfg.total k) ⟨?_, ?_⟩ ?_
  · intro c c' hcc hc
    rw [← hc]
    unfold Config.total
    rw [hcc]
  · intro ms j site q sk c1 c2 aff hinv hev hc
    obtain ⟨p0, hp0, hf⟩ := World.source hprep hinv hev.proc
    have hw := h.input.processes p0 (List.mem_of_getElem? hp0)
    obtain ⟨A, hI⟩ := hinv
    rw [hev.total hI.good k, net_of_from hf hw, hc, hk p0 (List.mem_of_getElem? hp0), add_zero]
  · unfold Config.total
    rw [(lists_of h.input hprep.1).rest]

/-- **C23** After a step the reported process number and site are those of the event, and the reported
atoms and move vectors are, in the order of the pattern, the atoms that were at the changed sites with
the move vectors of the process; nothing is left over from earlier events. -/
theorem C23_report (h : GoodRun env n nT negLog cfg procs s) {s' : Sim K} {u1 u2 : K}
    {r : Nat × Nat × List (Proc K)} (hsel : select s.ms.procs s.table u1 u2 = .ok r)
    (hs : singleStep env s u1 u2 = .ok s') :
    ∃ p ml, s.ms.procs[r.1]? = some p ∧ Surroundings env procs s.ms.cfg r.2.1 = .ok ml ∧
      s'.ms.cfg.latestProcess = p.number ∧ s'.ms.cfg.latestSite = r.2.1 ∧
      s'.ms.cfg.movedAtomIDs.map some = (Targets p ml).map (fun x => s.ms.cfg.atomId[x.2.index]?) ∧
      s'.ms.cfg.recentMoveVectors = (Targets p ml).map (·.1.moveCoord) := by
  obtain ⟨cfg1, procs1, ms0, q, sk, c1, c2, aff, p, hprep, hok, hst, hp, hsite, e1, e2, hml, hact⟩ := h.stepped hsel hs
  have hev := hst.event
  have hc := hst.cfg
  have hm := hev.done.moved
  have hn : s'.ms.cfg.nMoved = (Targets p (seen s.ms.cfg.types sk)).length := by
    rw [hst.same]
    show c2.nMoved = _
    rw [hev.moved.rest]
    show c1.nMoved = _
    rw [hm, ← hact, hc]
    simp
  have hids : s'.ms.cfg.movedIds = (Targets p (seen s.ms.cfg.types sk)).map (fun e => s.ms.cfg.atomId.getD e.2.index 0) ++
      s.ms.cfg.movedIds.drop (Targets p (seen s.ms.cfg.types sk)).length := by
    rw [hst.same]
    show c2.movedIds = _
    rw [hev.moved.rest]
    show c1.movedIds = _
    rw [hev.done.ids, ← hact, hc]
    simp
  have hvec : s'.ms.cfg.moveVectors = (Targets p (seen s.ms.cfg.types sk)).map (fun e => e.1.moveCoord) ++
      s.ms.cfg.moveVectors.drop (Targets p (seen s.ms.cfg.types sk)).length := by
    rw [hst.same]
    show c2.moveVectors = _
    rw [hev.moved.rest]
    show c1.moveVectors = _
    rw [hev.done.vectors, ← hact, hc]
    simp
  refine ⟨p, _, hp, hml, ?_, ?_, ?_, ?_⟩
  · rw [hst.same]
    show c2.latestProcess = _
    rw [hev.moved.rest]
    show c1.latestProcess = _
    rw [hev.done.rest, e2]
  · rw [hst.same]
    show c2.latestSite = _
    rw [hev.moved.rest]
    show c1.latestSite = _
    rw [hev.done.rest]
  · unfold Config.movedAtomIDs resize
    rw [hids, hn, List.take_append_of_le_length (by simp), List.take_of_length_le (by simp)]
    rw [List.map_append, List.map_map]
    have h0 : (Targets p (seen s.ms.cfg.types sk)).length - ((Targets p (seen s.ms.cfg.types sk)).map
        (fun e => s.ms.cfg.atomId.getD e.2.index 0) ++
        s.ms.cfg.movedIds.drop (Targets p (seen s.ms.cfg.types sk)).length).length = 0 := by simp
    rw [h0, List.replicate_zero, List.map_nil, List.append_nil]
    apply List.map_congr_left
    intro x hx
    rw [← hact, ← hc] at hx
    have hlt : x.2.index < s.ms.cfg.atomId.length := by
      rw [h.good.shape.atomId]
      exact hev.ready.index _ (Config.mem_acting hx).2.1
    simp [List.getElem?_eq_getElem hlt]
  · unfold Config.recentMoveVectors resize
    rw [hvec, hn, List.take_append_of_le_length (by simp), List.take_of_length_le (by simp)]
    have h0 : (Targets p (seen s.ms.cfg.types sk)).length - ((Targets p (seen s.ms.cfg.types sk)).map
        (fun e => e.1.moveCoord) ++ s.ms.cfg.moveVectors.drop (Targets p (seen s.ms.cfg.types sk)).length).length = 0 := by
      simp
    rw [h0, List.replicate_zero, List.append_nil]

set_option synthInstance.maxSize 1000 in
/-- Non-vacuity: the second hop on the ring is a step from a state of a run, and its process conserves
every type. -/
example : ∃ (cfg : Config ℚ) (procs : List (Proc ℚ)) (s s' : Sim ℚ) (r : Nat × Nat × List (Proc ℚ)),
    GoodRun (Sample.env Sample.ring) 4 4 Sample.lg cfg procs s ∧
    select s.ms.procs s.table (1 / 2) (1 / 2) = .ok r ∧ r.1 = 0 ∧ r.2.1 = 1 ∧
    singleStep (Sample.env Sample.ring) s (1 / 2) (1 / 2) = .ok s' ∧
    s.ms.cfg.elements = [["B"], ["A"], ["B"], ["B"]] ∧ s'.ms.cfg.elements = [["B"], ["B"], ["A"], ["B"]] ∧
    s'.ms.cfg.movedAtomIDs = [0, 2] ∧ ∀ p ∈ procs, ∀ k ∈ List.range 4, p.net k = 0 := by
  obtain ⟨cfg, procs, s, -, h2, h, h'⟩ := Sample.good_run (env := Sample.env Sample.ring) (P := Sample.ring)
    (els := Sample.ringElements) (procs := Sample.hops) (ds := [Sample.half])
    (f := fun s => (s.ms.cfg.elements, ((select s.ms.procs s.table (1 / 2) (1 / 2)).map (fun r => (r.1, r.2.1))).toOption,
      ((singleStep (Sample.env Sample.ring) s (1 / 2) (1 / 2)).map
        (fun s => (s.ms.cfg.elements, s.ms.cfg.movedAtomIDs))).toOption))
    (b := ([["B"], ["A"], ["B"], ["B"]], some (0, 1), some ([["B"], ["B"], ["A"], ["B"]], [0, 2])))
    4 (by decide +kernel) rfl (by decide +kernel) (by decide +kernel)
  simp only [Prod.mk.injEq] at h'
  obtain ⟨a1, a2, a3⟩ := h'
  cases hr : select s.ms.procs s.table (1 / 2) (1 / 2) with
  | error e => rw [hr] at a2; cases a2
  | ok r =>
    cases hs : singleStep (Sample.env Sample.ring) s (1 / 2) (1 / 2) with
    | error e => rw [hs] at a3; cases a3
    | ok s' =>
      rw [hr] at a2
      rw [hs] at a3
      have a2 : (r.1, r.2.1) = (0, 1) := Option.some.inj a2
      have a3 : (s'.ms.cfg.elements, s'.ms.cfg.movedAtomIDs) = ([["B"], ["B"], ["A"], ["B"]], [0, 2]) := Option.some.inj a3
      rw [Prod.mk.injEq] at a2 a3
      exact ⟨cfg, procs, s, s', r, h, hr, a2.1, a2.2, hs, a1, a3.1, a3.2,
        Sample.all_of_map (x := Sample.hops) (by decide +kernel) h2⟩

/-! ### C18 -/

/-- **C18** (partial) In every state of every run from a well formed input no count is negative. The
condition that is missing for the full claim is `Proc.WellFormed.enough` (a process takes away no more
than it requires), which the front end does not check for bucket processes; see
`C18_negative`. -/
theorem C18_nonneg_partial (h : GoodRun env n nT negLog cfg procs s) {i k : Nat} {t : Bucket} {v : Int}
    (ht : s.ms.cfg.types[i]? = some t) (hv : t[k]? = some v) : 0 ≤ v := by
  have hg := h.good
  have hi : i < s.ms.cfg.elements.length := by
    rw [hg.shape.elements, ← hg.shape.types]
    exact (List.getElem?_eq_some_iff.1 ht).1
  have hk : k < s.ms.cfg.typeNames.length := by
    rw [hg.names, ← hg.bucket t (List.mem_of_getElem? ht)]
    exact (List.getElem?_eq_some_iff.1 hv).1
  have := (hg.tallied i _ t (List.getElem?_eq_getElem hi) ht).2 k _ (List.getElem?_eq_getElem hk)
  rw [hv, Option.some.injEq] at this
  omega

/-- **C18** The claim is false without that condition: a bucket process that requires one A and takes
two is constructed without complaint and makes a count negative. -/
theorem C18_negative :
    ∃ s : Sim ℚ, Sample.go (Sample.env (Sample.chain 3 true)) (Sample.chain 3 true) [["A"], ["B"], ["B"]]
        Sample.takesTwo [Sample.half] = .ok s ∧
      s.ms.cfg.types = [[0, -1, 3, 0], [0, 0, 1, 0], [0, 0, 1, 0]] :=
  Sample.exists_of_map (f := fun s : Sim ℚ => s.ms.cfg.types) (by decide +kernel)

/-- Non-vacuity of the partial theorem: a bucket process. -/
example : ∃ (cfg : Config ℚ) (procs : List (Proc ℚ)) (s : Sim ℚ),
    GoodRun (Sample.env (Sample.chain 3 true)) 3 4 Sample.lg cfg procs s ∧
    s.ms.cfg.types = [[0, 1, 1, 0], [0, 0, 1, 0], [0, 0, 1, 0]] := by
  obtain ⟨cfg, procs, s, -, -, h, h'⟩ := Sample.good_run (env := Sample.env (Sample.chain 3 true))
    (P := Sample.chain 3 true) (els := [["A", "A"], ["B"], ["B"]]) (procs := Sample.oneOf) (ds := [Sample.half])
    (f := fun s => s.ms.cfg.types) (b := [[0, 1, 1, 0], [0, 0, 1, 0], [0, 0, 1, 0]]) 3 (by decide +kernel) rfl (by decide +kernel) (by decide +kernel)
  exact ⟨cfg, procs, s, h, h'⟩

/-! ### C19 -/

/-- Every entry of the process adds as much as it takes. -/
def Proc.Balanced (p : Proc K) : Prop := ∀ e ∈ p.matchList, e.updateTypes.sum = 0

/-- The sum of every bucket is one: kept by the events of balanced processes. -/
theorem one_kept (hin : WellFormed env n nT cfg procs) {cfg1 : Config K} {procs1 : List (Proc K)}
    (hprep : Prepared env cfg procs cfg1 procs1) (hb : ∀ p ∈ procs, p.Balanced) :
    Kept (World.of env n nT (Interactions.maxRange procs) cfg1 procs1) (fun c => ∀ t ∈ c.types, t.sum = 1) := by
  refine ⟨?_, ?_⟩
  · intro c c' hcc hc
    rw [hcc]
    exact hc
  · intro ms j site q sk c1 c2 aff hinv hev hc t ht
    obtain ⟨p0, hp0, hf⟩ := World.source hprep hinv hev.proc
    have hw := hin.processes p0 (List.mem_of_getElem? hp0)
    obtain ⟨A, hI⟩ := hinv
    obtain ⟨i, hi⟩ := List.mem_iff_getElem?.1 ht
    by_cases hch : i ∈ World.changed ms q sk
    · have hlt := hev.changed_lt hch
      obtain ⟨e, he, rfl⟩ := List.mem_map.1 hch
      have hlt' : e.2.index < ms.cfg.types.length := by rw [hI.good.shape.types]; exact hlt
      have ht0 := List.getElem?_eq_getElem hlt'
      rw [hev.typeAt he ht0, Option.some.injEq] at hi
      obtain ⟨m1, m2, m3⟩ := Config.mem_acting he
      have hl := hev.ready.update _ m1 m3
      have hl2 := hI.good.bucket _ (List.getElem_mem hlt')
      have hsum : ∀ a b : List Int, a.length = b.length → (List.zipWith (· + ·) a b).sum = a.sum + b.sum := by
        intro a
        induction a with
        | nil => intro b hb; cases b <;> simp_all
        | cons x a ih =>
          intro b hb
          cases b with
          | nil => simp at hb
          | cons y b =>
            rw [List.zipWith_cons_cons, List.sum_cons, List.sum_cons, List.sum_cons, ih b (by simpa using hb)]
            omega
      rw [← hi, hsum _ _ (hl2.trans hl.symm), hc _ (List.getElem_mem hlt'),
        hb p0 (List.mem_of_getElem? hp0) e.1 (hf.mem m1 (.inl (acts_changes m3)))]
      rfl
    · rw [hev.typeOff hch] at hi
      exact hc t (List.mem_of_getElem? hi)

/-- One particle per site at the start, for the buckets. -/
theorem one_start (hin : WellFormed env n nT cfg procs) {cfg1 : Config K} {procs1 : List (Proc K)}
    (hprep : Prepared env cfg procs cfg1 procs1) (h1 : ∀ els ∈ cfg.elements, els.length = 1) :
    ∀ t ∈ cfg1.types, t.sum = 1 := by
  intro t ht
  have hl := lists_of hin hprep.1
  rw [hl.rest] at ht
  have ht : t ∈ cfg.types := ht
  obtain ⟨i, hi⟩ := List.mem_iff_getElem?.1 ht
  have hg := hin.config
  have hil : i < cfg.elements.length := by
    rw [hg.shape.elements, ← hg.shape.types]
    exact (List.getElem?_eq_some_iff.1 hi).1
  rw [hg.sum (List.getElem?_eq_getElem hil) hi, h1 _ (List.getElem_mem _)]
  rfl

/-- **C19** Where every site has one particle at the start and every entry of every process adds as much
as it takes, every site has one particle in every state of every run. That ordinary processes are of
this kind is `C19_ordinary`. -/
theorem C19_one_particle (h : GoodRun env n nT negLog cfg procs s) (h1 : ∀ els ∈ cfg.elements, els.length = 1)
    (hb : ∀ p ∈ procs, p.Balanced) : ∀ els ∈ s.ms.cfg.elements, els.length = 1 := by
  obtain ⟨cfg1, procs1, hprep, hok, ⟨⟨A, hI⟩, -⟩, hkept⟩ := h.inv
  have key : ∀ t ∈ s.ms.cfg.types, t.sum = 1 :=
    hkept _ (one_kept h.input hprep hb) (one_start h.input hprep h1)
  intro els hels
  obtain ⟨i, hi⟩ := List.mem_iff_getElem?.1 hels
  have hg := h.good
  have hil : i < s.ms.cfg.types.length := by
    rw [hg.shape.types, ← hg.shape.elements]
    exact (List.getElem?_eq_some_iff.1 hi).1
  have := hg.sum hi (List.getElem?_eq_getElem hil)
  rw [key _ (List.getElem_mem _)] at this
  omega

/-- **C19** A process made from two local configurations with one particle per site is balanced. -/
theorem C19_ordinary [FloorRing K] {dist : Coord K → K} {first second : Config K} {rate : K} {basis : List Nat}
    {moves : List (Nat × Coord K)} {number m : Nat} {p : Proc K}
    (hp : mkProcess dist first second [] rate basis moves number = .ok p)
    (h1 : first.Good m nT) (h2 : second.Good m nT) (o1 : ∀ els ∈ first.elements, els.length = 1)
    (o2 : ∀ els ∈ second.elements, els.length = 1) : p.Balanced :=
  mkProcess_balanced hp h1 h2 o1 o2

/-- Non-vacuity: the hops on the ring are balanced, the ring has one particle per site. -/
example : ∃ (cfg : Config ℚ) (procs : List (Proc ℚ)) (s : Sim ℚ),
    GoodRun (Sample.env Sample.ring) 4 4 Sample.lg cfg procs s ∧ (∀ els ∈ cfg.elements, els.length = 1) ∧
    (∀ p ∈ procs, p.Balanced) ∧ s.ms.cfg.elements ≠ cfg.elements := by
  obtain ⟨cfg, procs, s, h1, h2, h, -, h', -⟩ := Sample.ring_run
  have e : cfg.elements = Sample.ringElements := (fresh_of_constructor Sample.types_numbering rfl
    (Sample.goodCheck_occupation (env := Sample.env Sample.ring) (procs := Sample.hops) (by decide +kernel)) h1).2
  refine ⟨cfg, procs, s, h, ?_, ?_, ?_⟩
  · rw [e]; decide
  · exact Sample.all_of_map (x := Sample.hops) (P := fun p => ∀ e ∈ p.matchList, e.updateTypes.sum = 0)
      (by decide +kernel) h2
  · rw [h', e]; decide

/-! ### C20, C21, C22 -/

theorem closed_kept {cfg1 : Config K} {procs1 : List (Proc K)}
    (hprep : Prepared env cfg procs cfg1 procs1)
    (hok : (World.of env n nT (Interactions.maxRange procs) cfg1 procs1).Ok) (hcl : ∀ p ∈ procs, p.Closed) :
    Kept (World.of env n nT (Interactions.maxRange procs) cfg1 procs1) (fun c => c.atomId.Nodup) := by
  refine ⟨?_, ?_⟩
  · intro c c' hcc hc
    rw [hcc]
    exact hc
  · intro ms j site q sk c1 c2 aff hinv hev hc
    obtain ⟨p0, hp0, hf⟩ := World.source hprep hinv hev.proc
    obtain ⟨A, hI⟩ := hinv
    exact (hev.carried hok hI.good ((hcl p0 (List.mem_of_getElem? hp0)).of_from hf)).nodup hc

/-- **C20** (partial) Where the moves of every process permute its moving sites, the atom ids are a
permutation of `0 .. n-1` in every state of every run. Missing for the full claim: the front end also
accepts processes whose moves do not permute, and for these the claim is false
(`C20_duplicated`). -/
theorem C20_permutation_partial (h : GoodRun env n nT negLog cfg procs s) (hfresh : cfg.Fresh)
    (hcl : ∀ p ∈ procs, p.Closed) : s.ms.cfg.atomId.Perm (List.range n) := by
  obtain ⟨cfg1, procs1, hprep, hok, ⟨⟨A, hI⟩, -⟩, hkept⟩ := h.inv
  have hnd : s.ms.cfg.atomId.Nodup := by
    refine hkept (fun c => c.atomId.Nodup) (closed_kept hprep hok hcl) ?_
    rw [(lists_of h.input hprep.1).rest]
    show cfg.atomId.Nodup
    rw [hfresh.ids]
    exact List.nodup_range
  have hg := h.good
  have hsub : s.ms.cfg.atomId ⊆ List.range n := fun i hi => List.mem_range.2 (hg.idsLt i hi)
  exact (hnd.subperm hsub).perm_of_length_le (by rw [List.length_range, hg.shape.atomId])

/-- **C22** (partial) Where the moves of every process permute its moving sites, the type reported for
an atom is the first one reported for the site that holds it, in every state of every run. Missing for
the full claim: as for C20. (The claim's restriction to one particle per site is not needed.) -/
theorem C22_types_follow_partial (h : GoodRun env n nT negLog cfg procs s) (hfresh : cfg.Fresh)
    (hcl : ∀ p ∈ procs, p.Closed) {i id : Nat} {els : List String} (hi : s.ms.cfg.atomId[i]? = some id)
    (hels : s.ms.cfg.elements[i]? = some els) : s.ms.cfg.atomIdElements[id]? = els[0]? := by
  obtain ⟨cfg1, procs1, hprep, hok, ⟨⟨A, hI⟩, -⟩, hkept⟩ := h.inv
  have hk := closed_kept hprep hok hcl
  have : s.ms.cfg.atomId.Nodup ∧ World.ElementsOk s.ms.cfg := by
    refine hkept (fun c => c.atomId.Nodup ∧ World.ElementsOk c) ⟨?_, ?_⟩ ?_
    · intro c c' hcc hc
      unfold World.ElementsOk at hc ⊢
      rw [hcc]
      exact hc
    · intro ms j site q sk c1 c2 aff hinv hev hc
      refine ⟨hk.event _ _ _ _ _ _ _ _ hinv hev hc.1, ?_⟩
      obtain ⟨p0, hp0, hf⟩ := World.source hprep hinv hev.proc
      obtain ⟨A, hI⟩ := hinv
      exact hev.elementsOk hok hI.good ((hcl p0 (List.mem_of_getElem? hp0)).of_from hf) hc.1 hc.2
    · unfold World.ElementsOk
      rw [(lists_of h.input hprep.1).rest]
      show cfg.atomId.Nodup ∧ ∀ (i id : Nat) (els : List String), cfg.atomId[i]? = some id →
        cfg.elements[i]? = some els → cfg.atomIdElements[id]? = els[0]?
      rw [hfresh.ids]
      refine ⟨List.nodup_range, ?_⟩
      intro i id els h1 h2
      obtain ⟨a, b⟩ := List.getElem?_eq_some_iff.1 h1
      rw [List.getElem_range] at b
      subst b
      exact hfresh.names i els h2
  exact this.2 i id els hi hels

/-- **C21** (partial) Where the moves of every process permute its moving sites, change something at
each of them and lead from site to site up to `δ`, and the sites are where the process says up to `τ`,
the tracked coordinate of an atom is that of its site after `m` steps, up to whole boxes along periodic
axes and up to `m (2 τ + δ)`. Missing for the full claim: with inexact positions the error grows with
the number of steps (`τ` can be anything up to the tolerance `10⁻⁵` of the matching), and the front end
accepts processes that are not of this kind (`C20_duplicated`, `C21_untracked`). -/
theorem C21_tracked_partial (hin : WellFormed env n nT cfg procs)
    (hcu : env.useCustomRates = true → CustomRatesOk env n nT cfg procs) (hfresh : cfg.Fresh) {s0 : Sim K}
    {ds : List (Draws K)} (h0 : LatticeModel.init env cfg procs = .ok s0) (hr : run env negLog ds s0 = .ok s)
    {τ δ : K} (hτ : 0 ≤ 2 * τ + δ) (hcl : ∀ p ∈ procs, p.Faithful δ)
    (hexact : ∀ cfg1 procs1, Prepared env cfg procs cfg1 procs1 → ∀ ml ∈ cfg1.matchLists, ∀ p ∈ procs,
      ∀ e ∈ p.matchList, ∀ c ∈ ml, e.hasMove = true → samePoint e c = true → Near τ e.coord c.coord)
    {i id : Nat} {x y : Coord K} (hi : s.ms.cfg.atomId[i]? = some id) (hx : s.ms.cfg.coords[i]? = some x)
    (hy : s.ms.cfg.atomIdCoords[id]? = some y) : Spec.SameInBox env.L (ds.length * (2 * τ + δ)) x y := by
  obtain ⟨cfg1, procs1, hprep, hok, hcount⟩ := reached_count hin hcu h0 hr
  have hl := lists_of hin hprep.1
  have hk := closed_kept hprep hok (fun p hp => (hcl p hp).toClosed)
  have : s.ms.cfg.atomId.Nodup ∧ s.ms.cfg.coords = cfg.coords ∧
      Tracked env.L (ds.length * (2 * τ + δ)) s.ms.cfg := by
    refine hcount (fun m c => c.atomId.Nodup ∧ c.coords = cfg.coords ∧ Tracked env.L (m * (2 * τ + δ)) c) ⟨?_, ?_⟩ ?_
    · intro m c c' hcc hc
      unfold Tracked at hc ⊢
      rw [hcc]
      exact hc
    · intro m ms j site q sk c1 c2 aff hinv hev hc
      refine ⟨hk.event _ _ _ _ _ _ _ _ hinv hev hc.1, by rw [hev.coords]; exact hc.2.1, ?_⟩
      obtain ⟨p0, hp0, hf⟩ := World.source hprep hinv hev.proc
      have hpm := List.mem_of_getElem? hp0
      obtain ⟨A, hI⟩ := hinv
      have ht := hev.tracked (τ := τ) (δ := δ) hok hI.good hτ ((hcl p0 hpm).of_from hf)
        (fun e he hch => (hf.acts (hin.processes p0 hpm) he).2 hch) hc.1 ?_ ?_ hc.2.2
      · rw [show ((m + 1 : Nat) : K) * (2 * τ + δ) = m * (2 * τ + δ) + (2 * τ + δ) by push_cast; ring]
        exact ht
      · obtain ⟨center, -, hent⟩ := hl.entry (i := site) (sk := sk) hev.skel
        refine ⟨center, fun e he => ?_⟩
        obtain ⟨-, hfor⟩ := hent e he
        obtain ⟨z, hz, hz'⟩ := hfor.coord
        exact ⟨z, by rw [hc.2.1]; exact hz, hz'⟩
      · intro e he c hcm hm hsp
        have hskm : sk ∈ cfg1.matchLists := List.mem_of_getElem? (show cfg1.matchLists[site]? = some sk from hev.skel)
        exact hexact cfg1 procs1 hprep sk hskm p0 hpm e (hf.mem he (.inr hm)) c hcm hm hsp
    · unfold Tracked
      rw [hl.rest]
      show cfg.atomId.Nodup ∧ cfg.coords = cfg.coords ∧ ∀ (i id : Nat) (x y : Coord K), cfg.atomId[i]? = some id →
        cfg.coords[i]? = some x → cfg.atomIdCoords[id]? = some y → _
      rw [hfresh.ids, hfresh.tracked]
      refine ⟨List.nodup_range, rfl, ?_⟩
      intro i id x y h1 h2 h3
      obtain ⟨a, b⟩ := List.getElem?_eq_some_iff.1 h1
      rw [List.getElem_range] at b
      subst b
      rw [h2, Option.some.injEq] at h3
      subst h3
      refine ⟨⟨0, fun _ => rfl, ?_⟩, ⟨0, fun _ => rfl, ?_⟩, ⟨0, fun _ => rfl, ?_⟩⟩ <;> simp
  exact this.2.2 i id x y hi hx hy

/-- **C21** (partial) The same without a condition on the positions of the sites: matching guarantees
them up to `10⁻⁵`. -/
theorem C21_tolerance_partial (hin : WellFormed env n nT cfg procs)
    (hcu : env.useCustomRates = true → CustomRatesOk env n nT cfg procs) (hfresh : cfg.Fresh) {s0 : Sim K}
    {ds : List (Draws K)} (h0 : LatticeModel.init env cfg procs = .ok s0) (hr : run env negLog ds s0 = .ok s)
    {δ : K} (hδ : 0 ≤ δ) (hcl : ∀ p ∈ procs, p.Faithful δ)
    {i id : Nat} {x y : Coord K} (hi : s.ms.cfg.atomId[i]? = some id) (hx : s.ms.cfg.coords[i]? = some x)
    (hy : s.ms.cfg.atomIdCoords[id]? = some y) : Spec.SameInBox env.L (ds.length * (2 * (1 / 100000) + δ)) x y := by
  refine C21_tracked_partial hin hcu hfresh h0 hr (by positivity) hcl ?_ hi hx hy
  intro cfg1 procs1 _ ml _ p _ e _ c _ _ hsp
  unfold samePoint ptSame epsi at hsp
  split at hsp
  · cases hsp
  split at hsp
  · cases hsp
  split at hsp
  · cases hsp
  split at hsp
  · cases hsp
  next h1 h2 h3 h4 => exact ⟨not_lt.1 h2, not_lt.1 h3, not_lt.1 h4⟩

/-- Non-vacuity: the hops on the ring are faithful without tolerance; the second hop of the atom goes
to site 2. -/
example : ∃ (cfg : Config ℚ) (procs : List (Proc ℚ)) (s : Sim ℚ),
    GoodRun (Sample.env Sample.ring) 4 4 Sample.lg cfg procs s ∧ cfg.Fresh ∧ (∀ p ∈ procs, p.Faithful 0) ∧
    s.ms.cfg.atomId = [1, 2, 0, 3] ∧ s.ms.cfg.atomIdCoords.map (·.x) = [2, 0, 1, 3] ∧
    s.ms.cfg.atomIdElements = ["A", "B", "B", "B"] := by
  obtain ⟨cfg, procs, s, h1, h2, h, h'⟩ := Sample.good_run (env := Sample.env Sample.ring) (P := Sample.ring)
    (els := Sample.ringElements) (procs := Sample.hops) (ds := [Sample.half, Sample.half])
    (f := fun s => (s.ms.cfg.atomId, s.ms.cfg.atomIdCoords.map (·.x), s.ms.cfg.atomIdElements))
    (b := ([1, 2, 0, 3], [2, 0, 1, 3], ["A", "B", "B", "B"])) 4 (by decide +kernel) rfl (by decide +kernel)
    (by decide +kernel)
  simp only [Prod.mk.injEq] at h'
  exact ⟨cfg, procs, s, h, (fresh_of_constructor Sample.types_numbering rfl (Sample.goodCheck_occupation
    (env := Sample.env Sample.ring) (procs := Sample.hops) (by decide +kernel)) h1).1,
    Sample.all_of_map (x := Sample.hops) (by decide +kernel) h2, h'⟩

/-- Non-vacuity of the condition on positions: on the ring they are exact. -/
example : ∃ (cfg : Config ℚ) (procs : List (Proc ℚ)), Sample.config Sample.ring Sample.ringElements = .ok cfg ∧
    Sample.hops = .ok procs ∧
    ∀ cfg1 procs1, Prepared (Sample.env Sample.ring) cfg procs cfg1 procs1 → ∀ ml ∈ cfg1.matchLists, ∀ p ∈ procs,
      ∀ e ∈ p.matchList, ∀ c ∈ ml, e.hasMove = true → samePoint e c = true → Near 0 e.coord c.coord := by
  obtain ⟨cfg, procs, s, h1, h2, -⟩ := Sample.ring_run
  refine ⟨cfg, procs, h1, h2, ?_⟩
  have key : ((do
      let c ← Sample.config Sample.ring Sample.ringElements
      let ps ← Sample.hops
      let c1 ← c.initMatchLists (Sample.env Sample.ring).dist (Sample.env Sample.ring).L (Interactions.maxRange ps)
      return c1.matchLists.all (fun ml => ps.all (fun p => p.matchList.all (fun e => ml.all (fun c =>
        !(e.hasMove && samePoint e c) || decide (Near 0 e.coord c.coord)))))) : M Bool) = .ok true := by
    decide +kernel
  intro cfg1 procs1 hprep ml hml p hp e he c hc hm hsp
  rw [h1, ok_bind, h2, ok_bind, hprep.1, ok_bind] at key
  have key := Except.ok.inj key
  simp only [List.all_eq_true] at key
  have := key ml hml p hp e he c hc
  rw [hm, hsp] at this
  simpa using this

/-- **C20** The claim is false of processes whose moves form a chain: atoms move from 0 to 1 and from 1
to 2, so the after state has A, A, B where the before state has A, B, C. The id of the first atom is then
at two sites and that of the second at none. (That the front end accepts the process is
`C38_chain_accepted`.) -/
theorem C20_duplicated : ∃ (cfg : Config ℚ) (procs : List (Proc ℚ)) (s : Sim ℚ),
    Sample.config (Sample.chain 5 true) Sample.chainElements = .ok cfg ∧ Sample.chainMoves = .ok procs ∧
    GoodRun (Sample.env (Sample.chain 5 true)) 5 4 Sample.lg cfg procs s ∧ s.ms.cfg.atomId = [0, 0, 2, 3, 4] := by
  obtain ⟨cfg, procs, s, h1, h2, h, h'⟩ := Sample.good_run (env := Sample.env (Sample.chain 5 true))
    (P := Sample.chain 5 true) (els := Sample.chainElements) (procs := Sample.chainMoves) (ds := [Sample.half])
    (f := fun s => s.ms.cfg.atomId) (b := [0, 0, 2, 3, 4]) 5 (by decide +kernel) rfl (by decide +kernel) (by decide +kernel)
  exact ⟨cfg, procs, s, h1, h2, h, h'⟩

/-- **C22** One more event makes the types disagree: the atom with id 0 is at sites 0 and 1; site 0
turns from A into C, and so atom 0 is said to be of type C while site 1 holds A. -/
theorem C22_disagree : ∃ (cfg : Config ℚ) (procs : List (Proc ℚ)) (s : Sim ℚ),
    GoodRun (Sample.env (Sample.chain 5 true)) 5 4 Sample.lg cfg procs s ∧ s.ms.cfg.atomId[1]? = some 0 ∧
    s.ms.cfg.elements[1]? = some ["A"] ∧ s.ms.cfg.atomIdElements[0]? = some "C" := by
  obtain ⟨cfg, procs, s, h1, h2, h, h'⟩ := Sample.good_run (env := Sample.env (Sample.chain 5 true))
    (P := Sample.chain 5 true) (els := Sample.chainElements) (procs := Sample.chainMoves)
    (ds := [Sample.half, Sample.half])
    (f := fun s => (s.ms.cfg.atomId[1]?, s.ms.cfg.elements[1]?, s.ms.cfg.atomIdElements[0]?))
    (b := (some 0, some ["A"], some "C")) 5 (by decide +kernel) rfl (by decide +kernel) (by decide +kernel)
  simp only [Prod.mk.injEq] at h'
  exact ⟨cfg, procs, s, h, h'⟩

/-- **C21** The claim is false of processes that move an atom where nothing changes: A, A, B turns into
B, A, A by a circle of moves, 0 to 1 to 2 to 0. Site 1 holds an A before and after, so the move vector of
its atom is not added to the tracked coordinate, but its id goes to site 2. -/
theorem C21_untracked : ∃ (cfg : Config ℚ) (procs : List (Proc ℚ)) (s : Sim ℚ),
    Sample.config (Sample.chain 5 true) Sample.circleElements = .ok cfg ∧ Sample.circle = .ok procs ∧
    GoodRun (Sample.env (Sample.chain 5 true)) 5 4 Sample.lg cfg procs s ∧ (∀ p ∈ procs, p.Closed) ∧
    s.ms.cfg.atomId[2]? = some 1 ∧ s.ms.cfg.coords[2]? = some ⟨2, 0, 0⟩ ∧
    s.ms.cfg.atomIdCoords[1]? = some ⟨1, 0, 0⟩ := by
  obtain ⟨cfg, procs, s, h1, h2, h, h'⟩ := Sample.good_run (env := Sample.env (Sample.chain 5 true))
    (P := Sample.chain 5 true) (els := Sample.circleElements) (procs := Sample.circle) (ds := [Sample.half])
    (f := fun s => (s.ms.cfg.atomId[2]?, s.ms.cfg.coords[2]?, s.ms.cfg.atomIdCoords[1]?))
    (b := (some 1, some ⟨2, 0, 0⟩, some ⟨1, 0, 0⟩)) 5 (by decide +kernel) rfl (by decide +kernel) (by decide +kernel)
  simp only [Prod.mk.injEq] at h'
  exact ⟨cfg, procs, s, h1, h2, h, Sample.all_of_map (x := Sample.circle) (by decide +kernel) h2, h'⟩

end KMC
