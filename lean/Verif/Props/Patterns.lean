import Verif.Props.Equilibrium

/-!
# C66: what matters about the processes

With constant rates the probabilities of runs depend on the processes only through the sum of the rates of the processes with
the same pattern. The order of the processes does not matter, nor whether a process is given as several ones with smaller
rates. When all rates are multiplied by a number the same happens in the shorter time.
-/

set_option linter.unusedSectionVars false

namespace KMC

open LatticeModel Interactions MeasureTheory Classical Filter

/-- What a process asks for and does, and on which sites. -/
def Proc.pattern {K : Type _} [Field K] [LinearOrder K] (p : Proc K) : List (PEntry K) × List Nat := (p.matchList, p.basisSites)

/-- The sum of the rates of the processes with a given pattern. -/
noncomputable def patternRate (procs : List (Proc ℝ)) (x : List (PEntry ℝ) × List Nat) : ℝ :=
  ((procs.filter fun p => decide (p.pattern = x)).map (·.rate)).sum

/-- Two lists of processes, where the first one has `a` times the rates of the second one, pattern by pattern. -/
structure SamePatterns (a : ℝ) (procs procs' : List (Proc ℝ)) : Prop where
  rates : ∀ x, patternRate procs x = a * patternRate procs' x
  range : maxRange procs = maxRange procs'

variable {env : Env ℝ} {n nT : Nat} {cfg : Config ℝ} {procs procs' : List (Proc ℝ)} {s s' : Sim ℝ} {a : ℝ}

theorem SamePatterns.symm (h : SamePatterns a procs procs') (ha : 0 < a) : SamePatterns a⁻¹ procs' procs :=
  ⟨fun x => by rw [h.rates, inv_mul_cancel_left₀ ha.ne'], h.range.symm⟩

theorem patternRate_pos (hr : ∀ p ∈ procs, 0 < p.rate) {x : List (PEntry ℝ) × List Nat} :
    0 < patternRate procs x ↔ ∃ (j : Nat) (p : Proc ℝ), procs[j]? = some p ∧ p.pattern = x := by
  constructor
  · intro h
    by_contra hno
    have : procs.filter (fun p => decide (p.pattern = x)) = [] := by
      rw [List.filter_eq_nil_iff]
      intro p hp hx
      obtain ⟨j, hj⟩ := List.mem_iff_getElem?.1 hp
      exact hno ⟨j, p, hj, of_decide_eq_true hx⟩
    unfold patternRate at h
    rw [this] at h
    simp at h
  · rintro ⟨j, p, hj, hx⟩
    unfold patternRate
    refine List.sum_pos _ ?_ ?_
    · intro r hr'
      obtain ⟨q, hq, rfl⟩ := List.mem_map.1 hr'
      exact hr q (List.mem_filter.1 hq).1
    · intro h0
      have hm : p ∈ procs.filter (fun p => decide (p.pattern = x)) :=
        List.mem_filter.2 ⟨List.mem_of_getElem? hj, decide_eq_true hx⟩
      rw [List.map_eq_nil_iff.1 h0] at hm
      simp at hm

theorem SamePatterns.partner (h : SamePatterns a procs procs') (ha : 0 < a) (hr : ∀ p ∈ procs, 0 < p.rate)
    (hr' : ∀ p ∈ procs', 0 < p.rate) {j : Nat} {p : Proc ℝ} (hj : procs[j]? = some p) :
    ∃ (j' : Nat) (q : Proc ℝ), procs'[j']? = some q ∧ q.pattern = p.pattern := by
  have h1 := (patternRate_pos hr).2 ⟨j, p, hj, rfl⟩
  rw [h.rates] at h1
  exact (patternRate_pos hr').1 ((pos_iff_pos_of_mul_pos h1).1 ha)

/-- Processes with the same pattern have the same one after wildcards have been inserted. -/
theorem prepared_pattern {cfg1 : Config ℝ} {procs1 procs1' : List (Proc ℝ)} (hp : Prepared env cfg procs cfg1 procs1)
    (hp' : Prepared env cfg procs' cfg1 procs1') {j j' : Nat} {p q p1 q1 : Proc ℝ} (hj : procs[j]? = some p)
    (hj' : procs'[j']? = some q) (h : p.pattern = q.pattern) (h1 : procs1[j]? = some p1) (h2 : procs1'[j']? = some q1) :
    p1.matchList = q1.matchList := by
  obtain ⟨-, e2⟩ := hp
  obtain ⟨-, e2'⟩ := hp'
  have hm : p.matchList = q.matchList := congrArg Prod.fst h
  have hbs : p.basisSites = q.basisSites := congrArg Prod.snd h
  have hc : (clearMatching procs)[j]? = some p.clearSites := by
    unfold clearMatching
    rw [List.getElem?_map, hj]; rfl
  have hc' : (clearMatching procs')[j']? = some q.clearSites := by
    unfold clearMatching
    rw [List.getElem?_map, hj']; rfl
  unfold updateProcessMatchLists at e2 e2'
  split at e2
  · next hw =>
    rw [if_pos hw] at e2'
    obtain rfl := Except.ok.inj e2
    obtain rfl := Except.ok.inj e2'
    rw [hc] at h1
    rw [hc'] at h2
    rw [← Option.some.inj h1, ← Option.some.inj h2]
    exact hm
  · next hw =>
    rw [if_neg hw] at e2'
    obtain ⟨u, a1, a2⟩ := mapMM_getElem?' e2 h1
    obtain ⟨v, b1, b2⟩ := mapMM_getElem?' e2' h2
    rw [hc] at a1
    rw [hc'] at b1
    rw [← Option.some.inj a1] at a2
    rw [← Option.some.inj b1] at b2
    have hm' : p.clearSites.matchList = q.clearSites.matchList := hm
    have hbs' : p.clearSites.basisSites = q.clearSites.basisSites := hbs
    unfold updateMatchListOf at a2 b2
    rw [hbs'] at a2
    split at a2
    · next b hb =>
      rw [hb] at b2
      obtain ⟨idx, c1, a2⟩ := bind_ok.1 a2
      obtain ⟨idx', c1', b2⟩ := bind_ok.1 b2
      obtain rfl := Except.ok.inj (c1.symm.trans c1')
      obtain ⟨cml, c2, a2⟩ := bind_ok.1 a2
      obtain ⟨cml', c2', b2⟩ := bind_ok.1 b2
      obtain rfl := Except.ok.inj (c2.symm.trans c2')
      obtain ⟨r, c3, a2⟩ := bind_ok.1 a2
      obtain ⟨r', c3', b2⟩ := bind_ok.1 b2
      rw [hm'] at c3
      obtain rfl := Except.ok.inj (c3.symm.trans c3')
      obtain ⟨_, -, a2⟩ := bind_ok.1 a2
      obtain ⟨_, -, b2⟩ := bind_ok.1 b2
      rw [← Except.ok.inj a2, ← Except.ok.inj b2]
    · next hne =>
      have e1 := Except.ok.inj a2
      have e2 : q.clearSites = q1 := by
        match hq : q.clearSites.basisSites, b2 with
        | [], b2 => exact Except.ok.inj b2
        | [b], b2 => exact absurd hq (hne b)
        | b :: c :: l, b2 => exact Except.ok.inj b2
      rw [← e1, ← e2]
      exact hm'

/-- In states with the same types, processes with the same pattern lead to the same types. -/
theorem leadsTo_pattern (h : GoodRun env n nT negLog cfg procs s) (h' : GoodRun env n nT negLog cfg procs' s')
    (hR : maxRange procs = maxRange procs') (hr' : PositiveRates env procs') {M' : Nat} (hb' : Bounded M' cfg procs')
    (hf' : FewEnough M' procs') (he : s.ms.cfg.types = s'.ms.cfg.types) {j j' site : Nat} {p0 q0 : Proc ℝ}
    (hj : procs[j]? = some p0) (hj' : procs'[j']? = some q0) (hpat : p0.pattern = q0.pattern) {t : List Bucket}
    (hl : LeadsTo env s j site t) : LeadsTo env s' j' site t := by
  obtain ⟨cfg1, procs1, hprep, hok, ⟨⟨A, hI⟩, -⟩, -⟩ := h.inv
  obtain ⟨cfg2, procs2, hprep', hok', ⟨⟨A', hI'⟩, -⟩, -⟩ := h'.inv
  have ec : cfg2 = cfg1 := by
    have e1 := hprep'.1
    rw [← hR] at e1
    exact Except.ok.inj (e1.symm.trans hprep.1)
  subst ec
  obtain ⟨d, ps, u, g1, g2, rfl⟩ := hl
  obtain ⟨p, sk, hp, hsk, hsite, hfit, htook⟩ := h.took g1 g2 hprep
  have hav := (C24_available h hp site).1 hsite
  obtain ⟨q, hq⟩ : ∃ q, s'.ms.procs[j']? = some q := by
    refine ⟨_, List.getElem?_eq_getElem ?_⟩
    rw [procs_length h']
    exact (List.getElem?_eq_some_iff.1 hj').1
  have e1 : (procs1.map Proc.still)[j]? = some p.still := hI.proc hp
  have e2 : (procs2.map Proc.still)[j']? = some q.still := hI'.proc hq
  rw [List.getElem?_map, Option.map_eq_some_iff] at e1 e2
  obtain ⟨p1, e1, f1⟩ := e1
  obtain ⟨q1, e2, f2⟩ := e2
  have em : p.matchList = q.matchList := by
    have k1 : p1.matchList = p.matchList := by have h := congrArg Proc.matchList f1; exact h
    have k2 : q1.matchList = q.matchList := by have h := congrArg Proc.matchList f2; exact h
    rw [← k1, ← k2]
    exact prepared_pattern hprep hprep' hj hj' hpat e1 e2
  have eb : p.basisSites = q.basisSites := by
    have k1 : p1.basisSites = p.basisSites := by have h := congrArg Proc.basisSites f1; exact h
    have k2 : q1.basisSites = q.basisSites := by have h := congrArg Proc.basisSites f2; exact h
    obtain ⟨p2, l1, -, l2⟩ := prepared_proc h.input hprep e1
    obtain ⟨q2, m1, -, m2⟩ := prepared_proc h'.input hprep' e2
    rw [hj] at l1
    obtain rfl := Option.some.inj l1
    rw [hj'] at m1
    obtain rfl := Option.some.inj m1
    rw [← k1, ← k2, l2, m2]
    exact congrArg Prod.snd hpat
  have hl := lists_of h.input hprep.1
  have hl' := lists_of h'.input hprep'.1
  have m1 := hl.matchList h.input.lattice h.input.sites h.good.shape h.coords hsk
  have m2 := hl'.matchList h'.input.lattice h'.input.sites h'.good.shape h'.coords hsk
  have hsite' : site ∈ q.sites := by
    refine (C24_available h' hq site).2 ⟨hav.1, by rw [← eb]; exact hav.2.1, _, m2, ?_⟩
    obtain ⟨ml, k1, k2⟩ := hav.2.2
    have k1 := m1.symm.trans k1
    rw [← em, ← he, Except.ok.inj k1]
    exact k2
  obtain ⟨k, hk⟩ := List.mem_iff_getElem?.1 hsite'
  obtain ⟨d', ps', b, r, f1, f2, -⟩ := C58_possible h' hr' hb' hf' hq hk
  refine ⟨d', ps', b, f1, f2, ?_⟩
  obtain ⟨q', sk', hq', hsk', -, -, htook'⟩ := h'.took f1 f2 hprep'
  rw [hq] at hq'
  obtain rfl := Option.some.inj hq'
  rw [hsk] at hsk'
  obtain rfl := Option.some.inj hsk'
  rw [← em, ← he] at htook'
  exact took_unique htook' htook

theorem sum_patterns (G : List (PEntry ℝ) × List Nat → ℝ) (S : Finset (List (PEntry ℝ) × List Nat)) :
    ∀ {l : List (Proc ℝ)}, (∀ p ∈ l, p.pattern ∈ S) →
      (l.map fun p => p.rate * G p.pattern).sum = ∑ x ∈ S, G x * patternRate l x := by
  intro l
  induction l with
  | nil =>
    intro _
    simp [patternRate]
  | cons p l ih =>
    intro hS
    rw [List.map_cons, List.sum_cons, ih fun q hq => hS q (List.mem_cons_of_mem _ hq)]
    have e : ∀ x, patternRate (p :: l) x = (if p.pattern = x then p.rate else 0) + patternRate l x := by
      intro x
      unfold patternRate
      rw [List.filter_cons]
      by_cases hx : p.pattern = x
      · rw [if_pos (decide_eq_true hx), if_pos hx, List.map_cons, List.sum_cons]
      · rw [if_neg (by simpa using hx), if_neg hx, zero_add]
    simp only [e, mul_add, Finset.sum_add_distrib, mul_ite, mul_zero]
    rw [Finset.sum_ite_eq, if_pos (hS p (List.mem_cons_self ..)), mul_comm]

/-- The rates to other types, process by process. -/
theorem flow_processes (h : GoodRun env n nT negLog cfg procs s) (hc : ∀ p ∈ procs, p.custom = false) {t : List Bucket}
    {G : List (PEntry ℝ) × List Nat → ℝ}
    (hG : ∀ (j : Nat) (p : Proc ℝ), procs[j]? = some p →
      G p.pattern = ∑ site ∈ Finset.range n, if LeadsTo env s j site t then 1 else 0) :
    flow env n s t = (procs.map fun p => p.rate * G p.pattern).sum := by
  unfold flow
  rw [procs_length h, Finset.sum_product]
  have key : ∀ j ∈ Finset.range procs.length, (∑ site ∈ Finset.range n, if LeadsTo env s j site t then rateAt s j site else 0) =
      (procs.map fun p => p.rate * G p.pattern).getD j 0 := by
    intro j hj
    have hj := List.getElem?_eq_getElem (Finset.mem_range.1 hj)
    rw [List.getD_eq_getElem?_getD, List.getElem?_map, hj]
    show _ = _ * _
    rw [hG j _ hj, Finset.mul_sum]
    refine Finset.sum_congr rfl fun site _ => ?_
    by_cases hl : LeadsTo env s j site t
    · rw [if_pos hl, if_pos hl, mul_one, rateAt_constant h hj (hc _ (List.mem_of_getElem? hj)) hl]
    · rw [if_neg hl, if_neg hl, mul_zero]
  rw [Finset.sum_congr rfl key]
  have h2 : ∀ l : List ℝ, ∑ j ∈ Finset.range l.length, l.getD j 0 = l.sum := by
    intro l
    induction l with
    | nil => rfl
    | cons a l ih => rw [List.length_cons, Finset.sum_range_succ', List.sum_cons, ← ih, add_comm]; simp
  have := h2 (procs.map fun p => p.rate * G p.pattern)
  rw [List.length_map] at this
  exact this

section
variable (hr : PositiveRates env procs) {M : Nat} (hb : Bounded M cfg procs) (hf : FewEnough M procs)
  (hr' : PositiveRates env procs') {M' : Nat} (hb' : Bounded M' cfg procs') (hf' : FewEnough M' procs')
  (hsame : SamePatterns a procs procs') (ha : 0 < a)
include hr hb hf hr' hb' hf' hsame ha

/-- **C66** The rates from types to types are in the same ratio. -/
theorem C66_rates (hc : ∀ p ∈ procs, p.custom = false) (hc' : ∀ p ∈ procs', p.custom = false)
    (h : GoodRun env n nT negLog cfg procs s) (h' : GoodRun env n nT negLog cfg procs' s')
    (he : s.ms.cfg.types = s'.ms.cfg.types) (t : List Bucket) : flow env n s t = a * flow env n s' t := by
  let G : List (PEntry ℝ) × List Nat → ℝ := fun x => ∑ site ∈ Finset.range n,
    if ∃ (j : Nat) (p : Proc ℝ), procs[j]? = some p ∧ p.pattern = x ∧ LeadsTo env s j site t then 1 else 0
  have hG : ∀ (j : Nat) (p : Proc ℝ), procs[j]? = some p →
      G p.pattern = ∑ site ∈ Finset.range n, if LeadsTo env s j site t then 1 else 0 := by
    intro j p hj
    refine Finset.sum_congr rfl fun site _ => ?_
    congr 1
    refine propext ⟨?_, fun hl => ⟨j, p, hj, rfl, hl⟩⟩
    rintro ⟨k, q, hk, hpat, hl⟩
    exact leadsTo_pattern h h rfl hr hb hf rfl hk hj hpat hl
  have hG' : ∀ (j : Nat) (p : Proc ℝ), procs'[j]? = some p →
      G p.pattern = ∑ site ∈ Finset.range n, if LeadsTo env s' j site t then 1 else 0 := by
    intro j p hj
    refine Finset.sum_congr rfl fun site _ => ?_
    congr 1
    refine propext ⟨?_, fun hl => ?_⟩
    · rintro ⟨k, q, hk, hpat, hl⟩
      exact leadsTo_pattern h h' hsame.range hr' hb' hf' he hk hj hpat hl
    · obtain ⟨k, q, hk, hpat⟩ := (hsame.symm ha).partner (inv_pos.2 ha) hr'.constant hr.constant hj
      exact ⟨k, q, hk, hpat, leadsTo_pattern h' h hsame.range.symm hr hb hf he.symm hj hk hpat.symm hl⟩
  let S : Finset (List (PEntry ℝ) × List Nat) := (procs.map Proc.pattern).toFinset ∪ (procs'.map Proc.pattern).toFinset
  rw [flow_processes h hc hG, flow_processes h' hc' hG',
    sum_patterns G S (fun p hp => Finset.mem_union_left _ (List.mem_toFinset.2 (List.mem_map_of_mem hp))),
    sum_patterns G S (fun p hp => Finset.mem_union_right _ (List.mem_toFinset.2 (List.mem_map_of_mem hp))), Finset.mul_sum]
  refine Finset.sum_congr rfl fun x _ => ?_
  rw [hsame.rates]
  ring

/-- **C66** The runs of both models come to the same types. -/
theorem C66_types {s0 : Sim ℝ} (h0 : GoodRun env n nT negLog cfg procs' s0) (h : GoodRun env n nT negLog cfg procs s) :
    ∃ s', GoodRun env n nT negLog cfg procs' s' ∧ s'.ms.cfg.types = s.ms.cfg.types := by
  obtain ⟨h1, h2, si, ds, h3, h4⟩ := h
  obtain ⟨g1, g2, si', -, g3, -⟩ := h0
  have key : ∀ (ds : List (Draws ℝ)) (u v u' : Sim ℝ), GoodRun env n nT negLog cfg procs u →
      GoodRun env n nT negLog cfg procs' u' → u.ms.cfg.types = u'.ms.cfg.types → run env negLog ds u = .ok v →
      ∃ v', GoodRun env n nT negLog cfg procs' v' ∧ v'.ms.cfg.types = v.ms.cfg.types := by
    intro ds
    induction ds with
    | nil =>
      intro u v u' _ hu' he huv
      unfold run loopM at huv
      obtain rfl := Except.ok.inj huv
      exact ⟨u', hu', he.symm⟩
    | cons d ds ih =>
      intro u v u' hu hu' he huv
      unfold run at huv
      rw [loopM_cons] at huv
      obtain ⟨c, hc, hcv⟩ := bind_ok.1 huv
      obtain ⟨j, site, hl⟩ := step_leads hc
      obtain ⟨p, hp, -⟩ := hl.listed hu
      have hj := List.getElem?_eq_getElem (l := procs) (i := j) (by
        rw [← procs_length hu]; exact (List.getElem?_eq_some_iff.1 hp).1)
      obtain ⟨k, q, hk, hpat⟩ := hsame.partner ha hr.constant hr'.constant hj
      obtain ⟨d', ps', c', -, k2, k3⟩ := leadsTo_pattern hu hu' hsame.range hr' hb' hf' he hj hk hpat.symm hl
      exact ih c v c' (hu.step hc) (hu'.step k2) k3.symm hcv
  have start : ∀ {ps : List (Proc ℝ)} {si : Sim ℝ}, WellFormed env n nT cfg ps →
      (env.useCustomRates = true → CustomRatesOk env n nT cfg ps) → init env cfg ps = .ok si →
      si.ms.cfg.types = cfg.types := by
    intro ps si k1 k2 k3
    unfold init at k3
    obtain ⟨ms, hms, k3⟩ := bind_ok.1 k3
    cases k3
    obtain ⟨cfg1, procs1, hprep, -, -, hsame⟩ := initialMatching_inv k1 k2 hms
    rw [hsame.types, (lists_of k1 hprep.1).rest]
  exact key ds si s si' ⟨h1, h2, si, [], h3, rfl⟩ ⟨g1, g2, si', [], g3, rfl⟩ ((start h1 h2 h3).trans (start g1 g2 g3).symm) h4

/-- **C66** The probabilities of the types are the same, in a time that is longer by the factor `a`. -/
theorem C66_law (hc : ∀ p ∈ procs, p.custom = false) (hc' : ∀ p ∈ procs', p.custom = false)
    (h : GoodRun env n nT negLog cfg procs s) (h' : GoodRun env n nT negLog cfg procs' s')
    (he : s.ms.cfg.types = s'.ms.cfg.types) {y : List Bucket}
    (hy : ∃ b, GoodRun env n nT negLog cfg procs b ∧ b.ms.cfg.types = y) {t : ℝ} (h0 : 0 ≤ t) :
    (chance env s y t).toReal = (chance env s' y (a * t)).toReal := by
  obtain ⟨T, W, hF, hT⟩ := C64_family (n := n) (nT := nT) hr hb hf hc
  obtain ⟨T', W', hF', hT'⟩ := C64_family (n := n) (nT := nT) hr' hb' hf' hc'
  have hTT : T = T' := by
    ext x
    constructor
    · intro hx
      obtain ⟨b, hb1, rfl⟩ := hF.reached x hx
      obtain ⟨b', hb2, hb3⟩ := C66_types hr hb hf hr' hb' hf' hsame ha h' hb1
      rw [← hb3]
      exact (hT' b' hb2).1
    · intro hx
      obtain ⟨b, hb1, rfl⟩ := hF'.reached x hx
      obtain ⟨b', hb2, hb3⟩ := C66_types hr' hb' hf' hr hb hf (hsame.symm ha) (inv_pos.2 ha) h hb1
      rw [← hb3]
      exact (hT b' hb2).1
  subst hTT
  have hW : ∀ x ∈ T, ∀ z, W x z = a * W' x z := by
    intro x hx z
    obtain ⟨b, hb1, rfl⟩ := hF.reached x hx
    obtain ⟨b', hb2, hb3⟩ := hF'.reached _ hx
    rw [(hT b hb1).2, C66_rates hr hb hf hr' hb' hf' hsame ha hc hc' hb1 hb2 hb3.symm z, ← (hT' b' hb2).2, hb3]
  have hyT : y ∈ T := by
    obtain ⟨b, hb1, rfl⟩ := hy
    exact (hT b hb1).1
  have ht' := (hT' s' h').1
  let m : Member env n nT cfg procs' T := ⟨s', h', ht'⟩
  obtain ⟨σ, hσ, hm⟩ := exists_section hF' m
  refine (C64_unique hF hr hb hf h (hT s h).1 (fun y t => (chance env s' y (a * t)).toReal) ?_ ?_ ?_ hyT h0).symm
  · intro z hz
    have := (renewal hF' hr' hb' hf' σ hσ ⟨z, hz⟩).continuousOn (typesOf m)
    rw [hm] at this
    refine this.comp (by fun_prop) ?_
    intro u hu
    exact mul_nonneg ha.le hu
  · intro z hz
    show (chance env s' z (a * 0)).toReal = _
    rw [mul_zero, C64_start hF' hr' hb' hf' h' ht' hz, he]
  · intro z hz u hu
    have h1 := C64_master hF' hr' hb' hf' h' ht' hz (mul_nonneg ha.le hu)
    have h2 : HasDerivWithinAt (fun v => a * v) a (Set.Ici u) u :=
      (((hasDerivAt_id' u).const_mul a).congr_deriv (mul_one a)).hasDerivWithinAt
    have h3 := h1.comp u h2 (fun v hv => mul_le_mul_of_nonneg_left hv ha.le)
    refine h3.congr_deriv ?_
    rw [sub_mul, Finset.sum_mul, mul_assoc, Finset.sum_mul]
    congr 1
    · refine Finset.sum_congr rfl fun x hx => ?_
      rw [hW x hx]
      ring
    · congr 1
      refine Finset.sum_congr rfl fun x _ => ?_
      rw [hW z hz]
      ring

end

/-! ### Special cases -/

/-- **C66** The order and the numbers of the processes do not matter. -/
theorem C66_order (hp : (procs.map fun p => (p.pattern, p.rate)).Perm (procs'.map fun p => (p.pattern, p.rate)))
    (hR : maxRange procs = maxRange procs') : SamePatterns 1 procs procs' := by
  refine ⟨fun x => ?_, hR⟩
  have e : ∀ l : List (Proc ℝ), patternRate l x =
      (((l.map fun p => (p.pattern, p.rate)).filter fun u => decide (u.1 = x)).map (·.2)).sum := by
    intro l
    unfold patternRate
    rw [List.filter_map, List.map_map]
    rfl
  rw [one_mul, e, e]
  exact ((hp.filter _).map _).sum_eq

/-- **C66** Multiplying all rates by a number. -/
theorem C66_scale (a : ℝ) (procs : List (Proc ℝ)) : SamePatterns a (procs.map fun p => { p with rate := a * p.rate }) procs := by
  refine ⟨fun x => ?_, ?_⟩
  · unfold patternRate
    rw [List.filter_map, List.map_map, ← List.sum_map_mul_left]
    rfl
  · unfold maxRange
    rw [List.foldl_map]

/-- **C66** A process may be given as two processes with the same pattern whose rates add up to its rate. -/
theorem C66_split {p q r : Proc ℝ} (hp : p.pattern = r.pattern) (hq : q.pattern = r.pattern) (hrate : p.rate + q.rate = r.rate)
    (hR : maxRange (p :: q :: procs) = maxRange (r :: procs)) : SamePatterns 1 (p :: q :: procs) (r :: procs) := by
  refine ⟨fun x => ?_, hR⟩
  rw [one_mul]
  unfold patternRate
  rw [List.filter_cons, List.filter_cons, List.filter_cons, hp, hq]
  by_cases hx : r.pattern = x
  · simp only [hx, decide_true, if_true, List.map_cons, List.sum_cons]
    rw [← hrate, add_assoc]
  · simp only [hx, decide_false, Bool.false_eq_true, if_false]

/-! ### Non-vacuity -/

theorem froAndTo_same : SamePatterns 2 Sample.froAndTo Sample.toAndFro := by
  refine ⟨fun x => ?_, by rw [Sample.froAndTo_range, Sample.toAndFro_range]⟩
  have e : ∀ (i k : Nat) (r r' : ℝ) (b u : Bucket), (Sample.turn i r b u).pattern = (Sample.turn k r' b u).pattern :=
    fun _ _ _ _ _ _ => rfl
  unfold patternRate Sample.froAndTo Sample.toAndFro
  simp only [List.filter_cons, List.filter_nil]
  rw [e 0 1 6 3, e 1 0 1 2, e 2 0 3 2]
  by_cases h1 : (Sample.turn 1 3 [0, 0, 1] [0, 1, -1]).pattern = x <;>
    by_cases h2 : (Sample.turn 0 2 [0, 1, 0] [0, -1, 1]).pattern = x <;>
    simp only [h1, h2, decide_true, decide_false, if_true, Bool.false_eq_true, if_false, List.map_cons, List.map_nil, List.sum_cons,
      List.sum_nil] <;> norm_num [Sample.turn]

/-- Non-vacuity: with the rates doubled, in another order and with one process given as two, the probability of `A` on the site
after a time `t` is `3/5 + 2/5 exp (-10 t)`. -/
example : ∃ s, GoodRun Sample.oneEnv 1 3 negLog Sample.oneSite Sample.froAndTo s ∧ s.ms.cfg.types = [[0, 1, 0]] ∧
    ∀ t : ℝ, 0 ≤ t → (chance Sample.oneEnv s [[0, 1, 0]] t).toReal = 3 / 5 + 2 / 5 * Real.exp (-(10 * t)) := by
  obtain ⟨hb, hf⟩ := bounded_one Sample.oneSite_one Sample.froAndTo_balanced
  obtain ⟨hb', hf'⟩ := bounded_one Sample.oneSite_one Sample.toAndFro_balanced
  obtain ⟨s, h, ht⟩ := Sample.oneSite_starts Sample.froAndTo_wellFormed
  obtain ⟨s', h', ht', hlaw⟩ := toAndFro_chance
  refine ⟨s, h, ht, fun t h0 => ?_⟩
  rw [C66_law Sample.froAndTo_positive hb hf Sample.toAndFro_positive hb' hf' froAndTo_same two_pos ?_ ?_ h h' (ht.trans ht'.symm)
    ⟨s, h, ht⟩ h0, hlaw _ (by positivity)]
  · ring_nf
  · intro p hp
    simp only [Sample.froAndTo, List.mem_cons, List.not_mem_nil, or_false] at hp
    rcases hp with rfl | rfl | rfl <;> rfl
  · intro p hp
    simp only [Sample.toAndFro, List.mem_cons, List.not_mem_nil, or_false] at hp
    rcases hp with rfl | rfl <;> rfl

end KMC
