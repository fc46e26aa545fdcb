import Verif.Lemmas.Reverse
import Verif.Props.PathLaw

/-!
# C59: reverse processes undo events, and detailed balance
-/

set_option linter.unusedSectionVars false

namespace KMC

open LatticeModel Interactions

section
variable {K : Type _} [Field K] [LinearOrder K] [IsStrictOrderedRing K]
variable {env : Env K} {n nT : Nat} {negLog : K → Option K} {cfg : Config K} {procs : List (Proc K)} {s s1 s2 : Sim K}

theorem step_single {s s' : Sim K} {d : Draws K} (h : step env negLog s d = .ok s') :
    ∃ s0, singleStep env s d.process d.site = .ok s0 ∧ s0.ms = s'.ms := by
  unfold step propagateTime at h
  obtain ⟨s1, h1, h⟩ := bind_ok.1 h
  obtain ⟨R, -, h1⟩ := bind_ok.1 h1
  obtain ⟨dt, -, h1⟩ := bind_ok.1 h1
  rw [← Except.ok.inj h1, singleStep_time_eq] at h
  cases hs : singleStep env s d.process d.site with
  | error e => rw [hs] at h; cases h
  | ok s0 =>
    rw [hs] at h
    exact ⟨s0, rfl, by rw [← Except.ok.inj h]⟩

/-- What a step does, position by position. -/
theorem GoodRun.took (h : GoodRun env n nT negLog cfg procs s) {d : Draws K} {j site : Nat} {ps : List (Proc K)}
    (hsel : select s.ms.procs s.table d.process d.site = .ok (j, site, ps)) (hs : LatticeModel.step env negLog s d = .ok s1)
    {cfg1 : Config K} {procs1 : List (Proc K)} (hprep : Prepared env cfg procs cfg1 procs1) :
    ∃ p sk, s.ms.procs[j]? = some p ∧ cfg1.matchLists[site]? = some sk ∧ site ∈ p.sites ∧
      (∃ l1 l2, seen s.ms.cfg.types sk = l1 ++ l2 ∧ List.Forall₂ Fits p.matchList l1) ∧
      Took p.matchList sk s.ms.cfg.types s1.ms.cfg.types := by
  obtain ⟨s0, hs0, hms⟩ := step_single hs
  obtain ⟨cfg2, procs2, ms0, q, sk, c1, c2, aff, p, hprep', hok, hst, hp, hsite, e1, e2, hml, hact⟩ := h.stepped hsel hs0
  have ec : cfg2 = cfg1 := Except.ok.inj (hprep'.1.symm.trans hprep.1)
  subst ec
  have hev := hst.event
  have hc := hst.cfg
  have ht : s1.ms.cfg.types = c2.types := by rw [← hms, hst.same]
  have hch : acting p.matchList (seen s.ms.cfg.types sk) = Targets p (seen s.ms.cfg.types sk) := by rw [e1, hact]
  refine ⟨p, sk, hp, hev.skel, hsite, ?_, ?_, ?_⟩
  · rw [e1, ← hc]; exact hev.fits
  · intro k e c hk hkc he
    have hm : (e, c.look s.ms.cfg.types) ∈ acting p.matchList (seen s.ms.cfg.types sk) := by
      rw [hch]
      unfold Targets
      rw [List.mem_filter]
      refine ⟨List.mem_of_getElem? (i := k) ?_, decide_eq_true he⟩
      rw [List.getElem?_zip_eq_some]
      exact ⟨hk, by unfold seen; rw [List.getElem?_map, hkc]; rfl⟩
    rw [e1, ← hc] at hm
    have hlt : c.index < s.ms.cfg.types.length := by
      rw [h.good.shape.types]
      exact hev.ready.index (c.look ms0.cfg.types) (Config.mem_acting hm).2.1
    refine ⟨_, List.getElem?_eq_getElem hlt, ?_⟩
    rw [ht]
    exact hev.typeAt hm (by rw [hc]; exact List.getElem?_eq_getElem hlt)
  · intro i hi
    rw [ht, ← hc]
    apply hev.typeOff
    intro hm
    obtain ⟨x, hx, hxi⟩ := List.mem_map.1 hm
    rw [hc, hact] at hx
    unfold Targets at hx
    rw [List.mem_filter] at hx
    obtain ⟨k, hk⟩ := List.mem_iff_getElem?.1 hx.1
    rw [List.getElem?_zip_eq_some] at hk
    obtain ⟨hk1, hk2⟩ := hk
    unfold seen at hk2
    rw [List.getElem?_map, Option.map_eq_some_iff] at hk2
    obtain ⟨c, hk2, hk3⟩ := hk2
    refine hi k x.1 c hk1 hk2 (of_decide_eq_true hx.2) ?_
    rw [← hxi, ← hk3]; rfl

/-- **C59** A reverse process undoes an event. Let an event of process `j` at a site lead from a state to another, and let
process `j'` be the reverse of process `j`, whose places are distinct. Then in every state with the types of that other
state process `j'` is available at the same site, and performing it there gives back the types before the event. -/
theorem C59_undone (h : GoodRun env n nT negLog cfg procs s) {d : Draws K} {j site : Nat} {ps : List (Proc K)}
    (hsel : select s.ms.procs s.table d.process d.site = .ok (j, site, ps)) (hs : step env negLog s d = .ok s1)
    {j' : Nat} {p q : Proc K} (hj : procs[j]? = some p) (hj' : procs[j']? = some q) (hu : p.UndoneBy q) (hd : p.Distinct)
    (h2 : GoodRun env n nT negLog cfg procs s2) (ht : s2.ms.cfg.types = s1.ms.cfg.types) :
    (∃ q', s2.ms.procs[j']? = some q' ∧ site ∈ q'.sites) ∧
    ∀ (d' : Draws K) (ps' : List (Proc K)) (s3 : Sim K),
      select s2.ms.procs s2.table d'.process d'.site = .ok (j', site, ps') → step env negLog s2 d' = .ok s3 →
      s3.ms.cfg.types = s.ms.cfg.types := by
  obtain ⟨cfg1, procs1, hprep, hok, ⟨hI, -⟩, -⟩ := h.inv
  obtain ⟨cfg2, procs2, hprep', hok', ⟨hI', -⟩, -⟩ := h2.inv
  have ec : cfg2 = cfg1 := Except.ok.inj (hprep'.1.symm.trans hprep.1)
  subst ec
  have ep : procs2 = procs1 := Except.ok.inj (hprep'.2.symm.trans hprep.2)
  subst ep
  obtain ⟨p1, sk, hp1, hsk, hsite, hfit, htook⟩ := h.took hsel hs hprep
  have hw := h.input.processes p (List.mem_of_getElem? hj)
  obtain ⟨p0, hp0, hfrom⟩ := World.source hprep hI hp1
  rw [hj] at hp0
  obtain rfl := Option.some.inj hp0
  obtain ⟨q1, hq1⟩ : ∃ q1, s2.ms.procs[j']? = some q1 := by
    refine ⟨_, List.getElem?_eq_getElem ?_⟩
    obtain ⟨A, hI'⟩ := hI'
    have e1 : s2.ms.procs.map Proc.still = procs2.map Proc.still := hI'.procs
    have e2 := congrArg List.length e1
    rw [List.length_map, List.length_map] at e2
    rw [e2, prepared_length hprep]
    exact (List.getElem?_eq_some_iff.1 hj').1
  have hund := World.undone hprep hI hI' hj hj' hu hp1 hq1
  obtain ⟨q0, hq0, hfromq⟩ := World.source hprep hI' hq1
  rw [hj'] at hq0
  obtain rfl := Option.some.inj hq0
  obtain ⟨A, hIA⟩ := hI
  obtain ⟨A', hIA'⟩ := hI'
  have hpok : ProcOk nT p1.still := hok.proc p1.still (List.mem_of_getElem? (hIA.proc hp1))
  have hqok : ProcOk nT q1.still := hok.proc q1.still (List.mem_of_getElem? (hIA'.proc hq1))
  have hsz : ∀ e ∈ p1.matchList, e.matchTypes.length = nT := hpok.sized
  have hup : ∀ e ∈ p1.matchList, e.updateTypes.length = nT := hpok.updates
  have hT : 0 < nT := h.input.typed
  have hdist : p1.Distinct := hfrom.distinct hd (by
    intro e he h0
    have := hsz e he
    rw [h0] at this
    simp at this
    omega)
  have hnw : ∀ e ∈ p1.matchList, e.Changes → ¬ e.Wild := fun e he hc =>
    hpok.notWild e he (.inl ((hfrom.acts hw he).2 hc))
  have hav := (C24_available h hp1 site).1 hsite
  constructor
  · refine ⟨q1, hq1, (C24_available h2 hq1 site).2 ⟨hav.1, ?_, ?_⟩⟩
    · rw [hfromq.basis, hu.basis, ← hfrom.basis]; exact hav.2.1
    · have hl := lists_of h2.input hprep.1
      have hml := hl.matchList h2.input.lattice h2.input.sites h2.good.shape h2.coords hsk
      refine ⟨_, hml, ?_⟩
      obtain ⟨r, hr, hiff⟩ := whateverMatch_ok hT q1.matchList (seen s2.ms.cfg.types sk) hqok.sized
        (sized_seen h2.good.shape.types h2.good.bucket (fun e he => hok.index hsk he))
      rw [hr, hiff.2]
      rw [ht]
      exact fits_undone hund (hok.same sk (List.mem_of_getElem? hsk)) hdist hnw
        (fun e he => (hsz e he).trans (hup e he).symm) htook hfit
  · intro d' ps' s3 hsel' hs'
    obtain ⟨q2, sk2, hq2, hsk2, -, -, htook2⟩ := h2.took hsel' hs' hprep
    rw [hq1] at hq2
    obtain rfl := Option.some.inj hq2
    rw [hsk] at hsk2
    obtain rfl := Option.some.inj hsk2
    rw [ht] at htook2
    exact took_back hund hup h.good.bucket htook htook2

/-- Equal counts mean the same particles, in some order. -/
theorem perm_of_types {a b : Config K} (ha : a.Good n nT) (hb : b.Good n nT) (hn : a.typeNames = b.typeNames)
    (ht : a.types = b.types) {i : Nat} {els els' : List String} (h1 : a.elements[i]? = some els)
    (h2 : b.elements[i]? = some els') : els.Perm els' := by
  have hi : i < a.types.length := by
    rw [ha.shape.types, ← ha.shape.elements]; exact (List.getElem?_eq_some_iff.1 h1).1
  have e1 : a.types[i]? = some a.types[i] := List.getElem?_eq_getElem hi
  have e2 : b.types[i]? = some a.types[i] := by rw [← ht]; exact e1
  obtain ⟨a1, a2⟩ := ha.tallied i els _ h1 e1
  obtain ⟨b1, b2⟩ := hb.tallied i els' _ h2 e2
  rw [List.perm_iff_count]
  intro x
  by_cases hx : x ∈ a.typeNames
  · obtain ⟨k, hk⟩ := List.mem_iff_getElem?.1 hx
    have h3 := a2 k x hk
    rw [b2 k x (by rw [← hn]; exact hk)] at h3
    exact_mod_cast (Option.some.inj h3).symm
  · rw [List.count_eq_zero_of_not_mem (fun h => hx (a1 x h)), List.count_eq_zero_of_not_mem (fun h => hx (by
      rw [hn]; exact b1 x h))]

/-- **C59** The particles are back as well, up to the order of the particles on one site. -/
theorem C59_particles (h : GoodRun env n nT negLog cfg procs s) {d d' : Draws K} {j j' site : Nat} {ps ps' : List (Proc K)}
    (hsel : select s.ms.procs s.table d.process d.site = .ok (j, site, ps)) (hs : step env negLog s d = .ok s1)
    {p q : Proc K} (hj : procs[j]? = some p) (hj' : procs[j']? = some q) (hu : p.UndoneBy q) (hd : p.Distinct)
    (hsel' : select s1.ms.procs s1.table d'.process d'.site = .ok (j', site, ps')) (hs' : step env negLog s1 d' = .ok s2)
    {i : Nat} {els els' : List String} (h1 : s.ms.cfg.elements[i]? = some els)
    (h2 : s2.ms.cfg.elements[i]? = some els') : els.Perm els' := by
  have g1 := h.step hs
  have g2 := g1.step hs'
  refine perm_of_types h.good g2.good ?_ ?_ h1 h2
  · rw [h.names, g2.names]
  · exact ((C59_undone h hsel hs hj hj' hu hd g1 rfl).2 d' ps' s2 hsel' hs').symm

/-- **C59** The constructor called with the configurations before and after exchanged gives the reverse process. The places
are distinct when the coordinates are. -/
theorem C59_constructor [FloorRing K] {dist : Coord K → K} {first second : Config K} {rate rate' : K} {basis : List Nat}
    {moves moves' : List (Nat × Coord K)} {number number' : Nat} {p q : Proc K} (h1 : first.Good n nT)
    (h2 : second.Good n nT) (hc : first.coords = second.coords) (hd : first.coords.Pairwise Apart)
    (hp : mkProcess dist first second [] rate basis moves number = .ok p)
    (hq : mkProcess dist second first [] rate' basis moves' number' = .ok q) :
    p.UndoneBy q ∧ q.UndoneBy p ∧ p.Distinct ∧ q.Distinct :=
  ⟨mkProcess_undone h1 h2 hc hp hq, mkProcess_undone h2 h1 hc.symm hq hp, mkProcess_distinct hd hp,
    mkProcess_distinct (by rw [← hc]; exact hd) hq⟩

instance (c d : Coord ℚ) : Decidable (Apart c d) := by unfold Apart; infer_instance

/-- A check of `UndoneBy` on samples. -/
def undoneCheck (p q : Proc ℚ) : Bool :=
  decide (p.matchList.length = q.matchList.length) && decide (q.basisSites = p.basisSites) &&
    (p.matchList.zip q.matchList).all fun x => decide (x.2.distance = x.1.distance) && decide (x.2.coord = x.1.coord) &&
      decide (x.2.matchTypes = List.zipWith (· + ·) x.1.matchTypes x.1.updateTypes) &&
      decide (x.2.updateTypes = x.1.updateTypes.map (fun u => -u))

theorem undoneCheck_ok {p q : Proc ℚ} (h : undoneCheck p q = true) : p.UndoneBy q := by
  unfold undoneCheck at h
  simp only [Bool.and_eq_true, decide_eq_true_eq, List.all_eq_true] at h
  obtain ⟨⟨h1, h2⟩, h3⟩ := h
  refine ⟨?_, h2⟩
  rw [List.forall₂_iff_zip]
  refine ⟨h1, fun {a b} hab => ?_⟩
  obtain ⟨⟨⟨a1, a2⟩, a3⟩, a4⟩ := h3 (a, b) hab
  exact ⟨a1, a2, a3, a4⟩

namespace Sample

/-- Neighbours exchange: `A B` turns into `B A`, and back. -/
def swaps : M (List (Proc ℚ)) := do
  let p ← process [0, 1] ["A", "B"] ["B", "A"] 2 [0] [(0, 1), (1, -1)] 0
  let q ← process [0, 1] ["B", "A"] ["A", "B"] 1 [0] [(0, 1), (1, -1)] 1
  return [p, q]

end Sample

/-- Non-vacuity: on a ring of four sites `A` moves one site by the first process, and the second process is there to move
it back. -/
example : ∃ cfg procs s d j site ps s1 p q, GoodRun (Sample.env Sample.ring) 4 4 Sample.lg cfg procs s ∧
    select s.ms.procs s.table d.process d.site = .ok (j, site, ps) ∧ step (Sample.env Sample.ring) Sample.lg s d = .ok s1 ∧
    s.ms.cfg.elements = [["B"], ["A"], ["B"], ["B"]] ∧ s1.ms.cfg.elements = [["B"], ["B"], ["A"], ["B"]] ∧ j = 0 ∧ site = 1 ∧
    procs[0]? = some p ∧ procs[1]? = some q ∧ p.UndoneBy q ∧ p.Distinct ∧
    ∃ q', s1.ms.procs[1]? = some q' ∧ site ∈ q'.sites := by
  obtain ⟨cfg, procs, s, -, h2, h, h'⟩ := Sample.good_run (env := Sample.env Sample.ring) (P := Sample.ring)
    (els := Sample.ringElements) (procs := Sample.swaps) (ds := [Sample.half])
    (f := fun s => (s.ms.cfg.elements, ((select s.ms.procs s.table Sample.half.process Sample.half.site).map (fun r => (r.1, r.2.1))).toOption,
      ((step (Sample.env Sample.ring) Sample.lg s Sample.half).map (fun s => s.ms.cfg.elements)).toOption))
    (b := ([["B"], ["A"], ["B"], ["B"]], some (0, 1), some [["B"], ["B"], ["A"], ["B"]]))
    4 (by decide +kernel) rfl (by decide +kernel) (by decide +kernel)
  obtain ⟨ps, hps, hf⟩ := Sample.exists_of_map (x := Sample.swaps) (f := fun ps => match ps with
    | [p, q] => undoneCheck p q && decide (p.matchList.Pairwise (fun e f => Apart e.coord f.coord))
    | _ => false) (b := true) (by decide +kernel)
  rw [h2] at hps
  obtain rfl := Except.ok.inj hps
  match procs, h, hf with
  | [p, q], h, hf =>
    rw [Bool.and_eq_true, decide_eq_true_eq] at hf
    have hu := undoneCheck_ok hf.1
    have hd : p.Distinct := hf.2.imp fun h _ _ => h
    simp only [Prod.mk.injEq] at h'
    obtain ⟨a1, a2, a3⟩ := h'
    cases hr : select s.ms.procs s.table Sample.half.process Sample.half.site with
    | error e => rw [hr] at a2; cases a2
    | ok r =>
      cases hs : step (Sample.env Sample.ring) Sample.lg s Sample.half with
      | error e => rw [hs] at a3; cases a3
      | ok s1 =>
        rw [hr] at a2
        rw [hs] at a3
        have a2 : (r.1, r.2.1) = (0, 1) := Option.some.inj a2
        have a3 : s1.ms.cfg.elements = _ := Option.some.inj a3
        rw [Prod.mk.injEq] at a2
        obtain ⟨j, site, ps⟩ := r
        obtain ⟨rfl, rfl⟩ := a2
        exact ⟨cfg, [p, q], s, Sample.half, 0, 1, ps, s1, p, q, h, hr, hs, a1, a3, rfl, rfl, rfl, rfl, hu, hd,
          (C59_undone h hr hs rfl rfl hu hd (h.step hs) rfl).1⟩

end

/-! ### Balance -/

section
open MeasureTheory Classical

variable {env : Env ℝ} {n nT : Nat} {cfg : Config ℝ} {procs : List (Proc ℝ)} {s s' : Sim ℝ}

/-- An event of process `j` at the site leads from the state to the types. -/
def LeadsTo (env : Env ℝ) (s : Sim ℝ) (j site : Nat) (t : List Bucket) : Prop :=
  ∃ d ps s', select s.ms.procs s.table d.process d.site = .ok (j, site, ps) ∧ step env negLog s d = .ok s' ∧
    s'.ms.cfg.types = t

/-- The rate at which process `j` happens at the site, zero when it is not available there. -/
noncomputable def rateAt (s : Sim ℝ) (j site : Nat) : ℝ :=
  match s.ms.procs[j]? with
  | none => 0
  | some p => ((p.sites.zip p.weights).lookup site).getD 0

/-- The rate at which the model goes from the state to the types. -/
noncomputable def flow (env : Env ℝ) (n : Nat) (s : Sim ℝ) (t : List Bucket) : ℝ :=
  ∑ e ∈ Finset.range s.ms.procs.length ×ˢ Finset.range n, if LeadsTo env s e.1 e.2 t then rateAt s e.1 e.2 else 0

theorem LeadsTo.unique {j site : Nat} {t t' : List Bucket} (h : LeadsTo env s j site t) (h' : LeadsTo env s j site t') :
    t = t' := by
  obtain ⟨d, ps, a, h1, h2, rfl⟩ := h
  obtain ⟨d', ps', b, h1', h2', rfl⟩ := h'
  obtain ⟨R, dt, hR, hdt, -⟩ := step_time h2'
  have := step_determined h1 h1' h2 hR hdt
  rw [h2'] at this
  rw [Except.ok.inj this]

theorem LeadsTo.listed (h : GoodRun env n nT negLog cfg procs s) {j site : Nat} {t : List Bucket}
    (hl : LeadsTo env s j site t) : ∃ p, s.ms.procs[j]? = some p ∧ site ∈ p.sites := by
  obtain ⟨d, ps, a, h1, h2, -⟩ := hl
  obtain ⟨s0, hs0, -⟩ := step_single h2
  obtain ⟨cfg1, procs1, ms0, q, sk, c1, c2, aff, p, hprep, hok, hst, hp, hsite, -⟩ := h.stepped h1 hs0
  exact ⟨p, hp, hsite⟩

theorem lookup_zip : ∀ {l : List Nat} {w : List ℝ}, l.Nodup → ∀ {k x : Nat} {r : ℝ}, l[k]? = some x → w[k]? = some r →
    (l.zip w).lookup x = some r
  | [], _, _, k, x, r, h1, _ => by simp at h1
  | _ :: _, [], _, k, x, r, _, h2 => by simp at h2
  | a :: l, b :: w, hn, 0, x, r, h1, h2 => by
    obtain rfl := Option.some.inj h1
    obtain rfl := Option.some.inj h2
    rw [List.zip_cons_cons, List.lookup_cons_self]
  | a :: l, b :: w, hn, k + 1, x, r, h1, h2 => by
    have h1 : l[k]? = some x := h1
    have h2 : w[k]? = some r := h2
    have hne : x ≠ a := by
      rintro rfl
      exact (List.nodup_cons.1 hn).1 (List.mem_of_getElem? h1)
    rw [List.zip_cons_cons, List.lookup_cons, beq_eq_false_iff_ne.2 hne]
    exact lookup_zip (List.nodup_cons.1 hn).2 h1 h2

theorem lookup_zip_none : ∀ {l : List Nat} {w : List ℝ} {x : Nat}, x ∉ l → (l.zip w).lookup x = none
  | [], _, _, _ => rfl
  | _ :: _, [], _, _ => rfl
  | a :: l, b :: w, x, h => by
    have hne : x ≠ a := fun e => h (by rw [e]; simp)
    rw [List.zip_cons_cons, List.lookup_cons, beq_eq_false_iff_ne.2 hne]
    exact lookup_zip_none (fun hx => h (by simp [hx]))

theorem sum_lookup_zip (S : Finset Nat) : ∀ {l : List Nat} {w : List ℝ}, l.Nodup → w.length = l.length → (∀ x ∈ l, x ∈ S) →
    ∑ x ∈ S, ((l.zip w).lookup x).getD 0 = w.sum
  | [], [], _, _, _ => by simp
  | a :: l, b :: w, hn, hl, hS => by
    obtain ⟨hn1, hn2⟩ := List.nodup_cons.1 hn
    have ih := sum_lookup_zip S hn2 (by simpa using hl) (fun x hx => hS x (by simp [hx]))
    have ha : a ∈ S := hS a (by simp)
    rw [← Finset.add_sum_erase S _ ha] at ih ⊢
    rw [lookup_zip_none hn1] at ih
    rw [List.zip_cons_cons, List.lookup_cons_self, List.sum_cons]
    congr 1
    rw [← ih]
    have : ((none : Option ℝ)).getD 0 = 0 := rfl
    rw [this, zero_add]
    apply Finset.sum_congr rfl
    intro x hx
    rw [List.lookup_cons, beq_eq_false_iff_ne.2 (Finset.ne_of_mem_erase hx)]

theorem weights_length (h : GoodRun env n nT negLog cfg procs s) {p : Proc ℝ} (hp : p ∈ s.ms.procs) :
    p.weights.length = p.sites.length := by
  obtain ⟨hcons, -⟩ := C25_totals h
  obtain ⟨-, c1, c2, -⟩ := hcons p hp
  unfold Proc.weights
  split
  · next hcu => rw [List.length_zipWith, c1, c2 hcu, min_self]
  · rw [List.length_map, c1]

theorem rateAt_listed (h : GoodRun env n nT negLog cfg procs s) {j k site : Nat} {p : Proc ℝ} {r : ℝ}
    (hp : s.ms.procs[j]? = some p) (hk : p.sites[k]? = some site) (hw : p.weights[k]? = some r) : rateAt s j site = r := by
  obtain ⟨hcons, -⟩ := C25_totals h
  unfold rateAt
  rw [hp]
  dsimp only
  rw [lookup_zip (hcons p (List.mem_of_getElem? hp)).1 hk hw]
  rfl

theorem rateAt_unlisted {j site : Nat} {p : Proc ℝ} (hp : s.ms.procs[j]? = some p) (hs : site ∉ p.sites) :
    rateAt s j site = 0 := by
  unfold rateAt
  rw [hp]
  dsimp only
  rw [lookup_zip_none hs]
  rfl

/-- The rates of all events add up to the total rate. -/
theorem sum_rateAt (h : GoodRun env n nT negLog cfg procs s) :
    ∑ e ∈ Finset.range s.ms.procs.length ×ˢ Finset.range n, rateAt s e.1 e.2 = (s.ms.procs.map (·.totalRate)).sum := by
  obtain ⟨hcons, -⟩ := C25_totals h
  rw [Finset.sum_product]
  have h1 : ∀ j ∈ Finset.range s.ms.procs.length, ∑ site ∈ Finset.range n, rateAt s j site =
      ((s.ms.procs.map (·.totalRate))[j]?).getD 0 := by
    intro j hj
    rw [Finset.mem_range] at hj
    have hp : s.ms.procs[j]? = some s.ms.procs[j] := List.getElem?_eq_getElem hj
    have hpm := List.mem_of_getElem? hp
    rw [List.getElem?_map, hp]
    show _ = s.ms.procs[j].totalRate
    rw [(hcons _ hpm).2.2.2, ← sum_lookup_zip (Finset.range n) (hcons _ hpm).1 (weights_length h hpm)]
    · apply Finset.sum_congr rfl
      intro x _
      unfold rateAt
      rw [hp]
    · intro x hx
      rw [Finset.mem_range]
      exact ((C24_available h hp x).1 hx).1
  rw [Finset.sum_congr rfl h1]
  have h2 : ∀ l : List ℝ, ∑ j ∈ Finset.range l.length, (l[j]?).getD 0 = l.sum := by
    intro l
    induction l with
    | nil => simp
    | cons a l ih => rw [List.length_cons, Finset.sum_range_succ', List.sum_cons, ← ih, add_comm]; simp
  have := h2 (s.ms.procs.map (·.totalRate))
  rw [List.length_map] at this
  exact this

/-- A pairing of the processes with their reverses. -/
structure Reversible {K : Type _} [Field K] [LinearOrder K] (procs : List (Proc K)) (rev : Nat → Nat) : Prop where
  inside : ∀ j < procs.length, rev j < procs.length
  back : ∀ j < procs.length, rev (rev j) = j
  undo : ∀ (j : Nat) (p q : Proc K), procs[j]? = some p → procs[rev j]? = some q → p.UndoneBy q
  distinct : ∀ p ∈ procs, p.Distinct

theorem procs_length (h : GoodRun env n nT negLog cfg procs s) : s.ms.procs.length = procs.length := by
  obtain ⟨cfg1, procs1, hprep, -, ⟨⟨A, hI⟩, -⟩, -⟩ := h.inv
  have e1 : s.ms.procs.map Proc.still = procs1.map Proc.still := hI.procs
  have e2 := congrArg List.length e1
  rw [List.length_map, List.length_map] at e2
  rw [e2, prepared_length hprep]

/-- **C59** For every event from one state to another there is the reverse event back, at the same site. -/
theorem C59_back (h : GoodRun env n nT negLog cfg procs s) (h' : GoodRun env n nT negLog cfg procs s')
    (hr : PositiveRates env procs) {M : Nat} (hb : Bounded M cfg procs) (hf : FewEnough M procs) {rev : Nat → Nat}
    (hrev : Reversible procs rev) {j site : Nat} (hl : LeadsTo env s j site s'.ms.cfg.types) :
    LeadsTo env s' (rev j) site s.ms.cfg.types := by
  obtain ⟨p1, hp1, -⟩ := hl.listed h
  have hj : j < procs.length := by rw [← procs_length h]; exact (List.getElem?_eq_some_iff.1 hp1).1
  have hj' := hrev.inside j hj
  have e1 := List.getElem?_eq_getElem hj
  have e2 := List.getElem?_eq_getElem hj'
  obtain ⟨d, ps, a, h1, h2, h3⟩ := hl
  obtain ⟨⟨q', hq', hsite⟩, hback⟩ := C59_undone h h1 h2 e1 e2 (hrev.undo j _ _ e1 e2)
    (hrev.distinct _ (List.mem_of_getElem? e1)) h' h3.symm
  obtain ⟨k, hk⟩ := List.mem_iff_getElem?.1 hsite
  obtain ⟨d', ps', b, r, g1, g2, -⟩ := C58_possible h' hr hb hf hq' hk
  exact ⟨d', ps', b, g1, g2, hback d' ps' b g1 g2⟩

/-- **C59** Detailed balance. If the rates of events and their reverses are in the ratio of the weights of the states they
connect, then the same holds for the rates of going from state to state. -/
theorem C59_balance (h : GoodRun env n nT negLog cfg procs s) (h' : GoodRun env n nT negLog cfg procs s')
    (hr : PositiveRates env procs) {M : Nat} (hb : Bounded M cfg procs) (hf : FewEnough M procs) {rev : Nat → Nat}
    (hrev : Reversible procs rev) (w : List Bucket → ℝ)
    (hw : ∀ j site, LeadsTo env s j site s'.ms.cfg.types →
      w s.ms.cfg.types * rateAt s j site = w s'.ms.cfg.types * rateAt s' (rev j) site) :
    w s.ms.cfg.types * flow env n s s'.ms.cfg.types = w s'.ms.cfg.types * flow env n s' s.ms.cfg.types := by
  unfold flow
  rw [procs_length h, procs_length h', Finset.mul_sum, Finset.mul_sum]
  refine Finset.sum_nbij' (fun e => (rev e.1, e.2)) (fun e => (rev e.1, e.2)) ?_ ?_ ?_ ?_ ?_
  · intro e he
    rw [Finset.mem_product, Finset.mem_range, Finset.mem_range] at he ⊢
    exact ⟨hrev.inside _ he.1, he.2⟩
  · intro e he
    rw [Finset.mem_product, Finset.mem_range, Finset.mem_range] at he ⊢
    exact ⟨hrev.inside _ he.1, he.2⟩
  · intro e he
    rw [Finset.mem_product, Finset.mem_range] at he
    exact Prod.ext (hrev.back _ he.1) rfl
  · intro e he
    rw [Finset.mem_product, Finset.mem_range] at he
    exact Prod.ext (hrev.back _ he.1) rfl
  · intro e he
    rw [Finset.mem_product, Finset.mem_range] at he
    dsimp only
    by_cases hl : LeadsTo env s e.1 e.2 s'.ms.cfg.types
    · rw [if_pos hl, if_pos (C59_back h h' hr hb hf hrev hl)]
      exact hw _ _ hl
    · rw [if_neg hl, if_neg, mul_zero, mul_zero]
      intro hl'
      apply hl
      have := C59_back h' h hr hb hf hrev hl'
      rwa [hrev.back _ he.1] at this

/-- **C59** The rates of going from one state to the states of a family add up to the total rate, when no event leads out
of the family. -/
theorem C59_total (h : GoodRun env n nT negLog cfg procs s) (hr : PositiveRates env procs) {M : Nat}
    (hb : Bounded M cfg procs) (hf : FewEnough M procs) {T : Finset (List Bucket)}
    (hT : ∀ j site t, LeadsTo env s j site t → t ∈ T) :
    ∑ t ∈ T, flow env n s t = (s.ms.procs.map (·.totalRate)).sum := by
  unfold flow
  rw [Finset.sum_comm, ← sum_rateAt h]
  apply Finset.sum_congr rfl
  rintro ⟨j, site⟩ he
  rw [Finset.mem_product, Finset.mem_range, Finset.mem_range] at he
  dsimp only at he ⊢
  have hp : s.ms.procs[j]? = some s.ms.procs[j] := List.getElem?_eq_getElem he.1
  by_cases hs : site ∈ s.ms.procs[j].sites
  · obtain ⟨k, hk⟩ := List.mem_iff_getElem?.1 hs
    obtain ⟨d, ps, b, r, g1, g2, -⟩ := C58_possible h hr hb hf hp hk
    have hl : LeadsTo env s j site b.ms.cfg.types := ⟨d, ps, b, g1, g2, rfl⟩
    rw [Finset.sum_eq_single b.ms.cfg.types]
    · rw [if_pos hl]
    · intro t _ hne
      rw [if_neg fun hl' => hne (hl'.unique hl)]
    · intro hn
      exact absurd (hT _ _ _ hl) hn
  · rw [rateAt_unlisted hp hs]
    simp

/-- **C59** Stationarity. For a finite family of states that no event leads out of, the weights of detailed balance are
stationary: what flows into a state is what flows out of it. -/
theorem C59_stationary {ι : Type _} (I : Finset ι) (st : ι → Sim ℝ)
    (h : ∀ i ∈ I, GoodRun env n nT negLog cfg procs (st i)) (hr : PositiveRates env procs) {M : Nat}
    (hb : Bounded M cfg procs) (hf : FewEnough M procs) {rev : Nat → Nat} (hrev : Reversible procs rev)
    (hinj : ∀ i ∈ I, ∀ k ∈ I, (st i).ms.cfg.types = (st k).ms.cfg.types → i = k)
    (hclosed : ∀ i ∈ I, ∀ j site t, LeadsTo env (st i) j site t → ∃ k ∈ I, (st k).ms.cfg.types = t)
    (w : List Bucket → ℝ)
    (hw : ∀ i ∈ I, ∀ k ∈ I, ∀ j site, LeadsTo env (st i) j site (st k).ms.cfg.types →
      w (st i).ms.cfg.types * rateAt (st i) j site = w (st k).ms.cfg.types * rateAt (st k) (rev j) site)
    {k : ι} (hk : k ∈ I) :
    ∑ i ∈ I, w (st i).ms.cfg.types * flow env n (st i) (st k).ms.cfg.types =
      w (st k).ms.cfg.types * ((st k).ms.procs.map (·.totalRate)).sum := by
  rw [← C59_total (h k hk) hr hb hf (T := I.image fun i => (st i).ms.cfg.types), Finset.sum_image, Finset.mul_sum]
  · exact Finset.sum_congr rfl fun i hi => C59_balance (h i hi) (h k hk) hr hb hf hrev w (hw i hi k hk)
  · intro i hi l hl
    exact hinj i hi l hl
  · intro j site t hl
    obtain ⟨i, hi, rfl⟩ := hclosed k hk j site t hl
    exact Finset.mem_image_of_mem _ hi

/-- The rate of an ordinary process is that of its definition. -/
theorem rateAt_constant (h : GoodRun env n nT negLog cfg procs s) {j site : Nat} {p0 : Proc ℝ} (hj : procs[j]? = some p0)
    (hc : p0.custom = false) {t : List Bucket} (hl : LeadsTo env s j site t) : rateAt s j site = p0.rate := by
  obtain ⟨p, hp, hsite⟩ := hl.listed h
  obtain ⟨cfg1, procs1, hprep, -, ⟨⟨A, hI⟩, -⟩, -⟩ := h.inv
  have e1 : (procs1.map Proc.still)[j]? = some p.still := hI.proc hp
  rw [List.getElem?_map, Option.map_eq_some_iff] at e1
  obtain ⟨p1, e1, f1⟩ := e1
  obtain ⟨p2, e2, -, f2⟩ := prepared_proc h.input hprep e1
  rw [hj] at e2
  obtain rfl := Option.some.inj e2
  have hrate : p.rate = p0.rate := by
    have g1 : p1.rate = p.rate := by have h := congrArg Proc.rate f1; exact h
    rw [← g1, f2]; rfl
  have hcu : p.custom = false := by
    have g1 : p1.custom = p.custom := by have h := congrArg Proc.custom f1; exact h
    rw [← g1, f2]; exact hc
  obtain ⟨k, hk⟩ := List.mem_iff_getElem?.1 hsite
  have hkl : k < p.weights.length := by
    rw [weights_length h (List.mem_of_getElem? hp)]; exact (List.getElem?_eq_some_iff.1 hk).1
  have hw := List.getElem?_eq_getElem hkl
  rw [rateAt_listed h hp hk hw, ← hrate]
  refine (C15_rate_partial h hp hcu (site := site) (List.mem_of_getElem? (i := k) ?_)).1
  rw [List.getElem?_zip_eq_some]
  exact ⟨hk, hw⟩

/-- A factor for every particle. -/
noncomputable def productWeight (nT : Nat) (z : Nat → ℝ) (types : List Bucket) : ℝ :=
  ∏ k ∈ Finset.range nT, z k ^ (types.map (fun t => t.getD k 0)).sum

/-- The condition of detailed balance, event by event. -/
theorem product_events (h : GoodRun env n nT negLog cfg procs s) (h' : GoodRun env n nT negLog cfg procs s')
    (hr : PositiveRates env procs) {M : Nat} (hb : Bounded M cfg procs) (hf : FewEnough M procs) {rev : Nat → Nat}
    (hrev : Reversible procs rev) (hc : ∀ p ∈ procs, p.custom = false) (z : Nat → ℝ) (hz : ∀ k, 0 < z k)
    (hq : ∀ (j : Nat) (p q : Proc ℝ), procs[j]? = some p → procs[rev j]? = some q →
      p.rate = q.rate * ∏ k ∈ Finset.range nT, z k ^ p.net k) (j site : Nat)
    (hl : LeadsTo env s j site s'.ms.cfg.types) :
    productWeight nT z s.ms.cfg.types * rateAt s j site = productWeight nT z s'.ms.cfg.types * rateAt s' (rev j) site := by
  have hl' := C59_back h h' hr hb hf hrev hl
  obtain ⟨p1, hp1, -⟩ := hl.listed h
  have hj : j < procs.length := by rw [← procs_length h]; exact (List.getElem?_eq_some_iff.1 hp1).1
  have e1 := List.getElem?_eq_getElem hj
  have e2 := List.getElem?_eq_getElem (hrev.inside j hj)
  rw [rateAt_constant h e1 (hc _ (List.mem_of_getElem? e1)) hl, rateAt_constant h' e2 (hc _ (List.mem_of_getElem? e2)) hl',
    hq j _ _ e1 e2]
  obtain ⟨d, ps, a, h1, h2, h3⟩ := hl
  obtain ⟨s0, hs0, hms⟩ := step_single h2
  obtain ⟨p, hp, htot⟩ := C17_total h h1 hs0
  rw [e1] at hp
  obtain rfl := Option.some.inj hp
  have hwt : productWeight nT z s'.ms.cfg.types =
      productWeight nT z s.ms.cfg.types * ∏ k ∈ Finset.range nT, z k ^ procs[j].net k := by
    unfold productWeight
    rw [← Finset.prod_mul_distrib]
    apply Finset.prod_congr rfl
    intro k _
    have := htot k
    unfold Config.total at this
    rw [hms, h3] at this
    rw [this, zpow_add₀ (hz k).ne']
  rw [hwt]
  ring

/-- **C59** With constant rates, where the rate of a process and that of its reverse are in the ratio of the factors of the
particles it makes and removes, the product over the particles satisfies detailed balance. In particular all states have
the same weight when every process has the rate of its reverse. -/
theorem C59_product (h : GoodRun env n nT negLog cfg procs s) (h' : GoodRun env n nT negLog cfg procs s')
    (hr : PositiveRates env procs) {M : Nat} (hb : Bounded M cfg procs) (hf : FewEnough M procs) {rev : Nat → Nat}
    (hrev : Reversible procs rev) (hc : ∀ p ∈ procs, p.custom = false) (z : Nat → ℝ) (hz : ∀ k, 0 < z k)
    (hq : ∀ (j : Nat) (p q : Proc ℝ), procs[j]? = some p → procs[rev j]? = some q →
      p.rate = q.rate * ∏ k ∈ Finset.range nT, z k ^ p.net k) :
    productWeight nT z s.ms.cfg.types * flow env n s s'.ms.cfg.types =
      productWeight nT z s'.ms.cfg.types * flow env n s' s.ms.cfg.types :=
  C59_balance h h' hr hb hf hrev _ (product_events h h' hr hb hf hrev hc z hz hq)

/-- **C59** Such weights are stationary on a finite family of states that no event leads out of. -/
theorem C59_product_stationary {ι : Type _} (I : Finset ι) (st : ι → Sim ℝ)
    (h : ∀ i ∈ I, GoodRun env n nT negLog cfg procs (st i)) (hr : PositiveRates env procs) {M : Nat}
    (hb : Bounded M cfg procs) (hf : FewEnough M procs) {rev : Nat → Nat} (hrev : Reversible procs rev)
    (hinj : ∀ i ∈ I, ∀ k ∈ I, (st i).ms.cfg.types = (st k).ms.cfg.types → i = k)
    (hclosed : ∀ i ∈ I, ∀ j site t, LeadsTo env (st i) j site t → ∃ k ∈ I, (st k).ms.cfg.types = t)
    (hc : ∀ p ∈ procs, p.custom = false) (z : Nat → ℝ) (hz : ∀ k, 0 < z k)
    (hq : ∀ (j : Nat) (p q : Proc ℝ), procs[j]? = some p → procs[rev j]? = some q →
      p.rate = q.rate * ∏ k ∈ Finset.range nT, z k ^ p.net k) {k : ι} (hk : k ∈ I) :
    ∑ i ∈ I, productWeight nT z (st i).ms.cfg.types * flow env n (st i) (st k).ms.cfg.types =
      productWeight nT z (st k).ms.cfg.types * ((st k).ms.procs.map (·.totalRate)).sum :=
  C59_stationary I st h hr hb hf hrev hinj hclosed _
    (fun i hi l hl j site hle => product_events (h i hi) (h l hl) hr hb hf hrev hc z hz hq j site hle) hk

/-! ### The law of the next state -/

/-- Sets that cover a set of the same volume have no volume in common. -/
theorem volume_part {α : Type _} [MeasurableSpace α] (μ : Measure α) {ι : Type _} (I : Finset ι) (A : ι → Set α) {C B : Set α}
    {a : ι → ℝ} (ha : ∀ i ∈ I, 0 ≤ a i) (hA : ∀ i ∈ I, μ (A i) = ENNReal.ofReal (a i))
    (hC : μ C = ENNReal.ofReal (∑ i ∈ I, a i)) (P : ι → Prop) (hB : ∀ x, x ∈ B ↔ ∃ i ∈ I, P i ∧ x ∈ A i)
    (hcov : ∀ x ∈ C, ∃ i ∈ I, x ∈ A i) : μ B = ENNReal.ofReal (∑ i ∈ I, if P i then a i else 0) := by
  have hsum : ∀ J : Finset ι, J ⊆ I → μ (⋃ i ∈ J, A i) ≤ ENNReal.ofReal (∑ i ∈ J, a i) := by
    intro J hJ
    refine (measure_biUnion_finset_le J A).trans ?_
    rw [ENNReal.ofReal_sum_of_nonneg fun i hi => ha i (hJ hi)]
    exact (Finset.sum_congr rfl fun i hi => hA i (hJ hi)).le
  rw [← Finset.sum_filter]
  have hBe : B = ⋃ i ∈ I.filter P, A i := by
    ext x
    rw [hB]
    simp [and_assoc]
  apply le_antisymm
  · rw [hBe]
    exact hsum _ (Finset.filter_subset _ _)
  · have h1 : C ⊆ B ∪ ⋃ i ∈ I.filter (fun i => ¬ P i), A i := by
      intro x hx
      obtain ⟨i, hi, hxi⟩ := hcov x hx
      by_cases hp : P i
      · exact .inl ((hB x).2 ⟨i, hi, hp, hxi⟩)
      · right
        simp only [Set.mem_iUnion, Finset.mem_filter]
        exact ⟨i, ⟨hi, hp⟩, hxi⟩
    have h2 : ENNReal.ofReal (∑ i ∈ I, a i) ≤ μ B + ENNReal.ofReal (∑ i ∈ I.filter (fun i => ¬ P i), a i) := by
      rw [← hC]
      refine (measure_mono h1).trans ((measure_union_le _ _).trans ?_)
      exact add_le_add le_rfl (hsum _ (Finset.filter_subset _ _))
    rw [← Finset.sum_filter_add_sum_filter_not I P, ENNReal.ofReal_add (Finset.sum_nonneg fun i hi => ha i
      (Finset.mem_filter.1 hi).1) (Finset.sum_nonneg fun i hi => ha i (Finset.mem_filter.1 hi).1)] at h2
    exact (ENNReal.add_le_add_iff_right ENNReal.ofReal_ne_top).1 h2

/-- **C59** The states of a run form the continuous time Markov chain with the rates `flow`: with uniform random numbers,
the probability that the next state has given types and comes after more than a given time is `flow / R * exp (-R t)`, with
the total rate `R`. -/
theorem C59_law (h : GoodRun env n nT negLog cfg procs s) (hr : PositiveRates env procs) {M : Nat}
    (hb : Bounded M cfg procs) (hf : FewEnough M procs) (ha : totalAvailableSites s.ms.procs ≠ 0) (t : List Bucket) {τ : ℝ}
    (hτ : 0 ≤ τ) :
    volume {d : ℝ × ℝ × ℝ | (d.1 ∈ Set.Ico (0 : ℝ) 1 ∧ d.2.1 ∈ Set.Ico (0 : ℝ) 1 ∧ d.2.2 ∈ Set.Ico (0 : ℝ) 1) ∧
        ∃ s', step env negLog s (drawsOf d) = .ok s' ∧ s'.ms.cfg.types = t ∧ τ < s'.time - s.time} =
      ENNReal.ofReal (flow env n s t / (s.ms.procs.map (·.totalRate)).sum *
        Real.exp (-((s.ms.procs.map (·.totalRate)).sum * τ))) := by
  obtain ⟨hS, hpos⟩ := sumRates_pos h hr ha
  obtain ⟨hcons, hav, htab, htot⟩ := C25_totals h
  have hne : s.ms.procs ≠ [] := by
    intro h0
    rw [h0] at hpos
    simp [sumRates] at hpos
  have htot : totalRate s.table = .ok (sumRates s.ms.procs) := by
    rw [htot hne]
    congr 2
    exact List.map_congr_left fun p hp => ((hS.consistent p hp).total).symm
  have hev : ∀ (j site k : Nat) (p : Proc ℝ) (r : ℝ), s.ms.procs[j]? = some p → p.sites[k]? = some site → p.weights[k]? = some r → ∀ d : ℝ × ℝ × ℝ,
      (((d.1 ∈ Set.Ico (0 : ℝ) 1 ∧ d.2.1 ∈ Set.Ico (0 : ℝ) 1 ∧ d.2.2 ∈ Set.Ico (0 : ℝ) 1) ∧
        ∃ s', step env negLog s (drawsOf d) = .ok s' ∧ (∃ ps, select s.ms.procs s.table d.2.1 d.2.2 = .ok (j, site, ps)) ∧
          τ < s'.time - s.time) ↔
      ((d.1 ∈ Set.Ico (0 : ℝ) 1 ∧ ∃ dt, timeStep negLog (sumRates s.ms.procs) d.1 = some dt ∧ τ < dt) ∧
        d.2.1 ∈ Set.Ico (0 : ℝ) 1 ∧ d.2.2 ∈ Set.Ico (0 : ℝ) 1 ∧
        ∃ ps, select s.ms.procs (probabilityTable s.ms.procs) d.2.1 d.2.2 = .ok (j, site, ps))) := by
    intro j site k p r hp hk hw d
    rw [← htab]
    constructor
    · rintro ⟨⟨c1, c2, c3⟩, s1, hs1, hsel1, ht1⟩
      obtain ⟨R, dt, hR, hdt, htime⟩ := step_time hs1
      rw [htot] at hR
      cases hR
      refine ⟨⟨c1, dt, ?_, by rw [htime] at ht1; linarith⟩, c2, c3, hsel1⟩
      unfold drawsOf drawStep at hdt
      split at hdt
      · next x hx =>
        cases hdt
        exact hx
      · cases hdt
    · rintro ⟨⟨c1, dt, hdt, ht1⟩, c2, c3, ps1, hsel1⟩
      obtain ⟨d0, ps0, s1, -, g1, g2, -⟩ := C58_possible h hr hb hf hp hk
      have hdt' : drawStep negLog (sumRates s.ms.procs) (drawsOf d).time = .ok dt := by
        unfold drawsOf drawStep
        rw [hdt]
      refine ⟨⟨c1, c2, c3⟩, _, step_determined (d' := drawsOf d) g1 hsel1 g2 htot hdt', ⟨ps1, hsel1⟩, ?_⟩
      show τ < s.time + dt - s.time
      linarith
  have hR : (s.ms.procs.map (·.totalRate)).sum = sumRates s.ms.procs := rfl
  rw [hR]
  have hfl : flow env n s t / sumRates s.ms.procs * Real.exp (-(sumRates s.ms.procs * τ)) =
      ∑ e ∈ Finset.range s.ms.procs.length ×ˢ Finset.range n, if LeadsTo env s e.1 e.2 t then
        rateAt s e.1 e.2 / sumRates s.ms.procs * Real.exp (-(sumRates s.ms.procs * τ)) else 0 := by
    unfold flow
    rw [Finset.sum_div, Finset.sum_mul]
    apply Finset.sum_congr rfl
    intro e _
    split
    · rfl
    · simp
  rw [hfl]
  refine volume_part volume _ (fun e : Nat × Nat => {d : ℝ × ℝ × ℝ |
      (d.1 ∈ Set.Ico (0 : ℝ) 1 ∧ d.2.1 ∈ Set.Ico (0 : ℝ) 1 ∧ d.2.2 ∈ Set.Ico (0 : ℝ) 1) ∧
        ∃ s', step env negLog s (drawsOf d) = .ok s' ∧ (∃ ps, select s.ms.procs s.table d.2.1 d.2.2 = .ok (e.1, e.2, ps)) ∧
          τ < s'.time - s.time})
    (C := {u : ℝ | u ∈ Set.Ico (0 : ℝ) 1 ∧ ∃ dt, timeStep negLog (sumRates s.ms.procs) u = some dt ∧ τ < dt} ×ˢ
      (Set.Ioo (0 : ℝ) 1 ×ˢ Set.Ico (0 : ℝ) 1)) ?_ ?_ ?_ (fun e : Nat × Nat => LeadsTo env s e.1 e.2 t) ?_ ?_
  · rintro ⟨j, site⟩ he
    rw [Finset.mem_product, Finset.mem_range, Finset.mem_range] at he
    have hp : s.ms.procs[j]? = some s.ms.procs[j] := List.getElem?_eq_getElem he.1
    refine mul_nonneg (div_nonneg ?_ hpos.le) (Real.exp_pos _).le
    by_cases hs : site ∈ s.ms.procs[j].sites
    · obtain ⟨k, hk⟩ := List.mem_iff_getElem?.1 hs
      obtain ⟨-, -, -, r, -, -, hw, hr0⟩ := C58_possible h hr hb hf hp hk
      show 0 ≤ rateAt s j site
      rw [rateAt_listed h hp hk hw]
      exact hr0.le
    · show 0 ≤ rateAt s j site
      rw [rateAt_unlisted hp hs]
  · rintro ⟨j, site⟩ he
    rw [Finset.mem_product, Finset.mem_range, Finset.mem_range] at he
    have hp : s.ms.procs[j]? = some s.ms.procs[j] := List.getElem?_eq_getElem he.1
    dsimp only
    by_cases hs : site ∈ s.ms.procs[j].sites
    · obtain ⟨k, hk⟩ := List.mem_iff_getElem?.1 hs
      obtain ⟨-, -, -, r, -, -, hw, hr0⟩ := C58_possible h hr hb hf hp hk
      rw [rateAt_listed h hp hk hw, ← volume_step s.ms.procs hS hpos hp hk hw hτ]
      congr 1
      ext d
      exact hev j site k _ r hp hk hw d
    · rw [rateAt_unlisted hp hs, zero_div, zero_mul, ENNReal.ofReal_zero]
      refine measure_mono_null (t := ∅) ?_ measure_empty
      rintro d ⟨-, s1, hs1, ⟨ps, hsel⟩, -⟩
      obtain ⟨p, hp', hsite⟩ := LeadsTo.listed h (⟨drawsOf d, ps, s1, hsel, hs1, rfl⟩ : LeadsTo env s j site _)
      rw [hp] at hp'
      obtain rfl := Option.some.inj hp'
      exact hs hsite
  · rw [← Finset.sum_mul, ← Finset.sum_div, sum_rateAt h, hR, div_self hpos.ne', one_mul, Measure.volume_eq_prod,
      Measure.prod_prod, C29_exponential _ _ hpos hτ, Measure.volume_eq_prod, Measure.prod_prod, Real.volume_Ioo, Real.volume_Ico]
    simp
  · intro d
    constructor
    · rintro ⟨hcube, s1, hs1, ht, hτ1⟩
      obtain ⟨s0, hs0, -⟩ := step_single hs1
      obtain ⟨⟨j, site, ps⟩, hsel, -⟩ := bind_ok.1 hs0
      have hl : LeadsTo env s j site t := ⟨drawsOf d, ps, s1, hsel, hs1, ht⟩
      obtain ⟨p, hp, hsite⟩ := hl.listed h
      refine ⟨(j, site), ?_, hl, hcube, s1, hs1, ⟨ps, hsel⟩, hτ1⟩
      rw [Finset.mem_product, Finset.mem_range, Finset.mem_range]
      exact ⟨(List.getElem?_eq_some_iff.1 hp).1, ((C24_available h hp site).1 hsite).1⟩
    · rintro ⟨⟨j, site⟩, -, hl, hcube, s1, hs1, ⟨ps, hsel⟩, hτ1⟩
      refine ⟨hcube, s1, hs1, ?_, hτ1⟩
      exact LeadsTo.unique ⟨drawsOf d, ps, s1, hsel, hs1, rfl⟩ hl
  · rintro ⟨u0, u1, u2⟩ ⟨⟨hu0, dt, hdt, hlt⟩, hu1, hu2⟩
    obtain ⟨x', hx'⟩ := C26_step_bounded h hr hb hf ha u1 u2 hu1.1 hu1.2 hu2.1 hu2.2
    obtain ⟨⟨j, site, ps⟩, hsel, -⟩ := bind_ok.1 hx'
    have hstep : step env negLog s (drawsOf (u0, u1, u2)) = .ok { x' with time := s.time + dt } := by
      have hdt' : drawStep negLog (sumRates s.ms.procs) (drawsOf (u0, u1, u2)).time = .ok dt := by
        unfold drawsOf drawStep
        dsimp only at hdt
        rw [hdt]
      unfold step propagateTime
      rw [htot, ok_bind, hdt', ok_bind, pure_ok, ok_bind, singleStep_time_eq]
      show (singleStep env s u1 u2).map _ = _
      rw [hx']
      rfl
    obtain ⟨p, hp, hsite⟩ := LeadsTo.listed h (⟨drawsOf (u0, u1, u2), ps, _, hsel, hstep, rfl⟩ : LeadsTo env s j site _)
    refine ⟨(j, site), ?_, ⟨hu0, ⟨hu1.1.le, hu1.2⟩, hu2⟩, _, hstep, ⟨ps, hsel⟩, ?_⟩
    · rw [Finset.mem_product, Finset.mem_range, Finset.mem_range]
      exact ⟨(List.getElem?_eq_some_iff.1 hp).1, ((C24_available h hp site).1 hsite).1⟩
    · show τ < s.time + dt - s.time
      linarith

theorem toAndFro_reversible : Reversible Sample.toAndFro (fun j => 1 - j) where
  inside := by
    intro j hj
    have : j < 2 := hj
    show 1 - j < 2
    omega
  back := by
    intro j hj
    have : j < 2 := hj
    show 1 - (1 - j) = j
    omega
  undo := by
    intro j p q hp hq
    match j, hp, hq with
    | 0, hp, hq =>
      obtain rfl := Option.some.inj hp
      obtain rfl := Option.some.inj hq
      exact ⟨.cons ⟨rfl, rfl, rfl, rfl⟩ .nil, rfl⟩
    | 1, hp, hq =>
      obtain rfl := Option.some.inj hp
      obtain rfl := Option.some.inj hq
      exact ⟨.cons ⟨rfl, rfl, rfl, rfl⟩ .nil, rfl⟩
    | j + 2, hp, hq => simp [Sample.toAndFro] at hp
  distinct := by
    intro p hp
    simp only [Sample.toAndFro, List.mem_cons, List.not_mem_nil, or_false] at hp
    rcases hp with rfl | rfl <;> exact List.pairwise_singleton _ _

/-- Non-vacuity: a site that turns from `A` to `B` with rate 2 and back with rate 3. The weights are 3 for `A` and 2 for
`B`, and the rates of going there and back are 2 and 3. -/
example : ∃ s s', GoodRun Sample.oneEnv 1 3 negLog Sample.oneSite Sample.toAndFro s ∧
    GoodRun Sample.oneEnv 1 3 negLog Sample.oneSite Sample.toAndFro s' ∧ s.ms.cfg.types = [[0, 1, 0]] ∧
    s'.ms.cfg.types = [[0, 0, 1]] ∧ flow Sample.oneEnv 1 s s'.ms.cfg.types = 2 ∧
    flow Sample.oneEnv 1 s' s.ms.cfg.types = 3 := by
  obtain ⟨s, h, ht⟩ := Sample.oneSite_starts Sample.toAndFro_wellFormed
  obtain ⟨hb, hf⟩ := bounded_one Sample.oneSite_one Sample.toAndFro_balanced
  obtain ⟨p, hp, hsites, hwts, -⟩ := Sample.turn_listed Sample.toAndFro_range h ht (j := 0) rfl rfl (b := true) rfl
  obtain ⟨p', hp', hsites', -, -⟩ := Sample.turn_listed Sample.toAndFro_range h ht (j := 1) rfl rfl (b := false) rfl
  have hk : p.sites[0]? = some 0 := by rw [hsites]; rfl
  obtain ⟨d, ps, s', r, a1, a2, a3, -⟩ := C58_possible h Sample.toAndFro_positive hb hf hp hk
  have h' := h.step a2
  have ht' : s'.ms.cfg.types = [[0, 0, 1]] := by
    obtain ⟨s0, hs0, hms⟩ := step_single a2
    obtain ⟨q, hq, htot⟩ := C17_total h a1 hs0
    obtain rfl := Option.some.inj hq
    rw [hms] at htot
    have hlen := h'.good.shape.types
    obtain ⟨b, hb'⟩ := List.length_eq_one_iff.1 hlen
    have hbl := h'.good.bucket b (by rw [hb']; simp)
    have h0 := htot 0
    have h1 := htot 1
    have h2 := htot 2
    unfold Config.total at h0 h1 h2
    rw [hb', ht] at h0 h1 h2
    match b, hbl with
    | [x, y, w], _ =>
      simp [Proc.net, Sample.turn] at h0 h1 h2
      rw [hb', h0, h1, h2]
  have hl : LeadsTo Sample.oneEnv s 0 0 s'.ms.cfg.types := ⟨d, ps, s', a1, a2, rfl⟩
  have hprod := C59_product h h' Sample.toAndFro_positive hb hf toAndFro_reversible (by
    intro p hp
    simp only [Sample.toAndFro, List.mem_cons, List.not_mem_nil, or_false] at hp
    rcases hp with rfl | rfl <;> rfl) (fun k => if k = 1 then 3 else if k = 2 then 2 else 1) (by
    intro k
    split_ifs <;> norm_num) (by
    intro j p q hp hq
    match j, hp, hq with
    | 0, hp, hq =>
      obtain rfl := Option.some.inj hp
      obtain rfl := Option.some.inj hq
      simp [Proc.net, Sample.turn, Finset.prod_range_succ]
    | 1, hp, hq =>
      obtain rfl := Option.some.inj hp
      obtain rfl := Option.some.inj hq
      simp [Proc.net, Sample.turn, Finset.prod_range_succ]
      norm_num
    | j + 2, hp, hq => simp [Sample.toAndFro] at hp)
  have hflow : flow Sample.oneEnv 1 s s'.ms.cfg.types = 2 := by
    unfold flow
    rw [procs_length h]
    show ∑ e ∈ Finset.range 2 ×ˢ Finset.range 1, _ = _
    rw [Finset.sum_product, Finset.sum_range_succ, Finset.sum_range_one, Finset.sum_range_one, Finset.sum_range_one, if_pos hl,
      rateAt_listed h hp hk (r := 2) (by rw [hwts]; rfl), if_neg, add_zero]
    intro hl'
    obtain ⟨q, hq, hqs⟩ := hl'.listed h
    rw [hp'] at hq
    obtain rfl := Option.some.inj hq
    rw [hsites'] at hqs
    simp at hqs
  refine ⟨s, s', h, h', ht, ht', hflow, ?_⟩
  rw [hflow, ht, ht'] at hprod
  rw [ht]
  simp [productWeight, Finset.prod_range_succ] at hprod
  linarith

end
end KMC
