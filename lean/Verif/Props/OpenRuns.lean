import Verif.Props.Elsewhere
import Verif.Props.OpenEnds
import Verif.Samples.Events
import Verif.Lemmas.Prepare

/-!
# Property C11 in runs: where processes are available near open ends
-/

namespace KMC

open LatticeModel Interactions

variable {K : Type _} [Field K] [LinearOrder K] [IsStrictOrderedRing K] [FloorRing K]
variable {P : PyLattice K} {env : Env K} {n nT : Nat} {negLog : K → Option K} {cfg : Config K} {procs : List (Proc K)} {s : Sim K}

/-- **C11** In every state of every run, and at every site of its basis, also near open ends: let the list of a process consist of a part
`body` whose last place `last` is not a wildcard, and of explicit wildcards `tail` after it (possibly none). The process is available
exactly when

* for each place of `body` there is a site at that displacement, within range, with the required types,
* everything that the site in the middle of the lattice has around it up to `last` (nearer, or equally far and smaller in x, y, z) the
  site has around it as well, and
* for every wildcard at the end the site has at least as many sites around it as the site in the middle has up to the place of that
  wildcard.

Near open ends the second and the third condition can fail though the process would fit.

Missing: as in `C11_offered_tail_iff_partial`. -/
theorem C11_available_tail_iff_partial (h : GoodRun env n nT negLog cfg procs s) (ho : OnSites P env cfg) {j b : Nat} {p : Proc K}
    (hj : procs[j]? = some p) (hp : p.Sited env.dist P (maxRange procs) b)
    {body tail : List (PEntry K)} (hsplit : p.matchList = body ++ tail)
    {last : PEntry K} (hlast : body.getLast? = some last) (hlw : last.matchTypes[0]? ≠ some 1)
    (htw : ∀ e ∈ tail, e.matchTypes[0]? = some 1)
    {site : Nat} (hs : site < n) (hsb : P.map.basisSite site = b)
    (hA : AxisWithin P.perA P.repA (maxRange procs) (P.map.cellA site))
    (hB : AxisWithin P.perB P.repB (maxRange procs) (P.map.cellB site))
    (hC : AxisWithin P.perC P.repC (maxRange procs) (P.map.cellC site)) :
    ∃ p1, s.ms.procs[j]? = some p1 ∧ (site ∈ p1.sites ↔
      (∀ e ∈ body, ∃ t present, t ∈ P.map.neighbourIndices site (maxRange procs) ∧ P.At site e.coord t ∧
        s.ms.cfg.types[t]? = some present ∧ Accepts e present) ∧
      (∀ d, Sees P (maxRange procs) (central P b) d → Nearer env.dist d last.coord → Sees P (maxRange procs) site d) ∧
      ∀ e ∈ tail, ∃ upTo : List Nat, upTo.Nodup ∧ upTo.length ≤ (P.map.neighbourIndices site (maxRange procs)).length ∧
        ∀ t, t ∈ upTo ↔ t ∈ P.map.neighbourIndices (central P b) (maxRange procs) ∧
          ∀ d, P.At (central P b) d t → ¬ Nearer env.dist e.coord d) := by
  obtain ⟨hP, hn⟩ := ho.wf h
  have hbl : b < P.map.nBasis := by
    rw [← hsb]; exact (P.map.addr_valid hP site (by rw [hn]; exact hs)).2.2.2
  have hsn : site < P.map.nSites := by rw [hn]; exact hs
  obtain ⟨cfg1, procs1, hprep, hok, ⟨⟨A, hI⟩, -⟩, -⟩ := h.inv
  have hlen : procs1.length = procs.length := prepared_length hprep
  obtain ⟨p1, hp1⟩ : ∃ p1, s.ms.procs[j]? = some p1 := by
    refine ⟨_, List.getElem?_eq_getElem ?_⟩
    have e1 : s.ms.procs.map Proc.still = procs1.map Proc.still := hI.procs
    have e2 := congrArg List.length e1
    rw [List.length_map, List.length_map] at e2
    rw [e2, hlen]
    exact (List.getElem?_eq_some_iff.1 hj).1
  have e1 : (procs1.map Proc.still)[j]? = some p1.still := hI.proc hp1
  rw [List.getElem?_map, Option.map_eq_some_iff] at e1
  obtain ⟨p', hp', hst⟩ := e1
  have hml : p'.matchList = p1.matchList := by have h := congrArg Proc.matchList hst; exact h
  have hbs : p'.basisSites = p1.basisSites := by have h := congrArg Proc.basisSites hst; exact h
  have hupd := prepared_update ho.wildcards hprep hj hp'
  rw [ho.lattice] at hupd
  obtain ⟨entries, en1, en2, en3⟩ := hp.sorted
  have hpd : ∀ e ∈ p.matchList, e.distance = env.dist e.coord := by
    intro e he
    rw [en1] at he
    exact en3 e ((perm_sortP entries).mem_iff.1 he)
  have hthere : ∀ e ∈ p.matchList, Sees P (maxRange procs) (central P b) e.coord := fun e he =>
    hp.placed.there _ (List.mem_map_of_mem he)
  have hg := h.good
  have hmem : ∀ t ∈ P.map.neighbourIndices site (maxRange procs), t < P.map.nSites :=
    fun t ht => ((P.map.mem_neighbourIndices hP _ _ _ hsn).1 ht).1
  obtain ⟨l, -, -, hl, -⟩ := Config.configMatchList_ok (dist := env.dist) (L := P.map) (cfg := s.ms.cfg) (n := P.map.nSites)
    (by rw [hn]; exact hg.shape) hsn hmem
  have hh := hprep.1
  rw [ho.lattice] at hh
  obtain ⟨res, hres, hiff⟩ := C11_offered_tail_iff_partial env.dist P hP ho.basis ho.distinct nT h.input.typed (maxRange procs)
    cfg cfg1 s.ms.cfg (by rw [hn]; exact h.input.config.shape) ho.coords h.input.config.bucket hh (by rw [hn]; exact hg.shape)
    (by rw [h.coords]; exact ho.coords) hg.bucket p.clearSites p' b hp.basis
    (h.input.processes p (List.mem_of_getElem? hj)).sized hpd entries en1 en2 body tail hsplit last hlast hlw htw hupd (central P b)
    (P.map.getElem?_indicesFromCell ⟨P.repA / 2, P.repB / 2, P.repC / 2, b⟩ hbl) site hsn hsb hA hB hC
    (by
      intro e he t ht cs ct h1 h2 hsame
      rw [hpd e he] at hsame
      exact hp.placed.clear _ _ (hthere e he) ⟨t, ht, cs, ct, h1, h2, rfl⟩ hsame)
    (by
      intro x y hx hy
      apply hp.placed.distances
      · rcases hx with ⟨e, he, rfl⟩ | ⟨t, ht, cs, ct, h1, h2, rfl⟩
        · exact ⟨_, hthere e he, hpd e he⟩
        · exact ⟨_, ⟨t, ht, cs, ct, h1, h2, rfl⟩, rfl⟩
      · rcases hy with ⟨e, he, rfl⟩ | ⟨t, ht, cs, ct, h1, h2, rfl⟩
        · exact ⟨_, hthere e he, hpd e he⟩
        · exact ⟨_, ⟨t, ht, cs, ct, h1, h2, rfl⟩, rfl⟩)
    _ hl
  have hAt : ∀ (e : PEntry K) (t : Nat), (∀ cs ct, P.sites[central P b]? = some cs → P.sites[t]? = some ct →
      ¬ Nearer env.dist e.coord (P.map.wrap (ct - cs))) ↔
      ∀ d, P.At (central P b) d t → ¬ Nearer env.dist e.coord d := by
    intro e t
    constructor
    · rintro k d ⟨cs, ct, h1, h2, rfl⟩
      exact k cs ct h1 h2
    · intro k cs ct h1 h2
      exact k _ ⟨cs, ct, h1, h2, rfl⟩
  refine ⟨p1, hp1, ?_⟩
  rw [C24_available h hp1 site]
  have hsur : Surroundings env procs s.ms.cfg site = .ok (sortC l) := by
    unfold Surroundings
    rw [ho.lattice]; exact hl
  have hbase : env.L.basisSite site ∈ p1.basisSites := by
    rw [ho.lattice, hsb, ← hbs]
    obtain ⟨q, hq, -, hq2⟩ := prepared_proc h.input hprep hp'
    rw [hj] at hq
    obtain rfl := Option.some.inj hq
    rw [hq2]
    show b ∈ p.basisSites
    rw [hp.basis]; simp
  constructor
  · rintro ⟨-, -, ml, hml1, hml2⟩
    rw [hsur] at hml1
    obtain rfl := Except.ok.inj hml1
    rw [← hml, hres] at hml2
    obtain ⟨k1, k2, k3⟩ := hiff.1 (Except.ok.inj hml2)
    refine ⟨?_, ?_, ?_⟩
    · intro e he
      obtain ⟨t, cs, ct, present, ht, h1, h2, h3, h4, h5⟩ := k1 e he
      exact ⟨t, present, ht, ⟨cs, ct, h1, h2, h3⟩, h4, h5⟩
    · rintro d ⟨t0, ht0, cs0, ct0, h1, h2, rfl⟩ hnear
      obtain ⟨t, ht, cs, ct, h3, h4, h5⟩ := k2 t0 ht0 cs0 ct0 h1 h2 hnear
      exact ⟨t, ht, cs, ct, h3, h4, h5.symm⟩
    · intro e he
      obtain ⟨upTo, u1, u2, u3⟩ := (k3 e he).2
      exact ⟨upTo, u1, u2, fun t => (u3 t).trans (and_congr_right fun _ => hAt e t)⟩
  · rintro ⟨k1, k2, k3⟩
    refine ⟨hs, hbase, _, hsur, ?_⟩
    rw [← hml, hres, hiff.2]
    refine ⟨?_, ?_, ?_⟩
    · intro e he
      obtain ⟨t, present, ht, ⟨cs, ct, h1, h2, h3⟩, h4, h5⟩ := k1 e he
      exact ⟨t, cs, ct, present, ht, h1, h2, h3, h4, h5⟩
    · intro t0 ht0 cs0 ct0 h1 h2 hnear
      obtain ⟨t, ht, cs, ct, h3, h4, h5⟩ := k2 _ ⟨t0, ht0, cs0, ct0, h1, h2, rfl⟩ hnear
      exact ⟨t, ht, cs, ct, h3, h4, h5.symm⟩
    · intro e he
      obtain ⟨upTo, u1, u2, u3⟩ := k3 e he
      obtain ⟨t, ht, cs, ct, h1, h2, h3⟩ := hthere e (by rw [hsplit]; exact List.mem_append_right _ he)
      exact ⟨⟨t, ht, cs, ct, h1, h2, h3.symm⟩, upTo, u1, u2, fun t => (u3 t).trans (and_congr_right fun _ => (hAt e t).symm)⟩

/-- **C11** In every state of every run, and at every site of its basis, also near open ends, a process is available exactly when

* for each of its places there is a site at that displacement, within range, with the required types, and
* everything that the site in the middle of the lattice has around it up to the last place of the process (nearer, or equally far and
  smaller in x, y, z) the site has around it as well.

Near open ends the second condition can fail though the process would fit.

Missing: as in `C11_offered_iff_partial`. -/
theorem C11_available_iff_partial (h : GoodRun env n nT negLog cfg procs s) (ho : OnSites P env cfg) {j b : Nat} {p : Proc K}
    (hj : procs[j]? = some p) (hp : p.Sited env.dist P (maxRange procs) b)
    {last : PEntry K} (hlast : p.matchList.getLast? = some last) (hlw : last.matchTypes[0]? ≠ some 1)
    {site : Nat} (hs : site < n) (hsb : P.map.basisSite site = b)
    (hA : AxisWithin P.perA P.repA (maxRange procs) (P.map.cellA site))
    (hB : AxisWithin P.perB P.repB (maxRange procs) (P.map.cellB site))
    (hC : AxisWithin P.perC P.repC (maxRange procs) (P.map.cellC site)) :
    ∃ p1, s.ms.procs[j]? = some p1 ∧ (site ∈ p1.sites ↔
      (∀ e ∈ p.matchList, ∃ t present, t ∈ P.map.neighbourIndices site (maxRange procs) ∧ P.At site e.coord t ∧
        s.ms.cfg.types[t]? = some present ∧ Accepts e present) ∧
      ∀ d, Sees P (maxRange procs) (central P b) d → Nearer env.dist d last.coord → Sees P (maxRange procs) site d) := by
  obtain ⟨p1, h1, h2⟩ := C11_available_tail_iff_partial h ho hj hp (body := p.matchList) (tail := []) (by simp) hlast hlw (by simp)
    hs hsb hA hB hC
  refine ⟨p1, h1, h2.trans ?_⟩
  simp

/-- The list of "A with anything to the right" consists of a place that is not a wildcard and an explicit wildcard after it, as in
`C11_available_tail_iff_partial`. At the ends of the chain there are two sites in range, and up to the wildcard there are three around the
site in the middle. -/
example : ((Sample.process [0, 1] ["A", "*"] ["B", "*"] 1 [0] [] 0).map fun p : Proc ℚ => p.matchList.map (·.matchTypes)) =
      .ok [[0, 1, 0, 0], [1, 0, 0, 0]] ∧
    (∀ t ∈ (Sample.chain 5 false).map.neighbourIndices 2 1, ∀ cs ct, (Sample.chain 5 false).sites[2]? = some cs →
      (Sample.chain 5 false).sites[t]? = some ct →
      ¬ Nearer Sample.dist1 ⟨1, 0, 0⟩ ((Sample.chain 5 false).map.wrap (ct - cs))) ∧
    ((Sample.chain 5 false).map.neighbourIndices 2 1).length = 3 ∧ ((Sample.chain 5 false).map.neighbourIndices 0 1).length = 2 := by
  refine ⟨by decide +kernel, ?_, by decide +kernel, by decide +kernel⟩
  have hN : (Sample.chain 5 false).map.neighbourIndices 2 1 = [1, 2, 3] := by decide +kernel
  have hS : (Sample.chain 5 false).sites = [⟨0, 0, 0⟩, ⟨1, 0, 0⟩, ⟨2, 0, 0⟩, ⟨3, 0, 0⟩, ⟨4, 0, 0⟩] := by decide +kernel
  rw [hN, hS]
  intro t ht cs ct hcs hct
  simp only [List.mem_cons, List.not_mem_nil, or_false] at ht
  cases hcs
  rcases ht with rfl | rfl | rfl <;> cases hct <;> (unfold Nearer; decide +kernel)

/-- Hops to the left and to the right. -/
private def openHops : M (List (Proc ℚ)) := do
  return [← Sample.process [0, -1] ["A", "B"] ["B", "A"] 1 [0] [] 0, ← Sample.process [0, 1] ["A", "B"] ["B", "A"] 1 [0] [] 1]

private def openElements : List (List String) := [["A"], ["B"], ["B"], ["A"], ["B"]]

/-- After one event on an open chain of five sites, `C11_available_iff_partial` applies at every site. A hop to the right would fit at
the left end, but it is not available there: the second condition fails. -/
example : ∃ cfg procs s p last, GoodRun (Sample.env (Sample.chain 5 false)) 5 4 Sample.lg cfg procs s ∧
    OnSites (Sample.chain 5 false) (Sample.env (Sample.chain 5 false)) cfg ∧
    procs[1]? = some p ∧ p.Sited Sample.dist1 (Sample.chain 5 false) (maxRange procs) 0 ∧
    p.matchList.getLast? = some last ∧ last.matchTypes[0]? ≠ some 1 ∧
    (∀ site < 5, AxisWithin false 5 (maxRange procs) ((Sample.chain 5 false).map.cellA site) ∧
      AxisWithin false 1 (maxRange procs) ((Sample.chain 5 false).map.cellB site) ∧
      AxisWithin false 1 (maxRange procs) ((Sample.chain 5 false).map.cellC site)) ∧
    s.ms.cfg.elements = [["A"], ["B"], ["A"], ["B"], ["B"]] ∧
    (∀ e ∈ p.matchList, ∃ t present, (Sample.chain 5 false).At 0 e.coord t ∧ s.ms.cfg.types[t]? = some present ∧ Accepts e present) ∧
    ∃ p1, s.ms.procs[1]? = some p1 ∧ 0 ∉ p1.sites ∧ 2 ∈ p1.sites := by
  obtain ⟨cfg, procs, s, hc, h2, h, h'⟩ := Sample.good_run (env := Sample.env (Sample.chain 5 false)) (P := Sample.chain 5 false)
    (els := openElements) (procs := openHops) (ds := [Sample.half])
    (f := fun s => (s.ms.cfg.elements, s.ms.cfg.types, s.ms.procs.map (·.sites)))
    (b := ([["A"], ["B"], ["A"], ["B"], ["B"]],
      [[0, 1, 0, 0], [0, 0, 1, 0], [0, 1, 0, 0], [0, 0, 1, 0], [0, 0, 1, 0]], [[2], [2]]))
    5 (by decide +kernel) rfl (by decide +kernel) (by decide +kernel)
  obtain ⟨cfg', hc', hcoords⟩ := Sample.exists_of_map (x := Sample.config (Sample.chain 5 false) openElements)
    (f := fun c => c.coords) (b := (Sample.chain 5 false).sites) (by decide +kernel)
  rw [hc] at hc'
  obtain rfl := Except.ok.inj hc'
  obtain ⟨ps, hps, hf⟩ := Sample.exists_of_map (x := openHops) (f := fun ps => (maxRange ps, match ps with
    | [_, p] => decide (p.basisSites = [0]) && decide (sortP p.matchList = p.matchList) &&
        decide ((p.matchList.map (·.coord)).Nodup) && p.matchList.all fun e => decide (e.distance = Sample.dist1 e.coord)
    | _ => false, ps.map fun p => p.matchList.map (·.coord)))
    (b := (1, true, [[⟨0, 0, 0⟩, ⟨-1, 0, 0⟩], [⟨0, 0, 0⟩, ⟨1, 0, 0⟩]])) (by decide +kernel)
  obtain ⟨ps', hps', hf'⟩ := Sample.exists_of_map (x := openHops) (f := fun ps => ps.map fun p => p.matchList.map (·.matchTypes))
    (b := [[[0, 1, 0, 0], [0, 0, 1, 0]], [[0, 1, 0, 0], [0, 0, 1, 0]]]) (by decide +kernel)
  rw [h2] at hps'
  obtain rfl := Except.ok.inj hps'
  rw [h2] at hps
  obtain rfl := Except.ok.inj hps
  match procs, h, hf, hf' with
  | [q, p], h, hf, hf' =>
    simp only [List.map_cons, List.map_nil, List.cons.injEq, and_true] at hf'
    simp only [Prod.mk.injEq, Bool.and_eq_true, decide_eq_true_eq, List.all_eq_true, List.map_cons, List.map_nil,
      List.cons.injEq, and_true] at hf
    obtain ⟨hm, ⟨⟨⟨b1, b2⟩, b3⟩, b4⟩, -, hcs⟩ := hf
    obtain ⟨-, hmt⟩ := hf'
    simp only [Prod.mk.injEq] at h'
    obtain ⟨a1, a2, a3⟩ := h'
    obtain ⟨e0, l1, hpm, c0, hl1⟩ := List.map_eq_cons_iff.1 hcs
    obtain ⟨e1, l2, rfl, c1, hl2⟩ := List.map_eq_cons_iff.1 hl1
    obtain rfl := List.map_eq_nil_iff.1 hl2
    rw [hpm] at hmt
    simp only [List.map_cons, List.map_nil, List.cons.injEq, and_true] at hmt
    obtain ⟨m0, m1⟩ := hmt
    refine ⟨cfg, [q, p], s, p, e1, h, ⟨rfl, hcoords, by decide +kernel, by decide +kernel, rfl⟩, rfl,
      ⟨b1, ⟨p.matchList, b2.symm, b3, b4⟩, ?_⟩, by rw [hpm]; rfl, by rw [m1]; decide, ?_, a1, ?_, ?_⟩
    · rw [hcs, hm]
      exact placed_of (by decide +kernel) (by decide) (by decide +kernel) (by decide +kernel) (by decide +kernel)
    · intro site hs
      rw [hm]
      refine ⟨.inr ⟨rfl, .inr (by omega)⟩, .inr ⟨rfl, .inl ?_⟩, .inr ⟨rfl, .inl ?_⟩⟩
      · have := (Sample.chain 5 false).map.cellB_lt (by decide) site
        have e : (Sample.chain 5 false).map.repB = 1 := rfl
        omega
      · have := (Sample.chain 5 false).map.cellC_lt (by decide) site
        have e : (Sample.chain 5 false).map.repC = 1 := rfl
        omega
    · intro e he
      rw [a2]
      rw [hpm] at he
      rcases List.mem_pair.1 he with rfl | rfl
      · refine ⟨0, _, ⟨⟨0, 0, 0⟩, ⟨0, 0, 0⟩, by decide +kernel, by decide +kernel, ?_⟩, rfl, .inr ?_⟩
        · rw [c0]; decide +kernel
        · rw [m0]
          intro i x y hx hy
          rw [hx] at hy
          exact (Option.some.inj hy).le
      · refine ⟨1, _, ⟨⟨0, 0, 0⟩, ⟨1, 0, 0⟩, by decide +kernel, by decide +kernel, ?_⟩, rfl, .inr ?_⟩
        · rw [c1]; decide +kernel
        · rw [m1]
          intro i x y hx hy
          rw [hx] at hy
          exact (Option.some.inj hy).le
    · have a4 := congrArg (fun l : List (List Nat) => l[1]?) a3
      simp only [List.getElem?_map] at a4
      obtain ⟨p1, h6, h7⟩ := Option.map_eq_some_iff.1 (a4.trans rfl : _ = some [2])
      exact ⟨p1, h6, by rw [h7]; decide, by rw [h7]; decide⟩

end KMC
