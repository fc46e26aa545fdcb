import Verif.Lemmas.Shift
import Verif.Props.Elsewhere
import Verif.Props.PathLaw
import Verif.Props.Weights

/-!
# C62: translating a periodic model

When a model is on a lattice with periodic axes, all sites that differ by a translation along these axes are equivalent: the
model that starts from the translated configuration does the same, at the translated sites.
-/

set_option linter.unusedSectionVars false

namespace KMC

open LatticeModel Interactions

/-- The two models are on the sites of the lattice, and one can translate along the given axes. -/
structure TranslatedModels {K : Type _} [Field K] [LinearOrder K] (P : PyLattice K) (env : Env K) (cfg cfg' : Config K)
    (procs : List (Proc K)) (i j k : Nat) : Prop where
  lattice : env.L = P.map
  coords : cfg.coords = P.sites
  coords' : cfg'.coords = P.sites
  basis : ∀ b ∈ P.basis, (0 ≤ b.x ∧ b.x < 1) ∧ (0 ≤ b.y ∧ b.y < 1) ∧ (0 ≤ b.z ∧ b.z < 1)
  distinct : P.basis.Nodup
  shift : P.CanShift (maxRange procs) i j k

section
variable {K : Type _} [Field K] [LinearOrder K] [IsStrictOrderedRing K]
variable {env : Env K} {n nT : Nat} {negLog : K → Option K} {cfg cfg' : Config K} {procs : List (Proc K)} {s s' s1 s1' : Sim K}
variable {P : PyLattice K} {i j k : Nat}

theorem TranslatedModels.wf (ht : TranslatedModels P env cfg cfg' procs i j k) (h : GoodRun env n nT negLog cfg procs s) :
    P.map.WF ∧ P.map.nSites = n := by
  rw [← ht.lattice]
  exact ⟨h.input.lattice, h.input.sites⟩

/-- Two models on the same sites with the same processes have the same surroundings and the same processes after the
preparation. -/
theorem GoodRun.pair (h : GoodRun env n nT negLog cfg procs s) (h' : GoodRun env n nT negLog cfg' procs s')
    (hc : cfg'.coords = cfg.coords) :
    ∃ cfg1 cfg1' procs1, Prepared env cfg procs cfg1 procs1 ∧ Prepared env cfg' procs cfg1' procs1 ∧
      cfg1'.matchLists = cfg1.matchLists.map (seen cfg'.types) ∧
      s.ms.procs.map Proc.still = procs1.map Proc.still ∧ s'.ms.procs.map Proc.still = procs1.map Proc.still := by
  obtain ⟨cfg1, procs1, hprep, -, ⟨⟨A, hI⟩, -⟩, -⟩ := h.inv
  obtain ⟨cfg1', procs1', hprep', -, ⟨⟨A', hI'⟩, -⟩, -⟩ := h'.inv
  obtain ⟨rfl, e⟩ := prepared_frame h.input h'.input.config hc hprep hprep'
  exact ⟨cfg1, cfg1', procs1', hprep, hprep', e, hI.procs, hI'.procs⟩

theorem procs_pair {q q' r : List (Proc K)} (h : q.map Proc.still = r.map Proc.still) (h' : q'.map Proc.still = r.map Proc.still)
    {m : Nat} {p : Proc K} (hp : q[m]? = some p) : ∃ p', q'[m]? = some p' ∧ p'.matchList = p.matchList ∧
      p'.basisSites = p.basisSites ∧ p'.still = p.still := by
  have e : (q'.map Proc.still)[m]? = some p.still := by
    rw [h', ← h, List.getElem?_map, hp]; rfl
  rw [List.getElem?_map, Option.map_eq_some_iff] at e
  obtain ⟨p', e1, e2⟩ := e
  refine ⟨p', e1, ?_, ?_, e2⟩
  · have h := congrArg Proc.matchList e2; exact h
  · have h := congrArg Proc.basisSites e2; exact h

/-- **C62** In two states, of which one has on the translated sites what the other has on the sites, each process is
available at the translated sites of those where it is available in the other. -/
theorem C62_available (h : GoodRun env n nT negLog cfg procs s) (h' : GoodRun env n nT negLog cfg' procs s')
    (ht : TranslatedModels P env cfg cfg' procs i j k) (hm : P.Moved i j k s.ms.cfg.types s'.ms.cfg.types) {m : Nat}
    {p : Proc K} (hp : s.ms.procs[m]? = some p) : ∃ p', s'.ms.procs[m]? = some p' ∧
      (∀ site < n, P.translate i j k site ∈ p'.sites ↔ site ∈ p.sites) ∧ p'.sites.Perm (p.sites.map (P.translate i j k)) := by
  obtain ⟨hP, hn⟩ := ht.wf h
  obtain ⟨cfg1, cfg1', procs1, hprep, hprep', hlists, q1, q2⟩ := h.pair h' (by rw [ht.coords, ht.coords'])
  obtain ⟨p', hp', f1, f2, -⟩ := procs_pair q1 q2 hp
  have hl := lists_of h.input hprep.1
  have hco : s.ms.cfg.coords = cfg.coords := h.coords
  have hco' : s'.ms.cfg.coords = cfg.coords := by rw [h'.coords, ht.coords', ht.coords]
  have key : ∀ site < n, P.translate i j k site ∈ p'.sites ↔ site ∈ p.sites := by
    intro site hs
    have hsP : site < P.map.nSites := by rw [hn]; exact hs
    have htl : P.translate i j k site < P.map.nSites := PyLattice.translate_lt hP hsP
    have htn : P.translate i j k site < n := by rw [← hn]; exact htl
    obtain ⟨sk, hsk⟩ : ∃ sk, cfg1.matchLists[site]? = some sk :=
      ⟨_, List.getElem?_eq_getElem (by rw [hl.shape.matchLists]; exact hs)⟩
    obtain ⟨sk', hsk'⟩ : ∃ sk, cfg1.matchLists[P.translate i j k site]? = some sk :=
      ⟨_, List.getElem?_eq_getElem (by rw [hl.shape.matchLists]; exact htn)⟩
    have e1 := hl.matchList h.input.lattice h.input.sites h.good.shape hco hsk
    have e2 := hl.matchList h.input.lattice h.input.sites h'.good.shape hco' hsk'
    have hcar := lists_carried hl ht.lattice ht.coords hP ht.basis ht.distinct hn ht.shift hsk hsk'
    have hcar := seen_carried hcar (types := s.ms.cfg.types) (types' := s'.ms.cfg.types) (by
      intro e he
      refine hm e.index ?_
      obtain ⟨_, -, hent⟩ := hl.entry hsk
      have := (hent e he).1
      rw [ht.lattice] at this
      exact ((P.map.mem_neighbourIndices hP _ _ _ hsP).1 this).1)
    have hw := whateverMatch_carried hcar p.matchList
    rw [C24_available h hp site, C24_available h' hp' (P.translate i j k site), f1, f2]
    unfold Surroundings
    rw [e1, e2, ht.lattice, (PyLattice.translate_addr hP hsP).2.2.2]
    simp only [Except.ok.injEq, exists_eq_left', hw, hs, htn]
  refine ⟨p', hp', key, ?_⟩
  have nd := ((C25_totals h).1 p (List.mem_of_getElem? hp)).1
  have nd' := ((C25_totals h').1 p' (List.mem_of_getElem? hp')).1
  have hin : ∀ site ∈ p.sites, site < n := fun site hs => ((C24_available h hp site).1 hs).1
  have hin' : ∀ site ∈ p'.sites, site < n := fun site hs => ((C24_available h' hp' site).1 hs).1
  have ndm : (p.sites.map (P.translate i j k)).Nodup := by
    refine List.Nodup.map_on ?_ nd
    intro a ha b hb hab
    exact PyLattice.translate_inj hP (by rw [hn]; exact hin a ha) (by rw [hn]; exact hin b hb) hab
  rw [List.perm_ext_iff_of_nodup nd' ndm]
  intro t
  rw [List.mem_map]
  constructor
  · intro htm
    have : ∃ a < n, P.translate i j k a = t := by
      have hsurj := Finset.surj_on_of_inj_on_of_card_le (s := Finset.range n) (t := Finset.range n)
        (fun a _ => P.translate i j k a)
        (fun a ha => by
          rw [Finset.mem_range] at ha ⊢
          rw [← hn] at ha ⊢
          exact PyLattice.translate_lt hP ha)
        (fun a b ha hb hab => by
          rw [Finset.mem_range, ← hn] at ha hb
          exact PyLattice.translate_inj hP ha hb hab) le_rfl t (Finset.mem_range.2 (hin' t htm))
      obtain ⟨a, ha, e⟩ := hsurj
      exact ⟨a, Finset.mem_range.1 ha, e.symm⟩
    obtain ⟨a, ha, rfl⟩ := this
    exact ⟨a, (key a ha).1 htm, rfl⟩
  · rintro ⟨a, ha, rfl⟩
    exact (key a (hin a ha)).2 ha

/-- **C62** The same event at the translated site leads to the translated state. -/
theorem C62_event (h : GoodRun env n nT negLog cfg procs s) (h' : GoodRun env n nT negLog cfg' procs s')
    (ht : TranslatedModels P env cfg cfg' procs i j k) (hm : P.Moved i j k s.ms.cfg.types s'.ms.cfg.types) {m site : Nat}
    {d d' : Draws K} {ps ps' : List (Proc K)} (hsel : select s.ms.procs s.table d.process d.site = .ok (m, site, ps))
    (hs : step env negLog s d = .ok s1)
    (hsel' : select s'.ms.procs s'.table d'.process d'.site = .ok (m, P.translate i j k site, ps'))
    (hs' : step env negLog s' d' = .ok s1') : P.Moved i j k s1.ms.cfg.types s1'.ms.cfg.types := by
  obtain ⟨hP, hn⟩ := ht.wf h
  obtain ⟨cfg1, cfg1', procs1, hprep, hprep', hlists, q1, q2⟩ := h.pair h' (by rw [ht.coords, ht.coords'])
  have hl := lists_of h.input hprep.1
  obtain ⟨p, sk, hp, hsk, hsite, -, htook⟩ := h.took hsel hs hprep
  obtain ⟨p', sk0, hp', hsk0, hsite', -, htook'⟩ := h'.took hsel' hs' hprep'
  have hsn := ((C24_available h hp site).1 hsite).1
  have hsP : site < P.map.nSites := by rw [hn]; exact hsn
  obtain ⟨p2, hp2, f1, -⟩ := procs_pair q1 q2 hp
  rw [hp'] at hp2
  obtain rfl := Option.some.inj hp2
  rw [f1] at htook'
  rw [hlists, List.getElem?_map, Option.map_eq_some_iff] at hsk0
  obtain ⟨sk', hsk', rfl⟩ := hsk0
  have hcar := lists_carried hl ht.lattice ht.coords hP ht.basis ht.distinct hn ht.shift hsk hsk'
  have hidx : ∀ e ∈ sk, e.index < P.map.nSites := by
    intro e he
    obtain ⟨_, -, hent⟩ := hl.entry hsk
    have := (hent e he).1
    rw [ht.lattice] at this
    exact ((P.map.mem_neighbourIndices hP _ _ _ hsP).1 this).1
  have hpair : ∀ (q : Nat) (c : CEntry K), sk[q]? = some c → ∃ c', (seen cfg'.types sk')[q]? = some c' ∧
      c'.index = P.translate i j k c.index := by
    intro q c hc
    obtain ⟨hq, rfl⟩ := List.getElem?_eq_some_iff.1 hc
    rw [List.forall₂_iff_get] at hcar
    have hq' : q < sk'.length := by rw [← hcar.1]; exact hq
    have := hcar.2 q hq hq'
    refine ⟨(sk'[q]).look cfg'.types, ?_, this.index⟩
    unfold seen
    rw [List.getElem?_map, List.getElem?_eq_getElem hq']
    rfl
  have hpair' : ∀ (q : Nat) (c' : CEntry K), (seen cfg'.types sk')[q]? = some c' → ∃ c, sk[q]? = some c ∧
      c'.index = P.translate i j k c.index := by
    intro q c' hc
    have hq : q < sk.length := by
      have := (List.getElem?_eq_some_iff.1 hc).1
      rw [hcar.length_eq]
      simpa [seen] using this
    obtain ⟨c2, e1, e2⟩ := hpair q _ (List.getElem?_eq_getElem hq)
    rw [hc] at e1
    obtain rfl := Option.some.inj e1
    exact ⟨_, List.getElem?_eq_getElem hq, e2⟩
  intro t htn
  by_cases hex : ∃ (q : Nat) (e : PEntry K) (c : CEntry K), p.matchList[q]? = some e ∧ sk[q]? = some c ∧ e.Changes ∧ c.index = t
  · obtain ⟨q, e, c, e1, e2, e3, rfl⟩ := hex
    obtain ⟨c', g1, g2⟩ := hpair q c e2
    obtain ⟨x, x1, x2⟩ := htook.changed q e c e1 e2 e3
    obtain ⟨y, y1, y2⟩ := htook'.changed q e c' e1 g1 e3
    rw [g2, hm c.index htn, x1] at y1
    obtain rfl := Option.some.inj y1
    rw [x2, ← g2, y2]
  · rw [htook.kept t (fun q e c e1 e2 e3 e4 => hex ⟨q, e, c, e1, e2, e3, e4⟩), htook'.kept]
    · exact hm t htn
    · intro q e c' e1 e2 e3 e4
      obtain ⟨c, g1, g2⟩ := hpair' q c' e2
      rw [g2] at e4
      exact hex ⟨q, e, c, e1, g1, e3, PyLattice.translate_inj hP (hidx c (List.mem_of_getElem? g1)) htn e4⟩

/-- What the elements at the sites must be for the rate calculator to be told the same: with ordinary processes it is told
the first element of each site. -/
def SameElements (P : PyLattice K) (procs : List (Proc K)) (i j k : Nat) (elements elements' : List (List String)) : Prop :=
  (∀ p ∈ procs, p.bucketProcess = true) ∨ P.Moved i j k elements elements'

/-- **C62** The rates of the processes are the same, in total and at the translated sites; with a rate calculator this needs
that it takes no account of the position of the site. -/
theorem C62_rates (h : GoodRun env n nT negLog cfg procs s) (h' : GoodRun env n nT negLog cfg' procs s')
    (ht : TranslatedModels P env cfg cfg' procs i j k) (hm : P.Moved i j k s.ms.cfg.types s'.ms.cfg.types)
    (hq : env.useCustomRates = true → env.Homogeneous ∧ cfg'.typeNames = cfg.typeNames ∧
      SameElements P procs i j k s.ms.cfg.elements s'.ms.cfg.elements) :
    s'.ms.procs.map (·.totalRate) = s.ms.procs.map (·.totalRate) ∧
    ∀ (m : Nat) (p p' : Proc K), s.ms.procs[m]? = some p → s'.ms.procs[m]? = some p' →
      ∀ (site : Nat) (r : K), (site, r) ∈ p.sites.zip p.weights → (P.translate i j k site, r) ∈ p'.sites.zip p'.weights := by
  obtain ⟨hP, hn⟩ := ht.wf h
  obtain ⟨cfg1, procs1, hprep, -, ⟨⟨A, hI⟩, -⟩, -⟩ := h.inv
  obtain ⟨cfg1', procs1', hprep', -, ⟨⟨A', hI'⟩, -⟩, -⟩ := h'.inv
  obtain ⟨rfl, hlists⟩ := prepared_frame h.input h'.input.config (by rw [ht.coords, ht.coords']) hprep hprep'
  have hl := lists_of h.input hprep.1
  have hrate : ∀ (m : Nat) (p p' : Proc K), s.ms.procs[m]? = some p → s'.ms.procs[m]? = some p' → ∀ site ∈ p.sites,
      (if p'.custom then (A' m (P.translate i j k site)).getD 0 else p'.rate) =
        (if p.custom then (A m site).getD 0 else p.rate) := by
    intro m p p' hp hp' site hsite
    obtain ⟨p2, hp2, -, -, f⟩ := procs_pair hI.procs hI'.procs hp
    rw [hp'] at hp2
    obtain rfl := Option.some.inj hp2
    have f1 : p'.custom = p.custom := by have h := congrArg Proc.custom f; exact h
    have f2 : p'.rate = p.rate := by have h := congrArg Proc.rate f; exact h
    rw [f1, f2]
    split
    · have hsn : site < n := ((C24_available h hp site).1 hsite).1
      have hsP : site < P.map.nSites := by rw [hn]; exact hsn
      have htn : P.translate i j k site < n := by rw [← hn]; exact PyLattice.translate_lt hP hsP
      obtain ⟨p2, hp2, hav, -⟩ := C62_available h h' ht hm hp
      rw [hp'] at hp2
      obtain rfl := Option.some.inj hp2
      have hsite' := (hav site hsn).2 hsite
      obtain ⟨sk, hsk⟩ : ∃ sk, cfg1.matchLists[site]? = some sk :=
        ⟨_, List.getElem?_eq_getElem (by rw [hl.shape.matchLists]; exact hsn)⟩
      obtain ⟨sk', hsk'⟩ : ∃ sk, cfg1.matchLists[P.translate i j k site]? = some sk :=
        ⟨_, List.getElem?_eq_getElem (by rw [hl.shape.matchLists]; exact htn)⟩
      have hsk2 : cfg1'.matchLists[P.translate i j k site]? = some (seen cfg'.types sk') := by
        rw [hlists, List.getElem?_map, hsk']; rfl
      obtain ⟨r, hr⟩ := Option.isSome_iff_exists.1 ((hI.book.rep m p hp).listed site |>.1 hsite)
      obtain ⟨r', hr'⟩ := Option.isSome_iff_exists.1 ((hI'.book.rep m p' hp').listed _ |>.1 hsite')
      rw [hr, hr', Option.getD_some, Option.getD_some]
      have q1 : Matcher.RateIs env s.ms.cfg (seen s.ms.cfg.types sk) p.still site r :=
        (hI.right site sk hsk).rate m _ r (hI.proc hp) hr
      have q2 : Matcher.RateIs env s'.ms.cfg (seen s'.ms.cfg.types (seen cfg'.types sk')) p'.still (P.translate i j k site) r' :=
        (hI'.right _ _ hsk2).rate m _ r' (hI'.proc hp') hr'
      unfold Matcher.RateIs at q1 q2
      split at q1
      · rename_i hu
        rw [if_pos hu] at q2
        obtain ⟨a, a1, rfl⟩ := q1
        obtain ⟨a', a1', rfl⟩ := q2
        obtain ⟨hom, hnames, hels⟩ := hq hu
        refine hom _ _ ?_
        have hidx : ∀ e ∈ sk, e.index < P.map.nSites := by
          intro e he
          obtain ⟨_, -, hent⟩ := hl.entry hsk
          have := (hent e he).1
          rw [ht.lattice] at this
          exact ((P.map.mem_neighbourIndices hP _ _ _ hsP).1 this).1
        have hidx' : ∀ e ∈ seen s.ms.cfg.types sk, e.index < P.map.nSites := by
          intro e he
          obtain ⟨e0, he0, rfl⟩ := List.mem_map.1 he
          exact hidx e0 he0
        have hcar := lists_carried hl ht.lattice ht.coords hP ht.basis ht.distinct hn ht.shift hsk hsk'
        have hcar := seen_carried hcar (types := s.ms.cfg.types) (types' := s'.ms.cfg.types) fun e he => hm e.index (hidx e he)
        have hcar' : List.Forall₂ (fun e e' => Translated (P.translate i j k) e e' ∧ e'.matchTypes = e.matchTypes)
            (seen s.ms.cfg.types sk) (seen s'.ms.cfg.types (seen cfg'.types sk')) := by
          have : seen s'.ms.cfg.types (seen cfg'.types sk') = seen s'.ms.cfg.types sk' := by
            unfold seen
            rw [List.map_map]
            rfl
          rw [this]; exact hcar
        have gb : p'.still.bucketProcess = p.still.bucketProcess := by rw [f]
        refine rateArgsOn_carried hcar' (fun e he => hm e.index (hidx' e he)) ?_ ?_ (by rw [f]) (by rw [f]) gb (by rw [f])
          (by rw [f]) a1 a1'
        · rcases hels with hall | hels
          · left
            have e1 : (procs1'.map Proc.still)[m]? = some p.still := hI.proc hp
            rw [List.getElem?_map, Option.map_eq_some_iff] at e1
            obtain ⟨p1, e1, g1⟩ := e1
            obtain ⟨p0, e2, -, g2⟩ := prepared_proc h.input hprep e1
            rw [← g1]
            show p1.bucketProcess = true
            rw [g2]
            exact hall p0 (List.mem_of_getElem? e2)
          · exact .inr fun e he => hels e.index (hidx' e he)
        · rw [h.names, h'.names]; exact hnames
      · rename_i hu
        rw [if_neg hu] at q2
        rw [q1, q2, f]
    · rfl
  constructor
  · apply List.ext_getElem?
    intro m
    rw [List.getElem?_map, List.getElem?_map]
    cases hp : s.ms.procs[m]? with
    | none =>
      have : s'.ms.procs.length = s.ms.procs.length := by
        have := congrArg List.length (hI'.procs.trans hI.procs.symm)
        simpa using this
      rw [List.getElem?_eq_none_iff] at hp
      rw [List.getElem?_eq_none (by omega)]
    | some p =>
      obtain ⟨p', hp', -, hperm⟩ := C62_available h h' ht hm hp
      rw [hp', Option.map_some, Option.map_some, Option.some.injEq,
        ((C25_totals h').1 p' (List.mem_of_getElem? hp')).2.2.2, ((C25_totals h).1 p (List.mem_of_getElem? hp)).2.2.2,
        (hI.book.rep m p hp).weights, (hI'.book.rep m p' hp').weights, (hperm.map _).sum_eq, List.map_map]
      congr 1
      apply List.map_congr_left
      intro site hsite
      exact hrate m p p' hp hp' site hsite
  · intro m p p' hp hp' site r hmem
    obtain ⟨p2, hp2, -, hperm⟩ := C62_available h h' ht hm hp
    rw [hp'] at hp2
    obtain rfl := Option.some.inj hp2
    obtain ⟨l, hl1⟩ := List.mem_iff_getElem?.1 hmem
    rw [List.getElem?_zip_eq_some] at hl1
    obtain ⟨b1, b2⟩ := hl1
    dsimp only at b1 b2
    have hsite := List.mem_of_getElem? b1
    rw [(hI.book.rep m p hp).weights, List.getElem?_map, b1] at b2
    have b2 := Option.some.inj b2
    have hmem' : P.translate i j k site ∈ p'.sites := hperm.mem_iff.2 (List.mem_map_of_mem hsite)
    obtain ⟨l', hl'⟩ := List.mem_iff_getElem?.1 hmem'
    refine List.mem_of_getElem? (i := l') ?_
    rw [List.getElem?_zip_eq_some]
    refine ⟨hl', ?_⟩
    rw [(hI'.book.rep m p' hp').weights, List.getElem?_map, hl', Option.map_some, hrate m p p' hp hp' site hsite]
    exact congrArg some b2

end

/-! ### Runs -/

section
open MeasureTheory

variable {env : Env ℝ} {n nT : Nat} {cfg cfg' : Config ℝ} {procs : List (Proc ℝ)} {s s' : Sim ℝ} {P : PyLattice ℝ} {i j k : Nat}

/-- The events at the translated sites. -/
def shiftEvents (P : PyLattice ℝ) (i j k : Nat) (es : List (Nat × Nat × ℝ)) : List (Nat × Nat × ℝ) :=
  es.map fun e => (e.1, P.translate i j k e.2.1, e.2.2)

/-- What is needed of a rate calculator: that it takes no account of the position of the site, and that it is told nothing that
the counts of the types do not decide. The latter is so with bucket processes only, and with one particle at each site. -/
structure SameAnswers (env : Env ℝ) (cfg cfg' : Config ℝ) (procs : List (Proc ℝ)) : Prop where
  homogeneous : env.Homogeneous
  names : cfg'.typeNames = cfg.typeNames
  elements : (∀ p ∈ procs, p.bucketProcess = true) ∨ ((∀ els ∈ cfg.elements, els.length = 1) ∧
    (∀ els ∈ cfg'.elements, els.length = 1) ∧ ∀ p ∈ procs, p.Balanced)

theorem SameAnswers.now (ha : SameAnswers env cfg cfg' procs) (h : GoodRun env n nT negLog cfg procs s)
    (h' : GoodRun env n nT negLog cfg' procs s') (ht : TranslatedModels P env cfg cfg' procs i j k)
    (hm : P.Moved i j k s.ms.cfg.types s'.ms.cfg.types) : env.Homogeneous ∧ cfg'.typeNames = cfg.typeNames ∧
      SameElements P procs i j k s.ms.cfg.elements s'.ms.cfg.elements := by
  obtain ⟨hP, hn⟩ := ht.wf h
  refine ⟨ha.homogeneous, ha.names, ?_⟩
  rcases ha.elements with hb | ⟨o1, o2, hb⟩
  · exact .inl hb
  · right
    intro site hs
    have hs' : P.translate i j k site < n := by rw [← hn]; exact PyLattice.translate_lt hP hs
    have hs0 : site < n := by rw [← hn]; exact hs
    have l1 : site < s.ms.cfg.elements.length := by rw [h.good.shape.elements]; exact hs0
    have l2 : P.translate i j k site < s'.ms.cfg.elements.length := by rw [h'.good.shape.elements]; exact hs'
    have t1 : site < s.ms.cfg.types.length := by rw [h.good.shape.types]; exact hs0
    have x1 := C19_one_particle h o1 hb _ (List.getElem_mem l1)
    have x2 := C19_one_particle h' o2 hb _ (List.getElem_mem l2)
    have y := hm site hs
    rw [List.getElem?_eq_getElem t1] at y
    obtain ⟨a1, -, a3⟩ := C16_elements h (List.getElem?_eq_getElem l1) (List.getElem?_eq_getElem t1)
    obtain ⟨b1, -, b3⟩ := C16_elements h' (List.getElem?_eq_getElem l2) y
    rw [List.getElem?_eq_getElem l1, List.getElem?_eq_getElem l2]
    obtain ⟨x, hx⟩ := List.length_eq_one_iff.1 x1
    obtain ⟨z, hz⟩ := List.length_eq_one_iff.1 x2
    rw [hx] at a1 a3
    rw [hz] at b1 b3
    rw [hx, hz]
    obtain ⟨m, hm'⟩ := List.mem_iff_getElem?.1 (a1 x (by simp))
    have c1 := a3 m x hm'
    have c2 := b3 m x (by rw [ha.names]; exact hm')
    rw [c1] at c2
    have c2 := Option.some.inj c2
    by_cases hxz : z = x
    · rw [hxz]
    · rw [List.count_singleton_self, List.count_singleton, if_neg (by simpa using hxz)] at c2
      simp at c2

/-- **C62** A course of events of the one model is, at the translated sites, a course of the other, with the same rates. -/
theorem C62_course (h : GoodRun env n nT negLog cfg procs s) (h' : GoodRun env n nT negLog cfg' procs s')
    (ht : TranslatedModels P env cfg cfg' procs i j k) (hm : P.Moved i j k s.ms.cfg.types s'.ms.cfg.types)
    (hc : env.useCustomRates = true → SameAnswers env cfg cfg' procs) (hr : PositiveRates env procs) {M : Nat}
    (hb : Bounded M cfg' procs) (hf : FewEnough M procs) {es : List (Nat × Nat × ℝ)} {q : ℝ} (hco : Course env s es q) :
    Course env s' (shiftEvents P i j k es) q := by
  induction hco generalizing s' with
  | nil s => exact .nil s'
  | @cons s s1 d ps m site l p r t es q hsel hstep hp hk hw rest ih =>
    obtain ⟨p', hp', -, -⟩ := C62_available h h' ht hm hp
    obtain ⟨e1, e2⟩ := C62_rates h h' ht hm fun hu => (hc hu).now h h' ht hm
    have hmem := e2 m p p' hp hp' site r (List.mem_of_getElem? (i := l) (by
      rw [List.getElem?_zip_eq_some]
      exact ⟨hk, hw⟩))
    obtain ⟨l', hl'⟩ := List.mem_iff_getElem?.1 hmem
    rw [List.getElem?_zip_eq_some] at hl'
    obtain ⟨hk', hw'⟩ := hl'
    dsimp only at hk' hw'
    obtain ⟨d', ps', s1', r', g1, g2, g3, -⟩ := C58_possible h' hr hb hf hp' hk'
    rw [hw'] at g3
    obtain rfl := Option.some.inj g3
    have := Course.cons (t := t) g1 g2 hp' hk' hw' (ih (h.step hstep) (h'.step g2) (C62_event h h' ht hm hsel hstep g1 g2))
    rw [e1] at this
    exact this

/-- **C62** The model that starts from the translated configuration goes through the translated events at the same times with
the same probability. -/
theorem C62_law (h : GoodRun env n nT negLog cfg procs s) (h' : GoodRun env n nT negLog cfg' procs s')
    (ht : TranslatedModels P env cfg cfg' procs i j k) (hm : P.Moved i j k s.ms.cfg.types s'.ms.cfg.types)
    (hc : env.useCustomRates = true → SameAnswers env cfg cfg' procs) (hr : PositiveRates env procs) {M : Nat}
    (hb : Bounded M cfg' procs) (hf : FewEnough M procs) {es : List (Nat × Nat × ℝ)} {q : ℝ} (hco : Course env s es q)
    (htime : ∀ e ∈ es, 0 ≤ e.2.2) :
    volume {w : Fin es.length → ℝ × ℝ × ℝ | InCube w ∧ Follows env es s w} =
      volume {w : Fin (shiftEvents P i j k es).length → ℝ × ℝ × ℝ | InCube w ∧ Follows env (shiftEvents P i j k es) s' w} := by
  rw [C58_path_law h hr hco htime, C58_path_law h' hr (C62_course h h' ht hm hc hr hb hf hco)]
  intro e he
  obtain ⟨x, hx, rfl⟩ := List.mem_map.1 he
  exact htime x hx

end
end KMC

/-! ### The hypotheses hold for a model -/

namespace KMC

open LatticeModel Interactions

/-- Non-vacuity: a particle that hops on a ring of four sites, and the same with the particle one site to the right. -/
example : ∃ (cfg cfg' : Config ℚ) (procs : List (Proc ℚ)) (s s' : Sim ℚ),
    GoodRun (Sample.env Sample.ring) 4 4 Sample.lg cfg procs s ∧ GoodRun (Sample.env Sample.ring) 4 4 Sample.lg cfg' procs s' ∧
    TranslatedModels Sample.ring (Sample.env Sample.ring) cfg cfg' procs 1 0 0 ∧
    Sample.ring.Moved 1 0 0 s.ms.cfg.types s'.ms.cfg.types ∧ s.ms.procs.map (·.sites) = [[1], [1]] ∧
    s'.ms.procs.map (·.sites) = [[2], [2]] := by
  obtain ⟨cfg, procs, s, h1, h2, h, hs⟩ := Sample.good_run (env := Sample.env Sample.ring) (P := Sample.ring)
    (els := Sample.ringElements) (procs := Sample.hops) (ds := [Sample.half])
    (f := fun s => (s.ms.cfg.types, s.ms.procs.map (·.sites))) (b := ([[0, 0, 1, 0], [0, 1, 0, 0], [0, 0, 1, 0], [0, 0, 1, 0]], [[1], [1]]))
    4 (by decide +kernel) rfl (by decide +kernel) (by decide +kernel)
  obtain ⟨cfg', procs', s', h1', h2', h', hs'⟩ := Sample.good_run (env := Sample.env Sample.ring) (P := Sample.ring)
    (els := [["B"], ["A"], ["B"], ["B"]]) (procs := Sample.hops) (ds := [Sample.half])
    (f := fun s => (s.ms.cfg.types, s.ms.procs.map (·.sites))) (b := ([[0, 0, 1, 0], [0, 0, 1, 0], [0, 1, 0, 0], [0, 0, 1, 0]], [[2], [2]]))
    4 (by decide +kernel) rfl (by decide +kernel) (by decide +kernel)
  rw [h2] at h2'
  obtain rfl := Except.ok.inj h2'
  obtain ⟨ps, hps, hf⟩ := Sample.exists_of_map (x := Sample.hops) (f := fun ps => decide (maxRange ps ≤ 4)) (b := true)
    (by decide +kernel)
  rw [h2] at hps
  obtain rfl := Except.ok.inj hps
  obtain ⟨a1, a2⟩ := Prod.mk.injEq .. ▸ hs
  obtain ⟨b1, b2⟩ := Prod.mk.injEq .. ▸ hs'
  have co : ∀ {els : List (List String)}, (Sample.config Sample.ring els).map (·.coords) = .ok Sample.ring.sites →
      ∀ {c : Config ℚ}, Sample.config Sample.ring els = .ok c → c.coords = Sample.ring.sites := by
    intro els he c hc
    rw [hc] at he
    exact Except.ok.inj he
  simp only [decide_eq_true_eq] at hf
  refine ⟨cfg, cfg', procs, s, s', h, h', ⟨rfl, co (by decide +kernel) h1, co (by decide +kernel) h1', by decide +kernel, by decide +kernel, ?_⟩, ?_, a2, b2⟩
  · exact ⟨.inr ⟨rfl, hf⟩, .inl rfl, .inl rfl⟩
  · rw [a1, b1]
    have : Sample.ring.map.nSites = 4 := by decide +kernel
    unfold PyLattice.Moved
    rw [this]
    decide +kernel

end KMC
