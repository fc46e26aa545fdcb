import Verif.Props.Symmetric
import Verif.Props.Patterns

/-!
# C62 and C68: the probabilities of images

The probabilities of what a translated model, or the image of a model under a symmetry, looks like after some time are those
of the original model.
-/

set_option linter.unusedSectionVars false

namespace KMC

open LatticeModel Interactions MeasureTheory

variable {env env' : Env ℝ} {n nT : Nat} {cfg cfg' : Config ℝ} {procs procs' : List (Proc ℝ)} {s s' : Sim ℝ} {P P' : PyLattice ℝ}
variable {τ : Nat → Nat} {g : Coord ℝ → Coord ℝ}

/-- The second list has at `τ s` what the first one has at `s`. -/
def CarriedOver {α : Type _} (n : Nat) (τ : Nat → Nat) (x y : List α) : Prop := ∀ s < n, y[τ s]? = x[s]?

/-- Two models, with constant rates, whose states correspond under the map of sites `τ`: the same is available at the images, and
events at the images give images. -/
structure Corresponding (env env' : Env ℝ) (n nT : Nat) (cfg cfg' : Config ℝ) (procs procs' : List (Proc ℝ)) (τ : Nat → Nat) : Prop where
  lt : ∀ s < n, τ s < n
  inj : ∀ s < n, ∀ t < n, τ s = τ t → s = t
  length : procs'.length = procs.length
  constant : ∀ p ∈ procs, p.custom = false
  constant' : ∀ p ∈ procs', p.custom = false
  rate : ∀ (j : Nat) (p p' : Proc ℝ), procs[j]? = some p → procs'[j]? = some p' → p'.rate = p.rate
  available : ∀ s s', GoodRun env n nT negLog cfg procs s → GoodRun env' n nT negLog cfg' procs' s' →
    CarriedOver n τ s.ms.cfg.types s'.ms.cfg.types → ∀ (m : Nat) (p : Proc ℝ), s.ms.procs[m]? = some p →
      ∃ p', s'.ms.procs[m]? = some p' ∧ ∀ site < n, τ site ∈ p'.sites ↔ site ∈ p.sites
  event : ∀ s s' s1 s1', GoodRun env n nT negLog cfg procs s → GoodRun env' n nT negLog cfg' procs' s' →
    CarriedOver n τ s.ms.cfg.types s'.ms.cfg.types → ∀ (m site : Nat) (d d' : Draws ℝ) (ps ps' : List (Proc ℝ)),
      select s.ms.procs s.table d.process d.site = .ok (m, site, ps) → step env negLog s d = .ok s1 →
      select s'.ms.procs s'.table d'.process d'.site = .ok (m, τ site, ps') → step env' negLog s' d' = .ok s1' →
      CarriedOver n τ s1.ms.cfg.types s1'.ms.cfg.types

theorem carriedOver_unique {α : Type _} (hlt : ∀ s < n, τ s < n) (hinj : ∀ s < n, ∀ t < n, τ s = τ t → s = t) {x y z : List α}
    (hy : y.length = n) (hz : z.length = n) (h1 : CarriedOver n τ x y) (h2 : CarriedOver n τ x z) : y = z := by
  apply List.ext_getElem?
  intro u
  by_cases hu : u < n
  · obtain ⟨t, ht, rfl⟩ := reached_of_injective hlt hinj hu
    rw [h1 t ht, h2 t ht]
  · rw [List.getElem?_eq_none (by omega), List.getElem?_eq_none (by omega)]

theorem carriedOver_injective {α : Type _} {x y z : List α} (hx : x.length = n) (hy : y.length = n)
    (h1 : CarriedOver n τ x z) (h2 : CarriedOver n τ y z) : x = y := by
  apply List.ext_getElem?
  intro u
  by_cases hu : u < n
  · rw [← h1 u (by omega), ← h2 u (by omega)]
  · rw [List.getElem?_eq_none (by omega), List.getElem?_eq_none (by omega)]

theorem goodRun_start {negLog : ℝ → Option ℝ} (h : GoodRun env n nT negLog cfg procs s) :
    ∃ s0, GoodRun env n nT negLog cfg procs s0 ∧ s0.ms.cfg.types = cfg.types ∧ ∃ ds, run env negLog ds s0 = .ok s := by
  obtain ⟨k1, k2, s0, ds, k3, k4⟩ := h
  refine ⟨s0, ⟨k1, k2, s0, [], k3, rfl⟩, ?_, ds, k4⟩
  unfold init at k3
  obtain ⟨ms, hms, k3⟩ := bind_ok.1 k3
  cases k3
  obtain ⟨cfg1, procs1, hprep, -, -, hsame⟩ := initialMatching_inv k1 k2 hms
  rw [hsame.types, (lists_of k1 hprep.1).rest]

theorem leadsTo_length (h : GoodRun env n nT negLog cfg procs s) {j site : Nat} {t : List Bucket} (hl : LeadsTo env s j site t) :
    t.length = n := by
  obtain ⟨d, ps, a, -, h2, rfl⟩ := hl
  exact (h.step h2).good.shape.types

section
variable (hi : Corresponding env env' n nT cfg cfg' procs procs' τ)
  (hr : PositiveRates env procs) {M : Nat} (hb : Bounded M cfg procs) (hf : FewEnough M procs)
  (hr' : PositiveRates env' procs') {M' : Nat} (hb' : Bounded M' cfg' procs') (hf' : FewEnough M' procs')
include hi hr hb hf hr' hb' hf'

/-- An event has an image. -/
theorem leadsTo_image (h : GoodRun env n nT negLog cfg procs s) (h' : GoodRun env' n nT negLog cfg' procs' s')
    (hm : CarriedOver n τ s.ms.cfg.types s'.ms.cfg.types) {j site : Nat} {t : List Bucket} (hl : LeadsTo env s j site t) :
    ∃ t', LeadsTo env' s' j (τ site) t' ∧ CarriedOver n τ t t' := by
  obtain ⟨p, hp, hsite⟩ := hl.listed h
  obtain ⟨d, ps, a, h1, h2, rfl⟩ := hl
  obtain ⟨p', hp', hiff⟩ := hi.available _ _ h h' hm _ _ hp
  have hlt := ((C24_available h hp site).1 hsite).1
  obtain ⟨k, hk⟩ := List.mem_iff_getElem?.1 ((hiff site hlt).2 hsite)
  obtain ⟨d', ps', b, r, f1, f2, -⟩ := C58_possible h' hr' hb' hf' hp' hk
  exact ⟨_, ⟨d', ps', b, f1, f2, rfl⟩, hi.event _ _ _ _ h h' hm _ _ _ _ _ _ h1 h2 f1 f2⟩

/-- Every event is an image. -/
theorem leadsTo_source (h : GoodRun env n nT negLog cfg procs s) (h' : GoodRun env' n nT negLog cfg' procs' s')
    (hm : CarriedOver n τ s.ms.cfg.types s'.ms.cfg.types) {j u : Nat} {t' : List Bucket} (hl : LeadsTo env' s' j u t') :
    ∃ site < n, u = τ site ∧ ∃ t, LeadsTo env s j site t ∧ CarriedOver n τ t t' := by
  obtain ⟨p', hp', hsite⟩ := hl.listed h'
  obtain ⟨d', ps', b, h1, h2, rfl⟩ := hl
  obtain ⟨p, hp⟩ : ∃ p, s.ms.procs[j]? = some p := by
    refine ⟨_, List.getElem?_eq_getElem ?_⟩
    have := (List.getElem?_eq_some_iff.1 hp').1
    rw [procs_length h'] at this
    rw [procs_length h, ← hi.length]
    exact this
  obtain ⟨p2, hp2, hiff⟩ := hi.available _ _ h h' hm _ _ hp
  rw [hp'] at hp2
  obtain rfl := Option.some.inj hp2
  have hlt := ((C24_available h' hp' u).1 hsite).1
  obtain ⟨site, hs, rfl⟩ := reached_of_injective hi.lt hi.inj (u := u) (by omega)
  obtain ⟨k, hk⟩ := List.mem_iff_getElem?.1 ((hiff site (by omega)).1 hsite)
  obtain ⟨d, ps, a, r, f1, f2, -⟩ := C58_possible h hr hb hf hp hk
  exact ⟨site, by omega, rfl, _, ⟨d, ps, a, f1, f2, rfl⟩, hi.event _ _ _ _ h h' hm _ _ _ _ _ _ f1 f2 h1 h2⟩

/-- The rates from types to types are those of the images. -/
theorem Corresponding.flow_eq (h : GoodRun env n nT negLog cfg procs s) (h' : GoodRun env' n nT negLog cfg' procs' s')
    (hm : CarriedOver n τ s.ms.cfg.types s'.ms.cfg.types) {y y' : List Bucket} (hy : y.length = n) (hy' : y'.length = n)
    (hmy : CarriedOver n τ y y') : flow env n s y = flow env' n s' y' := by
  unfold flow
  rw [procs_length h, procs_length h', hi.length]
  refine Finset.sum_nbij (fun e => (e.1, τ e.2)) ?_ ?_ ?_ ?_
  · rintro ⟨j, site⟩ hjs
    rw [Finset.mem_product, Finset.mem_range, Finset.mem_range] at hjs ⊢
    have := hi.lt site (by have := hjs.2; dsimp only at this; omega)
    exact ⟨hjs.1, by dsimp only; omega⟩
  · rintro ⟨j, site⟩ hjs ⟨j', site'⟩ hjs' he
    rw [Finset.mem_coe, Finset.mem_product, Finset.mem_range, Finset.mem_range] at hjs hjs'
    obtain ⟨e1, e2⟩ := Prod.mk.injEq .. ▸ he
    dsimp only at e1 e2 hjs hjs'
    rw [e1, hi.inj site (by omega) site' (by omega) e2]
  · rintro ⟨j, u⟩ hju
    rw [Finset.mem_coe, Finset.mem_product, Finset.mem_range, Finset.mem_range] at hju
    dsimp only at hju
    obtain ⟨site, hs, rfl⟩ := reached_of_injective hi.lt hi.inj (u := u) (by omega)
    refine ⟨(j, site), ?_, rfl⟩
    rw [Finset.mem_coe, Finset.mem_product, Finset.mem_range, Finset.mem_range]
    exact ⟨hju.1, by dsimp only; omega⟩
  · rintro ⟨j, site⟩ hjs
    rw [Finset.mem_product, Finset.mem_range, Finset.mem_range] at hjs
    dsimp only at hjs ⊢
    have hiff : LeadsTo env s j site y ↔ LeadsTo env' s' j (τ site) y' := by
      constructor
      · intro hl
        obtain ⟨t', g1, g2⟩ := leadsTo_image hi hr hb hf hr' hb' hf' h h' hm hl
        rw [carriedOver_unique hi.lt hi.inj hy' (leadsTo_length h' g1) hmy g2]
        exact g1
      · intro hl
        obtain ⟨site2, g0, g1, t, g2, g3⟩ := leadsTo_source hi hr hb hf hr' hb' hf' h h' hm hl
        rw [hi.inj site (by omega) site2 (by omega) g1, carriedOver_injective hy (leadsTo_length h g2) hmy g3]
        exact g2
    by_cases hl : LeadsTo env s j site y
    · rw [if_pos hl, if_pos (hiff.1 hl)]
      have hj := List.getElem?_eq_getElem hjs.1
      have hj' := List.getElem?_eq_getElem (l := procs') (i := j) (by rw [hi.length]; exact hjs.1)
      rw [rateAt_constant h hj (hi.constant _ (List.mem_of_getElem? hj)) hl,
        rateAt_constant h' hj' (hi.constant' _ (List.mem_of_getElem? hj')) (hiff.1 hl), hi.rate j _ _ hj hj']
    · rw [if_neg hl, if_neg fun hl' => hl (hiff.2 hl')]

/-- Whatever runs of a model come to, runs of its image come to the image of it. -/
theorem Corresponding.types_reached {s0 : Sim ℝ} (h0 : GoodRun env' n nT negLog cfg' procs' s0) (hm : CarriedOver n τ cfg.types cfg'.types)
    (h : GoodRun env n nT negLog cfg procs s) :
    ∃ s', GoodRun env' n nT negLog cfg' procs' s' ∧ CarriedOver n τ s.ms.cfg.types s'.ms.cfg.types := by
  obtain ⟨a, ha, ea, ds, hrun⟩ := goodRun_start h
  obtain ⟨a', ha', ea', -⟩ := goodRun_start h0
  have key : ∀ (ds : List (Draws ℝ)) (u v u' : Sim ℝ), GoodRun env n nT negLog cfg procs u →
      GoodRun env' n nT negLog cfg' procs' u' → CarriedOver n τ u.ms.cfg.types u'.ms.cfg.types → run env negLog ds u = .ok v →
      ∃ v', GoodRun env' n nT negLog cfg' procs' v' ∧ CarriedOver n τ v.ms.cfg.types v'.ms.cfg.types := by
    intro ds
    induction ds with
    | nil =>
      intro u v u' _ hu' he huv
      unfold run loopM at huv
      obtain rfl := Except.ok.inj huv
      exact ⟨u', hu', he⟩
    | cons d ds ih =>
      intro u v u' hu hu' he huv
      unfold run at huv
      rw [loopM_cons] at huv
      obtain ⟨c, hc, hcv⟩ := bind_ok.1 huv
      obtain ⟨j, site, hl⟩ := step_leads hc
      obtain ⟨t', ⟨d', ps', c', -, k2, rfl⟩, k3⟩ := leadsTo_image hi hr hb hf hr' hb' hf' hu hu' he hl
      exact ih c v c' (hu.step hc) (hu'.step k2) k3 hcv
  exact key ds a s a' ha ha' (by rw [ea, ea']; exact hm) hrun

/-- The image of a model has at every time the image of given types with the probability that the model has these
types. -/
theorem Corresponding.chance_eq (h : GoodRun env n nT negLog cfg procs s) (h' : GoodRun env' n nT negLog cfg' procs' s')
    (hall : ∀ b, GoodRun env n nT negLog cfg procs b → ∃ b', GoodRun env' n nT negLog cfg' procs' b' ∧
      CarriedOver n τ b.ms.cfg.types b'.ms.cfg.types) (hm : CarriedOver n τ s.ms.cfg.types s'.ms.cfg.types) {y y' : List Bucket}
    (hy : ∃ b, GoodRun env n nT negLog cfg procs b ∧ b.ms.cfg.types = y) (hy' : y'.length = n) (hmy : CarriedOver n τ y y') {t : ℝ}
    (h0 : 0 ≤ t) : (chance env' s' y' t).toReal = (chance env s y t).toReal := by
  obtain ⟨T, W, hF, hT⟩ := C64_family (n := n) (nT := nT) hr hb hf hi.constant
  obtain ⟨T', W', hF', hT'⟩ := C64_family (n := n) (nT := nT) hr' hb' hf' hi.constant'
  have hex : ∀ x : List Bucket, ∃ b' : Sim ℝ, x ∈ T → GoodRun env' n nT negLog cfg' procs' b' ∧ CarriedOver n τ x b'.ms.cfg.types := by
    intro x
    by_cases hx : x ∈ T
    · obtain ⟨b, hb1, rfl⟩ := hF.reached x hx
      obtain ⟨b', h1, h2⟩ := hall b hb1
      exact ⟨b', fun _ => ⟨h1, h2⟩⟩
    · exact ⟨s', fun hx' => absurd hx' hx⟩
  choose st hst using hex
  let φ : List Bucket → List Bucket := fun x => (st x).ms.cfg.types
  have hφ : ∀ x ∈ T, CarriedOver n τ x (φ x) := fun x hx => (hst x hx).2
  have hlen : ∀ x ∈ T, x.length = n := by
    intro x hx
    obtain ⟨b, hb1, rfl⟩ := hF.reached x hx
    exact hb1.good.shape.types
  have hlen' : ∀ x ∈ T, (φ x).length = n := fun x hx => (hst x hx).1.good.shape.types
  have hinj : ∀ x ∈ T, ∀ z ∈ T, φ x = φ z → x = z := fun x hx z hz he =>
    carriedOver_injective (hlen x hx) (hlen z hz) (hφ x hx) (he ▸ hφ z hz)
  have huniq : ∀ x ∈ T, ∀ z : List Bucket, z.length = n → CarriedOver n τ x z → z = φ x := fun x hx z hz hmz =>
    carriedOver_unique hi.lt hi.inj hz (hlen' x hx) hmz (hφ x hx)
  have hF2 : ClosedFamily env' n nT cfg' procs' (T.image φ) W' := by
    refine ⟨?_, ?_, ?_⟩
    · intro x hx
      obtain ⟨z, hz, rfl⟩ := Finset.mem_image.1 hx
      exact ⟨st z, (hst z hz).1, rfl⟩
    · intro a ha hat j u t' hl
      obtain ⟨z, hz, hza⟩ := Finset.mem_image.1 hat
      obtain ⟨b, hb1, rfl⟩ := hF.reached z hz
      obtain ⟨site, -, -, t, g1, g2⟩ := leadsTo_source hi hr hb hf hr' hb' hf' hb1 ha (hza ▸ hφ _ hz) hl
      have htT := hF.closed b hb1 hz j site t g1
      obtain ⟨d', ps', c', -, k2, rfl⟩ := hl
      exact Finset.mem_image.2 ⟨t, htT, (huniq t htT _ (ha.step k2).good.shape.types g2).symm⟩
    · intro a ha _ t' _
      exact ((hT' a ha).2 t').symm
  have hW : ∀ x ∈ T, ∀ z ∈ T, W' (φ x) (φ z) = W x z := by
    intro x hx z hz
    obtain ⟨b, hb1, rfl⟩ := hF.reached x hx
    rw [(hT b hb1).2, (hT' _ (hst _ hx).1).2,
      hi.flow_eq hr hb hf hr' hb' hf' hb1 (hst _ hx).1 (hφ _ hx) (hlen z hz) (hlen' z hz) (hφ z hz)]
  have hsT := (hT s h).1
  have hs' : s'.ms.cfg.types = φ s.ms.cfg.types := huniq _ hsT _ h'.good.shape.types hm
  have ht' : s'.ms.cfg.types ∈ T.image φ := by
    rw [hs']
    exact Finset.mem_image_of_mem _ hsT
  have hyT : y ∈ T := by
    obtain ⟨b, hb1, rfl⟩ := hy
    exact (hT b hb1).1
  let m : Member env' n nT cfg' procs' (T.image φ) := ⟨s', h', ht'⟩
  obtain ⟨σ, hσ, hmσ⟩ := exists_section hF2 m
  rw [huniq y hyT y' hy' hmy]
  refine C64_unique hF hr hb hf h hsT (fun y t => (chance env' s' (φ y) t).toReal) ?_ ?_ ?_ hyT h0
  · intro z hz
    have := (renewal hF2 hr' hb' hf' σ hσ ⟨φ z, Finset.mem_image_of_mem _ hz⟩).continuousOn (typesOf m)
    rw [hmσ] at this
    exact this
  · intro z hz
    show (chance env' s' (φ z) 0).toReal = _
    rw [C64_start hF2 hr' hb' hf' h' ht' (Finset.mem_image_of_mem _ hz), hs']
    by_cases e : s.ms.cfg.types = z
    · rw [if_pos e, if_pos (congrArg φ e)]
    · rw [if_neg e, if_neg fun e' => e (hinj _ hsT z hz e')]
  · intro z hz u hu
    have h1 := C64_master hF2 hr' hb' hf' h' ht' (Finset.mem_image_of_mem φ hz) hu
    rw [Finset.sum_image hinj, Finset.sum_image hinj] at h1
    refine h1.congr_deriv ?_
    congr 1
    · exact Finset.sum_congr rfl fun x hx => by rw [hW x hx z hz]
    · congr 1
      exact Finset.sum_congr rfl fun x hx => hW z hz x hx

end

/-- Image models correspond. -/
theorem ImageModels.corresponding (hi : ImageModels P P' env env' cfg cfg' procs procs' τ g) (hn : P.map.nSites = n) :
    Corresponding env env' n nT cfg cfg' procs procs' τ where
  lt := hn ▸ hi.siteMap.lt
  inj := hn ▸ hi.siteMap.inj
  length := hi.length
  constant := hi.constant
  constant' := hi.constant'
  rate := fun j p p' hp hp' => (hi.image j p p' hp hp').1.rate
  available := by
    intro s s' h h' hm m p hp
    obtain ⟨p', hp', h1, -⟩ := C68_available h h' hi (fun u hu => hm u (by omega)) hp
    exact ⟨p', hp', h1⟩
  event := by
    intro s s' s1 s1' h h' hm m site d d' ps ps' h1 h2 h3 h4
    have := C68_event h h' hi (fun u hu => hm u (by omega)) h1 h2 h3 h4
    exact fun u hu => this u (by omega)

/-- Translated models correspond. -/
theorem TranslatedModels.corresponding {i j k : Nat} (ht : TranslatedModels P env cfg cfg' procs i j k) (hP : P.map.WF)
    (hn : P.map.nSites = n) (hc : ∀ p ∈ procs, p.custom = false) :
    Corresponding env env n nT cfg cfg' procs procs (P.translate i j k) where
  lt := fun s hs => by
    have := PyLattice.translate_lt (i := i) (j := j) (k := k) hP (s := s) (by omega)
    omega
  inj := fun s hs t hs' he => PyLattice.translate_inj hP (by omega) (by omega) he
  length := rfl
  constant := hc
  constant' := hc
  rate := fun j p p' hp hp' => by rw [hp] at hp'; rw [Option.some.inj hp']
  available := by
    intro s s' h h' hm m p hp
    obtain ⟨p', hp', h1, -⟩ := C62_available h h' ht (fun u hu => hm u (by omega)) hp
    exact ⟨p', hp', h1⟩
  event := by
    intro s s' s1 s1' h h' hm m site d d' ps ps' h1 h2 h3 h4
    have := C62_event h h' ht (fun u hu => hm u (by omega)) h1 h2 h3 h4
    exact fun u hu => this u (by omega)

/-- **C68** The rates from types to types are those of the images. -/
theorem C68_flow (hi : ImageModels P P' env env' cfg cfg' procs procs' τ g)
    (hr : PositiveRates env procs) {M : Nat} (hb : Bounded M cfg procs) (hf : FewEnough M procs)
    (hr' : PositiveRates env' procs') {M' : Nat} (hb' : Bounded M' cfg' procs') (hf' : FewEnough M' procs')
    (h : GoodRun env n nT negLog cfg procs s) (h' : GoodRun env' n nT negLog cfg' procs' s')
    (hm : P.Mapped τ s.ms.cfg.types s'.ms.cfg.types) {y y' : List Bucket} (hy : y.length = n) (hy' : y'.length = n)
    (hmy : P.Mapped τ y y') : flow env n s y = flow env' n s' y' := by
  obtain ⟨hP, hn⟩ := hi.on.wf h
  exact (hi.corresponding (nT := nT) hn).flow_eq hr hb hf hr' hb' hf' h h' (fun u hu => hm u (by omega)) hy hy'
    (fun u hu => hmy u (by omega))

/-- **C68** When the image of a model starts from the image of its configuration, it has at every time the image of given types with
the probability that the model has these types. -/
theorem C68_chance (hi : ImageModels P P' env env' cfg cfg' procs procs' τ g)
    (hr : PositiveRates env procs) {M : Nat} (hb : Bounded M cfg procs) (hf : FewEnough M procs)
    (hr' : PositiveRates env' procs') {M' : Nat} (hb' : Bounded M' cfg' procs') (hf' : FewEnough M' procs')
    (h : GoodRun env n nT negLog cfg procs s) (h' : GoodRun env' n nT negLog cfg' procs' s')
    (hm0 : P.Mapped τ cfg.types cfg'.types) (hm : P.Mapped τ s.ms.cfg.types s'.ms.cfg.types) {y y' : List Bucket}
    (hy : ∃ b, GoodRun env n nT negLog cfg procs b ∧ b.ms.cfg.types = y) (hy' : y'.length = n) (hmy : P.Mapped τ y y') {t : ℝ}
    (h0 : 0 ≤ t) : (chance env' s' y' t).toReal = (chance env s y t).toReal := by
  obtain ⟨hP, hn⟩ := hi.on.wf h
  have hcor := hi.corresponding (nT := nT) hn
  exact hcor.chance_eq hr hb hf hr' hb' hf' h h' (fun b hb1 => hcor.types_reached hr hb hf hr' hb' hf' h' (fun u hu => hm0 u (by omega)) hb1)
    (fun u hu => hm u (by omega)) hy hy' (fun u hu => hmy u (by omega)) h0

/-- **C62** When a translated model starts from the translated configuration, it has at every time the translated types with the
probability that the model has these types. -/
theorem C62_chance {i j k : Nat} (ht : TranslatedModels P env cfg cfg' procs i j k) (hc : ∀ p ∈ procs, p.custom = false)
    (hr : PositiveRates env procs) {M : Nat} (hb : Bounded M cfg procs) {M' : Nat} (hb' : Bounded M' cfg' procs)
    (hf : FewEnough M procs) (hf' : FewEnough M' procs)
    (h : GoodRun env n nT negLog cfg procs s) (h' : GoodRun env n nT negLog cfg' procs s')
    (hm0 : P.Moved i j k cfg.types cfg'.types) (hm : P.Moved i j k s.ms.cfg.types s'.ms.cfg.types) {y y' : List Bucket}
    (hy : ∃ b, GoodRun env n nT negLog cfg procs b ∧ b.ms.cfg.types = y) (hy' : y'.length = n) (hmy : P.Moved i j k y y') {t : ℝ}
    (h0 : 0 ≤ t) : (chance env s' y' t).toReal = (chance env s y t).toReal := by
  obtain ⟨hP, hn⟩ := ht.wf h
  have hcor := ht.corresponding (nT := nT) hP hn hc
  exact hcor.chance_eq hr hb hf hr hb' hf' h h' (fun b hb1 => hcor.types_reached hr hb hf hr hb' hf' h' (fun u hu => hm0 u (by omega)) hb1)
    (fun u hu => hm u (by omega)) hy hy' (fun u hu => hmy u (by omega)) h0

/-- **C62** The probabilities of one model are translated with the state from which it goes on, when its runs come to the translates
of all states. -/
theorem C62_homogeneous {i j k : Nat} (ht : TranslatedModels P env cfg cfg procs i j k) (hc : ∀ p ∈ procs, p.custom = false)
    (hr : PositiveRates env procs) {M : Nat} (hb : Bounded M cfg procs) (hf : FewEnough M procs)
    (h : GoodRun env n nT negLog cfg procs s) (h' : GoodRun env n nT negLog cfg procs s')
    (hall : ∀ b, GoodRun env n nT negLog cfg procs b → ∃ b', GoodRun env n nT negLog cfg procs b' ∧
      P.Moved i j k b.ms.cfg.types b'.ms.cfg.types)
    (hm : P.Moved i j k s.ms.cfg.types s'.ms.cfg.types) {y y' : List Bucket}
    (hy : ∃ b, GoodRun env n nT negLog cfg procs b ∧ b.ms.cfg.types = y) (hy' : y'.length = n) (hmy : P.Moved i j k y y') {t : ℝ}
    (h0 : 0 ≤ t) : (chance env s' y' t).toReal = (chance env s y t).toReal := by
  obtain ⟨hP, hn⟩ := ht.wf h
  refine (ht.corresponding (nT := nT) hP hn hc).chance_eq hr hb hf hr hb hf h h' (fun b hb1 => ?_) (fun u hu => hm u (by omega)) hy hy'
    (fun u hu => hmy u (by omega)) h0
  obtain ⟨b', g1, g2⟩ := hall b hb1
  exact ⟨b', g1, fun u hu => g2 u (by omega)⟩

/-! ### Non-vacuity -/

theorem ringTypes_moved {i : Nat} (hi : i < 4) : Sample.realRing.Moved 1 0 0 (Sample.ringTypes i) (Sample.ringTypes ((i + 1) % 4)) := by
  have hn : Sample.realRing.map.nSites = 4 := by rw [Sample.realRing_map]; decide
  intro u hu
  rw [hn] at hu
  have e : Sample.realRing.translate 1 0 0 u = (u + 1) % 4 := by
    interval_cases u <;> rfl
  rw [e, Sample.ringTypes_get (by omega), Sample.ringTypes_get hu]
  congr 2
  refine propext ⟨fun h => ?_, fun h => ?_⟩ <;> omega

/-- On the ring of four sites the probability to be on site 2 for a particle that starts on site 1 is the one to be on site 1 for a
particle that starts on site 0. -/
example : ∃ s s', GoodRun Sample.realRingEnv 4 3 negLog Sample.realRingStart Sample.realHops s ∧
    GoodRun Sample.realRingEnv 4 3 negLog Sample.realRingStart Sample.realHops s' ∧ s.ms.cfg.types = Sample.ringTypes 0 ∧
    s'.ms.cfg.types = Sample.ringTypes 1 ∧ ∀ t, 0 ≤ t → (chance Sample.realRingEnv s' (Sample.ringTypes 2) t).toReal =
      (chance Sample.realRingEnv s (Sample.ringTypes 1) t).toReal := by
  obtain ⟨hb, hf⟩ := bounded_one (cfg := Sample.realRingStart) (by intro els he; simp [Sample.realRingStart] at he; aesop) Sample.realHops_balanced
  obtain ⟨s, h, hs⟩ := (Sample.realRing_types _).2 ⟨0, by decide, rfl⟩
  obtain ⟨s', h', hs'⟩ := (Sample.realRing_types _).2 ⟨1, by decide, rfl⟩
  have ho := Sample.realRing_onSites
  refine ⟨s, s', h, h', hs, hs', fun t h0 => ?_⟩
  refine C62_homogeneous (i := 1) (j := 0) (k := 0) ⟨ho.lattice, ho.coords, ho.coords, ho.basis, ho.distinct, .inr ⟨rfl, ?_⟩, .inl rfl, .inl rfl⟩
    ?_ Sample.realHops_positive hb hf h h' ?_ ?_ ((Sample.realRing_types _).2 ⟨1, by decide, rfl⟩) rfl (ringTypes_moved (by decide)) h0
  · rw [Sample.realHops_range]; decide
  · intro p hp
    rcases Sample.mem_realHops.1 hp with rfl | rfl <;> rfl
  · intro b hb1
    obtain ⟨i, hi, e⟩ := (Sample.realRing_types _).1 ⟨b, hb1, rfl⟩
    obtain ⟨b', g1, g2⟩ := (Sample.realRing_types _).2 ⟨(i + 1) % 4, by omega, rfl⟩
    exact ⟨b', g1, by rw [e, g2]; exact ringTypes_moved hi⟩
  · rw [hs, hs']
    exact ringTypes_moved (by decide)

end KMC
